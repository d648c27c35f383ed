import Verif.Spec.V1Doc
import Verif.Proofs.SampDoc
import Verif.Proofs.V1Nested
import Verif.Proofs.V1Norm
import Verif.Proofs.SafetyE
/- Loading rule bases of version 1. -/
set_option autoImplicit false
namespace LN

/-! ### lines of a text -/

theorem v1ReadLine_comment (t : Bytes) : ∀ (l acc : Bytes) (inP : Bool), (∀ c ∈ l, c ≠ ch! '\n') →
    v1ReadLine (l ++ ch! '\n' :: t) acc inP true = v1ReadLine t acc inP false
  | [], acc, inP, _ => by rw [List.nil_append, v1ReadLine]; simp
  | c :: l, acc, inP, h => by
    have hc := h c (List.mem_cons_self ..)
    rw [List.cons_append, v1ReadLine, if_pos rfl]
    have : (c != ch! '\n') = true := by simpa using hc
    rw [this]
    exact v1ReadLine_comment t l acc inP fun x hx => h x (List.mem_cons_of_mem _ hx)

theorem v1ReadLine_comment_end : ∀ (l acc : Bytes) (inP : Bool), (∀ c ∈ l, c ≠ ch! '\n') →
    v1ReadLine l acc inP true = ⟨if acc = [] then none else some acc, [], true⟩
  | [], acc, inP, _ => by rw [v1ReadLine]
  | c :: l, acc, inP, h => by
    have hc := h c (List.mem_cons_self ..)
    rw [v1ReadLine, if_pos rfl]
    have : (c != ch! '\n') = true := by simpa using hc
    rw [this]
    exact v1ReadLine_comment_end l acc inP fun x hx => h x (List.mem_cons_of_mem _ hx)

/-- state of `inParser` after text -/
def inAfter (inP : Bool) (l : Bytes) : Bool := if l.count (ch! '%') % 2 = 0 then inP else !inP

theorem inAfter_cons (inP : Bool) (c : UInt8) (l : Bytes) :
    inAfter (if c = ch! '%' then !inP else inP) l = inAfter inP (c :: l) := by
  unfold inAfter
  by_cases hc : c = ch! '%'
  · subst hc
    rw [if_pos rfl, List.count_cons_self]
    by_cases h : List.count (ch! '%') l % 2 = 0
    · rw [if_pos h, if_neg (by omega)]
    · rw [if_neg h, if_pos (by omega), Bool.not_not]
  · rw [if_neg hc, List.count_cons_of_ne (by simpa using hc)]

theorem v1ReadLine_text (t : Bytes) : ∀ (l acc : Bytes) (inP : Bool), (∀ c ∈ l, c ≠ ch! '\n') → acc.length + l.length < 10240 →
    (acc = [] → isComment l = false) →
    v1ReadLine (l ++ t) acc inP false = v1ReadLine t (acc ++ l) (inAfter inP l) false
  | [], acc, inP, _, _, _ => by simp [inAfter]
  | c :: l, acc, inP, h, hlen, hcom => by
    have hc := h c (List.mem_cons_self ..)
    simp only [List.length_cons] at hlen
    rw [List.cons_append, v1ReadLine, if_neg (by simp), if_neg hc, if_neg, if_neg]
    · rw [v1ReadLine_text t l _ _ (fun x hx => h x (List.mem_cons_of_mem _ hx)) (by simp; omega) (by simp), inAfter_cons]
      simp
    · unfold v1MaxLine; omega
    · rintro ⟨h1, h2⟩
      have := hcom h2
      simp [isComment, h1] at this

theorem inAfter_even {l : Bytes} (h : l.count (ch! '%') % 2 = 0) : inAfter false l = false := by
  simp [inAfter, h]

theorem v1ReadLine_first (l t : Bytes) (hl : V1LineOK l) :
    v1ReadLine (l ++ ch! '\n' :: t) [] false false = if skipped l then v1ReadLine t [] false false else ⟨some l, t, false⟩ := by
  by_cases hc : isComment l = true
  · have : skipped l = true := by simp [skipped, hc]
    rw [this, if_pos rfl]
    cases l with
    | nil => simp [isComment] at hc
    | cons c l =>
      have hcc : c = ch! '#' := by simpa [isComment] using hc
      have hn : c ≠ ch! '\n' := hl.1 c (List.mem_cons_self ..)
      rw [List.cons_append, v1ReadLine, if_neg (by simp), if_neg hn, if_pos ⟨hcc, rfl⟩]
      exact v1ReadLine_comment t l [] false fun x hx => hl.1 x (List.mem_cons_of_mem _ hx)
  · have hcf : isComment l = false := by simpa using hc
    obtain ⟨h1, h2⟩ := hl.2.resolve_left hc
    rw [v1ReadLine_text (ch! '\n' :: t) l [] false hl.1 (by simpa using h2) (fun _ => hcf), inAfter_even h1, List.nil_append, v1ReadLine]
    rw [if_neg (by simp), if_pos rfl]
    simp only [Bool.false_and, Bool.false_eq_true, if_false, Bool.not_false, Bool.true_and]
    cases l with
    | nil => simp [skipped]
    | cons c l => simp [skipped, hcf]

theorem v1ReadLine_last (l : Bytes) (hl : V1LineOK l) :
    v1ReadLine l [] false false = ⟨if skipped l then none else some l, [], true⟩ := by
  by_cases hc : isComment l = true
  · have : skipped l = true := by simp [skipped, hc]
    rw [this, if_pos rfl]
    cases l with
    | nil => simp [isComment] at hc
    | cons c l =>
      have hcc : c = ch! '#' := by simpa [isComment] using hc
      have hn : c ≠ ch! '\n' := hl.1 c (List.mem_cons_self ..)
      rw [v1ReadLine, if_neg (by simp), if_neg hn, if_pos ⟨hcc, rfl⟩]
      exact v1ReadLine_comment_end l [] false fun x hx => hl.1 x (List.mem_cons_of_mem _ hx)
  · have hcf : isComment l = false := by simpa using hc
    obtain ⟨h1, h2⟩ := hl.2.resolve_left hc
    have := v1ReadLine_text [] l [] false hl.1 (by simpa using h2) (fun _ => hcf)
    rw [List.append_nil] at this
    rw [this, v1ReadLine, List.nil_append]
    cases l with
    | nil => simp [skipped]
    | cons c l => simp [skipped, hcf]

/-- lines are processed one after the other -/
def v1ProcLines (proc : V1Load → Bytes → R V1Load) : V1Load → List Bytes → R V1Load
  | st, [] => .ok st
  | st, l :: ls => if skipped l then v1ProcLines proc st ls else (proc st l).bind fun st => v1ProcLines proc st ls

theorem v1ReadAll_text (E : V1Env) (self : V1CtxId) (fuel : Nat) (last : Bytes) (hlast : V1LineOK last) :
    ∀ (ls : List Bytes) (rounds : Nat) (st : V1Load), (∀ l ∈ ls, V1LineOK l) → ls.length < rounds →
    v1ReadAll E self fuel rounds st (textOf ls last) = v1ProcLines (v1ProcessSamp E self fuel) st (ls ++ [last])
  | _, 0, _, _, h => by omega
  | [], rounds + 1, st, _, _ => by
    have h1 : textOf [] last = last := rfl
    rw [v1ReadAll, h1, v1ReadLine_last last hlast]
    simp only [List.nil_append, v1ProcLines]
    cases skipped last with
    | true => rfl
    | false =>
      simp only [Bool.false_eq_true, if_false, if_true]
  | l :: ls, rounds + 1, st, hls, hr => by
    have h1 : textOf (l :: ls) last = l ++ ch! '\n' :: textOf ls last := by simp [textOf]
    have hls' : ∀ l' ∈ ls, V1LineOK l' := fun l' h => hls l' (List.mem_cons_of_mem _ h)
    simp only [List.length_cons] at hr
    rw [v1ReadAll, h1, v1ReadLine_first l _ (hls l (List.mem_cons_self ..)), List.cons_append, v1ProcLines]
    cases skipped l with
    | true =>
      have ih := v1ReadAll_text E self fuel last hlast ls (rounds + 1) st hls' (by omega)
      rw [v1ReadAll] at ih
      simp only [if_true]
      exact ih
    | false =>
      simp only [Bool.false_eq_true, if_false]
      refine R_bind_congr _ fun st' => ?_
      exact v1ReadAll_text E self fuel last hlast ls rounds st' hls' (by omega)

theorem textOf_length1 (ls : List Bytes) (last : Bytes) : ls.length ≤ (textOf ls last).length := by
  induction ls with
  | nil => simp
  | cons l ls ih =>
    have h1 : textOf (l :: ls) last = l ++ ch! '\n' :: textOf ls last := by simp [textOf]
    rw [h1]
    simp only [List.length_append, List.length_cons]
    omega

/-! ### kinds of lines -/

theorem v1AnnotLoop_text : ∀ (ops : List (Bytes × Bytes × Bytes)) (fuel : Nat) (a : Annot),
    (∀ o ∈ ops, Blanks o.1 ∧ Word o.2.1 ∧ o.2.2 ≠ [] ∧ ∀ c ∈ o.2.2, c ≠ ch! '"') → ops.length ≤ fuel →
    v1AnnotLoop fuel a (annotText ops) =
      .ok (some ((ops.map fun o => { add := true, name := some o.2.1, value := some o.2.2 : AnnotOp }).foldl addAnnotOp a))
  | [], fuel, a, _, _ => by unfold v1AnnotLoop; rfl
  | o :: ops, 0, a, _, h => by simp at h
  | o :: ops, fuel + 1, a, ho, h => by
    have h1 := ho o (List.mem_cons_self ..)
    have ih := v1AnnotLoop_text ops fuel (addAnnotOp a { add := true, name := some o.2.1, value := some o.2.2 })
      (fun x hx => ho x (List.mem_cons_of_mem _ hx)) (by simpa using h)
    have e : annotText (o :: ops) = o.1 ++ bs! "+" ++ o.2.1 ++ bs! "=\"" ++ o.2.2 ++ bs! "\"" ++ annotText ops := by
      simp [annotText]
    have hne : annotText (o :: ops) ≠ [] := by rw [e]; simp
    have hv : v1AnnotationOp (annotText (o :: ops)) = getAnnotationOp (annotText (o :: ops)) := by
      unfold v1AnnotationOp
      rw [if_neg]
      rw [e]
      have e2 : o.1 ++ bs! "+" ++ o.2.1 ++ bs! "=\"" ++ o.2.2 ++ bs! "\"" ++ annotText ops =
          o.1 ++ ch! '+' :: (o.2.1 ++ bs! "=\"" ++ o.2.2 ++ bs! "\"" ++ annotText ops) := by simp
      rw [e2, dropWhile_blanks h1.1 (by decide)]
      simp
    conv => lhs; unfold v1AnnotLoop
    rw [if_neg hne]
    dsimp only
    rw [hv, e, getAnnotationOp_text h1.1 h1.2.1 h1.2.2.1 h1.2.2.2]
    dsimp only
    rw [ih]
    rfl

/-- what a line does -/
def v1LineAfter (E : V1Env) (self : V1CtxId) (st : V1Load) (l : RLine) : V1Load :=
  { xs := st.xs ++ (match l with
      | .rule tags t => [v1Lex E self (tagBucket tags) (st.rulePrefix.getD [] ++ t)]
      | _ => [])
    annots := l.annots.foldl addAnnotToSet st.annots
    rulePrefix := l.nextPrefix st.rulePrefix }

theorem v1ProcessSamp_line (E : V1Env) (self : V1CtxId) {fuel : Nat} {st : V1Load} {l : RLine} (hok : l.OK1)
    (hext : ∀ t, l = .extend t → st.rulePrefix ≠ none) (hns : skipped l.text = false) (hf : l.text.length ≤ fuel) :
    v1ProcessSamp E self fuel st l.text = .ok (v1LineAfter E self st l) := by
  cases l with
  | skip t => unfold RLine.OK1 at hok; unfold RLine.text at hns; rw [hok] at hns; cases hns
  | prefix_ t =>
    have e : (RLine.prefix_ t).text = bs! "prefix" ++ ch! '=' :: t := by simp [RLine.text]
    unfold v1ProcessSamp
    rw [e, lineType_kind (by decide)]
    simp [v1LineAfter, RLine.annots, RLine.nextPrefix]
  | extend t =>
    have e : (RLine.extend t).text = bs! "extendprefix" ++ ch! '=' :: t := by simp [RLine.text]
    unfold v1ProcessSamp
    rw [e, lineType_kind (by decide)]
    cases hp : st.rulePrefix with
    | none => exact absurd hp (hext t rfl)
    | some p => simp [v1LineAfter, RLine.annots, RLine.nextPrefix, hp]
  | rule tags t =>
    have e : (RLine.rule tags t).text = bs! "rule" ++ ch! '=' :: (tagText tags ++ ch! ':' :: t) := by simp [RLine.text]
    unfold v1ProcessSamp
    rw [e, lineType_kind (by decide)]
    dsimp only
    rw [if_neg (by decide), if_neg (by decide), if_pos rfl]
    unfold v1ProcessRule
    rw [tagLoop_tags tags [] t hok.1]
    dsimp only
    rw [if_neg hok.2]
    simp [v1LineAfter, RLine.annots, RLine.nextPrefix]
  | type name t =>
    have e : (RLine.type name t).text = bs! "type" ++ ch! '=' :: (name ++ ch! ':' :: t) := by simp [RLine.text]
    unfold v1ProcessSamp
    rw [e, lineType_kind (by decide)]
    dsimp only
    rw [if_neg (by decide), if_neg (by decide), if_neg (by decide), if_neg (by decide)]
    simp [v1LineAfter, RLine.annots, RLine.nextPrefix]
  | annotate tag ops =>
    have e : (RLine.annotate tag ops).text = bs! "annotate" ++ ch! '=' :: (tag ++ ch! ':' :: annotText ops) := by simp [RLine.text]
    have hlen : ops.length ≤ fuel := by
      refine Nat.le_trans ?_ hf
      rw [e]
      have : ops.length ≤ (annotText ops).length := by
        clear e hok hext hns hf
        induction ops with
        | nil => simp
        | cons o ops ih =>
          simp only [annotText, List.flatMap_cons, List.length_append, List.length_cons] at ih ⊢
          omega
      simp only [List.length_append, List.length_cons]
      omega
    unfold v1ProcessSamp
    rw [e, lineType_kind (by decide)]
    dsimp only
    rw [if_neg (by decide), if_neg (by decide), if_neg (by decide), if_pos rfl]
    unfold v1ProcessAnnotate
    rw [getFieldName_word hok.1 (by decide)]
    have e2 : (ch! ':' :: annotText ops).dropWhile isSpace = ch! ':' :: annotText ops :=
      dropWhile_append_stop (p := isSpace) (c := ch! ':') (by decide) _ [] (by simp)
    dsimp only
    rw [e2]
    dsimp only
    rw [if_neg (by decide), v1AnnotLoop_text ops fuel _ hok.2 hlen]
    simp [v1LineAfter, RLine.annots, RLine.nextPrefix, R.bind]
  | unknown kind t =>
    have e : (RLine.unknown kind t).text = kind ++ ch! '=' :: t := by simp [RLine.text]
    unfold v1ProcessSamp
    rw [e, lineType_kind fun c hc => (hok.2 c hc).1]
    dsimp only
    have hk := hok.1
    simp only [List.mem_cons, List.not_mem_nil, or_false, not_or] at hk
    rw [if_neg hk.1, if_neg hk.2.1, if_neg hk.2.2.1, if_neg hk.2.2.2]
    simp [v1LineAfter, RLine.annots, RLine.nextPrefix]

theorem skipped_iff1 {l : RLine} (hok : l.OK1) : skipped l.text = true ↔ ∃ t, l = .skip t := by
  cases l with
  | skip t => exact ⟨fun _ => ⟨t, rfl⟩, fun _ => hok⟩
  | unknown kind t =>
    refine ⟨fun h => ?_, fun ⟨t, h⟩ => by cases h⟩
    exfalso
    cases kind with
    | nil => simp [RLine.text, skipped, isComment] at h
    | cons c k =>
      have := (hok.2 c (List.mem_cons_self ..)).2
      simp [RLine.text, skipped, isComment] at h
      exact this h
  | _ =>
    refine ⟨fun h => ?_, fun ⟨t, h⟩ => by cases h⟩
    simp [RLine.text, skipped, isComment] at h

theorem v1ProcLines_doc (E : V1Env) (self : V1CtxId) {fuel : Nat} : ∀ (ls : List RLine) (st : V1Load), (∀ l ∈ ls, l.OK1) → ExtendOK st.rulePrefix ls →
    (∀ l ∈ ls, l.text.length ≤ fuel) →
    v1ProcLines (v1ProcessSamp E self fuel) st (ls.map RLine.text) = .ok {
      xs := st.xs ++ (docTexts st.rulePrefix ls).map fun p => v1Lex E self (tagBucket p.1) p.2
      annots := docAnnots st.annots ls
      rulePrefix := docPrefix st.rulePrefix ls }
  | [], st, _, _, _ => by simp [v1ProcLines, docTexts, docAnnots, docPrefix]
  | l :: ls, st, hok, hext, hf => by
    have hl := hok l (List.mem_cons_self ..)
    have ih := v1ProcLines_doc E self (fuel := fuel) ls (v1LineAfter E self st l) (fun x hx => hok x (List.mem_cons_of_mem _ hx)) hext.2
      (fun x hx => hf x (List.mem_cons_of_mem _ hx))
    have hst : (v1LineAfter E self st l).rulePrefix = l.nextPrefix st.rulePrefix := rfl
    rw [hst] at ih
    have hrest : (.ok {
        xs := (v1LineAfter E self st l).xs ++ (docTexts (l.nextPrefix st.rulePrefix) ls).map fun p => v1Lex E self (tagBucket p.1) p.2
        annots := docAnnots (v1LineAfter E self st l).annots ls
        rulePrefix := docPrefix (l.nextPrefix st.rulePrefix) ls } : R V1Load) = .ok {
        xs := st.xs ++ (docTexts st.rulePrefix (l :: ls)).map fun p => v1Lex E self (tagBucket p.1) p.2
        annots := docAnnots st.annots (l :: ls)
        rulePrefix := docPrefix st.rulePrefix (l :: ls) } := by
      congr 2
      · cases l <;> simp [v1LineAfter, docTexts]
      · simp [docAnnots, v1LineAfter]
    simp only [List.map_cons, v1ProcLines]
    by_cases hs : skipped l.text = true
    · obtain ⟨t, rfl⟩ := (skipped_iff1 hl).1 hs
      rw [hs, if_pos rfl, ← hrest, ← ih]
      congr 1
      simp [v1LineAfter, RLine.annots, RLine.nextPrefix]
    · rw [if_neg hs, v1ProcessSamp_line E self hl hext.1 (by simpa using hs) (hf l (List.mem_cons_self ..))]
      rw [R.ok_bind', ih, hrest]

/-! ### rule texts -/

namespace V1FieldT

/-- the field in the tree -/
def field : V1FieldT → V1Field
  | ty nm x => ⟨nm, .fn x.fn, x.extra, x.pdata⟩
  | rest nm => ⟨nm, .rest, none, none⟩

theorem descr_eq (E : V1Env) (self : V1CtxId) {f : V1FieldT} (hf : f.OK E) (t : Bytes) :
    v1FieldDescr E self ((f.text ++ t).drop 1) = some (f.field, t) := by
  cases f with
  | ty nm x =>
    have e : (text (ty nm x) ++ t).drop 1 = nm ++ ch! ':' :: (v1Descr x.ty x.extra ++ ch! '%' :: t) := by
      simp [text, V1Ty.descr]
    have := v1FieldDescr_descr E self hf.1 (V1Ty.descr_ok hf.2.2.2).1 (V1Ty.type_eq hf.2.2.2) t
    rw [V1Ty.data_eq self hf.2.2.2] at this
    rw [e, this]
    rfl
  | rest nm =>
    have e : (text (rest nm) ++ t).drop 1 = nm ++ ch! ':' :: (v1Descr (bs! "rest") none ++ ch! '%' :: t) := by
      simp [text, v1Descr]
    rw [e, v1FieldDescr_descr E self hf.1 ⟨by decide, by decide, by decide, by simp⟩ (p := (.rest, .none)) (by decide) t]
    rfl

theorem text_cons {E : V1Env} {f : V1FieldT} (hf : f.OK E) : ∃ d t, f.text = ch! '%' :: d :: t ∧ d ≠ ch! '%' := by
  have key : ∀ {nm : Bytes}, V1NameOK nm → nm.head? ≠ some (ch! '%') → ∃ d u, nm = d :: u ∧ d ≠ ch! '%' := by
    intro nm h1 h2
    cases nm with
    | nil => exact absurd rfl h1.ne
    | cons d u => exact ⟨d, u, rfl, by simpa using h2⟩
  cases f with
  | ty nm x =>
    obtain ⟨d, u, rfl, hd⟩ := key hf.1 hf.2.1
    exact ⟨d, u ++ bs! ":" ++ x.descr ++ bs! "%", by simp [text], hd⟩
  | rest nm =>
    obtain ⟨d, u, rfl, hd⟩ := key hf.1 hf.2.1
    exact ⟨d, u ++ bs! ":rest%", by simp [text], hd⟩

theorem field_name (f : V1FieldT) : f.field.name = f.name := by cases f <;> rfl

/-- fields written the same way are the same -/
theorem field_of_text {E : V1Env} {f g : V1FieldT} (hf : f.OK E) (hg : g.OK E) (h : f.text = g.text) : f.field = g.field := by
  have h1 := descr_eq E .root hf []
  have h2 := descr_eq E .root hg []
  rw [h, h2] at h1
  simp at h1
  exact h1.symm

end V1FieldT

namespace V1Rule

/-- the sample for a rule -/
def sample (E : V1Env) (r : V1Rule) : V1Sample :=
  ⟨E.env.unescape r.lit, r.parts.map fun p => (p.1.field, E.env.unescape p.2), tagBucket r.tags, true⟩

/-- the text behind the first literal -/
def partsText (ps : List (V1FieldT × Bytes)) : Bytes := ps.flatMap fun p => p.1.text ++ escPct p.2

theorem fieldStart {E : V1Env} : ∀ {ps : List (V1FieldT × Bytes)}, (∀ p ∈ ps, p.1.OK E) → FieldStart (partsText ps)
  | [], _ => .inl rfl
  | p :: ps, h => by
    obtain ⟨d, t, e, hd⟩ := V1FieldT.text_cons (h p (List.mem_cons_self ..))
    exact .inr ⟨d, t ++ escPct p.2 ++ partsText ps, by simp [partsText, e], hd⟩

theorem lexF_eq (E : V1Env) (self : V1CtxId) : ∀ (ps : List (V1FieldT × Bytes)) (l : Bytes) (fuel : Nat), (∀ p ∈ ps, p.1.OK E) → ps.length < fuel →
    v1LexF E self fuel (escPct l ++ partsText ps) = (E.env.unescape l, ps.map fun p => (p.1.field, E.env.unescape p.2), true)
  | _, _, 0, _, h => by omega
  | [], l, fuel + 1, _, _ => by
    rw [v1LexF]
    have : partsText [] = [] := rfl
    rw [this, litSplit_esc [] (.inl rfl) l]
    rfl
  | p :: ps, l, fuel + 1, h, hf => by
    have hp := h p (List.mem_cons_self ..)
    have hps : ∀ q ∈ ps, q.1.OK E := fun q hq => h q (List.mem_cons_of_mem _ hq)
    simp only [List.length_cons] at hf
    have ih := lexF_eq E self ps p.2 fuel hps (by omega)
    rw [v1LexF, litSplit_esc _ (fieldStart h) l]
    obtain ⟨d, t, e, hd⟩ := V1FieldT.text_cons hp
    have e1 : partsText (p :: ps) = ch! '%' :: (d :: t ++ (escPct p.2 ++ partsText ps)) := by
      simp [partsText, e]
    have e2 := V1FieldT.descr_eq E self hp (escPct p.2 ++ partsText ps)
    rw [e] at e2
    rw [e1]
    dsimp only
    have e3 : ((ch! '%' :: d :: t) ++ (escPct p.2 ++ partsText ps)).drop 1 = d :: t ++ (escPct p.2 ++ partsText ps) := rfl
    rw [e3] at e2
    rw [e2]
    dsimp only
    rw [ih]
    rfl

theorem partsText_length {E : V1Env} : ∀ {ps : List (V1FieldT × Bytes)}, (∀ p ∈ ps, p.1.OK E) → ps.length ≤ (partsText ps).length
  | [], _ => by simp [partsText]
  | p :: ps, h => by
    have ih := partsText_length (ps := ps) fun q hq => h q (List.mem_cons_of_mem _ hq)
    obtain ⟨d, t, e, hd⟩ := V1FieldT.text_cons (h p (List.mem_cons_self ..))
    have : (partsText (p :: ps)).length = p.1.text.length + (escPct p.2).length + (partsText ps).length := by
      simp [partsText]; omega
    rw [this, e]
    simp only [List.length_cons]
    omega

theorem lex_eq (E : V1Env) (self : V1CtxId) {r : V1Rule} (h : ∀ p ∈ r.parts, p.1.OK E) : v1Lex E self (tagBucket r.tags) r.text = r.sample E := by
  unfold v1Lex
  have e : r.text = escPct r.lit ++ partsText r.parts := rfl
  have hl := partsText_length h
  have h2 := lexF_eq E self r.parts r.lit (r.text.length + 1) h (by rw [e]; simp only [List.length_append]; omega)
  rw [← e] at h2
  rw [h2]
  rfl

/-! ### matching -/

/-- characters and fields behind the first literal -/
def partsToks (E : V1Env) (ps : List (V1FieldT × Bytes)) : List VTok := ps.flatMap fun p => .fld p.1.field :: chars (E.env.unescape p.2)

theorem sample_toks (E : V1Env) (r : V1Rule) : (r.sample E).toks = chars (E.env.unescape r.lit) ++ partsToks E r.parts := by
  simp [V1Sample.toks, sample, partsToks, List.flatMap_map]

theorem same_toks {E : V1Env} {r q : V1Rule} (hr : ∀ p ∈ r.parts, p.1.OK E) (hq : ∀ p ∈ q.parts, p.1.OK E) (h : q.Same E r) :
    (q.sample E).toks = (r.sample E).toks := by
  rw [sample_toks, sample_toks, h.1]
  congr 1
  have h2 := h.2
  generalize q.parts = a at h2 hq
  generalize r.parts = b at h2 hr
  induction a generalizing b with
  | nil => cases b with
    | nil => rfl
    | cons y b => simp at h2
  | cons x a ih => cases b with
    | nil => simp at h2
    | cons y b =>
      simp only [List.map_cons, List.cons.injEq, Prod.mk.injEq] at h2
      have hf := V1FieldT.field_of_text (hq x (List.mem_cons_self ..)) (hr y (List.mem_cons_self ..)) h2.1.1
      have := ih (fun p hp => hq p (List.mem_cons_of_mem _ hp)) b h2.2 (fun p hp => hr p (List.mem_cons_of_mem _ hp))
      simp only [partsToks, List.flatMap_cons] at this ⊢
      rw [this, hf, h2.1.2]

section
variable {E : V1Env} {run : V1Run} {s : Bytes} (hz : (0 : UInt8) ∉ s) {T : V1Ty → Prop}
  (hrun : ∀ x, T x → ∀ nm off, off ≤ s.length →
    (∀ n v, x.accepts E (s.drop off) n v → ∃ w, run ⟨nm, .fn x.fn, x.extra, x.pdata⟩ s off = .ok (n, w) ∧ V1Step.value s ⟨⟨nm, .fn x.fn, x.extra, x.pdata⟩, off, n, w⟩ = v) ∧
    ((∀ n v, ¬ x.accepts E (s.drop off) n v) → run ⟨nm, .fn x.fn, x.extra, x.pdata⟩ s off = .fail))
  (hle : ∀ x, T x → ∀ off n v, x.accepts E (s.drop off) n v → n ≤ (s.drop off).length)
include hz hrun hle

theorem fits_of_match : ∀ (ps : List (V1FieldT × Bytes)) (off : Nat) (tr : List V1Step), (∀ nm x l, (.ty nm x, l) ∈ ps → T x) →
    (∀ a b nm l, ps = a ++ (.rest nm, l) :: b → E.env.unescape l = [] ∧ b = []) → off ≤ s.length →
    V1Match run s off (partsToks E ps) tr → Fits E (s.drop off) ps (tr.map fun x => (x.f.name, x.value s))
  | [], off, tr, _, _, _, h => by
    cases h with
    | nil => rw [List.drop_length]; exact .nil
  | (.ty nm x, l) :: ps, off, tr, hT, hrest, ho, h => by
    have hx := hT nm x l (List.mem_cons_self ..)
    simp only [partsToks, List.flatMap_cons, V1FieldT.field, List.cons_append] at h
    cases h with
    | rest hp => cases hp
    | fld hp hr hm =>
      rename_i len v k tr
      obtain ⟨c, hc, hm⟩ := hm.chars_inv
      have hacc : x.accepts E (s.drop off) len (V1Step.value s ⟨⟨nm, .fn x.fn, x.extra, x.pdata⟩, off, len, v⟩) := by
        by_cases hex : ∃ n w, x.accepts E (s.drop off) n w
        · obtain ⟨n, w, hw⟩ := hex
          obtain ⟨w', hw1, hw2⟩ := (hrun x hx nm off ho).1 n w hw
          rw [hr] at hw1
          cases hw1
          rw [hw2]; exact hw
        · have := (hrun x hx nm off ho).2 (fun n w hw => hex ⟨n, w, hw⟩)
          rw [hr] at this; cases this
      have hl1 := hle x hx off _ _ hacc
      have hl2 := congrArg List.length hc
      simp only [List.length_drop, List.length_append] at hl1 hl2
      have ih := fits_of_match ps _ tr (fun nm x l h => hT nm x l (List.mem_cons_of_mem _ h))
        (fun a b nm' l' e => hrest ((.ty nm x, l) :: a) b nm' l' (by rw [e]; rfl)) (by omega) hm
      have e : s.drop (off + len + (E.env.unescape l).length) = c := by
        rw [← List.drop_drop, hc, List.drop_left]
      rw [e] at ih
      exact .ty hacc (by rw [List.drop_drop]; exact hc) ih
  | (.rest nm, l) :: ps, off, tr, hT, hrest, ho, h => by
    obtain ⟨h1, h2⟩ := hrest [] ps nm l rfl
    subst h2
    simp only [partsToks, List.flatMap_cons, List.flatMap_nil, V1FieldT.field, h1, chars, List.map_nil, List.append_nil] at h
    cases h with
    | fld hp => cases hp
    | rest hp hle' hm =>
      cases hm with
      | nil =>
        have hv : V1Step.value s ⟨⟨nm, .rest, none, none⟩, off, s.length - off, none⟩ = .str (s.drop off) := by
          unfold V1Step.value
          have hsl : slice s off (s.length - off) = s.drop off := by
            unfold slice
            rw [List.take_of_length_le (by simp)]
          rw [Option.getD_none, hsl]
          unfold newString
          rw [cstr_noNul fun c hc h0 => hz (h0 ▸ List.mem_of_mem_drop hc)]
        simp only [List.map_cons, List.map_nil, hv]
        exact .rest h1

theorem match_of_fits : ∀ {t : Bytes} {ps : List (V1FieldT × Bytes)} {vs : List (Bytes × Json)}, FitsIn E t ps vs → ∀ off, off ≤ s.length → s.drop off = t →
    (∀ nm x l, (.ty nm x, l) ∈ ps → T x) → ∃ tr, V1Match run s off (partsToks E ps) tr ∧ ∀ p ∈ tr, p.off < s.length := by
  intro t ps vs h
  induction h with
  | nil =>
    intro off ho hd _
    have : off = s.length := by
      have := congrArg List.length hd
      simp at this; omega
    subst this
    exact ⟨[], .nil, by simp⟩
  | ty hne hacc hd' hfit ih =>
    rename_i t t' nm l x n v ps' vs'
    intro off ho hd hT
    have hx := hT nm x l (List.mem_cons_self ..)
    subst hd
    obtain ⟨w, hw, _⟩ := (hrun x hx nm off ho).1 n v hacc
    have hl1 := hle x hx off _ _ hacc
    rw [List.drop_drop] at hd'
    have hl2 := congrArg List.length hd'
    simp only [List.length_drop, List.length_append] at hl1 hl2
    obtain ⟨tr, htr, hlt⟩ := ih (off + n + (E.env.unescape l).length) (by omega)
      (by rw [← List.drop_drop, hd', List.drop_left]) (fun nm x l h => hT nm x l (List.mem_cons_of_mem _ h))
    refine ⟨⟨⟨nm, .fn x.fn, x.extra, x.pdata⟩, off, n, w⟩ :: tr, ?_, ?_⟩
    · simp only [partsToks, List.flatMap_cons, V1FieldT.field, List.cons_append]
      exact .fld rfl hw (.chars hd' htr)
    · intro p hp
      rcases List.mem_cons.1 hp with rfl | hp
      · show off < s.length
        have : s.drop off ≠ [] := hne
        rw [ne_eq, List.drop_eq_nil_iff] at this
        omega
      · exact hlt p hp
  | rest hne hl =>
    rename_i t nm l
    intro off ho hd _
    subst hd
    refine ⟨[⟨⟨nm, .rest, none, none⟩, off, s.length - off, none⟩], ?_, ?_⟩
    · simp only [partsToks, List.flatMap_cons, List.flatMap_nil, V1FieldT.field, hl, chars, List.map_nil, List.append_nil]
      exact .rest rfl ho .nil
    · intro p hp
      rw [List.mem_singleton] at hp
      subst hp
      show off < s.length
      rw [ne_eq, List.drop_eq_nil_iff] at hne
      omega

end

end V1Rule

/-- the last of equal samples -/
theorem lastOf_index {xs : List V1Sample} {toks : List VTok} {x : V1Sample} (h : lastOf xs toks = some x) :
    ∃ i, xs[i]? = some x ∧ x.toks = toks ∧ ∀ (j : Nat) (y : V1Sample), i < j → xs[j]? = some y → y.toks ≠ toks := by
  unfold lastOf at h
  rw [List.find?_eq_some_iff_append] at h
  obtain ⟨h1, as, bs, h2, h3⟩ := h
  have e : xs = bs.reverse ++ x :: as.reverse := by
    have := congrArg List.reverse h2
    simpa using this
  refine ⟨bs.length, ?_, by simpa using h1, fun j y hj hy => ?_⟩
  · rw [e]; simp
  · rw [e, List.getElem?_append_right (by simp; omega)] at hy
    have hj' : j - bs.reverse.length = (j - bs.length - 1) + 1 := by simp; omega
    rw [hj', List.getElem?_cons_succ] at hy
    have := h3 y (List.mem_reverse.1 (List.mem_of_getElem? hy))
    simpa using this

/-! ### annotations -/

/-- operations are complete -/
def AnnotsOK (as : List Annot) : Prop := ∀ a ∈ as, ∀ op ∈ a.ops, (∃ v, op.value = some v) ∧ ∃ n, op.name = some n

theorem AnnotsOK.applyOps {ops : List AnnotOp} (h : ∀ op ∈ ops, (∃ v, op.value = some v) ∧ ∃ n, op.name = some n) :
    ∀ o : Obj, ∃ o', LN.applyOps ops o = .ok o' := by
  induction ops with
  | nil => exact fun o => ⟨o, rfl⟩
  | cons op ops ih =>
    intro o
    obtain ⟨⟨v, hv⟩, n, hn⟩ := h op (List.mem_cons_self ..)
    have ih' := ih fun q hq => h q (List.mem_cons_of_mem _ hq)
    rw [LN.applyOps]
    split
    · rw [hv, hn]; exact ih' _
    · exact ih' _

theorem AnnotsOK.annotate {as : List Annot} (h : AnnotsOK as) (o : Obj) (ts : List Bytes) : ∃ o', LN.annotate as o ts = .ok o' := by
  unfold LN.annotate
  generalize ts.reverse = l
  induction l generalizing o with
  | nil => exact ⟨o, rfl⟩
  | cons t l ih =>
    rw [List.foldl_cons, R.ok_bind']
    have : ∃ o', annotateTag as t o = .ok o' := by
      unfold annotateTag
      split
      · exact ⟨_, rfl⟩
      · rename_i a ha
        exact AnnotsOK.applyOps (h a (findAnnot_mem ha)) o
    obtain ⟨o', ho'⟩ := this
    rw [ho']
    exact ih o'

theorem foldl_addAnnotOp_ops (ops : List AnnotOp) : ∀ a : Annot, ∀ op ∈ (ops.foldl addAnnotOp a).ops, op ∈ ops ∨ op ∈ a.ops := by
  induction ops with
  | nil => exact fun a op h => .inr h
  | cons x ops ih =>
    intro a op h
    rcases ih _ op h with h1 | h1
    · exact .inl (List.mem_cons_of_mem _ h1)
    · simp only [addAnnotOp, List.mem_cons] at h1
      rcases h1 with rfl | h1
      · exact .inl (List.mem_cons_self ..)
      · exact .inr h1

theorem AnnotsOK.add {as : List Annot} (h : AnnotsOK as) {a : Annot} (ha : ∀ op ∈ a.ops, (∃ v, op.value = some v) ∧ ∃ n, op.name = some n) :
    AnnotsOK (addAnnotToSet as a) := by
  unfold addAnnotToSet
  split
  · intro b hb
    rcases List.mem_cons.1 hb with rfl | hb
    · exact ha
    · exact h b hb
  · rename_i hfind
    clear hfind
    induction as with
    | nil => exact h
    | cons b as ih =>
      rw [addAnnotToSet.upd]
      split
      · intro c hc
        rcases List.mem_cons.1 hc with rfl | hc
        · intro op hop
          rcases foldl_addAnnotOp_ops _ _ op hop with h1 | h1
          · exact ha op h1
          · exact h b (List.mem_cons_self ..) op h1
        · exact h c (List.mem_cons_of_mem _ hc)
      · intro c hc
        rcases List.mem_cons.1 hc with rfl | hc
        · exact h c (List.mem_cons_self ..)
        · exact ih (fun d hd => h d (List.mem_cons_of_mem _ hd)) c hc

theorem docAnnots_ok (ls : List RLine) : AnnotsOK (docAnnots [] ls) := by
  unfold docAnnots
  have : ∀ (l : List Annot) (as : List Annot), AnnotsOK as → (∀ a ∈ l, ∀ op ∈ a.ops, (∃ v, op.value = some v) ∧ ∃ n, op.name = some n) →
      AnnotsOK (l.foldl addAnnotToSet as) := by
    intro l
    induction l with
    | nil => exact fun as h _ => h
    | cons a l ih =>
      intro as h hl
      exact ih _ (h.add (hl a (List.mem_cons_self ..))) fun b hb => hl b (List.mem_cons_of_mem _ hb)
  refine this _ [] (fun a ha => by cases ha) fun a ha op hop => ?_
  obtain ⟨l, hl, ha⟩ := List.mem_flatMap.1 ha
  cases l with
  | annotate tag ops =>
    simp only [RLine.annots, List.mem_singleton] at ha
    subst ha
    rcases foldl_addAnnotOp_ops _ _ op hop with h1 | h1
    · obtain ⟨o, _, rfl⟩ := List.mem_map.1 h1
      exact ⟨⟨_, rfl⟩, _, rfl⟩
    · cases h1
  | _ => cases ha

end LN
