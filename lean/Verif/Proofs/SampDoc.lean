import Verif.Proofs.Samp
/- Loading a text is processing its lines; loading a rule base is running the operations it denotes. -/
set_option autoImplicit false
namespace LN

theorem readAll_succ (env : Env) (inc : IncludeRec) (fuel : Nat) (src : Src) (rounds : Nat) (st : LoadSt) (inp : Bytes) :
    readAll env inc fuel src (rounds + 1) st inp =
      (afterLine env inc fuel st (readLine src inp st.line [] false false [])).bind fun x =>
        if !x.2 then .ok (x.1, false)
        else if (readLine src inp st.line [] false false []).eof then .ok (x.1, true)
        else readAll env inc fuel src rounds x.1 (readLine src inp st.line [] false false []).rest := by
  rfl

theorem readAll_text (env : Env) (inc : IncludeRec) (fuel : Nat) (src : Src) (last : Bytes) (hlast : LineOK last) :
    ∀ (ls : List Bytes) (rounds : Nat) (st : LoadSt), (∀ l ∈ ls, LineOK l) → ls.length < rounds →
    readAll env inc fuel src rounds st (textOf ls last) = procText (processSamp env inc fuel) st ls last
  | _, 0, _, _, h => by omega
  | [], rounds + 1, st, _, _ => by
    rw [readAll_succ]
    have h1 : textOf [] last = last := rfl
    rw [h1, readLine_last src last hlast]
    unfold procText procLines
    rw [R.ok_bind']
    simp only [if_true]
    unfold procLast
    by_cases he : last = []
    · subst he
      simp only [skipped, afterLine, isComment, List.isEmpty, Bool.true_or, if_true, List.head?_nil, R.bind]
      rw [List.append_nil]
      rfl
    · rw [if_neg he]
      by_cases hc : isComment last
      · have : skipped last = true := by simp [skipped, hc]
        simp only [this, hc, afterLine, if_true, R.bind]
        simp
      · have : skipped last = false := by
          cases last with
          | nil => exact absurd rfl he
          | cons a t => simpa [skipped] using hc
        simp only [this, hc, afterLine, if_false, Bool.false_eq_true]
        rw [List.append_nil]
        change (processSamp env inc fuel st last).bind _ = _
        cases processSamp env inc fuel st last with
        | ok x => obtain ⟨a, b⟩ := x; cases b <;> rfl
        | fail => rfl
        | ub k => rfl
        | oof => rfl
  | l :: ls, rounds + 1, st, hls, hr => by
    have h1 : textOf (l :: ls) last = l ++ ch! '\n' :: textOf ls last := by simp [textOf]
    rw [h1, readAll_succ, readLine_first src l _ (hls l (List.mem_cons_self ..))]
    have hls' : ∀ l' ∈ ls, LineOK l' := fun l' h => hls l' (List.mem_cons_of_mem _ h)
    unfold procText procLines
    by_cases hs : skipped l
    · simp only [hs, if_true]
      have ih := readAll_text env inc fuel src last hlast ls (rounds + 1) { st with line := st.line + 1 } hls' (by
        simp at hr; omega)
      rw [readAll_succ] at ih
      exact ih
    · have hsf : skipped l = false := by simpa using hs
      simp only [hsf, Bool.false_eq_true, if_false, afterLine]
      rw [List.append_nil]
      change (processSamp env inc fuel { st with line := st.line + 1 } l).bind _ = _
      cases processSamp env inc fuel { st with line := st.line + 1 } l with
      | ok x =>
        obtain ⟨a, b⟩ := x
        cases b
        · rfl
        · have ih := readAll_text env inc fuel src last hlast ls rounds a hls' (by simp at hr; omega)
          simp only [R.bind, Bool.not_true, Bool.false_eq_true, if_false, if_true]
          exact ih
      | fail => rfl
      | ub k => rfl
      | oof => rfl

theorem lineType_kind {kind t : Bytes} (h : ∀ c ∈ kind, c ≠ ch! '=') : lineType (kind ++ ch! '=' :: t) = (kind, t) := by
  unfold lineType
  rw [takeWhile_append_stop (p := fun c : UInt8 => c != ch! '=') (by decide) _ _ (fun x hx => by simpa using h x hx),
    dropWhile_append_stop (p := fun c : UInt8 => c != ch! '=') (by decide) _ _ (fun x hx => by simpa using h x hx)]
  rfl

theorem addSampText_run {env : Env} {st : LoadSt} {dag : NodeId} {text : Bytes} {tags : Option (List Bytes)}
    (h : ∀ k, (lexRule env text).fin ≠ .ub k) :
    addSampText env st dag text tags =
      (addSamp env st.b dag (lexRule env text).confs ((lexRule env text).fin = .complete) tags (st.file.getD []) st.line).bind
        fun b => .ok { st with b := b, errs := st.errs ++ (lexRule env text).errs } := by
  unfold addSampText
  generalize lexRule env text = r at h ⊢
  cases hf : r.fin with
  | complete => simp [hf]
  | stopped => simp [hf]
  | ub k => exact absurd hf (h k)

theorem typeName_ok {name t : Bytes} (h1 : name.head? = some (ch! '@')) (h2 : name.length < 1024)
    (h3 : ∀ c ∈ name, c ≠ ch! ':' ∧ isSpace c = false ∧ c ≠ 0) :
    typeName (name ++ ch! ':' :: t) = (some (name, t), none) := by
  unfold typeName
  have hh : (name ++ ch! ':' :: t).head? = some (ch! '@') := by
    cases name with
    | nil => cases h1
    | cons a n => exact h1
  rw [if_neg (by rw [hh]; simp)]
  rw [takeWhile_append_stop (p := fun c : UInt8 => c != ch! ':') (by decide) _ _ (fun x hx => by simpa using (h3 x hx).1),
    List.take_of_length_le (by unfold maxTypeName; omega)]
  have hany : name.any isSpace = false := by
    rw [List.any_eq_false]
    intro x hx
    rw [(h3 x hx).2.1]; simp
  dsimp only
  rw [hany, List.drop_append_of_le_length (Nat.le_refl _), List.drop_length, List.nil_append,
    cstr_self fun c hc => (h3 c hc).2.2]
  rfl

theorem getFieldName_word {w : Bytes} (hw : Word w) {c : UInt8} (hc : isAlnum c = false ∧ c ≠ ch! '_' ∧ c ≠ ch! '.') (t : Bytes) :
    getFieldName (w ++ c :: t) = (some w, c :: t) := by
  unfold getFieldName
  have hp : (fun c : UInt8 => isAlnum c || c == ch! '_' || c == ch! '.') c = false := by
    simp [hc.1, hc.2.1, hc.2.2]
  have hall : ∀ x ∈ w, (fun c : UInt8 => isAlnum c || c == ch! '_' || c == ch! '.') x = true := by
    intro x hx
    rcases hw.2 x hx with h | h | h <;> simp [h]
  dsimp only
  rw [takeWhile_append_stop hp _ _ hall, dropWhile_append_stop hp _ _ hall, if_neg hw.1]

/-- one written operation of an annotation is read back -/
theorem getAnnotationOp_text {bl n v : Bytes} (hb : Blanks bl) (hn : Word n) (hv : v ≠ []) (hq : ∀ c ∈ v, c ≠ ch! '"') (t : Bytes) :
    getAnnotationOp (bl ++ bs! "+" ++ n ++ bs! "=\"" ++ v ++ bs! "\"" ++ t) =
      .ok (some { add := true, name := some n, value := some v }) t := by
  have e : bl ++ bs! "+" ++ n ++ bs! "=\"" ++ v ++ bs! "\"" ++ t =
      bl ++ ch! '+' :: (n ++ ch! '=' :: ch! '"' :: (v ++ ch! '"' :: t)) := by simp
  unfold getAnnotationOp
  rw [e, dropWhile_blanks hb (by decide)]
  dsimp only
  rw [if_neg (by decide), if_neg (by decide), if_neg (by simp), getFieldName_word hn (by decide)]
  dsimp only
  rw [if_neg (by decide)]
  have e2 : (ch! '"' :: (v ++ ch! '"' :: t)).dropWhile isSpace = ch! '"' :: (v ++ ch! '"' :: t) :=
    dropWhile_append_stop (p := isSpace) (c := ch! '"') (by decide) _ [] (by simp)
  rw [e2]
  dsimp only
  rw [if_neg (by decide),
    takeWhile_append_stop (p := fun c : UInt8 => c != ch! '"') (by decide) _ _ (fun x hx => by simpa using hq x hx),
    dropWhile_append_stop (p := fun c : UInt8 => c != ch! '"') (by decide) _ _ (fun x hx => by simpa using hq x hx),
    if_neg hv]
  rfl

theorem annotLoop_text : ∀ (ops : List (Bytes × Bytes × Bytes)) (fuel : Nat) (a : Annot),
    (∀ o ∈ ops, Blanks o.1 ∧ Word o.2.1 ∧ o.2.2 ≠ [] ∧ ∀ c ∈ o.2.2, c ≠ ch! '"') → ops.length ≤ fuel →
    annotLoop fuel a (annotText ops) =
      .ok (some ((ops.map fun o => { add := true, name := some o.2.1, value := some o.2.2 : AnnotOp }).foldl addAnnotOp a), none)
  | [], fuel, a, _, _ => by unfold annotLoop; rfl
  | o :: ops, 0, a, _, h => by simp at h
  | o :: ops, fuel + 1, a, ho, h => by
    have h1 := ho o (List.mem_cons_self ..)
    have ih := annotLoop_text ops fuel (addAnnotOp a { add := true, name := some o.2.1, value := some o.2.2 })
      (fun x hx => ho x (List.mem_cons_of_mem _ hx)) (by simpa using h)
    have e : annotText (o :: ops) = o.1 ++ bs! "+" ++ o.2.1 ++ bs! "=\"" ++ o.2.2 ++ bs! "\"" ++ annotText ops := by
      simp [annotText]
    have hne : annotText (o :: ops) ≠ [] := by rw [e]; simp
    rw [e] at hne ⊢
    conv => lhs; unfold annotLoop
    rw [if_neg hne, getAnnotationOp_text h1.1 h1.2.1 h1.2.2.1 h1.2.2.2]
    dsimp only
    rw [ih]
    rfl

/-- what a state becomes by a line, given the new graph -/
def RLine.after (env : Env) (l : RLine) (st : LoadSt) (b : Bld) : LoadSt :=
  { st with b := b, annots := (l.annots).foldl addAnnotToSet st.annots, rulePrefix := l.nextPrefix st.rulePrefix
            errs := st.errs ++ l.errs env st.rulePrefix }

theorem processSamp_line {env : Env} {srt : Sorter} {inc : IncludeRec} {fuel : Nat} {st : LoadSt} {l : RLine} (hok : l.OK)
    (hsafe : l.Safe env st.rulePrefix) (hns : skipped l.text = false) (hf : l.text.length ≤ fuel) :
    processSamp env inc fuel st l.text =
      ((l.ops env (st.file.getD []) st.rulePrefix st.line).foldlM (BOp.run env srt) st.b).bind
        fun b => .ok (l.after env st b, true) := by
  cases l with
  | skip t => unfold RLine.OK at hok; unfold RLine.text at hns; rw [hok] at hns; cases hns
  | prefix_ t =>
    have e : (RLine.prefix_ t).text = bs! "prefix" ++ ch! '=' :: t := by simp [RLine.text]
    unfold processSamp
    rw [e, lineType_kind (by decide)]
    simp [RLine.ops, RLine.after, RLine.annots, RLine.nextPrefix, RLine.errs, pure, R.bind]
  | extend t =>
    have e : (RLine.extend t).text = bs! "extendprefix" ++ ch! '=' :: t := by simp [RLine.text]
    unfold processSamp
    rw [e, lineType_kind (by decide)]
    unfold RLine.Safe at hsafe
    cases hp : st.rulePrefix with
    | none => exact absurd hp hsafe
    | some p => simp [RLine.ops, RLine.after, RLine.annots, RLine.nextPrefix, RLine.errs, pure, R.bind, hp]
  | rule tags t =>
    have e : (RLine.rule tags t).text = bs! "rule" ++ ch! '=' :: (tagText tags ++ ch! ':' :: t) := by simp [RLine.text]
    unfold processSamp
    rw [e, lineType_kind (by decide)]
    dsimp only
    rw [if_neg (by decide), if_neg (by decide), if_neg (by decide), if_pos rfl]
    unfold processRule
    rw [tagLoop_tags tags [] t hok.1]
    dsimp only
    rw [if_neg hok.2, addSampText_run hsafe]
    simp only [RLine.ops, List.foldlM_cons, List.foldlM_nil, BOp.run, List.nil_append]
    cases addSamp env st.b st.b.root (lexRule env (st.rulePrefix.getD [] ++ t)).confs
      (decide ((lexRule env (st.rulePrefix.getD [] ++ t)).fin = .complete)) (tagBucket tags) (st.file.getD []) st.line <;> rfl
  | type name t =>
    have e : (RLine.type name t).text = bs! "type" ++ ch! '=' :: (name ++ ch! ':' :: t) := by simp [RLine.text]
    unfold processSamp
    rw [e, lineType_kind (by decide)]
    dsimp only
    rw [if_neg (by decide), if_neg (by decide), if_neg (by decide), if_neg (by decide), if_pos rfl]
    unfold processType
    rw [typeName_ok hok.1 hok.2.1 hok.2.2.1]
    dsimp only
    rw [if_neg hok.2.2.2, addSampText_run hsafe]
    simp only [RLine.ops, List.foldlM_cons, List.foldlM_nil, BOp.run]
    generalize findTypeAdd st.b name = bn
    obtain ⟨b, n⟩ := bn
    dsimp only
    cases addSamp env b n (lexRule env t).confs (decide ((lexRule env t).fin = .complete)) none (st.file.getD []) st.line <;> rfl
  | annotate tag ops =>
    have e : (RLine.annotate tag ops).text = bs! "annotate" ++ ch! '=' :: (tag ++ ch! ':' :: annotText ops) := by simp [RLine.text]
    have hlen : ops.length ≤ fuel := by
      refine Nat.le_trans ?_ hf
      rw [e]
      have : ops.length ≤ (annotText ops).length := by
        clear e hok hsafe hns hf
        induction ops with
        | nil => simp
        | cons o ops ih =>
          simp only [annotText, List.flatMap_cons, List.length_append, List.length_cons] at ih ⊢
          omega
      simp only [List.length_append, List.length_cons]
      omega
    unfold processSamp
    rw [e, lineType_kind (by decide)]
    dsimp only
    rw [if_neg (by decide), if_neg (by decide), if_neg (by decide), if_neg (by decide), if_neg (by decide), if_pos rfl]
    unfold processAnnotate
    rw [getFieldName_word hok.1 (by decide)]
    have e2 : (ch! ':' :: annotText ops).dropWhile isSpace = ch! ':' :: annotText ops :=
      dropWhile_append_stop (p := isSpace) (c := ch! ':') (by decide) _ [] (by simp)
    dsimp only
    rw [e2]
    dsimp only
    rw [if_neg (by decide), annotLoop_text ops fuel _ hok.2 hlen]
    simp [RLine.ops, RLine.after, RLine.annots, RLine.nextPrefix, RLine.errs, pure, R.bind]
  | unknown kind t =>
    have e : (RLine.unknown kind t).text = kind ++ ch! '=' :: t := by simp [RLine.text]
    unfold processSamp
    rw [e, lineType_kind fun c hc => (hok.2.2 c hc).1]
    dsimp only
    have hk := hok.2.1
    simp only [knownKinds, List.mem_cons, List.not_mem_nil, or_false, not_or] at hk
    rw [if_neg hok.1, if_neg hk.1, if_neg hk.2.1, if_neg hk.2.2.1, if_neg hk.2.2.2.1, if_neg hk.2.2.2.2.1, if_neg hk.2.2.2.2.2]
    rw [noNul_self fun c hc => (hok.2.2 c hc).2.1]
    simp [RLine.ops, RLine.after, RLine.annots, RLine.nextPrefix, RLine.errs, pure, R.bind, LoadSt.err]

theorem skipped_iff {l : RLine} (hok : l.OK) : skipped l.text = true ↔ ∃ t, l = .skip t := by
  cases l with
  | skip t => exact ⟨fun _ => ⟨t, rfl⟩, fun _ => hok⟩
  | unknown kind t =>
    constructor
    · intro h
      unfold RLine.text at h
      cases kind with
      | nil => exact absurd rfl hok.1
      | cons c k =>
        have := (hok.2.2 c (List.mem_cons_self ..)).2.2
        simp [skipped, isComment, this] at h
    · rintro ⟨_, h⟩; cases h
  | prefix_ t => simp [RLine.text, skipped, isComment]
  | extend t => simp [RLine.text, skipped, isComment]
  | rule tags t => simp [RLine.text, skipped, isComment]
  | type name t => simp [RLine.text, skipped, isComment]
  | annotate tag ops => simp [RLine.text, skipped, isComment]

/-- the state after all lines, given the new graph -/
def docAfter (env : Env) (st : LoadSt) (ls : List RLine) (b : Bld) : LoadSt :=
  { st with b := b, annots := (ls.flatMap RLine.annots).foldl addAnnotToSet st.annots
            rulePrefix := ls.foldl RLine.nextPrefix st.rulePrefix
            line := st.line + ls.length, errs := st.errs ++ docErrs env st.rulePrefix ls }

theorem foldlM_append_R {α β : Type} (f : α → β → R α) : ∀ (l l' : List β) (a : α),
    (l ++ l').foldlM f a = (l.foldlM f a).bind fun a => l'.foldlM f a
  | [], l', a => rfl
  | x :: l, l', a => by
    rw [List.cons_append, List.foldlM_cons, List.foldlM_cons]
    change (f a x).bind _ = ((f a x).bind _).bind _
    cases f a x with
    | ok y => exact foldlM_append_R f l l' y
    | fail => rfl
    | ub k => rfl
    | oof => rfl

theorem R_bind_assoc {α β γ : Type} (x : R α) (f : α → R β) (g : β → R γ) :
    (x.bind f).bind g = x.bind fun a => (f a).bind g := by
  cases x <;> rfl

theorem R_bind_congr {α β : Type} (x : R α) {f g : α → R β} (h : ∀ a, f a = g a) : x.bind f = x.bind g := by
  cases x <;> simp [R.bind, h]

/-- the lines of a rule base do what the operations they denote do -/
theorem procLines_doc {env : Env} {srt : Sorter} {inc : IncludeRec} {fuel : Nat} : ∀ (ls : List RLine) (st : LoadSt),
    (∀ l ∈ ls, l.OK) → DocSafe env st.rulePrefix ls → (∀ l ∈ ls, l.text.length ≤ fuel) →
    procLines (processSamp env inc fuel) st (ls.map RLine.text) =
      ((docOps env (st.file.getD []) st.rulePrefix st.line ls).foldlM (BOp.run env srt) st.b).bind
        fun b => .ok (docAfter env st ls b, true)
  | [], st, _, _, _ => by
    simp [docOps, docAfter, docErrs, procLines, pure, R.bind]
  | l :: ls, st, hok, hsafe, hf => by
    have hl := hok l (List.mem_cons_self ..)
    have hok' : ∀ l ∈ ls, l.OK := fun x hx => hok x (List.mem_cons_of_mem _ hx)
    have hf' : ∀ l ∈ ls, l.text.length ≤ fuel := fun x hx => hf x (List.mem_cons_of_mem _ hx)
    rw [List.map_cons]
    unfold procLines docOps
    by_cases hs : skipped l.text
    · obtain ⟨t, rfl⟩ := (skipped_iff hl).1 hs
      rw [if_pos hs]
      have ih := procLines_doc (srt := srt) (inc := inc) ls { st with line := st.line + 1 } hok' hsafe.2 hf'
      rw [ih]
      simp only [RLine.ops, List.nil_append, RLine.nextPrefix]
      refine R_bind_congr _ fun b => ?_
      simp [docAfter, RLine.annots, RLine.nextPrefix, docErrs, RLine.errs]
      omega
    · rw [if_neg hs, processSamp_line (srt := srt) hl (st := { st with line := st.line + 1 }) hsafe.1 (by simpa using hs) (hf l (List.mem_cons_self ..))]
      rw [foldlM_append_R, R_bind_assoc, R_bind_assoc]
      refine R_bind_congr _ fun b => ?_
      rw [R.ok_bind']
      simp only [if_true]
      have ih := procLines_doc (srt := srt) (inc := inc) ls (l.after env { st with line := st.line + 1 } b) hok' hsafe.2 hf'
      rw [ih]
      refine R_bind_congr _ fun b' => ?_
      simp [docAfter, RLine.after, docErrs]
      omega

end LN
