import Verif.Proofs.V1Doc
import Verif.Props.V1Nested
/-
C74: rulebases of version 1, from the text of the rulebase to the event. How rulebases are written and what their rules mean is specified in Spec/V1Doc
(`V1Rule.text`, `V1Rule.Matches`), what field types accept in Spec/V1Nested (`V1Ty.accepts`).
-/
set_option autoImplicit false
namespace LN
open Spec

section
variable {E : V1Env} {self : V1CtxId} {st : V1Load} {ls : List RLine} {last : RLine}

/-- C74, lines: loading a text of well-formed lines (comments, `prefix=`, `extendprefix=`, `rule=`, `annotate=`, and lines of other kinds) adds the samples its rules
denote, with the prefix in force, in order, the annotations, and nothing else. Missing: lines above 10239 bytes and fields which span lines (violated, see below), and lines
which are not well formed. -/
theorem C74_lines_partial (hl : ∀ l ∈ ls ++ [last], l.OK1 ∧ V1LineOK l.text) (hext : ExtendOK st.rulePrefix (ls ++ [last])) {fuel : Nat}
    (hf : ∀ l ∈ ls ++ [last], l.text.length ≤ fuel) :
    v1LoadText E self fuel st (textOf (ls.map RLine.text) last.text) = .ok {
      xs := st.xs ++ (docTexts st.rulePrefix (ls ++ [last])).map fun p => v1Lex E self (tagBucket p.1) p.2
      annots := docAnnots st.annots (ls ++ [last])
      rulePrefix := docPrefix st.rulePrefix (ls ++ [last]) } := by
  unfold v1LoadText
  rw [v1ReadAll_text E self fuel last.text (hl last (by simp)).2 (ls.map RLine.text) _ st
    (fun l hm => by obtain ⟨x, hx, rfl⟩ := List.mem_map.1 hm; exact (hl x (by simp [hx])).2)
    (by have := textOf_length1 (ls.map RLine.text) last.text; omega)]
  have := v1ProcLines_doc E self (fuel := fuel) (ls ++ [last]) st (fun l h => (hl l h).1) hext hf
  rw [List.map_append] at this
  exact this

/-- C74, rules: the text of a rule denotes a sample with its literals (escapes resolved), its fields, in order, and its tags. -/
theorem C74_rule_text {r : V1Rule} (h : ∀ p ∈ r.parts, p.1.OK E) :
    ∃ x, v1Lex E self (tagBucket r.tags) r.text = x ∧ x.lit = E.env.unescape r.lit ∧ x.rest.map (fun p => (p.1.name, p.2)) = r.parts.map (fun p => (p.1.name, E.env.unescape p.2)) ∧
      x.rest.map (fun p => (p.1.prs, p.1.raw)) = r.parts.map (fun p => match p.1 with
        | .ty _ y => (.fn y.fn, y.extra)
        | .rest _ => (.rest, none)) ∧
      x.tags = (if r.tags = [] then none else some r.tags) ∧ x.complete = true := by
  refine ⟨_, V1Rule.lex_eq E self h, rfl, ?_, ?_, rfl, rfl⟩
  · simp [V1Rule.sample, V1FieldT.field_name]
  · simp only [V1Rule.sample, List.map_map]
    apply List.map_congr_left
    rintro ⟨f, l⟩ _
    cases f <;> rfl

/-- the event for a match: values of the fields, tags, and what annotations say -/
def v1Outcome (annots : List Annot) (o : Obj) (vs : List (Bytes × Json)) (tags : List Bytes) (json : Obj) : Prop :=
  if tags = [] then json = v1Place o vs
  else annotate annots (Obj.add (v1Place o vs) (bs! "event.tags") (.arr (tags.map Json.str))) tags = .ok json

/-- C74, end to end: Take a rulebase text made of well-formed lines, whose rules (with the prefix in force) are `rules`. It can be loaded, and normalising a message with it
ends. If a match is reported, then one of the rules makes up the whole message, and the event consists of the values its fields have there, its tags (those of the last one
of equal rules) and the annotations. If one of the rules makes up the message, and none of its fields starts at the end of the message, a match is reported. If none
is reported, the event consists of what was passed in, the message, and the end of the message. -/
theorem C74_end_to_end_partial {rules : List V1Rule} (hu : E.env.unescape [] = []) (he : E.env.TokOK)
    (hl : ∀ l ∈ ls ++ [last], l.OK1 ∧ V1LineOK l.text) (hext : ExtendOK none (ls ++ [last])) {fuel : Nat}
    (hf : ∀ l ∈ ls ++ [last], l.text.length ≤ fuel)
    (hr : docTexts none (ls ++ [last]) = rules.map fun r => (r.tags, r.text)) (hrules : ∀ r ∈ rules, r.OK E)
    (htypes : ∀ r ∈ rules, ∀ q ∈ rules, ∀ x ∈ r.types, ∀ y ∈ q.types, x.fn = y.fn → x.extra = y.extra → x.ty = y.ty)
    {s : Bytes} (hz : (0 : UInt8) ∉ s) (hlen : s.length < 2 ^ 64) (hd : ∀ i, ((s.drop i).takeWhile isDigit).length ≤ 9)
    (hfol : ∀ r ∈ rules, ∀ x ∈ r.types, x.Followed E s) :
    ∃ L, v1LoadText E .root fuel {} (textOf (ls.map RLine.text) last.text) = .ok L ∧ ∃ n₀, ∀ n, n₀ ≤ n → ∀ o : Obj, ∃ res, v1NormN E L n .root s o = .ok res ∧
      (res.matched = true → ∃ (i : Nat) (r : V1Rule) (vs : List (Bytes × Json)), rules[i]? = some r ∧ r.Matches E s vs ∧
        (∀ (j : Nat) (q : V1Rule), i < j → rules[j]? = some q → ¬ q.Same E r) ∧ v1Outcome (docAnnots [] (ls ++ [last])) o vs r.tags res.json) ∧
      ((∃ r ∈ rules, ∃ vs, r.Ascii E ∧ r.MatchesIn E s vs) → res.matched = true) ∧
      (res.matched = false → ∃ i, i ≤ s.length ∧ res.json = Obj.add (Obj.add o (bs! "originalmsg") (.str s)) (bs! "unparsed-data") (.str (s.drop i))) := by
  have hload := C74_lines_partial (E := E) (self := .root) (st := {}) hl hext hf
  have hxs : (docTexts none (ls ++ [last])).map (fun p => v1Lex E .root (tagBucket p.1) p.2) = rules.map (V1Rule.sample E) := by
    rw [hr, List.map_map]
    exact List.map_congr_left fun r h => V1Rule.lex_eq E .root (hrules r h).fields
  refine ⟨_, hload, ?_⟩
  generalize hL : ({ xs := ([] : List V1Sample) ++ (docTexts none (ls ++ [last])).map fun p => v1Lex E .root (tagBucket p.1) p.2
                     annots := docAnnots [] (ls ++ [last]), rulePrefix := docPrefix none (ls ++ [last]) } : V1Load) = L
  have hLx : L.xs = rules.map (V1Rule.sample E) := by rw [← hL, ← hxs]; rfl
  have hLa : L.annots = docAnnots [] (ls ++ [last]) := by rw [← hL]
  clear hL hload hxs
  -- types in the rules
  let T : V1Ty → Prop := fun x => ∃ r ∈ rules, x ∈ r.types
  have hTmem : ∀ r ∈ rules, ∀ nm x l, (V1FieldT.ty nm x, l) ∈ r.parts → T x := by
    intro r hr' nm x l hm
    exact ⟨r, hr', List.mem_filterMap.2 ⟨_, hm, rfl⟩⟩
  have hTok : ∀ x, T x → x.OK E ∧ x.Followed E s := by
    rintro x ⟨r, hr', hx⟩
    refine ⟨?_, hfol r hr' x hx⟩
    obtain ⟨⟨f, l⟩, hp, hf'⟩ := List.mem_filterMap.1 hx
    cases f with
    | ty nm y =>
      simp only [Option.some.injEq] at hf'
      subst hf'
      exact ((hrules r hr').fields _ hp).2.2.2
    | rest nm => cases hf'
  have hdepth : ∃ m, ∀ x, T x → x.depth ≤ m := by
    refine ⟨((rules.flatMap V1Rule.types).map V1Ty.depth).sum, ?_⟩
    rintro x ⟨r, hr', hx⟩
    have : x.depth ∈ (rules.flatMap V1Rule.types).map V1Ty.depth := List.mem_map.2 ⟨x, List.mem_flatMap.2 ⟨r, hr', hx⟩, rfl⟩
    generalize (rules.flatMap V1Rule.types).map V1Ty.depth = l at this
    induction l with
    | nil => cases this
    | cons a l ih =>
      rw [List.sum_cons]
      rcases List.mem_cons.1 this with h | h
      · omega
      · have := ih h; omega
  obtain ⟨m, hm⟩ := hdepth
  refine ⟨m + s.length + 4 + sizeOf (loadV1 L.xs) + 2, fun n hn o => ?_⟩
  obtain ⟨n, rfl⟩ : ∃ k, n = k + 1 := ⟨n - 1, by omega⟩
  let run : V1Run := v1RunOf E (V1Ty.normOf E L n) n
  let F : V1Field → Prop := fun f => V1Plain E f ∨ ∃ x : V1Ty, f.prs = .fn x.fn ∧ f.raw = x.extra ∧ f.pdata = x.pdata ∧ x.OK E ∧ x.Followed E s ∧ x.depth + s.length + 4 ≤ n
  have hF : V1RunOK F run s := C73_engine_assumptions E L hu he hz hlen hd n
  have hrun : ∀ x, T x → ∀ nm off, off ≤ s.length →
      (∀ k v, x.accepts E (s.drop off) k v → ∃ w, run ⟨nm, .fn x.fn, x.extra, x.pdata⟩ s off = .ok (k, w) ∧ V1Step.value s ⟨⟨nm, .fn x.fn, x.extra, x.pdata⟩, off, k, w⟩ = v) ∧
      ((∀ k v, ¬ x.accepts E (s.drop off) k v) → run ⟨nm, .fn x.fn, x.extra, x.pdata⟩ s off = .fail) := by
    intro x hx nm off ho
    have := hm x hx
    exact V1Ty.does E L hu he hz hlen x (hTok x hx).1 (fun _ => hd) (hTok x hx).2 (List.suffix_refl s) ho (by omega) ⟨nm, .fn x.fn, x.extra, x.pdata⟩ rfl rfl
  have hle : ∀ x, T x → ∀ off k v, x.accepts E (s.drop off) k v → k ≤ (s.drop off).length := by
    intro x hx off k v h
    exact V1Ty.accepts_le E he (hTok x hx).1 (V1Ty.noNul_suffix hz (List.drop_suffix off s))
      (V1Ty.digits_suffix (k := x.leaf) (fun _ => hd) (List.drop_suffix off s)) h
  -- parser data are determined by parser and extra data
  have hpd : ∃ data : V1Prs → Option Bytes → Option V1Data, (∀ x, T x → data (.fn x.fn) x.extra = x.pdata) ∧ data .rest none = none := by
    refine ⟨fun p e => open Classical in if h : ∃ x, T x ∧ p = .fn x.fn ∧ e = x.extra then h.choose.pdata else none, ?_, ?_⟩
    · intro x hx
      have hex : ∃ y, T y ∧ V1Prs.fn x.fn = .fn y.fn ∧ x.extra = y.extra := ⟨x, hx, rfl, rfl⟩
      dsimp only
      rw [dif_pos hex]
      have hsp := hex.choose_spec
      generalize hex.choose = y at hsp ⊢
      obtain ⟨h1, h2, h3⟩ := hsp
      obtain ⟨r, hr1, hr2⟩ := hx
      obtain ⟨q, hq1, hq2⟩ := h1
      have hxx : T x := ⟨r, hr1, hr2⟩
      have hty := htypes r hr1 q hq1 x hr2 _ hq2 (V1Prs.fn.inj h2) h3
      have hok := (hTok _ ⟨q, hq1, hq2⟩).1
      have e1 := V1Ty.type_eq (hTok x hxx).1
      have e2 := V1Ty.type_eq hok
      rw [hty, e2] at e1
      simp only [Option.some.injEq, Prod.mk.injEq] at e1
      rw [← V1Ty.data_eq .root hok, ← V1Ty.data_eq .root (hTok x hxx).1, ← e1.2, h3]
    · dsimp only
      rw [dif_neg]
      rintro ⟨x, _, h, _⟩
      cases h
  obtain ⟨data, hdata, hdrest⟩ := hpd
  let pd : V1Pd := ⟨data, F⟩
  have hsamp : ∀ x ∈ rules.map (V1Rule.sample E), x.OK pd := by
    intro x hx
    obtain ⟨r, hr', rfl⟩ := List.mem_map.1 hx
    have hok := hrules r hr'
    refine ⟨rfl, hok.lits _ (List.mem_cons_self ..), ?_, ?_, ?_, ?_⟩
    · intro p hp
      obtain ⟨q, hq, rfl⟩ := List.mem_map.1 hp
      exact hok.lits _ (List.mem_cons_of_mem _ (List.mem_map.2 ⟨q, hq, rfl⟩))
    · intro p hp
      obtain ⟨⟨f, l⟩, hq, rfl⟩ := List.mem_map.1 hp
      cases f with
      | ty nm y =>
        have hT := hTmem r hr' nm y l hq
        have := hm y hT
        exact ⟨(hdata y hT).symm, .inr ⟨y, rfl, rfl, rfl, (hTok y hT).1, (hTok y hT).2, by omega⟩⟩
      | rest nm =>
        refine ⟨hdrest.symm, .inl fun k hk => ?_⟩
        cases hk
    · intro p hp
      obtain ⟨⟨f, l⟩, hq, rfl⟩ := List.mem_map.1 hp
      cases f with
      | ty nm y => exact fun h => by cases h
      | rest nm => exact fun h => by cases h
    · intro a b p hab hp
      obtain ⟨a', b', h1, h2, h3⟩ := List.map_eq_append_iff.1 hab
      cases b' with
      | nil => cases h3
      | cons q b' =>
        simp only [List.map_cons, List.cons.injEq] at h3
        obtain ⟨h3, h4⟩ := h3
        obtain ⟨f, l⟩ := q
        cases f with
        | ty nm y => rw [← h3] at hp; cases hp
        | rest nm =>
          obtain ⟨h5, h6⟩ := hok.restLast a' b' nm l h1
          subst h6
          rw [← h3, ← h4]
          exact ⟨h5, rfl⟩
  -- the engine
  have hnorm : v1NormN E L (n + 1) .root s o = v1Normalize run L.annots n (loadV1 L.xs) s o := by
    rw [v1NormN, v1CtxLoad, R.ok_bind']
    rfl
  rw [hnorm, hLa]
  have hn' : sizeOf (loadV1 L.xs) < n := by omega
  rw [hLx] at hn' ⊢
  obtain ⟨res, hres⟩ := C70_total_partial (json0 := o) hF hsamp hz hn' (fun o ts => (docAnnots_ok (ls ++ [last])).annotate o ts)
  refine ⟨res, hres, fun hmt => ?_, ?_, fun hmt => ?_⟩
  · obtain ⟨x, hx, tr, hlast', hmatch, hdel⟩ := C64_match_is_real_partial hF.toV1RunIn hsamp hres hmt
    obtain ⟨i, hi, _, hafter⟩ := lastOf_index hlast'
    rw [List.getElem?_map] at hi
    obtain ⟨r, hri, rfl⟩ := Option.map_eq_some_iff.1 hi
    have hr' : r ∈ rules := List.mem_of_getElem? hri
    rw [V1Rule.sample_toks] at hmatch
    obtain ⟨c, hc, hmatch⟩ := hmatch.chars_inv
    rw [List.drop_zero] at hc
    rw [Nat.zero_add] at hmatch
    have hfit := V1Rule.fits_of_match hz hrun hle r.parts _ tr (hTmem r hr') (hrules r hr').restLast
      (by have := congrArg List.length hc; simp only [List.length_append] at this; omega) hmatch
    have hdrop : s.drop (E.env.unescape r.lit).length = c := by rw [hc, List.drop_left]
    rw [hdrop] at hfit
    refine ⟨i, r, _, hri, ⟨c, hc, hfit⟩, fun j q hj hq hsame => ?_, ?_⟩
    · have hq' : q ∈ rules := List.mem_of_getElem? hq
      refine hafter j (q.sample E) hj ?_ (V1Rule.same_toks (hrules r hr').fields (hrules q hq').fields hsame)
      rw [List.getElem?_map, hq]; rfl
    · -- the event
      have hnames : ∀ x ∈ tr, (0 : UInt8) ∉ x.f.name := by
        have : ∀ p ∈ tr.map (fun x => (x.f.name, x.value s)), (0 : UInt8) ∉ p.1 := by
          have hfl := (hrules r hr').fields
          revert hfit hfl
          generalize r.parts = ps
          generalize tr.map (fun x => (x.f.name, x.value s)) = vs
          intro hfit hfl
          clear hdrop hc hmatch
          induction hfit with
          | nil => intro p hp; cases hp
          | ty h1 h2 h3 ih =>
            intro p hp
            rcases List.mem_cons.1 hp with rfl | hp
            · exact (hfl _ (List.mem_cons_self ..)).2.2.1
            · exact ih (fun p hp => hfl p (List.mem_cons_of_mem _ hp)) p hp
          | rest h1 =>
            intro p hp
            rw [List.mem_singleton] at hp
            subst hp
            exact (hfl _ (List.mem_cons_self ..)).2.2
        exact fun x hx => this _ (List.mem_map.2 ⟨x, hx, rfl⟩)
      have hev : v1Event s o tr = v1Place o (tr.map fun x => (x.f.name, x.value s)) := by
        unfold v1Event v1Place
        rw [← List.map_reverse, List.foldl_map]
        have : ∀ (l : List V1Step) (o : Obj), (∀ x ∈ l, (0 : UInt8) ∉ x.f.name) →
            l.foldl (fun o x => if x.f.name = bs! "-" then o else Obj.add o (cstr x.f.name) (x.value s)) o =
            l.foldl (fun o x => if x.f.name = bs! "-" then o else Obj.add o x.f.name (x.value s)) o := by
          intro l
          induction l with
          | nil => exact fun _ _ => rfl
          | cons a l ih =>
            intro o h
            rw [List.foldl_cons, List.foldl_cons, cstr_noNul fun c hc h0 => h a (List.mem_cons_self ..) (h0 ▸ hc)]
            exact ih _ fun x hx => h x (List.mem_cons_of_mem _ hx)
        exact this _ _ fun x hx => hnames x (List.mem_reverse.1 hx)
      unfold v1Outcome
      have htg : (r.sample E).tags = if r.tags = [] then none else some r.tags := rfl
      rw [htg] at hdel
      by_cases hnil : r.tags = []
      · rw [if_pos hnil] at hdel ⊢
        rw [← hev]; exact hdel
      · rw [if_neg hnil] at hdel ⊢
        rw [← hev]; exact hdel
  · rintro ⟨r, hr', vs, hasc, t, hst, hfit⟩
    obtain ⟨tr, htr, hlt⟩ := V1Rule.match_of_fits hz hrun hle hfit (E.env.unescape r.lit).length
      (by rw [hst]; simp) (by rw [hst, List.drop_left]) (hTmem r hr')
    have hmatch : V1Match run s 0 (r.sample E).toks tr := by
      rw [V1Rule.sample_toks]
      exact V1Match.chars (c := t) hst (by rw [Nat.zero_add]; exact htr)
    refine C64_no_match_lost_partial hF.toV1RunIn hsamp (List.mem_map.2 ⟨r, hr', rfl⟩) ?_ hmatch hlt hres
    intro c hc
    rw [V1Rule.sample_toks, List.mem_append] at hc
    rcases hc with hc | hc
    · obtain ⟨d, hd', he'⟩ := List.mem_map.1 hc
      cases he'
      exact hasc _ (List.mem_cons_self ..) c hd'
    · obtain ⟨p, hp, hc⟩ := List.mem_flatMap.1 hc
      rcases List.mem_cons.1 hc with hc | hc
      · cases hc
      · obtain ⟨d, hd', he'⟩ := List.mem_map.1 hc
        cases he'
        exact hasc _ (List.mem_cons_of_mem _ (List.mem_map.2 ⟨p, hp, rfl⟩)) c hd'
  · exact C70_no_match_partial hF.toV1RunIn hsamp hz hres hmt

end


/-! ### examples, and what does not hold -/

namespace Ex
/-- a rulebase with a comment, prefixes, two rules and an annotation -/
def docA : List RLine :=
  [.skip (bs! "# c"), .prefix_ (bs! "["), .rule [bs! "a"] (bs! "%n:tokenized:, :interpret:int:number%]"), .extend (bs! "x"),
   .rule [bs! "b", bs! "c"] (bs! "%t:word% %r:rest%"), .annotate (bs! "a") [([], bs! "k", bs! "v"), (bs! " ", bs! "l", bs! "w")]]
/-- its rules -/
def rulesA : List V1Rule :=
  [⟨[bs! "a"], bs! "[", [(.ty (bs! "n") tInts, bs! "]")]⟩, ⟨[bs! "b", bs! "c"], bs! "[x", [(.ty (bs! "t") tWord, bs! " "), (.rest (bs! "r"), [])]⟩]

theorem tWord_ok : tWord.OK E1 := ⟨⟨by decide, by decide, by decide, by simp⟩, by decide, rfl, trivial, by decide⟩

theorem E1_tok : E1.env.TokOK := by
  intro t v n h
  have h : (if t = bs! "{} " then some (Json.obj [], 3) else if t = bs! "{}" then some (Json.obj [], 2) else if t = bs! "[]" then some (Json.arr [], 2) else none) = some (v, n) := h
  split at h
  · rename_i h1; simp only [Option.some.injEq, Prod.mk.injEq] at h; rw [h1, ← h.2]; decide
  split at h
  · rename_i h1; simp only [Option.some.injEq, Prod.mk.injEq] at h; rw [h1, ← h.2]; decide
  split at h
  · rename_i h1; simp only [Option.some.injEq, Prod.mk.injEq] at h; rw [h1, ← h.2]; decide
  · cases h

theorem docA_text : textOf (docA.map RLine.text) (RLine.skip []).text =
    bs! "# c\nprefix=[\nrule=a:%n:tokenized:, :interpret:int:number%]\nextendprefix=x\nrule=b,c:%t:word% %r:rest%\nannotate=a:+k=\"v\" +l=\"w\"\n" := by decide +kernel
theorem docA_lines : ∀ l ∈ docA ++ [RLine.skip []], l.OK1 ∧ V1LineOK l.text := by
  intro l hl
  simp only [docA, List.cons_append, List.nil_append, List.mem_cons, List.not_mem_nil, or_false] at hl
  rcases hl with rfl | rfl | rfl | rfl | rfl | rfl | rfl
  all_goals refine ⟨?_, by decide +kernel, by decide +kernel⟩
  · rfl
  · trivial
  · exact ⟨by unfold TagOK; decide, by decide⟩
  · trivial
  · exact ⟨by unfold TagOK; decide, by decide⟩
  · exact ⟨by unfold Word; decide, by unfold Blanks Word; decide⟩
  · rfl
theorem docA_extend : ExtendOK none (docA ++ [RLine.skip []]) := by
  simp [ExtendOK, docA, RLine.nextPrefix]
theorem docA_texts : docTexts none (docA ++ [RLine.skip []]) = rulesA.map fun r => (r.tags, r.text) := by decide +kernel
theorem rulesA_ok : ∀ r ∈ rulesA, r.OK E1 := by
  intro r hr
  simp only [rulesA, List.mem_cons, List.not_mem_nil, or_false] at hr
  rcases hr with rfl | rfl
  · refine ⟨?_, by decide, ?_⟩
    · intro p hp
      simp only [List.mem_cons, List.not_mem_nil, or_false] at hp
      subst hp
      exact ⟨⟨by decide, by decide, by decide⟩, by decide, by decide, tInts_ok⟩
    · intro a b nm l h
      rcases a with _ | ⟨x, a⟩ <;> simp at h
  · refine ⟨?_, by decide, ?_⟩
    · intro p hp
      simp only [List.mem_cons, List.not_mem_nil, or_false] at hp
      rcases hp with rfl | rfl
      · exact ⟨⟨by decide, by decide, by decide⟩, by decide, by decide, tWord_ok⟩
      · exact ⟨⟨by decide, by decide, by decide⟩, by decide, by decide⟩
    · intro a b nm l h
      rcases a with _ | ⟨x, _ | ⟨y, a⟩⟩ <;> simp at h
      obtain ⟨-, ⟨-, rfl⟩, rfl⟩ := h
      exact ⟨by decide, rfl⟩
end Ex

/-- all hypotheses of `C74_end_to_end_partial` hold for this rulebase and the message `[1, 22]`, and the first rule makes up the message -/
example : ∃ L, v1LoadText Ex.E1 .root 100 {}
      (bs! "# c\nprefix=[\nrule=a:%n:tokenized:, :interpret:int:number%]\nextendprefix=x\nrule=b,c:%t:word% %r:rest%\nannotate=a:+k=\"v\" +l=\"w\"\n") = .ok L ∧
    ∃ n₀, ∀ n, n₀ ≤ n → ∃ res, v1NormN Ex.E1 L n .root (bs! "[1, 22]") [] = .ok res ∧ res.matched = true := by
  have h := C74_end_to_end_partial (E := Ex.E1) (ls := Ex.docA) (last := .skip []) (fuel := 100) (rules := Ex.rulesA) (s := bs! "[1, 22]") (by decide) Ex.E1_tok
    Ex.docA_lines Ex.docA_extend (by decide +kernel) Ex.docA_texts Ex.rulesA_ok (by decide +kernel) (by decide) (by decide) ?_ ?_
  · rw [Ex.docA_text] at h
    obtain ⟨L, h1, n₀, h2⟩ := h
    refine ⟨L, h1, n₀, fun n hn => ?_⟩
    obtain ⟨res, h3, -, h4, -⟩ := h2 n hn []
    refine ⟨res, h3, h4 ⟨_, List.mem_cons_self .., [(bs! "n", .arr [.int 1, .int 22])], by unfold V1Rule.Ascii; decide, bs! "1, 22]", by decide, ?_⟩⟩
    exact .ty (n := 5) (t' := []) (by decide) (.inr ⟨_, .more (n := 1) (m := 2) (r := bs! "22]") (by decide)
      (.inl ⟨by decide, bs! "1", ⟨⟨by decide, by decide, by decide, by decide⟩, by decide⟩, rfl⟩) (by decide)
      (.last (by decide) (.inl ⟨by decide, bs! "22", ⟨⟨by decide, by decide, by decide, by decide⟩, by decide⟩, rfl⟩) (by decide)), by decide⟩) (by decide) .nil
  · intro i
    exact Nat.le_trans (List.takeWhile_sublist _).length_le (by simp [List.length_drop]; omega)
  · intro r hr x hx
    simp only [Ex.rulesA, List.mem_cons, List.not_mem_nil, or_false] at hr
    rcases hr with rfl | rfl <;> simp [V1Rule.types] at hx <;> subst hx <;> trivial

/-- what the rulebase does with messages -/
example : Ex.v1t (bs! "# c\nprefix=[\nrule=a:%n:tokenized:, :interpret:int:number%]\nextendprefix=x\nrule=b,c:%t:word% %r:rest%\n") (bs! "[xab cd") =
    .ok ⟨true, [(bs! "r", .str (bs! "cd")), (bs! "t", .str (bs! "ab")), (bs! "event.tags", .arr [.str (bs! "b"), .str (bs! "c")])]⟩ := by decide +kernel

/-- C74, violated: an `extendprefix=` line without a prefix to extend dereferences NULL. -/
theorem C74_extend_violated : Ex.v1t (bs! "extendprefix=x\n") (bs! "x") = .ub .nullDeref := by decide +kernel

theorem v1ReadLine_shorter : ∀ (inp acc : Bytes) (inP cm : Bool), (v1ReadLine inp acc inP cm).eof = false →
    (v1ReadLine inp acc inP cm).rest.length < inp.length
  | [], acc, inP, cm, h => by rw [v1ReadLine] at h; cases h
  | c :: t, acc, inP, cm, h => by
    rw [v1ReadLine] at h ⊢
    have ih := v1ReadLine_shorter t
    have ih' : ∀ acc inP cm, (v1ReadLine t acc inP cm).eof = false → (v1ReadLine t acc inP cm).rest.length < (c :: t).length :=
      fun a b d h => Nat.lt_succ_of_lt (ih a b d h)
    split at h
    · rename_i h1; rw [if_pos h1]; exact ih' _ _ _ h
    · rename_i h1
      rw [if_neg h1]
      split at h
      · rename_i h2
        rw [if_pos h2]
        split at h
        · rename_i h3; rw [if_pos h3]; exact ih' _ _ _ h
        · rename_i h3
          rw [if_neg h3]
          split at h
          · rename_i h4; rw [if_pos h4]; exact Nat.lt_succ_self _
          · rename_i h4; rw [if_neg h4]; exact ih' _ _ _ h
      · rename_i h2
        rw [if_neg h2]
        split at h
        · rename_i h3; rw [if_pos h3]; exact ih' _ _ _ h
        · rename_i h3
          rw [if_neg h3]
          split at h
          · rename_i h4; rw [if_pos h4]; exact Nat.lt_succ_self _
          · rename_i h4; rw [if_neg h4]; exact ih' _ _ _ h

theorem v1ReadAll_rounds (E : V1Env) (self : V1CtxId) (fuel : Nat) : ∀ (n m : Nat) (st : V1Load) (inp : Bytes), inp.length < n → inp.length < m →
    v1ReadAll E self fuel n st inp = v1ReadAll E self fuel m st inp
  | 0, _, _, _, h, _ => absurd h (Nat.not_lt_zero _)
  | _ + 1, 0, _, _, _, h => absurd h (Nat.not_lt_zero _)
  | n + 1, m + 1, st, inp, hn, hm => by
    rw [v1ReadAll, v1ReadAll]
    congr 1
    funext st'
    split
    · rfl
    · rename_i he
      have := v1ReadLine_shorter inp [] false false (by simpa using he)
      exact v1ReadAll_rounds E self fuel n m st' _ (by omega) (by omega)

/-- C74, violated: 10240 bytes is too long for a line: its first 10240 bytes are lost without an error, and what follows them is read as if it were a line of its own. -/
theorem C74_long_line_violated (E : V1Env) (self : V1CtxId) (fuel : Nat) (st : V1Load) {l : Bytes} (t : Bytes) (hlen : l.length = 10240)
    (hl : ∀ c ∈ l, c ≠ ch! '\n') (hc : l.head? ≠ some (ch! '#')) :
    v1LoadText E self fuel st (l ++ t) = v1LoadText E self fuel st t := by
  obtain ⟨l, c, rfl⟩ : ∃ l' c, l = l' ++ [c] := by
    rcases List.eq_nil_or_concat l with h | ⟨l', c, h⟩
    · rw [h] at hlen; cases hlen
    · exact ⟨l', c, by rw [h, List.concat_eq_append]⟩
  simp only [List.length_append, List.length_singleton] at hlen
  have hcm : isComment l = false := by
    cases l with
    | nil => rfl
    | cons a l => simpa [isComment] using hc
  have h1 : v1ReadLine ((l ++ [c]) ++ t) [] false false = ⟨none, t, false⟩ := by
    rw [List.append_assoc, v1ReadLine_text _ l [] false (fun x hx => hl x (List.mem_append_left _ hx)) (by simp; omega) (fun _ => hcm), List.nil_append, List.singleton_append,
      v1ReadLine, if_neg (by simp), if_neg (hl c (by simp)), if_neg (by
        rintro ⟨_, h⟩
        rw [h] at hlen
        simp at hlen), if_pos (by unfold v1MaxLine; omega)]
  unfold v1LoadText
  rw [v1ReadAll]
  simp only [h1, R.ok_bind', Bool.false_eq_true, if_false]
  exact v1ReadAll_rounds E self fuel _ _ st t (by simp; omega) (by omega)

/-- such lines exist, and what follows can be a rule -/
example : ∃ l : Bytes, l.length = 10240 ∧ (∀ c ∈ l, c ≠ ch! '\n') ∧ l.head? ≠ some (ch! '#') ∧
    v1LoadText Ex.E2 .root 100 {} (bs! "rule=:ab\n") ≠ .ok {} :=
  ⟨List.replicate 10240 97, List.length_replicate, fun c h => by rw [List.eq_of_mem_replicate h]; decide, by
    rw [List.head?_replicate]; decide, by decide +kernel⟩

/-- C74, violated: white space at the end of an `annotate=` line makes loading loop forever: it ends with no amount of fuel. -/
theorem C74_annotate_blank_violated (E : V1Env) (self : V1CtxId) (st : V1Load) (fuel : Nat) :
    v1ProcessSamp E self fuel st (bs! "annotate=a:+k=\"v\" ") = .oof := by
  have h0 : ∀ (n : Nat) (a : Annot), v1AnnotLoop n a (bs! " ") = .oof := by
    intro n
    induction n with
    | zero => intro a; rfl
    | succ n ih =>
      intro a
      rw [v1AnnotLoop, if_neg (by decide)]
      have : v1AnnotationOp (bs! " ") = .ok none (bs! " ") := by decide
      simp only [this]
      exact ih a
  have h1 : ∀ n a, v1AnnotLoop n a (bs! "+k=\"v\" ") = .oof := by
    intro n a
    cases n with
    | zero => rfl
    | succ n =>
      rw [v1AnnotLoop, if_neg (by decide)]
      have : v1AnnotationOp (bs! "+k=\"v\" ") = .ok (some ⟨true, some (bs! "k"), some (bs! "v")⟩) (bs! " ") := by decide
      simp only [this]
      exact h0 _ _
  have h2 : lineType (bs! "annotate=a:+k=\"v\" ") = (bs! "annotate", bs! "a:+k=\"v\" ") := by decide
  unfold v1ProcessSamp
  rw [h2]
  have e1 : getFieldName (bs! "a:+k=\"v\" ") = (some (bs! "a"), bs! ":+k=\"v\" ") := by decide
  have e2 : (bs! ":+k=\"v\" ").dropWhile isSpace = ch! ':' :: bs! "+k=\"v\" " := by decide
  have : v1ProcessAnnotate fuel st (bs! "a:+k=\"v\" ") = .oof := by
    unfold v1ProcessAnnotate
    rw [e1]
    dsimp only
    rw [e2]
    dsimp only
    rw [if_neg (by decide), h1]
    rfl
  simp only [this]
  rfl

/-- C74, violated: `type=` and `include=` lines, which the second version knows, are ignored without any error. -/
theorem C74_unknown_lines_violated : v1LoadText Ex.E2 .root 100 {} (bs! "type=@t:%a:number%\ninclude=f\n") = .ok {} := by decide +kernel

theorem v1AnnotLoop_cont (tl : Bytes) : ∀ (ops : List (Bytes × Bytes × Bytes)) (fuel : Nat) (a : Annot),
    (∀ o ∈ ops, Blanks o.1 ∧ Word o.2.1 ∧ o.2.2 ≠ [] ∧ ∀ c ∈ o.2.2, c ≠ ch! '"') → ops.length ≤ fuel →
    ∃ a', v1AnnotLoop fuel a (annotText ops ++ tl) = v1AnnotLoop (fuel - ops.length) a' tl
  | [], fuel, a, _, _ => ⟨a, by simp [annotText]⟩
  | o :: ops, 0, a, _, h => by simp at h
  | o :: ops, fuel + 1, a, ho, h => by
    have h1 := ho o (List.mem_cons_self ..)
    obtain ⟨a', ih⟩ := v1AnnotLoop_cont tl ops fuel (addAnnotOp a { add := true, name := some o.2.1, value := some o.2.2 })
      (fun x hx => ho x (List.mem_cons_of_mem _ hx)) (by simpa using h)
    have e : annotText (o :: ops) ++ tl = o.1 ++ bs! "+" ++ o.2.1 ++ bs! "=\"" ++ o.2.2 ++ bs! "\"" ++ (annotText ops ++ tl) := by
      simp [annotText]
    have hne : annotText (o :: ops) ++ tl ≠ [] := by rw [e]; simp
    have hv : v1AnnotationOp (annotText (o :: ops) ++ tl) = getAnnotationOp (annotText (o :: ops) ++ tl) := by
      unfold v1AnnotationOp
      rw [if_neg]
      rw [e]
      have e2 : o.1 ++ bs! "+" ++ o.2.1 ++ bs! "=\"" ++ o.2.2 ++ bs! "\"" ++ (annotText ops ++ tl) =
          o.1 ++ ch! '+' :: (o.2.1 ++ bs! "=\"" ++ o.2.2 ++ bs! "\"" ++ (annotText ops ++ tl)) := by simp
      rw [e2, dropWhile_blanks h1.1 (by decide)]
      simp
    refine ⟨a', ?_⟩
    conv => lhs; unfold v1AnnotLoop
    rw [if_neg hne]
    dsimp only
    rw [hv, e, getAnnotationOp_text h1.1 h1.2.1 h1.2.2.1 h1.2.2.2]
    dsimp only
    rw [ih, List.length_cons, Nat.add_sub_add_right]

/-- C74: in version 1 there are no comments behind annotations: an `annotate=` line with one is dropped as a whole, with all of its operations, whatever the
comment says. -/
theorem C74_annotation_comment (E : V1Env) (self : V1CtxId) (st : V1Load) {tag : Bytes} {ops : List (Bytes × Bytes × Bytes)} (htag : Word tag)
    (hops : ∀ o ∈ ops, Blanks o.1 ∧ Word o.2.1 ∧ o.2.2 ≠ [] ∧ ∀ c ∈ o.2.2, c ≠ ch! '"') {bl : Bytes} (hbl : Blanks bl) (comment : Bytes) {fuel : Nat}
    (hf : ops.length < fuel) :
    v1ProcessSamp E self fuel st (bs! "annotate=" ++ tag ++ bs! ":" ++ annotText ops ++ bl ++ bs! "#" ++ comment) = .ok st := by
  have e : bs! "annotate=" ++ tag ++ bs! ":" ++ annotText ops ++ bl ++ bs! "#" ++ comment =
      bs! "annotate" ++ ch! '=' :: (tag ++ ch! ':' :: (annotText ops ++ (bl ++ ch! '#' :: comment))) := by simp
  unfold v1ProcessSamp
  rw [e, lineType_kind (by decide)]
  dsimp only
  rw [if_neg (by decide), if_neg (by decide), if_neg (by decide), if_pos rfl]
  unfold v1ProcessAnnotate
  rw [getFieldName_word htag (by decide)]
  have e2 : (ch! ':' :: (annotText ops ++ (bl ++ ch! '#' :: comment))).dropWhile isSpace = ch! ':' :: (annotText ops ++ (bl ++ ch! '#' :: comment)) :=
    dropWhile_append_stop (p := isSpace) (c := ch! ':') (by decide) _ [] (by simp)
  dsimp only
  rw [e2]
  dsimp only
  obtain ⟨a', h1⟩ := v1AnnotLoop_cont (bl ++ ch! '#' :: comment) ops fuel { tag := tag, ops := [] } hops (Nat.le_of_lt hf)
  rw [if_neg (by decide), h1]
  obtain ⟨k, hk⟩ : ∃ k, fuel - ops.length = k + 1 := ⟨fuel - ops.length - 1, by omega⟩
  have h2 : v1AnnotationOp (bl ++ ch! '#' :: comment) = .fail none := by
    unfold v1AnnotationOp
    rw [dropWhile_blanks hbl (by decide)]
    rfl
  rw [hk, v1AnnotLoop, if_neg (by simp)]
  simp only [h2]
  rfl

example : v1ProcessSamp Ex.E2 .root 9 {} (bs! "annotate=a:+k=\"v\" # text") = .ok {} ∧
    v1ProcessSamp Ex.E2 .root 9 {} (bs! "annotate=a:+k=\"v\"") ≠ .ok {} := by decide +kernel

end LN
