import Verif.Spec.DocR
import Verif.Proofs.RepeatFin
import Verif.Proofs.RepeatTotal
import Verif.Props.Include
import Verif.Props.FieldConf
/- C80: rule bases with a rule with repeat fields, from text to event. -/
set_option autoImplicit false
namespace LN
open Spec

section
variable {env : Env} {srt : Sorter} {fs : Bytes → Option Bytes}

theorem litFields_of {t : Bytes} (h : ∀ c ∈ t, c ≠ 0) : FieldsOf env (litParsers t) (RuleR.litFields t) := by
  induction t with
  | nil => exact .nil
  | cons c t ih =>
    refine .cons ?_ (ih fun x hx => h x (List.mem_cons_of_mem _ hx))
    have hc : c ≠ 0 := h c (List.mem_cons_self ..)
    obtain ⟨p, h1, h2⟩ : ∃ p, confField env [] (.obj (RuleD.litTok c).2) = some p ∧ p.kind = .literal (some [c]) ∧ p.name = none := by
      obtain ⟨p, h1, ⟨w, hw, hk⟩, hn, _⟩ := confField_ok (env := env) (litTok_desc hc)
      have := hw.1
      cases this
      exact ⟨p, h1, hk, by rw [hn]; rfl⟩
    have := FieldOf.plain h1 (by rw [h2.1]; simp)
    rw [h2.1, h2.2] at this
    exact this

theorem FieldsOf.append : ∀ {a b : List Json} {fa fb : List Fld}, FieldsOf env a fa → FieldsOf env b fb → FieldsOf env (a ++ b) (fa ++ fb)
  | _, _, _, _, .nil, h => h
  | _, _, _, _, .cons h t, h' => .cons h (t.append h')

theorem RuleR.fieldsOf {r : RuleR} (hr : ∀ p ∈ r.parts, p.OK env) :
    FieldsOf env (ruleConfs env r.lit (r.parts.map fun p => (p.conf, p.after))) (r.fields env) := by
  unfold ruleConfs RuleR.fields
  refine (litFields_of (litMeaning_ne _)).append ?_
  generalize r.parts = ps at hr
  induction ps with
  | nil => exact .nil
  | cons p ps ih =>
    exact .cons (hr p (List.mem_cons_self ..)).desc ((litFields_of (litMeaning_ne _)).append (ih fun q hq => hr q (List.mem_cons_of_mem _ hq)))

theorem RuleR.lex {r : RuleR} (hr : ∀ p ∈ r.parts, p.OK env) :
    (lexRule env r.text).confs = ruleConfs env r.lit (r.parts.map fun p => (p.conf, p.after)) ∧ (lexRule env r.text).fin = .complete ∧ (lexRule env r.text).errs = [] := by
  have := C49_rule_text (env := env) r.lit (r.parts.map fun p => (p.written, p.conf, p.after)) (by
    intro p hp
    obtain ⟨x, hx, rfl⟩ := List.mem_map.1 hp
    exact (hr x hx).decl)
  simp only [List.map_map, Function.comp_def] at this
  exact this

/-- the operations, safety and reports of a rule base -/
theorem doc_opsR : ∀ (ls : List Loc) (pfx : Option Bytes) (rules : List RuleR),
    (∀ l ∈ ls, ∀ nm t, l.what ≠ .type nm t) → ExtendOK pfx (ls.map (·.what)) →
    docRules pfx ls = rules.map (fun r => (r.tags, r.text, r.file, r.line)) →
    (∀ r ∈ rules, ∀ p ∈ r.parts, p.OK env) →
    locOps env pfx ls = rules.map (fun r => BOp.rule (ruleConfs env r.lit (r.parts.map fun p => (p.conf, p.after))) true (tagBucket r.tags) r.file r.line) ∧
      DocSafe env pfx (ls.map (·.what)) ∧
      docErrs env pfx (ls.map (·.what)) = (ls.map (·.what)).filterMap fun l => match l with | .unknown k _ => some (.invalidRecord k) | _ => none
  | [], pfx, rules, _, _, h, _ => by
    cases rules with
    | nil => exact ⟨rfl, trivial, rfl⟩
    | cons r rs => cases h
  | ⟨fl, n, l⟩ :: ls, pfx, rules, hty, hext, h, hf => by
    have hty' := fun x hx => hty x (List.mem_cons_of_mem _ hx)
    cases l with
    | rule tags t =>
      change (tags, pfx.getD [] ++ t, fl, n) :: docRules (RLine.nextPrefix pfx (.rule tags t)) ls = _ at h
      cases rules with
      | nil => cases h
      | cons r rs =>
        simp only [List.map_cons, List.cons.injEq, Prod.mk.injEq] at h
        obtain ⟨⟨h1, h2, h4, h3⟩, h⟩ := h
        obtain ⟨i1, i2, i3⟩ := doc_opsR ls _ rs hty' hext.2 h fun x hx => hf x (List.mem_cons_of_mem _ hx)
        obtain ⟨l1, l2, l3⟩ := RuleR.lex (hf r (List.mem_cons_self ..))
        rw [← h2] at l1 l2 l3
        refine ⟨?_, ⟨?_, i2⟩, ?_⟩
        · unfold locOps
          rw [i1]
          simp only [RLine.ops, l1, l2, h1, decide_true]
          rw [List.map_cons, h3, h4]
          rfl
        · intro k; rw [l2]; intro hc; cases hc
        · rw [List.map_cons]
          unfold docErrs
          rw [i3]
          simp only [RLine.errs, l3]
          rfl
    | type nm t => exact absurd rfl (hty _ (List.mem_cons_self ..) nm t)
    | extend t =>
      obtain ⟨i1, i2, i3⟩ := doc_opsR ls _ rules hty' hext.2 h hf
      exact ⟨i1, ⟨hext.1 t rfl, i2⟩, i3⟩
    | skip t =>
      obtain ⟨i1, i2, i3⟩ := doc_opsR ls _ rules hty' hext.2 h hf
      exact ⟨i1, ⟨trivial, i2⟩, i3⟩
    | prefix_ t =>
      obtain ⟨i1, i2, i3⟩ := doc_opsR ls _ rules hty' hext.2 h hf
      exact ⟨i1, ⟨trivial, i2⟩, i3⟩
    | annotate tag ops =>
      obtain ⟨i1, i2, i3⟩ := doc_opsR ls _ rules hty' hext.2 h hf
      exact ⟨i1, ⟨trivial, i2⟩, i3⟩
    | unknown k t =>
      obtain ⟨i1, i2, i3⟩ := doc_opsR ls _ rules hty' hext.2 h hf
      refine ⟨i1, ⟨trivial, i2⟩, ?_⟩
      rw [List.map_cons]
      unfold docErrs
      rw [i3]
      rfl

/-- tags, annotations and metadata -/
theorem finishMatch_docR {ctx : Ctx} (ls : List RLine) (hok : ∀ l ∈ ls, l.OK) (hline : ∀ l ∈ ls, ∀ c ∈ l.text, c ≠ 0)
    (han : ctx.annots = annotSet (ls.flatMap RLine.annots)) {r : RuleR} {vs : List (Option Bytes × Option Json)} {s : Bytes}
    {e : NodeId} {rule : Bytes} {o : Obj} (hopts : ctx.opts.testBit 3 = false)
    (m1 : (ctx.node e).tags = tagBucket r.tags) (m2 : (ctx.node e).rbFile = some r.file) (m3 : (ctx.node e).rbLine = r.line) (hr0 : ∀ c ∈ r.file, c ≠ 0) :
    finishMatch ctx s rule e (placeValues o vs) = .ok (r.event ls ctx.opts vs s o) := by
  have h4 : ctx.has 0x04 = ctx.opts.testBit 2 := has_testBit ctx 2
  have h8 : ctx.has 0x08 = ctx.opts.testBit 3 := has_testBit ctx 3
  have h10 : ctx.has 0x10 = ctx.opts.testBit 4 := has_testBit ctx 4
  have htags : addTags ctx e (placeValues o vs) = .ok (if r.tags = [] then placeValues o vs
      else annotated ls r.tags (Obj.add (placeValues o vs) (bs! "event.tags") (.arr (r.tags.map Json.str)))) := by
    unfold addTags
    rw [m1]
    unfold tagBucket
    by_cases ht : r.tags = []
    · rw [if_pos ht, if_pos ht]
    · rw [if_neg ht, if_neg ht, han]
      exact annotate_doc ls hok hline _ _
  unfold finishMatch
  rw [htags, R.ok_bind']
  unfold addRuleMetadata metaMockup metaLocation
  rw [m2, m3, h4, h8, h10, hopts]
  unfold RuleR.event
  have hfile : newString r.file = .str r.file := by unfold newString; rw [cstr_noNul hr0]
  simp only [Bool.false_eq_true, if_false, R.ok_bind']
  by_cases hb4 : ctx.opts.testBit 4 = true
  · simp only [hb4, if_true, R.ok_bind', Option.getD_none, hfile]
    rfl
  · simp only [hb4, if_false, R.ok_bind']
    rfl

/-- what C80 says of a loaded rule base -/
def NormalisesAsR (env : Env) (ls : List RLine) (r : RuleR) (st : LoadSt) : Prop :=
  ∀ (opts : Nat) (s : Bytes), Tame s → Fld.SaneAll env s (r.fields env) → opts.testBit 3 = false →
    ∀ (stats : NodeId → Stats) (json0 : Obj), ∃ N, ∀ fuel, N ≤ fuel → ∃ res,
      normalize env fuel (st.b.toCtx opts st.annots) stats s json0 = .ok res ∧ OutcomeR env ls r opts s json0 res.ok res.json

theorem doc_coreR (he : env.TokOK) (locs : List Loc) (ls : List RLine) (hls : locs.map (·.what) = ls) (hok : ∀ l ∈ ls, l.OK)
    (hline : ∀ l ∈ ls, ∀ c ∈ l.text, c ≠ 0) (hext : ExtendOK none ls) (hty : ∀ l ∈ ls, ∀ nm t, l ≠ .type nm t)
    (r : RuleR) (hrules : docRules none locs = [(r.tags, r.text, r.file, r.line)])
    (hf : ∀ p ∈ r.parts, p.OK env) (hfile0 : ∀ c ∈ r.file, c ≠ 0) :
    ∃ b, runOps env srt (locOps env none locs ++ [.optimize]) = .ok b ∧ DocSafe env none ls ∧
      docErrs env none ls = (ls.filterMap fun l => match l with | .unknown k _ => some (.invalidRecord k) | _ => none) ∧
      ∀ (opts : Nat) (s : Bytes), Tame s → Fld.SaneAll env s (r.fields env) → opts.testBit 3 = false →
        ∀ (stats : NodeId → Stats) (json0 : Obj), ∃ N, ∀ fuel, N ≤ fuel → ∃ res,
          normalize env fuel (b.toCtx opts (annotSet (ls.flatMap RLine.annots))) stats s json0 = .ok res ∧
            OutcomeR env ls r opts s json0 res.ok res.json := by
  obtain ⟨hops, hsafe, herrs⟩ := doc_opsR (env := env) locs none [r] (fun l hl => hty l.what (by rw [← hls]; exact List.mem_map.2 ⟨l, hl, rfl⟩))
    (by rw [hls]; exact hext) hrules (fun x hx => by rw [List.mem_singleton.1 hx]; exact hf)
  rw [hls] at hsafe herrs
  obtain ⟨b1, b2, h1, h2, h3, h4⟩ := single_rule (srt := srt) (RuleR.fieldsOf hf) (tagBucket r.tags) r.file r.line
  have hrun : runOps env srt (locOps env none locs ++ [.optimize]) = .ok b2 := by
    unfold runOps
    rw [hops, foldlM_append_R]
    simp only [List.map_cons, List.map_nil, List.foldlM_cons, List.foldlM_nil]
    show ((BOp.run env srt initBld _).bind _).bind _ = _
    unfold BOp.run
    dsimp only
    rw [h1]
    show (pdagOptimize srt b1).bind _ = _
    rw [h2]; rfl
  refine ⟨b2, hrun, hsafe, herrs, ?_⟩
  intro opts s hs hsane hopts stats json0
  have hn0 : ∀ c ∈ s, c ≠ 0 := fun c hc => (hs.ascii c hc).1
  have hstr : ∀ i, newString (s.drop i) = .str (s.drop i) := by
    intro i; unfold newString; rw [cstr_noNul fun c hc => hn0 c (List.mem_of_mem_drop hc)]
  rcases Fld.SaneAll.outcome he hs _ hsane 0 (Nat.zero_le _) with ⟨vs, off', hr, hle⟩ | ⟨a, hr, hle⟩
  · by_cases hend : off' = s.length
    · subst hend
      obtain ⟨fs', e, ⟨vs', g1, g2⟩, g3, g4, g5, g6, g7, g8⟩ := h4 opts (annotSet (ls.flatMap RLine.annots))
        (fun fs => ∃ vs', Reads env s (.all fs 0 vs' s.length) ∧ SamePut vs vs') (by
          rintro fs fs' hm ⟨vs', k1, k2⟩
          obtain ⟨vs'', k3, k4⟩ := k1.merges hn0 fs' hm
          exact ⟨vs'', k3, k2.trans k4⟩) ⟨vs, hr, fun _ => rfl⟩
      obtain ⟨N, hN⟩ := normalize_reads g3 g4 g5 g1
      refine ⟨N, fun fuel hfuel => ?_⟩
      obtain ⟨rule, st, hnorm⟩ := hN fuel hfuel stats json0
      rw [g2 json0] at hnorm
      rw [show List.foldr (fun x o => place o x.1 x.2) json0 vs = placeValues json0 vs from rfl,
        finishMatch_docR ls hok hline rfl hopts g6 g7 g8 hfile0, R.ok_bind'] at hnorm
      refine ⟨_, hnorm, ?_, ?_, ?_⟩
      · exact ⟨fun _ => ⟨vs, hr⟩, fun _ => rfl⟩
      · intro us hus
        obtain ⟨rfl, _⟩ := hr.det.1 _ _ hus
        rfl
      · intro h; cases h
    · obtain ⟨fs', e, ⟨vs', g1⟩, g3, g4, g5, _⟩ := h4 opts (annotSet (ls.flatMap RLine.annots))
        (fun fs => ∃ vs', Reads env s (.all fs 0 vs' off')) (by
          rintro fs fs' hm ⟨vs', k1⟩
          obtain ⟨vs'', k3, k4⟩ := k1.merges hn0 fs' hm
          exact ⟨vs'', k3⟩) ⟨vs, hr⟩
      obtain ⟨N, hN⟩ := normalize_stuck g3 (.inr ⟨vs', g1, hend⟩) hle
      refine ⟨N, fun fuel hfuel => ?_⟩
      obtain ⟨st, hnorm⟩ := hN fuel hfuel stats json0
      refine ⟨_, hnorm, ?_, ?_, ?_⟩
      · refine ⟨(fun h => by cases h), ?_⟩
        rintro ⟨us, hus⟩
        exact absurd (hr.det.1 _ _ hus).2.symm hend
      · intro us hus
        exact absurd (hr.det.1 _ _ hus).2.symm hend
      · intro _
        refine ⟨off', hle, by rw [← hstr], ?_, ?_⟩
        · intro us e' hus
          exact (hr.det.1 _ _ hus).2.symm
        · intro a ha
          exact absurd ha (hr.det.2 a)
  · obtain ⟨fs', e, ⟨a', g0, g1⟩, g3, g4, g5, _⟩ := h4 opts (annotSet (ls.flatMap RLine.annots))
      (fun fs => ∃ a', a' ≤ a ∧ Reads env s (.stuck fs 0 a')) (by
        rintro fs fs' hm ⟨a', k0, k1⟩
        obtain ⟨a'', k3, k4⟩ := k1.merges hn0 fs' hm
        exact ⟨a'', Nat.le_trans k3 k0, k4⟩) ⟨a, Nat.le_refl _, hr⟩
    obtain ⟨N, hN⟩ := normalize_stuck g3 (.inl g1) (Nat.le_trans g0 hle)
    refine ⟨N, fun fuel hfuel => ?_⟩
    obtain ⟨st, hnorm⟩ := hN fuel hfuel stats json0
    refine ⟨_, hnorm, ?_, ?_, ?_⟩
    · refine ⟨(fun h => by cases h), ?_⟩
      rintro ⟨us, hus⟩
      exact absurd hus (hr.det.2 _ _)
    · intro us hus
      exact absurd hus (hr.det.2 _ _)
    · intro _
      refine ⟨a', Nat.le_trans g0 hle, by rw [← hstr], ?_, ?_⟩
      · intro us e' hus
        exact absurd hus (hr.det.2 _ _)
      · intro x hx
        rw [hr.det.1 _ hx]; exact g0


theorem doc_quietR : ∀ (ls : List Loc) (pfx : Option Bytes) (rules : List RuleR),
    docRules pfx ls = rules.map (fun r => (r.tags, r.text, r.file, r.line)) → (∀ l ∈ ls, ∀ nm t, l.what ≠ .type nm t) →
    (∀ r ∈ rules, ∀ p ∈ r.parts, p.OK env) → DocQuiet env pfx (ls.map (·.what))
  | [], pfx, rules, _, _, _ => trivial
  | ⟨fl, n, l⟩ :: ls, pfx, rules, h, hty, hf => by
    have hty' := fun x hx => hty x (List.mem_cons_of_mem _ hx)
    cases l with
    | rule tags t =>
      change (tags, pfx.getD [] ++ t, fl, n) :: docRules (RLine.nextPrefix pfx (.rule tags t)) ls = _ at h
      cases rules with
      | nil => cases h
      | cons r rs =>
        simp only [List.map_cons, List.cons.injEq, Prod.mk.injEq] at h
        obtain ⟨⟨h1, h2, h4, h3⟩, h⟩ := h
        refine ⟨?_, doc_quietR ls _ rs h hty' fun x hx => hf x (List.mem_cons_of_mem _ hx)⟩
        obtain ⟨l1, l2, l3⟩ := RuleR.lex (hf r (List.mem_cons_self ..))
        rw [← h2] at l3
        exact l3
    | type nm t => exact absurd rfl (hty _ (List.mem_cons_self ..) nm t)
    | extend t => exact ⟨rfl, doc_quietR ls _ rules h hty' hf⟩
    | skip t => exact ⟨rfl, doc_quietR ls _ rules h hty' hf⟩
    | prefix_ t => exact ⟨rfl, doc_quietR ls _ rules h hty' hf⟩
    | annotate tag ops => exact ⟨rfl, doc_quietR ls _ rules h hty' hf⟩
    | unknown k t => exact ⟨rfl, doc_quietR ls _ rules h hty' hf⟩

/-- **C80** Loading a rule base of version 2 with a rule which may contain repeat fields (nested to any depth, with `permitMismatchInParser` or not), from its
text, and normalising a message with it gives what the text says: see `OutcomeR` and `Reads`. This holds for every message on which the repetitions make progress
(`Fld.SaneAll`); else see `C07_repeat_empty_violated`.
Missing: several rules; user-defined types and `alternative` beside `repeat`; option 0x08; where exactly `unparsed-data` starts if literal text does not match;
messages out of scope (C06). -/
theorem C80_end_to_end_partial (he : env.TokOK) (ls : List RLine) (hok : ∀ l ∈ ls, l.OK) (hline : ∀ l ∈ ls, LineOK l.text)
    (hext : ExtendOK none ls) (hty : ∀ l ∈ ls, ∀ nm t, l ≠ .type nm t) (fuel : Nat) (hfuel : ∀ l ∈ ls, l.text.length ≤ fuel)
    (r : RuleR) (hrules : docRules none (numbered (bs! "--NO-FILE--") 0 ls) = [(r.tags, r.text, r.file, r.line)]) (hf : ∀ p ∈ r.parts, p.OK env) :
    ∃ st, loadSamplesFromString env srt fs fuel {} (docText ls) = .ok (st, true) ∧
      st.errs = (ls.filterMap fun l => match l with | .unknown k _ => some (.invalidRecord k) | _ => none) ∧ NormalisesAsR env ls r st := by
  have hwhat := numbered_what (bs! "--NO-FILE--") ls 0
  obtain ⟨b, h1, hsafe, herrs, h2⟩ := doc_coreR (srt := srt) he _ ls hwhat hok (fun l hl c hc => ((hline l hl).1 c hc).2.1) hext hty r hrules hf (by
    obtain ⟨l, hl, e⟩ := docRules_file _ none (r.tags, r.text, r.file, r.line) (by rw [hrules]; exact List.mem_cons_self ..)
    change l.file = r.file at e
    rw [← e, numbered_file ls 0 l hl]
    decide)
  refine ⟨_, by rw [load_document ls hok hline hsafe fuel hfuel, docOps_numbered, h1, R.ok_bind'], herrs, ?_⟩
  unfold NormalisesAsR
  exact h2

/-- **C80** with included files and lines broken inside of field descriptions (see C78) -/
theorem C80_string_end_to_end_partial (he : env.TokOK) (is : List Item) (hok : itemsOK fs .string is) (ls : List RLine)
    (hls : (itemsLines (bs! "--NO-FILE--") 0 is).map (·.what) = ls) (hext : ExtendOK none ls) (hty : ∀ l ∈ ls, ∀ nm t, l ≠ .type nm t)
    (fuel : Nat) (hfuel : itemsSize is ≤ fuel) (r : RuleR)
    (hrules : docRules none (itemsLines (bs! "--NO-FILE--") 0 is) = [(r.tags, r.text, r.file, r.line)]) (hf : ∀ p ∈ r.parts, p.OK env) :
    ∃ st, loadSamplesFromString env srt fs fuel {} (itemsText is) = .ok (st, true) ∧ st.errs = itemsReports is ∧ NormalisesAsR env ls r st := by
  have hl := items_lines_ok (fs := fs) (src := .string) (file := bs! "--NO-FILE--") (by decide) is 0 hok
  have hl' : ∀ l ∈ ls, l.OK ∧ ∀ c ∈ l.text, c ≠ 0 := by
    intro l h
    rw [← hls] at h
    obtain ⟨x, hx, rfl⟩ := List.mem_map.1 h
    exact ⟨(hl x hx).1, (hl x hx).2.1⟩
  have hq := doc_quietR _ none [r] hrules (fun l h => hty l.what (by rw [← hls]; exact List.mem_map.2 ⟨l, h, rfl⟩))
    (fun x hx => by rw [List.mem_singleton.1 hx]; exact hf)
  rw [hls] at hq
  obtain ⟨b, h1, hsafe, _, h2⟩ := doc_coreR (srt := srt) he _ ls hls (fun l h => (hl' l h).1) (fun l h => (hl' l h).2) hext hty r hrules hf (by
    obtain ⟨l, g1, g2⟩ := docRules_file _ none (r.tags, r.text, r.file, r.line) (by rw [hrules]; exact List.mem_cons_self ..)
    change l.file = r.file at g2
    rw [← g2]
    exact (hl l g1).2.2)
  refine ⟨_, by rw [C78_string is hok (by rw [hls]; exact hsafe) fuel hfuel, h1, R.ok_bind'], ?_, ?_⟩
  · exact items_quiet is none [] 0 (by rw [itemsLines_what is [] _ 0 _, hls]; exact hq)
  · rw [hls]; exact h2

/-- **C80** the same for files -/
theorem C80_file_end_to_end_partial (he : env.TokOK) (name : Bytes) (hname : ∀ c ∈ name, c ≠ 0) (is : List Item)
    (hfile : fs name = some (bs! "version=2\n" ++ itemsText is)) (hok : itemsOK fs .file is) (ls : List RLine)
    (hls : (itemsLines name 1 is).map (·.what) = ls) (hext : ExtendOK none ls) (hty : ∀ l ∈ ls, ∀ nm t, l ≠ .type nm t)
    (fuel : Nat) (hfuel : itemsSize is ≤ fuel) (r : RuleR)
    (hrules : docRules none (itemsLines name 1 is) = [(r.tags, r.text, r.file, r.line)]) (hf : ∀ p ∈ r.parts, p.OK env) :
    ∃ st, loadSamples env srt fs (fuel + 1) {} name = .ok (st, true) ∧ st.errs = itemsReports is ∧ NormalisesAsR env ls r st := by
  have hl := items_lines_ok (fs := fs) (src := .file) (file := name) hname is 1 hok
  have hl' : ∀ l ∈ ls, l.OK ∧ ∀ c ∈ l.text, c ≠ 0 := by
    intro l h
    rw [← hls] at h
    obtain ⟨x, hx, rfl⟩ := List.mem_map.1 h
    exact ⟨(hl x hx).1, (hl x hx).2.1⟩
  have hq := doc_quietR _ none [r] hrules (fun l h => hty l.what (by rw [← hls]; exact List.mem_map.2 ⟨l, h, rfl⟩))
    (fun x hx => by rw [List.mem_singleton.1 hx]; exact hf)
  rw [hls] at hq
  obtain ⟨b, h1, hsafe, _, h2⟩ := doc_coreR (srt := srt) he _ ls hls (fun l h => (hl' l h).1) (fun l h => (hl' l h).2) hext hty r hrules hf (by
    obtain ⟨l, g1, g2⟩ := docRules_file _ none (r.tags, r.text, r.file, r.line) (by rw [hrules]; exact List.mem_cons_self ..)
    change l.file = r.file at g2
    rw [← g2]
    exact (hl l g1).2.2)
  refine ⟨_, by rw [C78_file name is hfile hok (by rw [hls]; exact hsafe) fuel hfuel, h1, R.ok_bind'], ?_, ?_⟩
  · exact items_quiet is none [] 0 (by rw [itemsLines_what is [] _ 0 _, hls]; exact hq)
  · rw [hls]; exact h2

/-- **C80** What `Reads` says of plain fields, in terms of field types: a description of a plain field (see C75) denotes a field which takes what its type and its
parameters say, with the value they say. Missing: as in C75. -/
theorem C80_plain_field_partial {f : FType} {o : Obj} (h : Describes f o) :
    ∃ k, FieldOf env (.obj o) (.plain k (fieldName o)) ∧
      ∀ (s : Bytes) (off : Nat), Tame s → off ≤ s.length → f.InScope env o s off (fieldName o).isSome →
        (∀ n v, f.Means env o (s.drop off) n v → Reads env s (.takes (.plain k (fieldName o)) off (off + n) (if (fieldName o).isSome then v else none))) ∧
        ((∀ n v, ¬ f.Means env o (s.drop off) n v) → Reads env s (.refuses (.plain k (fieldName o)) off)) := by
  obtain ⟨p, h1, h2, h3, h4, h5⟩ := confField_ok (env := env) h
  refine ⟨p.kind, ?_, ?_⟩
  · rw [← h3]
    refine .plain h1 ?_
    intro hk
    rw [hk] at h2
    cases f <;> simp [KindFor] at h2
  · intro s off ht hl hs
    rw [← h3] at hs ⊢
    obtain ⟨g1, g2⟩ := C75_field_means_partial h h1 ht hl hs
    exact ⟨fun n v hm => .plain (g1 n v hm), fun hn => .noPlain (g2 hn)⟩

end

/-! ### a concrete case -/

/-- a repetition whose separator is a literal makes progress, whatever the message (without NUL) is -/
theorem lit_progress {env : Env} {s : Bytes} (h0 : ∀ c ∈ s, c ≠ 0) {el : List Fld} {c : UInt8} {t : Bytes} :
    ∀ (off e e' : Nat) (vs us : List (Option Bytes × Option Json)), Reads env s (.all el off vs e) →
      Reads env s (.all [.plain (.literal (some (c :: t))) none] e us e') → off < e' := by
  intro off e e' vs us h1 h2
  have := h1.all_le
  cases h2 with
  | cons h t =>
    cases t with
    | nil =>
      cases h with
      | plain h =>
        obtain ⟨_, hlen, _⟩ := (runLiteral_iff h0 rfl).1 h
        dsimp only at this
        rw [hlen, List.length_cons]
        omega

namespace Ex

/-- `%l:repeat{...}%`: numbers with lists of numbers, which may be empty -/
def repText : Bytes := bs! "{\"while\":{\"type\":\"literal\",\"text\":\", \"},\"parser\":[{\"type\":\"number\",\"name\":\"x\"},{\"type\":\"literal\",\"text\":\":\"},{\"type\":\"repeat\",\"name\":\"y\",\"Option.PermitMismatchInParser\":true,\"parser\":{\"type\":\"number\",\"name\":\".\"},\"while\":[{\"type\":\"literal\",\"text\":\"-\"}]}]}"
def repInner : Obj := [(bs! "type", .str (bs! "repeat")), (bs! "name", .str (bs! "y")),
  (bs! "Option.PermitMismatchInParser", .bool true),
  (bs! "parser", .obj [(bs! "type", .str (bs! "number")), (bs! "name", .str (bs! "."))]),
  (bs! "while", .arr [.obj [(bs! "type", .str (bs! "literal")), (bs! "text", .str (bs! "-"))]])]
def repObj : Obj := [
  (bs! "while", .obj [(bs! "type", .str (bs! "literal")), (bs! "text", .str (bs! ", "))]),
  (bs! "parser", .arr [.obj [(bs! "type", .str (bs! "number")), (bs! "name", .str (bs! "x"))],
    .obj [(bs! "type", .str (bs! "literal")), (bs! "text", .str (bs! ":"))], .obj repInner])]
/-- a JSON library which knows this text -/
def envR : Env := { env with tok := fun b => if repText.isPrefixOf b then some (.obj repObj, repText.length) else none }

def fldNum (nm : Bytes) : Fld := .plain (.number {}) (some nm)
def fldLit (t : Bytes) : Fld := .plain (.literal (some t)) none
def fldInner : Fld := .rep (some (bs! "y")) [fldNum (bs! ".")] [fldLit (bs! "-")] true
def fldRep : Fld := .rep (some (bs! "l")) [fldNum (bs! "x"), fldLit (bs! ":"), fldInner] [fldLit (bs! ", ")] false

def docRep : List RLine := [.prefix_ (bs! "a "), .rule [bs! "t"] (bs! "%l:repeat" ++ repText ++ bs! "% end"), .annotate (bs! "t") [([], bs! "k", bs! "v")]]
def ruleRep : RuleR where
  tags := [bs! "t"]
  lit := bs! "a "
  parts := [⟨.params [] (bs! "l") (bs! "repeat") [] repText, .obj ([(bs! "name", .str (bs! "l")), (bs! "type", .str (bs! "repeat"))] ++ repObj), fldRep, bs! " end"⟩]
  file := bs! "--NO-FILE--"
  line := 2

theorem tokEnvR : envR.TokOK := by
  intro t v n h
  simp only [envR] at h
  split at h
  · rename_i ht
    cases h
    exact (List.isPrefixOf_iff_prefix.1 ht).length_le
  · cases h

theorem readsR : ReadsAs envR repText (.obj repObj) := by
  intro rest
  simp only [envR]
  rw [if_pos]
  exact List.isPrefixOf_iff_prefix.2 (List.prefix_append ..)

theorem numOf (c : Json) (nm : Bytes) (p : Parser) (h : confField envR [] c = some p) (h1 : p.kind = .number {}) (h2 : p.name = some nm) :
    FieldOf envR c (fldNum nm) := by
  have := FieldOf.plain h (by rw [h1]; intro h; cases h)
  rw [h1, h2] at this
  exact this

theorem litOf (c : Json) (t : Bytes) (p : Parser) (h : confField envR [] c = some p) (h1 : p.kind = .literal (some t)) (h2 : p.name = none) :
    FieldOf envR c (fldLit t) := by
  have := FieldOf.plain h (by rw [h1]; intro h; cases h)
  rw [h1, h2] at this
  exact this

theorem innerOf : FieldOf envR (.obj repInner) fldInner :=
  .rep (ce := .obj [(bs! "type", .str (bs! "number")), (bs! "name", .str (bs! "."))])
    (cs := .arr [.obj [(bs! "type", .str (bs! "literal")), (bs! "text", .str (bs! "-"))]]) (by decide +kernel) (by decide +kernel) (by decide +kernel) (.one _) (.list _)
    (.cons (numOf _ (bs! ".") _ rfl rfl rfl) .nil)
    (.cons (litOf _ (bs! "-") _ rfl rfl rfl) .nil) (by simp) (by simp) (by simp [fldLit, Fld.name]) (.inl (by decide)) (by
      intro m hm hp
      simp only [repInner, List.mem_cons, List.not_mem_nil, or_false] at hm
      rcases hm with rfl | rfl | rfl | rfl | rfl
      · exact absurd hp (by unfold IsPermit; decide)
      · exact absurd hp (by unfold IsPermit; decide)
      · rfl
      · exact absurd hp (by unfold IsPermit; decide)
      · exact absurd hp (by unfold IsPermit; decide)) (fun _ => ⟨(bs! "Option.PermitMismatchInParser", .bool true), by simp [repInner], by unfold IsPermit; decide⟩)

theorem repOf : FieldOf envR (.obj ([(bs! "name", .str (bs! "l")), (bs! "type", .str (bs! "repeat"))] ++ repObj)) fldRep :=
  .rep (ce := .arr [.obj [(bs! "type", .str (bs! "number")), (bs! "name", .str (bs! "x"))],
      .obj [(bs! "type", .str (bs! "literal")), (bs! "text", .str (bs! ":"))], .obj repInner])
    (cs := .obj [(bs! "type", .str (bs! "literal")), (bs! "text", .str (bs! ", "))]) (by decide +kernel) (by decide +kernel) (by decide +kernel) (.list _) (.one _)
    (.cons (numOf _ (bs! "x") _ rfl rfl rfl) (.cons (litOf _ (bs! ":") _ rfl rfl rfl) (.cons innerOf .nil)))
    (.cons (litOf _ (bs! ", ") _ rfl rfl rfl) .nil) (by simp) (by simp) (by simp [fldLit, Fld.name]) (.inr (by decide +kernel)) (by
      intro m hm hp
      simp only [repObj, List.mem_append, List.mem_cons, List.not_mem_nil, or_false] at hm
      rcases hm with (rfl | rfl) | rfl | rfl
      · exact absurd hp (by unfold IsPermit; decide)
      · exact absurd hp (by unfold IsPermit; decide)
      · exact absurd hp (by unfold IsPermit; decide)
      · exact absurd hp (by unfold IsPermit; decide)) (fun h => by cases h)

theorem ruleRep_ok : ∀ p ∈ ruleRep.parts, p.OK envR := by
  intro p hp
  simp only [ruleRep, List.mem_cons, List.not_mem_nil, or_false] at hp
  subst hp
  exact ⟨.params (by simp [Blanks]) ⟨by decide, by decide, _, _, rfl, by decide, by decide, by decide, by decide⟩ ⟨by decide, by decide⟩ (by simp [Blanks])
    rfl readsR (by decide) (by decide) (by decide), repOf⟩

theorem docRep_ok : (∀ l ∈ docRep, l.OK) ∧ (∀ l ∈ docRep, LineOK l.text) ∧ ExtendOK none docRep ∧ (∀ l ∈ docRep, ∀ nm t, l ≠ .type nm t) ∧
    (∀ l ∈ docRep, l.text.length ≤ 1000) ∧
    docRules none (numbered (bs! "--NO-FILE--") 0 docRep) = [(ruleRep.tags, ruleRep.text, ruleRep.file, ruleRep.line)] := by
  refine ⟨?_, by decide +kernel, ?_, ?_, by decide +kernel, by decide +kernel⟩
  · intro l hl
    simp only [docRep, List.mem_cons, List.not_mem_nil, or_false] at hl
    rcases hl with rfl | rfl | rfl
    · trivial
    · exact ⟨by simp [TagOK], by decide⟩
    · exact ⟨⟨by decide, by decide⟩, by simp [Blanks, Word]; decide⟩
  · simp [ExtendOK, docRep, RLine.nextPrefix]
  · intro l hl nm t
    simp only [docRep, List.mem_cons, List.not_mem_nil, or_false] at hl
    rcases hl with rfl | rfl | rfl <;> intro h <;> cases h

/-- the repetitions make progress, on every message without NUL -/
theorem ruleRep_sane (s : Bytes) (h0 : ∀ c ∈ s, c ≠ 0) : Fld.SaneAll envR s (ruleRep.fields envR) := by
  have h1 : Fld.Sane envR s fldInner := by
    unfold fldInner
    rw [Fld.Sane]
    refine ⟨?_, ?_, lit_progress h0⟩
    · simp [Fld.SaneAll, Fld.Sane, fldNum, Parser.Configured]
    · simp [Fld.SaneAll, Fld.Sane, fldLit, Parser.Configured]
  have h2 : Fld.Sane envR s fldRep := by
    unfold fldRep
    rw [Fld.Sane]
    refine ⟨?_, ?_, lit_progress h0⟩
    · simp only [Fld.SaneAll, h1, and_true]
      simp [Fld.Sane, fldNum, fldLit, Parser.Configured]
    · simp [Fld.SaneAll, Fld.Sane, fldLit, Parser.Configured]
  have e : ruleRep.fields envR = [fldLit (bs! "a"), fldLit (bs! " "), fldRep, fldLit (bs! " "), fldLit (bs! "e"), fldLit (bs! "n"), fldLit (bs! "d")] := by
    rfl
  rw [e]
  simp only [Fld.SaneAll, h2, and_true, true_and]
  simp [Fld.Sane, fldLit, Parser.Configured]

theorem msgR_tame : Tame (bs! "a 1:2-3, 4: end") := by
  refine ⟨by decide, ?_, by decide⟩
  have h : ∀ i < 16, (((bs! "a 1:2-3, 4: end").drop i).takeWhile isDigit).length ≤ 9 := by decide
  intro i
  by_cases hi : i < 16
  · exact h i hi
  · rw [List.drop_eq_nil_of_le (by rw [show (bs! "a 1:2-3, 4: end").length = 15 from rfl]; omega)]
    decide

/-- the values of the example -/
def valsR : List (Option Bytes × Option Json) :=
  [(none, none), (none, none), (some (bs! "l"), some (.arr [
      .obj [(bs! "y", .arr [.str (bs! "2"), .str (bs! "3")]), (bs! "x", .str (bs! "1"))], .obj [(bs! "y", .null), (bs! "x", .str (bs! "4"))]])),
    (none, none), (none, none), (none, none), (none, none)]

theorem rdLit {s t : Bytes} {off : Nat} (off' : Nat) (h : runParser envR s off (.literal (some t)) false = .ok (t.length, none)) (he : off + t.length = off') :
    Reads envR s (.takes (fldLit t) off off' none) := by
  subst he
  exact .plain h

theorem rdNum {s nm : Bytes} {off : Nat} (n off' : Nat) (v : Json) (h : runParser envR s off (.number {}) true = .ok (n, some v)) (he : off + n = off') :
    Reads envR s (.takes (fldNum nm) off off' (some v)) := by
  subst he
  exact .plain h

theorem ruleRep_reads : Reads envR (bs! "a 1:2-3, 4: end") (.all (ruleRep.fields envR) 0 valsR 15) := by
  have e : ruleRep.fields envR = [fldLit (bs! "a"), fldLit (bs! " "), fldRep, fldLit (bs! " "), fldLit (bs! "e"), fldLit (bs! "n"), fldLit (bs! "d")] := by
    rfl
  rw [e]
  have i1 : Reads envR (bs! "a 1:2-3, 4: end") (.takes fldInner 4 7 (some (.arr [.str (bs! "2"), .str (bs! "3")]))) :=
    .rep (nm := some (bs! "y")) (.more (.cons (rdNum 1 5 (.str (bs! "2")) (by decide) rfl) .nil) (.cons (rdLit 6 (by decide) rfl) .nil)
      (.last (.cons (rdNum 1 7 (.str (bs! "3")) (by decide) rfl) .nil) (.here (.noPlain (by decide)))))
  have i2 : Reads envR (bs! "a 1:2-3, 4: end") (.takes fldInner 11 11 none) := .repNone (.here (.noPlain (by decide)))
  have l1 : Reads envR (bs! "a 1:2-3, 4: end") (.takes fldRep 2 11 (some (.arr [
      .obj [(bs! "y", .arr [.str (bs! "2"), .str (bs! "3")]), (bs! "x", .str (bs! "1"))], .obj [(bs! "y", .null), (bs! "x", .str (bs! "4"))]]))) :=
    .rep (nm := some (bs! "l")) (.more (.cons (rdNum 1 3 (.str (bs! "1")) (by decide) rfl) (.cons (rdLit 4 (by decide) rfl) (.cons i1 .nil)))
      (.cons (rdLit 9 (by decide) rfl) .nil)
      (.last (.cons (rdNum 1 10 (.str (bs! "4")) (by decide) rfl) (.cons (rdLit 11 (by decide) rfl) (.cons i2 .nil))) (.here (.noPlain (by decide)))))
  exact .cons (rdLit 1 (by decide) rfl) (.cons (rdLit 2 (by decide) rfl) (.cons l1 (.cons (rdLit 12 (by decide) rfl) (.cons (rdLit 13 (by decide) rfl)
    (.cons (rdLit 14 (by decide) rfl) (.cons (rdLit 15 (by decide) rfl) .nil))))))

/-- the rule base and the message meet the hypotheses: the message is reported as matched, with the event the rule says -/
example (srt : Sorter) (fs : Bytes → Option Bytes) : ∃ st, loadSamplesFromString envR srt fs 1000 {} (docText docRep) = .ok (st, true) ∧ ∃ N, ∀ fuel, N ≤ fuel →
    ∃ res, normalize envR fuel (st.b.toCtx 20 st.annots) (fun _ => {}) (bs! "a 1:2-3, 4: end") [] = .ok res ∧ res.ok = true ∧ res.json =
      [(bs! "l", .arr [.obj [(bs! "y", .arr [.str (bs! "2"), .str (bs! "3")]), (bs! "x", .str (bs! "1"))], .obj [(bs! "y", .null), (bs! "x", .str (bs! "4"))]]),
       (bs! "event.tags", .arr [.str (bs! "t")]), (bs! "k", .str (bs! "v")), (bs! "originalmsg", .str (bs! "a 1:2-3, 4: end")),
       (bs! "metadata", .obj [(bs! "rule", .obj [(bs! "location", .obj [(bs! "file", .str (bs! "--NO-FILE--")), (bs! "line", .int 2)])])])] := by
  obtain ⟨h1, h2, h3, h4, h5, h6⟩ := docRep_ok
  obtain ⟨st, hl, _, hn⟩ := C80_end_to_end_partial (srt := srt) (fs := fs) tokEnvR docRep h1 h2 h3 h4 1000 h5 ruleRep h6 ruleRep_ok
  refine ⟨st, hl, ?_⟩
  obtain ⟨N, hN⟩ := hn 20 (bs! "a 1:2-3, 4: end") msgR_tame (ruleRep_sane _ (by decide)) (by decide) (fun _ => {}) []
  refine ⟨N, fun fuel hf => ?_⟩
  obtain ⟨res, hres, ho⟩ := hN fuel hf
  refine ⟨res, hres, ho.iff.2 ⟨_, ruleRep_reads⟩, ?_⟩
  rw [ho.match_ _ ruleRep_reads]
  decide

/-- `%l:repeat{"parser":{"type":"number","name":"x"},"while":{"type":"literal","text":",","name":"s"}}%`: the separator has a name -/
def sepText : Bytes := bs! "{\"parser\":{\"type\":\"number\",\"name\":\"x\"},\"while\":{\"type\":\"literal\",\"text\":\",\",\"name\":\"s\"}}"
def sepObj : Obj := [(bs! "parser", .obj [(bs! "type", .str (bs! "number")), (bs! "name", .str (bs! "x"))]),
  (bs! "while", .obj [(bs! "type", .str (bs! "literal")), (bs! "text", .str (bs! ",")), (bs! "name", .str (bs! "s"))])]
def envS : Env := { env with tok := fun b => if sepText.isPrefixOf b then some (.obj sepObj, sepText.length) else none }
/-- load the rule and normalise a message with it -/
def runS (m : Bytes) : R Bool :=
  (loadSamplesFromString envS stableSorter (fun _ => none) 200 {} (bs! "rule=:%l:repeat" ++ sepText ++ bs! "%\n")).bind fun x =>
    (normalize envS 50 (x.1.b.toCtx 0 x.1.annots) (fun _ => {}) m []).bind fun r => .ok r.ok

end Ex

/-- **C80 is violated** if a field of the separator has a name: a message with a single element is normalised, but with a second element the name is stored
in an event which is not there (a null pointer is dereferenced). -/
theorem C80_named_separator_violated : Ex.runS (bs! "1") = .ok true ∧ Ex.runS (bs! "1,2") = .ub .nullDeref := by
  decide +kernel

end LN
