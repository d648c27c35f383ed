import Verif.Spec.DocRs
import Verif.Proofs.RepTreeFin
import Verif.Props.DocR
/- C80: rule bases with several rules with repeat fields, from text to event. -/
set_option autoImplicit false
namespace LN
open Spec

section
variable {env : Env} {srt : Sorter} {fs : Bytes → Option Bytes}

theorem litItems_confs (t : Bytes) : (RuleR.litItems t).map (·.1) = litParsers t := by
  unfold RuleR.litItems litParsers
  simp [Function.comp_def]

theorem litItems_fields (t : Bytes) : (RuleR.litItems t).map (·.2) = RuleR.litFields t := by
  unfold RuleR.litItems RuleR.litFields
  simp [Function.comp_def]

theorem items_confs (r : RuleR) : (r.items env).map (·.1) = ruleConfs env r.lit (r.parts.map fun p => (p.conf, p.after)) := by
  unfold RuleR.items ruleConfs
  rw [List.map_append, litItems_confs, List.map_flatMap, List.flatMap_map]
  simp only [List.map_cons, litItems_confs]

theorem items_fields (r : RuleR) : (r.items env).map (·.2) = r.fields env := by
  unfold RuleR.items RuleR.fields
  rw [List.map_append, litItems_fields, List.map_flatMap]
  simp only [List.map_cons, litItems_fields]

theorem fieldsOf_mem : ∀ {l : List (Json × Fld)}, FieldsOf env (l.map (·.1)) (l.map (·.2)) → ∀ x ∈ l, FieldOf env x.1 x.2
  | [], _, _, h => by cases h
  | y :: l, h, x, hx => by
    rw [List.map_cons, List.map_cons] at h
    cases h with
    | cons h1 h2 =>
      rcases List.mem_cons.1 hx with rfl | hx
      · exact h1
      · exact fieldsOf_mem h2 x hx

theorem items_eq {l l' : List (Json × Fld)} (h1 : l.map (·.1) = l'.map (·.1)) (h2 : l.map (·.2) = l'.map (·.2)) : l = l' := by
  induction l generalizing l' with
  | nil => cases l' with | nil => rfl | cons => cases h1
  | cons x l ih =>
    cases l' with
    | nil => cases h1
    | cons y l' =>
      simp only [List.map_cons, List.cons.injEq] at h1 h2
      rw [ih h1.2 h2.2, Prod.ext h1.1 h2.1]

/-- the rule as it reaches the graph -/
def RuleR.rule (env : Env) (r : RuleR) : Rule where
  confs := ruleConfs env r.lit (r.parts.map fun p => (p.conf, p.after))
  tags := tagBucket r.tags
  file := r.file
  line := r.line

theorem saneAll_mem {s : Bytes} : ∀ {fs : List Fld}, Fld.SaneAll env s fs → ∀ f ∈ fs, f.Sane env s
  | [], _, f, hf => by cases hf
  | g :: gs, h, f, hf => by
    rw [Fld.SaneAll] at h
    rcases List.mem_cons.1 hf with rfl | hf
    · exact h.1
    · exact saneAll_mem h.2 f hf

theorem cut_map {α β : Type} {g : α → β} : ∀ {l : List α} {p : List β} {c : β} {t : List β}, l.map g = p ++ c :: t →
    ∃ p' x t', l = p' ++ x :: t' ∧ p'.map g = p ∧ g x = c
  | [], p, c, t, h => by simp at h
  | a :: l, [], c, t, h => by
    simp only [List.map_cons, List.nil_append, List.cons.injEq] at h
    exact ⟨[], a, l, rfl, rfl, h.1⟩
  | a :: l, b :: p, c, t, h => by
    simp only [List.map_cons, List.cons_append, List.cons.injEq] at h
    obtain ⟨p', x, t', h1, h2, h3⟩ := cut_map h.2
    exact ⟨a :: p', x, t', by rw [h1]; rfl, by rw [List.map_cons, h.1, h2], h3⟩

theorem TellsApart.rules (he : env.TokOK) {s : Bytes} (hs : Tame s) {rules : List RuleR} (hf : ∀ r ∈ rules, ∀ p ∈ r.parts, p.OK env) (h : TellsApart env s rules)
    (hsane : ∀ r ∈ rules, Fld.SaneAll env s (r.fields env)) : ApartRules env s (rules.map (RuleR.rule env)) := by
  have hof : ∀ r ∈ rules, FieldsOf env ((r.items env).map (·.1)) ((r.items env).map (·.2)) := by
    intro r hr
    rw [items_confs, items_fields]
    exact RuleR.fieldsOf (hf r hr)
  have hx : ∀ r ∈ rules, ∀ p x t, r.items env = p ++ x :: t → FieldsOf env (p.map (·.1)) (p.map (·.2)) ∧ FieldOf env x.1 x.2 := by
    intro r hr p x t he
    have := hof r hr
    rw [he, List.map_append] at this
    obtain ⟨f1, f2, k1, k2, k3⟩ := this.split
    rw [List.map_append] at k1
    obtain ⟨e1, e2⟩ := List.append_inj k1 (by rw [k2.length]; simp)
    rw [← e1] at k2
    rw [← e2, List.map_cons, List.map_cons] at k3
    cases k3 with
    | cons k3 _ => exact ⟨k2, k3⟩
  refine ⟨?_, ?_, ?_⟩
  · intro r0 hr0 gs hgs f hfm
    obtain ⟨r, hr, rfl⟩ := List.mem_map.1 hr0
    have := hgs.det (RuleR.fieldsOf (hf r hr))
    subst this
    exact Fld.Sane.outcome he hs f (saneAll_mem (hsane r hr) f hfm)
  · intro r0 hr0 r0' hr0' π c c' t t' hc hc' hne f f' hff hff'
    obtain ⟨r, hr, rfl⟩ := List.mem_map.1 hr0
    obtain ⟨r', hr', rfl⟩ := List.mem_map.1 hr0'
    change ruleConfs env r.lit _ = _ at hc
    change ruleConfs env r'.lit _ = _ at hc'
    rw [← items_confs] at hc hc'
    obtain ⟨p, x, u, k1, k2, rfl⟩ := cut_map hc
    obtain ⟨p', x', u', k1', k2', rfl⟩ := cut_map hc'
    obtain ⟨g1, g2⟩ := hx r hr p x u k1
    obtain ⟨g1', g2'⟩ := hx r' hr' p' x' u' k1'
    rw [hff.det g2, hff'.det g2']
    have hp : p = p' := by
      refine items_eq (k2.trans k2'.symm) ?_
      rw [k2] at g1
      rw [k2'] at g1'
      exact g1.det g1'
    subst hp
    exact h.branch r hr r' hr' p x x' u u' k1 k1' fun e => hne (by rw [e])
  · intro r0 hr0 r0' hr0' c t hc f hff
    obtain ⟨r, hr, rfl⟩ := List.mem_map.1 hr0
    obtain ⟨r', hr', rfl⟩ := List.mem_map.1 hr0'
    change ruleConfs env r'.lit _ = ruleConfs env r.lit _ ++ _ at hc
    rw [← items_confs] at hc
    obtain ⟨p, x, u, k1, k2, rfl⟩ := cut_map hc
    obtain ⟨g1, g2⟩ := hx r' hr' p x u k1
    rw [hff.det g2]
    have hp : p = r.items env := by
      rw [← items_confs] at k2
      refine items_eq k2 ?_
      have := hof r hr
      rw [k2] at g1
      exact g1.det this
    rw [hp] at k1
    exact h.stop r hr r' hr' x u k1

/-- what C80 says of a loaded rule base with several rules -/
def NormalisesAsRs (env : Env) (ls : List RLine) (rules : List RuleR) (st : LoadSt) : Prop :=
  ∀ (opts : Nat) (s : Bytes), Tame s → (∀ r ∈ rules, Fld.SaneAll env s (r.fields env)) → TellsApart env s rules → opts.testBit 3 = false →
    ∀ (stats : NodeId → Stats) (json0 : Obj), ∃ N, ∀ fuel, N ≤ fuel → ∃ res,
      normalize env fuel (st.b.toCtx opts st.annots) stats s json0 = .ok res ∧ OutcomeRs env ls rules opts s json0 res.ok res.json

theorem doc_coreRs (he : env.TokOK) (locs : List Loc) (ls : List RLine) (hls : locs.map (·.what) = ls) (hok : ∀ l ∈ ls, l.OK)
    (hline : ∀ l ∈ ls, ∀ c ∈ l.text, c ≠ 0) (hext : ExtendOK none ls) (hty : ∀ l ∈ ls, ∀ nm t, l ≠ .type nm t)
    (rules : List RuleR) (hrules : docRules none locs = rules.map fun r => (r.tags, r.text, r.file, r.line))
    (hf : ∀ r ∈ rules, ∀ p ∈ r.parts, p.OK env) (hfile0 : ∀ r ∈ rules, ∀ c ∈ r.file, c ≠ 0) (hn : Narrow (rules.map (·.items env)))
    (hdist : rules.Pairwise fun r r' => r.items env ≠ r'.items env) :
    ∃ b, runOps env srt (locOps env none locs ++ [.optimize]) = .ok b ∧ DocSafe env none ls ∧
      docErrs env none ls = (ls.filterMap fun l => match l with | .unknown k _ => some (.invalidRecord k) | _ => none) ∧
      ∀ (opts : Nat) (s : Bytes), Tame s → (∀ r ∈ rules, Fld.SaneAll env s (r.fields env)) → TellsApart env s rules → opts.testBit 3 = false →
        ∀ (stats : NodeId → Stats) (json0 : Obj), ∃ N, ∀ fuel, N ≤ fuel → ∃ res,
          normalize env fuel (b.toCtx opts (annotSet (ls.flatMap RLine.annots))) stats s json0 = .ok res ∧
            OutcomeRs env ls rules opts s json0 res.ok res.json := by
  obtain ⟨hops, hsafe, herrs⟩ := doc_opsR (env := env) locs none rules (fun l hl => hty l.what (by rw [← hls]; exact List.mem_map.2 ⟨l, hl, rfl⟩))
    (by rw [hls]; exact hext) hrules hf
  rw [hls] at hsafe herrs
  have hfields : ∀ r ∈ rules, FieldsOf env (r.rule env).confs (r.fields env) := fun r hr => RuleR.fieldsOf (hf r hr)
  have hitems : ∀ r ∈ rules, ∀ r' ∈ rules, (r.rule env).confs = (r'.rule env).confs → r.items env = r'.items env := by
    intro r hr r' hr' e
    refine items_eq (by rw [items_confs, items_confs]; exact e) ?_
    rw [items_fields, items_fields]
    have h := hfields r hr
    rw [e] at h
    exact h.det (hfields r' hr')
  have hnd : ((rules.map (RuleR.rule env)).map (·.confs)).Nodup := by
    rw [List.map_map]
    refine List.pairwise_map.2 (List.Pairwise.imp_of_mem ?_ hdist)
    intro r r' hr hr' hne e
    exact hne (hitems r hr r' hr' e)
  have hnar : Narrow ((rules.map (RuleR.rule env)).map (·.confs)) := by
    refine (hn.map (f := Prod.fst) (P := fun x => FieldOf env x.1 x.2) ?_ ?_).mono ?_
    · intro x hx t ht
      obtain ⟨r, hr, rfl⟩ := List.mem_map.1 hx
      exact fieldsOf_mem (by rw [items_confs, items_fields]; exact hfields r hr) t ht
    · intro x y hx hy hxy
      obtain ⟨a, c⟩ := x
      obtain ⟨a', c'⟩ := y
      dsimp only at hxy hx hy
      subst hxy
      rw [hx.det hy]
    · intro x hx
      rw [List.map_map] at hx
      obtain ⟨r, hr, rfl⟩ := List.mem_map.1 hx
      refine List.mem_map.2 ⟨_, List.mem_map.2 ⟨r, hr, rfl⟩, items_confs ..⟩
  obtain ⟨b1, b2, h1, h2, h3, h4⟩ := rules_verdict (env := env) (srt := srt) (rs := rules.map (RuleR.rule env)) hnar (by
    intro r0 hr0
    obtain ⟨r, hr, rfl⟩ := List.mem_map.1 hr0
    exact ⟨rfl, _, hfields r hr⟩) hnd
  have hrun : runOps env srt (locOps env none locs ++ [.optimize]) = .ok b2 := by
    unfold runOps
    rw [hops, foldlM_append_R]
    have : rules.map (fun r => BOp.rule (ruleConfs env r.lit (r.parts.map fun p => (p.conf, p.after))) true (tagBucket r.tags) r.file r.line) =
        (rules.map (RuleR.rule env)).map Rule.toOp := by
      rw [List.map_map]; rfl
    rw [this]
    have h1' : List.foldlM (BOp.run env srt) initBld ((rules.map (RuleR.rule env)).map Rule.toOp) = .ok b1 := h1
    rw [h1', R.ok_bind']
    show (pdagOptimize srt b1).bind _ = _
    rw [h2]; rfl
  refine ⟨b2, hrun, hsafe, herrs, ?_⟩
  intro opts s hs hsane happ hopts stats json0
  have hn0 : ∀ c ∈ s, c ≠ 0 := fun c hc => (hs.ascii c hc).1
  have hstr : ∀ i, newString (s.drop i) = .str (s.drop i) := by
    intro i; unfold newString; rw [cstr_noNul fun c hc => hn0 c (List.mem_of_mem_drop hc)]
  rcases h4 s hn0 (happ.rules he hs hf hsane) opts (annotSet (ls.flatMap RLine.annots)) with ⟨r0, vs', e, hk, N, hN⟩ | ⟨i, hk, N, hN⟩
  · obtain ⟨r, hr, rfl⟩ := List.mem_map.1 hk.mem
    obtain ⟨vs, hvs, hput⟩ := hk.reads _ (hfields r hr)
    have hmark := hk.mark
    unfold Node.mark at hmark
    simp only [Prod.mk.injEq] at hmark
    refine ⟨N, fun fuel hfuel => ?_⟩
    obtain ⟨res, a1, a2, a3, a4⟩ := hN fuel hfuel stats json0
    have hnorm : normalize env fuel (b2.toCtx opts (annotSet (ls.flatMap RLine.annots))) stats s json0 = .ok ⟨true, r.event ls opts vs s json0, res.st.stats⟩ := by
      unfold normalize
      rw [show (b2.toCtx opts (annotSet (ls.flatMap RLine.annots))).root = b2.root from rfl, a1]
      simp only [bind, R.ok_bind', a2, a4, hk.term, if_true, a3]
      rw [hput json0]
      have hfin := finishMatch_docR (ctx := b2.toCtx opts (annotSet (ls.flatMap RLine.annots))) (s := s) (o := json0) (vs := vs) (rule := res.st.rule) ls hok hline rfl hopts
        hmark.1 hmark.2.1 hmark.2.2 (hfile0 r hr)
      rw [show List.foldr (fun x o => place o x.1 x.2) json0 vs = placeValues json0 vs from rfl, Option.getD_some, hfin]
      rfl
    refine ⟨_, hnorm, ?_, ?_, ?_⟩
    · exact ⟨fun _ => ⟨r, hr, vs, hvs⟩, fun _ => rfl⟩
    · intro r' hr' us hus
      have he' := hk.only _ (List.mem_map.2 ⟨r', hr', rfl⟩) _ us (hfields r' hr') hus
      have : r' = r := by
        have hi := hitems r' hr' r hr (by rw [he'])
        by_cases e' : r' = r
        · exact e'
        · exact absurd hi (pairwise_ne (fun a b h e => h e.symm) hdist hr' hr e')
      subst this
      obtain ⟨rfl, _⟩ := hvs.det.1 _ _ hus
      rfl
    · intro h; cases h
  · refine ⟨N, fun fuel hfuel => ?_⟩
    obtain ⟨res, a1, a2, a3, a4⟩ := hN fuel hfuel stats json0
    have hnorm : normalize env fuel (b2.toCtx opts (annotSet (ls.flatMap RLine.annots))) stats s json0 =
        .ok ⟨false, Obj.add (Obj.add json0 (bs! "originalmsg") (.str s)) (bs! "unparsed-data") (newString (s.drop i)), res.st.stats⟩ := by
      unfold normalize
      rw [show (b2.toCtx opts (annotSet (ls.flatMap RLine.annots))).root = b2.root from rfl, a1]
      simp only [bind, R.ok_bind', a2, a3, a4, Option.getD_some, addUnparsedField, if_neg (Nat.not_lt.2 hk.le)]
      rfl
    have hno : ∀ r ∈ rules, ∀ vs, ¬ Reads env s (.all (r.fields env) 0 vs s.length) := fun r hr vs =>
      hk.none_ _ (List.mem_map.2 ⟨r, hr, rfl⟩) _ vs (hfields r hr)
    refine ⟨_, hnorm, ?_, ?_, ?_⟩
    · refine ⟨(fun h => by cases h), ?_⟩
      rintro ⟨r, hr, vs, hvs⟩
      exact absurd hvs (hno r hr vs)
    · intro r hr vs hvs
      exact absurd hvs (hno r hr vs)
    · intro _
      refine ⟨i, hk.le, by rw [← hstr], ?_, ?_⟩
      · intro r hr a c hac hnt
        have := hfields r hr
        rw [hac] at this
        exact hk.far _ (List.mem_map.2 ⟨r, hr, rfl⟩) a c this hnt
      · refine hk.some_.imp id ?_
        rintro ⟨r0, hr0, a, c, vs, g1, g2⟩
        obtain ⟨r, hr, rfl⟩ := List.mem_map.1 hr0
        exact ⟨r, hr, a, c, vs, (hfields r hr).det g1, g2⟩

/-- **C80** Loading a rule base of version 2 with several rules, which may contain repeat fields (nested to any depth), from its text, and normalising a message with it
gives what the text says, if the message tells the rules apart: see `OutcomeRs`, `TellsApart` and `Reads`. (If it does not, the engine may miss a match or give the wrong
extent of a repetition, see C10.) Missing: as for a single rule; messages which do not tell the rules apart; rules which are given twice (C55). -/
theorem C80_rules_end_to_end_partial (he : env.TokOK) (ls : List RLine) (hok : ∀ l ∈ ls, l.OK) (hline : ∀ l ∈ ls, LineOK l.text)
    (hext : ExtendOK none ls) (hty : ∀ l ∈ ls, ∀ nm t, l ≠ .type nm t) (fuel : Nat) (hfuel : ∀ l ∈ ls, l.text.length ≤ fuel)
    (rules : List RuleR) (hrules : docRules none (numbered (bs! "--NO-FILE--") 0 ls) = rules.map fun r => (r.tags, r.text, r.file, r.line))
    (hf : ∀ r ∈ rules, ∀ p ∈ r.parts, p.OK env) (hn : Narrow (rules.map (·.items env))) (hdist : rules.Pairwise fun r r' => r.items env ≠ r'.items env) :
    ∃ st, loadSamplesFromString env srt fs fuel {} (docText ls) = .ok (st, true) ∧
      st.errs = (ls.filterMap fun l => match l with | .unknown k _ => some (.invalidRecord k) | _ => none) ∧ NormalisesAsRs env ls rules st := by
  have hwhat := numbered_what (bs! "--NO-FILE--") ls 0
  obtain ⟨b, h1, hsafe, herrs, h2⟩ := doc_coreRs (srt := srt) he _ ls hwhat hok (fun l hl c hc => ((hline l hl).1 c hc).2.1) hext hty rules hrules hf (by
    intro r hr
    obtain ⟨l, hl, e⟩ := docRules_file _ none (r.tags, r.text, r.file, r.line) (by rw [hrules]; exact List.mem_map.2 ⟨r, hr, rfl⟩)
    change l.file = r.file at e
    rw [← e, numbered_file ls 0 l hl]
    decide) hn hdist
  refine ⟨_, by rw [load_document ls hok hline hsafe fuel hfuel, docOps_numbered, h1, R.ok_bind'], herrs, ?_⟩
  unfold NormalisesAsRs
  exact h2

/-- **C80** several rules, with included files and lines broken inside of field descriptions (see C78) -/
theorem C80_rules_string_end_to_end_partial (he : env.TokOK) (is : List Item) (hok : itemsOK fs .string is) (ls : List RLine)
    (hls : (itemsLines (bs! "--NO-FILE--") 0 is).map (·.what) = ls) (hext : ExtendOK none ls) (hty : ∀ l ∈ ls, ∀ nm t, l ≠ .type nm t)
    (rules : List RuleR)
    (hrules : docRules none (itemsLines (bs! "--NO-FILE--") 0 is) = rules.map fun r => (r.tags, r.text, r.file, r.line)) (hf : ∀ r ∈ rules, ∀ p ∈ r.parts, p.OK env)
    (hn : Narrow (rules.map (·.items env))) (hdist : rules.Pairwise fun r r' => r.items env ≠ r'.items env) :
    ∃ st, (∀ fuel, itemsSize is ≤ fuel → loadSamplesFromString env srt fs fuel {} (itemsText is) = .ok (st, true)) ∧ st.version = 2 ∧
      st.errs = itemsReports is ∧ NormalisesAsRs env ls rules st := by
  have hl := items_lines_ok (fs := fs) (src := .string) (file := bs! "--NO-FILE--") (by decide) is 0 hok
  have hl' : ∀ l ∈ ls, l.OK ∧ ∀ c ∈ l.text, c ≠ 0 := by
    intro l h
    rw [← hls] at h
    obtain ⟨x, hx, rfl⟩ := List.mem_map.1 h
    exact ⟨(hl x hx).1, (hl x hx).2.1⟩
  have hq := doc_quietR _ none rules hrules (fun l h => hty l.what (by rw [← hls]; exact List.mem_map.2 ⟨l, h, rfl⟩)) hf
  rw [hls] at hq
  obtain ⟨b, h1, hsafe, _, h2⟩ := doc_coreRs (srt := srt) he _ ls hls (fun l h => (hl' l h).1) (fun l h => (hl' l h).2) hext hty rules hrules hf (by
    intro r hr
    obtain ⟨l, g1, g2⟩ := docRules_file _ none (r.tags, r.text, r.file, r.line) (by rw [hrules]; exact List.mem_map.2 ⟨r, hr, rfl⟩)
    change l.file = r.file at g2
    rw [← g2]
    exact (hl l g1).2.2) hn hdist
  refine ⟨_, fun fuel hfuel => by rw [C78_string is hok (by rw [hls]; exact hsafe) fuel hfuel, h1, R.ok_bind'], rfl, ?_, ?_⟩
  · exact items_quiet is none [] 0 (by rw [itemsLines_what is [] _ 0 _, hls]; exact hq)
  · rw [hls]; exact h2

/-- **C80** the same for files -/
theorem C80_rules_file_end_to_end_partial (he : env.TokOK) (name : Bytes) (hname : ∀ c ∈ name, c ≠ 0) (is : List Item)
    (hfile : fs name = some (bs! "version=2\n" ++ itemsText is)) (hok : itemsOK fs .file is) (ls : List RLine)
    (hls : (itemsLines name 1 is).map (·.what) = ls) (hext : ExtendOK none ls) (hty : ∀ l ∈ ls, ∀ nm t, l ≠ .type nm t)
    (rules : List RuleR)
    (hrules : docRules none (itemsLines name 1 is) = rules.map fun r => (r.tags, r.text, r.file, r.line)) (hf : ∀ r ∈ rules, ∀ p ∈ r.parts, p.OK env)
    (hn : Narrow (rules.map (·.items env))) (hdist : rules.Pairwise fun r r' => r.items env ≠ r'.items env) :
    ∃ st, (∀ fuel, itemsSize is ≤ fuel → loadSamples env srt fs (fuel + 1) {} name = .ok (st, true)) ∧ st.version = 2 ∧
      st.errs = itemsReports is ∧ NormalisesAsRs env ls rules st := by
  have hl := items_lines_ok (fs := fs) (src := .file) (file := name) hname is 1 hok
  have hl' : ∀ l ∈ ls, l.OK ∧ ∀ c ∈ l.text, c ≠ 0 := by
    intro l h
    rw [← hls] at h
    obtain ⟨x, hx, rfl⟩ := List.mem_map.1 h
    exact ⟨(hl x hx).1, (hl x hx).2.1⟩
  have hq := doc_quietR _ none rules hrules (fun l h => hty l.what (by rw [← hls]; exact List.mem_map.2 ⟨l, h, rfl⟩)) hf
  rw [hls] at hq
  obtain ⟨b, h1, hsafe, _, h2⟩ := doc_coreRs (srt := srt) he _ ls hls (fun l h => (hl' l h).1) (fun l h => (hl' l h).2) hext hty rules hrules hf (by
    intro r hr
    obtain ⟨l, g1, g2⟩ := docRules_file _ none (r.tags, r.text, r.file, r.line) (by rw [hrules]; exact List.mem_map.2 ⟨r, hr, rfl⟩)
    change l.file = r.file at g2
    rw [← g2]
    exact (hl l g1).2.2) hn hdist
  refine ⟨_, fun fuel hfuel => by rw [C78_file name is hfile hok (by rw [hls]; exact hsafe) fuel hfuel, h1, R.ok_bind'], rfl, ?_, ?_⟩
  · exact items_quiet is none [] 0 (by rw [itemsLines_what is [] _ 0 _, hls]; exact hq)
  · rw [hls]; exact h2

end

/-! ### a concrete case -/

theorem diverge {α : Type} : ∀ {π p : List α} {x x' y y' : α} {t t' u u' : List α}, π ++ x :: t = p ++ y :: u → π ++ x' :: t' = p ++ y' :: u' → x ≠ x' → y ≠ y' → x = y ∧ x' = y'
  | [], [], x, x', y, y', t, t', u, u', h, h', _, _ => by
    simp only [List.nil_append, List.cons.injEq] at h h'
    exact ⟨h.1, h'.1⟩
  | [], b :: p, x, x', y, y', t, t', u, u', h, h', hne, _ => by
    simp only [List.nil_append, List.cons_append, List.cons.injEq] at h h'
    exact absurd (h.1.trans h'.1.symm) hne
  | a :: π, [], x, x', y, y', t, t', u, u', h, h', _, hne => by
    simp only [List.nil_append, List.cons_append, List.cons.injEq] at h h'
    exact absurd (h.1.symm.trans h'.1) hne
  | a :: π, b :: p, x, x', y, y', t, t', u, u', h, h', h1, h2 => by
    simp only [List.cons_append, List.cons.injEq] at h h'
    exact diverge h.2 h'.2 h1 h2

/-- two rules which part at literal text: any message tells them apart -/
theorem parts_at {env : Env} {s : Bytes} (h0 : ∀ c ∈ s, c ≠ 0) {l l' p u u' : List (Json × Fld)} {j j' : Json} {c c' : UInt8} (h : l = p ++ (j, .plain (.literal (some [c])) none) :: u)
    (h' : l' = p ++ (j', .plain (.literal (some [c'])) none) :: u') (hne : c ≠ c') :
    (∀ (π : List (Json × Fld)) (x x' : Json × Fld) (t t' : List (Json × Fld)), l = π ++ x :: t → l' = π ++ x' :: t' →
      x ≠ x' → ∀ off, off ≤ s.length → ¬ (x.2.Begins env s off ∧ x'.2.Begins env s off)) ∧
    (∀ (x : Json × Fld) (t : List (Json × Fld)), l' ≠ l ++ x :: t) ∧ l ≠ l' := by
  have hd : (j, Fld.plain (.literal (some [c])) none) ≠ (j', Fld.plain (.literal (some [c'])) none) := by
    intro e
    simp only [Prod.mk.injEq, Fld.plain.injEq, PKind.literal.injEq, Option.some.injEq, List.cons.injEq, and_true] at e
    exact hne e.2
  refine ⟨?_, ?_, ?_⟩
  · intro π x x' t t' h1 h2 hx off _
    obtain ⟨rfl, rfl⟩ := diverge (h1.symm.trans h) (h2.symm.trans h') hx hd
    rintro ⟨b1, b2⟩
    obtain ⟨r, b1⟩ := (lit_begins h0).1 b1
    obtain ⟨r', b2⟩ := (lit_begins h0).1 b2
    rw [← b1] at b2
    simp only [List.cons_append, List.cons.injEq] at b2
    exact hne b2.1.symm
  · intro x t e
    rw [h, h', List.append_assoc] at e
    have := List.append_cancel_left e
    simp only [List.cons_append, List.cons.injEq] at this
    exact hd this.1.symm
  · intro e
    rw [h, h'] at e
    have := List.append_cancel_left e
    simp only [List.cons.injEq] at this
    exact hd this.1

namespace Ex

def docRs : List RLine := docRep ++ [.rule [] (bs! "%l:repeat" ++ repText ++ bs! "% stop"), .prefix_ [], .rule [bs! "u"] (bs! "b")]
def ruleStop : RuleR where
  tags := []
  lit := bs! "a "
  parts := [⟨.params [] (bs! "l") (bs! "repeat") [] repText, .obj ([(bs! "name", .str (bs! "l")), (bs! "type", .str (bs! "repeat"))] ++ repObj), fldRep, bs! " stop"⟩]
  file := bs! "--NO-FILE--"
  line := 4
def ruleB : RuleR where
  tags := [bs! "u"]
  lit := bs! "b"
  parts := []
  file := bs! "--NO-FILE--"
  line := 6
def rulesRs : List RuleR := [ruleRep, ruleStop, ruleB]

def itLit (c : UInt8) : Json × Fld := (.obj [(bs! "type", .str (bs! "literal")), (bs! "text", .str [c])], .plain (.literal (some [c])) none)
def itRep : Json × Fld := (.obj ([(bs! "name", .str (bs! "l")), (bs! "type", .str (bs! "repeat"))] ++ repObj), fldRep)

theorem itemsRep : ruleRep.items envR = [itLit (ch! 'a'), itLit (ch! ' '), itRep, itLit (ch! ' ')] ++ itLit (ch! 'e') :: [itLit (ch! 'n'), itLit (ch! 'd')] := rfl
theorem itemsStop : ruleStop.items envR = [itLit (ch! 'a'), itLit (ch! ' '), itRep, itLit (ch! ' ')] ++ itLit (ch! 's') :: [itLit (ch! 't'), itLit (ch! 'o'), itLit (ch! 'p')] := rfl
theorem itemsB : ruleB.items envR = [] ++ itLit (ch! 'b') :: [] := rfl
theorem itemsRep0 : ruleRep.items envR = [] ++ itLit (ch! 'a') :: [itLit (ch! ' '), itRep, itLit (ch! ' '), itLit (ch! 'e'), itLit (ch! 'n'), itLit (ch! 'd')] := rfl
theorem itemsStop0 : ruleStop.items envR = [] ++ itLit (ch! 'a') :: [itLit (ch! ' '), itRep, itLit (ch! ' '), itLit (ch! 's'), itLit (ch! 't'), itLit (ch! 'o'), itLit (ch! 'p')] := rfl

/-- every message without NUL tells the rules apart -/
theorem rulesRs_apart (s : Bytes) (h0 : ∀ c ∈ s, c ≠ 0) : TellsApart envR s rulesRs := by
  have same : ∀ (l : List (Json × Fld)) (π : List (Json × Fld)) (x x' : Json × Fld) (t t' : List (Json × Fld)), l = π ++ x :: t → l = π ++ x' :: t' → x ≠ x' → False := by
    intro l π x x' t t' h h' hne
    rw [h] at h'
    have := List.append_cancel_left h'
    simp only [List.cons.injEq] at this
    exact hne this.1
  have self : ∀ (l : List (Json × Fld)) (x : Json × Fld) (t : List (Json × Fld)), l ≠ l ++ x :: t := by
    intro l x t h
    have := congrArg List.length h
    simp at this
  have h1 := parts_at (env := envR) h0 itemsRep itemsStop (by decide)
  have h2 := parts_at (env := envR) h0 itemsStop itemsRep (by decide)
  have h3 := parts_at (env := envR) h0 itemsRep0 itemsB (by decide)
  have h4 := parts_at (env := envR) h0 itemsB itemsRep0 (by decide)
  have h5 := parts_at (env := envR) h0 itemsStop0 itemsB (by decide)
  have h6 := parts_at (env := envR) h0 itemsB itemsStop0 (by decide)
  constructor
  · intro r hr r' hr' π x x' t t' e e' hne
    simp only [rulesRs, List.mem_cons, List.not_mem_nil, or_false] at hr hr'
    rcases hr with rfl | rfl | rfl <;> rcases hr' with rfl | rfl | rfl
    · exact (same _ _ _ _ _ _ e e' hne).elim
    · exact h1.1 π x x' t t' e e' hne
    · exact h3.1 π x x' t t' e e' hne
    · exact h2.1 π x x' t t' e e' hne
    · exact (same _ _ _ _ _ _ e e' hne).elim
    · exact h5.1 π x x' t t' e e' hne
    · exact h4.1 π x x' t t' e e' hne
    · exact h6.1 π x x' t t' e e' hne
    · exact (same _ _ _ _ _ _ e e' hne).elim
  · intro r hr r' hr' x t e
    simp only [rulesRs, List.mem_cons, List.not_mem_nil, or_false] at hr hr'
    rcases hr with rfl | rfl | rfl <;> rcases hr' with rfl | rfl | rfl
    · exact absurd e (self _ _ _)
    · exact absurd e (h1.2.1 x t)
    · exact absurd e (h3.2.1 x t)
    · exact absurd e (h2.2.1 x t)
    · exact absurd e (self _ _ _)
    · exact absurd e (h5.2.1 x t)
    · exact absurd e (h4.2.1 x t)
    · exact absurd e (h6.2.1 x t)
    · exact absurd e (self _ _ _)

theorem rulesRs_dist : rulesRs.Pairwise fun r r' => r.items envR ≠ r'.items envR := by
  have h0 : ∀ c ∈ ([] : Bytes), c ≠ 0 := by simp
  have h1 := parts_at (env := envR) h0 itemsRep itemsStop (by decide)
  have h3 := parts_at (env := envR) h0 itemsRep0 itemsB (by decide)
  have h5 := parts_at (env := envR) h0 itemsStop0 itemsB (by decide)
  unfold rulesRs
  rw [List.pairwise_cons, List.pairwise_cons, List.pairwise_cons]
  refine ⟨?_, ?_, by simp, .nil⟩
  · intro r hr
    simp only [List.mem_cons, List.not_mem_nil, or_false] at hr
    rcases hr with rfl | rfl
    · exact h1.2.2
    · exact h3.2.2
  · intro r hr
    rw [List.mem_singleton.1 hr]
    exact h5.2.2

theorem rulesRs_ok : ∀ r ∈ rulesRs, ∀ p ∈ r.parts, p.OK envR := by
  intro r hr p hp
  simp only [rulesRs, List.mem_cons, List.not_mem_nil, or_false] at hr
  rcases hr with rfl | rfl | rfl
  · exact ruleRep_ok p hp
  · simp only [ruleStop, List.mem_cons, List.not_mem_nil, or_false] at hp
    subst hp
    exact ⟨.params (by simp [Blanks]) ⟨by decide, by decide, _, _, rfl, by decide, by decide, by decide, by decide⟩ ⟨by decide, by decide⟩ (by simp [Blanks])
      rfl readsR (by decide) (by decide) (by decide), repOf⟩
  · cases hp

theorem rulesRs_sane (s : Bytes) (h0 : ∀ c ∈ s, c ≠ 0) : ∀ r ∈ rulesRs, Fld.SaneAll envR s (r.fields envR) := by
  have h := ruleRep_sane s h0
  have e : ruleRep.fields envR = [fldLit (bs! "a"), fldLit (bs! " "), fldRep, fldLit (bs! " "), fldLit (bs! "e"), fldLit (bs! "n"), fldLit (bs! "d")] := rfl
  have e' : ruleStop.fields envR = [fldLit (bs! "a"), fldLit (bs! " "), fldRep, fldLit (bs! " "), fldLit (bs! "s"), fldLit (bs! "t"), fldLit (bs! "o"), fldLit (bs! "p")] := rfl
  have e'' : ruleB.fields envR = [fldLit (bs! "b")] := rfl
  intro r hr
  simp only [rulesRs, List.mem_cons, List.not_mem_nil, or_false] at hr
  rcases hr with rfl | rfl | rfl
  · exact h
  · rw [e] at h
    rw [e']
    simp only [Fld.SaneAll, and_true] at h ⊢
    simp only [h.2.2.1, true_and]
    simp [Fld.Sane, fldLit, Parser.Configured]
  · rw [e'']
    simp [Fld.SaneAll, Fld.Sane, fldLit, Parser.Configured]

theorem docRs_ok : (∀ l ∈ docRs, l.OK) ∧ (∀ l ∈ docRs, LineOK l.text) ∧ ExtendOK none docRs ∧ (∀ l ∈ docRs, ∀ nm t, l ≠ .type nm t) ∧
    (∀ l ∈ docRs, l.text.length ≤ 1000) ∧
    docRules none (numbered (bs! "--NO-FILE--") 0 docRs) = rulesRs.map fun r => (r.tags, r.text, r.file, r.line) := by
  obtain ⟨h1, h2, h3, h4, h5, h6⟩ := docRep_ok
  refine ⟨?_, by decide +kernel, ?_, ?_, by decide +kernel, by decide +kernel⟩
  · intro l hl
    rcases List.mem_append.1 hl with hl | hl
    · exact h1 l hl
    · simp only [List.mem_cons, List.not_mem_nil, or_false] at hl
      rcases hl with rfl | rfl | rfl
      · exact ⟨by simp [TagOK], by decide⟩
      · trivial
      · exact ⟨by simp [TagOK], by decide⟩
  · simp [ExtendOK, docRs, docRep, RLine.nextPrefix]
  · intro l hl nm t
    rcases List.mem_append.1 hl with hl | hl
    · exact h4 l hl nm t
    · simp only [List.mem_cons, List.not_mem_nil, or_false] at hl
      rcases hl with rfl | rfl | rfl <;> intro h <;> cases h

/-- three rules, two of which begin with the same repetition: they meet the hypotheses, each message is normalised with the rule which takes it -/
example (srt : Sorter) (fs : Bytes → Option Bytes) : ∃ st, loadSamplesFromString envR srt fs 1000 {} (docText docRs) = .ok (st, true) ∧ ∃ N, ∀ fuel, N ≤ fuel →
    (∃ res, normalize envR fuel (st.b.toCtx 0 st.annots) (fun _ => {}) (bs! "a 1:2-3, 4: end") [] = .ok res ∧ res.ok = true ∧ res.json =
      [(bs! "l", .arr [.obj [(bs! "y", .arr [.str (bs! "2"), .str (bs! "3")]), (bs! "x", .str (bs! "1"))], .obj [(bs! "y", .null), (bs! "x", .str (bs! "4"))]]),
       (bs! "event.tags", .arr [.str (bs! "t")]), (bs! "k", .str (bs! "v"))]) ∧
    ∃ res, normalize envR fuel (st.b.toCtx 0 st.annots) (fun _ => {}) (bs! "b") [] = .ok res ∧ res.ok = true ∧ res.json = [(bs! "event.tags", .arr [.str (bs! "u")])] := by
  obtain ⟨h1, h2, h3, h4, h5, h6⟩ := docRs_ok
  obtain ⟨st, hl, _, hn⟩ := C80_rules_end_to_end_partial (srt := srt) (fs := fs) tokEnvR docRs h1 h2 h3 h4 1000 h5 rulesRs h6 rulesRs_ok (narrow_of_length (by decide)) rulesRs_dist
  refine ⟨st, hl, ?_⟩
  have htame : Tame (bs! "b") := by
    refine ⟨by decide, ?_, by decide⟩
    intro i
    match i with
    | 0 => decide
    | i + 1 => simp
  obtain ⟨N, hN⟩ := hn 0 (bs! "a 1:2-3, 4: end") msgR_tame (rulesRs_sane _ (by decide)) (rulesRs_apart _ (by decide)) (by decide) (fun _ => {}) []
  obtain ⟨M, hM⟩ := hn 0 (bs! "b") htame (rulesRs_sane _ (by decide)) (rulesRs_apart _ (by decide)) (by decide) (fun _ => {}) []
  refine ⟨max N M, fun fuel hf => ⟨?_, ?_⟩⟩
  · obtain ⟨res, hres, ho⟩ := hN fuel (by omega)
    refine ⟨res, hres, ho.iff.2 ⟨ruleRep, by simp [rulesRs], _, ruleRep_reads⟩, ?_⟩
    rw [ho.match_ ruleRep (by simp [rulesRs]) _ ruleRep_reads]
    decide
  · obtain ⟨res, hres, ho⟩ := hM fuel (by omega)
    have hr : Reads envR (bs! "b") (.all (ruleB.fields envR) 0 [(none, none)] 1) := .cons (f := fldLit (bs! "b")) (rdLit 1 (by decide) rfl) .nil
    refine ⟨res, hres, ho.iff.2 ⟨ruleB, by simp [rulesRs], _, hr⟩, ?_⟩
    rw [ho.match_ ruleB (by simp [rulesRs]) _ hr]
    decide

end Ex
end LN
