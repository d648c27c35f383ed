import Verif.Proofs.AltC
/- Rule bases with alternatives in the graph and messages. -/
set_option autoImplicit false
namespace LN
open Spec

section
variable {env : Env} {srt : Sorter} {fs : Bytes → Option Bytes}

theorem path_live {b : Bld} {E : List NodeId} (hi : Inv b E) {opts : Nat} {annots : List Annot} {s : Bytes} {n : NodeId} {off : Nat} {tr : List Step} {m : NodeId} {off' : Nat}
    (hn : (b.heap n).isSome) (h : Path env (b.toCtx opts annots) s n off tr m off') : (b.heap m).isSome := by
  induction h with
  | nil n off => exact hn
  | @cons n off idx p len v tr m off' hidx hacc _ ih =>
    change ((b.heap n).getD {}).parsers[idx]? = some p at hidx
    obtain ⟨nd, hnd⟩ := Option.isSome_iff_exists.1 hn
    rw [hnd] at hidx
    exact ih (inv_edge hi hnd (List.mem_of_getElem? hidx)).2

/-- a rule base with alternatives in the graph, optimised: what it does to messages -/
theorem doc_coreA (he : env.TokOK) (locs : List Loc) (ls : List RLine) (hls : locs.map (·.what) = ls) (hok : ∀ l ∈ ls, l.OK)
    (hline : ∀ l ∈ ls, ∀ c ∈ l.text, c ≠ 0) (hext : ExtendOK none ls) (hty : ∀ l ∈ ls, ∀ nm t, l ≠ .type nm t)
    (rules : List RuleA) (hrules : docRules none locs = rules.map fun r => (r.tags, r.text, r.file, r.line))
    (hrok : ∀ r ∈ rules, r.OK env) (hfile0 : ∀ r ∈ rules, ∀ c ∈ r.file, c ≠ 0) (happ : KeepApart env rules)
    (hlen : NarrowA env rules) :
    ∃ b, runOps env srt (locOps env none locs ++ [.optimize]) = .ok b ∧ DocSafe env none ls ∧
      defErrs env none ls = rules.map RuleA.msgs ∧
      ∀ (opts : Nat) (s : Bytes), Tame s →
        (∀ r ∈ rules, ∀ p ∈ r.parts, ∀ c ∈ p.1.choices, ∀ off, off ≤ s.length → c.1.InScope env c.2 s off (fieldName c.2).isSome) →
        (opts.testBit 3 = true → ∀ d, TakenFrom rules d → d.Shows env) →
        ∀ (stats : NodeId → Stats) (json0 : Obj), ∃ N, ∀ fuel, N ≤ fuel → ∃ res,
          normalize env fuel (b.toCtx opts (annotSet (ls.flatMap RLine.annots))) stats s json0 = .ok res ∧
            AltOutcome env ls rules opts s json0 res.ok res.json := by
  have hf : ∀ r ∈ rules, ∀ p ∈ r.parts, p.1.OK env := fun r hr => (hrok r hr).parts
  obtain ⟨hops, hsafe, herrs⟩ := doc_opsA locs none rules (fun l hl => hty l.what (by rw [← hls]; exact List.mem_map.2 ⟨l, hl, rfl⟩))
    (by rw [hls]; exact hext) hrules hrok
  rw [hls] at hsafe herrs
  generalize hds : rules.map (RuleA.toA env) = ds at hops
  have hmemds : ∀ d ∈ ds, ∃ r ∈ rules, d = r.toA env := by
    intro d hd
    rw [← hds] at hd
    obtain ⟨r, h1, h2⟩ := List.mem_map.1 hd
    exact ⟨r, h1, h2.symm⟩
  obtain ⟨b, lab, hb, htr⟩ := aIs_rules (srt := srt) (offered_apart hf happ) (offered_narrow hf hlen) ds (aIs_init (env := env) (Offered env rules)) (by
    intro d hd
    obtain ⟨r, hr, rfl⟩ := hmemds d hd
    refine ⟨toA_ok (hf r hr), ?_⟩
    intro x I y hxy
    rw [toA_offers] at hxy
    exact ⟨r, hr, y, by rw [hxy]; simp⟩)
  rw [List.nil_append] at htr
  have hplain := htr.trie.plain
  -- every field of the graph
  have hfield : ∀ n nd, b.heap n = some nd → ∀ q ∈ nd.parsers, ∃ r ∈ rules, ∃ I ∈ r.offers env, ∃ t ∈ I, q.conf = tokConf t ∧ Describes t.1 t.2 ∧ KindFor t.2 t.1 q.kind ∧
      q.name = fieldName t.2 ∧ q.prio = fieldPrio t.2 * 256 + t.1.prio := by
    intro n nd hn q hq
    obtain ⟨I, hqI, hlab, hP⟩ := htr.trie.edge n nd hn q hq
    rw [hlab] at hP
    obtain ⟨r, hr, a, J, z, h1, _, rfl⟩ := offered_split hP
    obtain ⟨t, ht, hc⟩ := List.mem_map.1 hqI
    have hJ : J ∈ r.offers env := by rw [h1]; simp
    have hd := (offers_desc (hf r hr) J hJ).2 t ht
    obtain ⟨p, h1, h2, h3, h4, _⟩ := confField_ok (env := env) hd
    have he := hplain.field n nd hn q hq
    rw [← hc] at he
    change confField env [] (.obj t.2) = _ at he
    rw [h1] at he
    cases he
    exact ⟨r, hr, J, hJ, t, ht, hc.symm, hd, h2, h3, h4⟩
  have hnn : b.NoNull := by
    intro n nd hn q hq
    obtain ⟨r, _, _, _, t, _, _, _, h2, _⟩ := hfield n nd hn q hq
    refine ⟨fun hk => ?_, h2.notRepeat none⟩
    rcases h2.literal_iff with ⟨w, _, _, h3⟩ | ⟨_, h3⟩
    · rw [hk] at h3; cases h3
    · exact h3 _ hk
  have hroot : b.root ∈ b.ctxRefs := List.mem_cons_self ..
  have htypes : ∀ t ∈ b.types, t.2 ∈ b.ctxRefs := fun t ht => List.mem_cons_of_mem _ (List.mem_map.2 ⟨t, ht, rfl⟩)
  obtain ⟨b', hopt⟩ := pdagOptimize_total (srt := srt) htr.inv hroot htypes hnn
  have hrunall : runOps env srt (locOps env none locs ++ [.optimize]) = .ok b' := by
    unfold runOps
    rw [foldlM_append_R, hops, hb, R.ok_bind', List.foldlM_cons]
    change (pdagOptimize srt b).bind _ = _
    rw [hopt]; rfl
  refine ⟨_, hrunall, hsafe, herrs, ?_⟩
  intro opts s hs hin hshow stats json0
  have hann : AnnotsOK (annotSet (ls.flatMap RLine.annots)) := docAnnots_ok ls
  have hrun : runOps env srt ((ds.map ARule.toDef).map Def.toOp) = .ok b := hb
  obtain ⟨hsteps, hi, _⟩ := optimize_facts hrun hopt
  obtain ⟨hi', _, _, hr', _, _⟩ := hsteps.frame hi
  have hscope : ∀ r ∈ rules, ∀ I ∈ r.offers env, ∀ t ∈ I, ∀ off, off ≤ s.length → t.1.InScope env t.2 s off (fieldName t.2).isSome := by
    intro r hr I hI t ht
    rcases List.mem_append.1 hI with h | h
    · obtain ⟨c, _, rfl⟩ := List.mem_map.1 h
      rw [List.mem_singleton.1 ht]
      exact fun _ _ => trivial
    · obtain ⟨p, hp, h⟩ := List.mem_flatMap.1 h
      rcases List.mem_cons.1 h with rfl | h
      · exact hin r hr p hp t ht
      · obtain ⟨c, _, rfl⟩ := List.mem_map.1 h
        rw [List.mem_singleton.1 ht]
        exact fun _ _ => trivial
  have htoksok : ∀ {r : RuleA} {d : RuleD}, r ∈ rules → r.Takes d → ToksOK env s (d.toks env) := by
    intro r d hr hd t ht
    obtain ⟨I, hI, htI⟩ := picks_mem (hd.picks (env := env)) t ht
    exact ⟨(offers_desc (hf r hr) I hI).2 t htI, hscope r hr I hI t htI⟩
  have hextend : ∀ {r : RuleA}, r ∈ rules → ∀ {a z : List (List (FType × Obj))} {ts : List (FType × Obj)}, r.offers env = a ++ z → Picks a ts →
      ∃ d, r.Takes d ∧ ts <+: d.toks env := by
    intro r hr a z ts haz hp
    obtain ⟨us, hus⟩ := exists_picks z fun I hI => (offers_desc (hf r hr) I (by rw [haz]; exact List.mem_append_right _ hI)).1
    obtain ⟨d, h1, h2⟩ := RuleA.takes (env := env) (r := r) (ts := ts ++ us) (by rw [haz]; exact forall2_append hp hus)
    exact ⟨d, h1, us, h2.symm⟩
  have htoksdesc : ∀ {d : RuleD}, TakenFrom rules d → ∀ t ∈ d.toks env, Describes t.1 t.2 := by
    rintro d ⟨r, hr, hd⟩
    exact fun t ht => (htoksok hr hd t ht).1
  have hpar0 : ∀ n nd, b.heap n = some nd → ∀ q ∈ nd.parsers, q.kind.flat ∧ (q.kind = .cee → CeeFirst s) ∧ Parser.Configured q.kind q.name.isSome ∧
      (opts.testBit 3 = true → q.kind ≠ .literal (some [])) := by
    intro n nd hn q hq
    obtain ⟨r, hr, I, hI, t, ht, _, hd, h2, h3, _⟩ := hfield n nd hn q hq
    have hsc := hscope r hr I hI t ht 0 (Nat.zero_le _)
    refine ⟨?_, Describes.cee_first (hscope r hr I hI t ht) h2, ?_, ?_⟩
    · have := hplain.flat 0 [] n q
      refine this ?_
      show q ∈ ((b.heap n).getD {}).parsers
      rw [hn]; exact hq
    · obtain ⟨f, o⟩ := t
      rw [h3]
      dsimp only at h2 hsc ⊢
      cases f <;> simp only [KindFor] at h2
      case opQuoted => rw [h2]; exact hsc
      all_goals first
        | (rw [h2]; trivial)
        | (obtain ⟨w, h4, h5⟩ := h2; rw [h5]; rfl)
        | (obtain ⟨w, h4, h5⟩ := h2; rw [h4]; rfl)
        | (rw [h2]; rfl)
    · intro h8 hk
      rcases h2.literal_iff with ⟨w, h5, h6, h7⟩ | ⟨_, h3⟩
      · rw [hk] at h7
        cases h7
        obtain ⟨a, z, haz⟩ := List.append_of_mem hI
        obtain ⟨us, hus⟩ := exists_picks a fun J hJ => (offers_desc (hf r hr) J (by rw [haz]; exact List.mem_append_left _ hJ)).1
        obtain ⟨d, hd1, hd2⟩ := hextend hr (a := a ++ [I]) (z := z) (ts := us ++ [t]) (by rw [haz]; simp) (forall2_append hus (.cons ht .nil))
        have hsh := hshow h8 d ⟨r, hr, hd1⟩
        have ht' : t ∈ d.toks env := hd2.subset (by simp)
        rcases List.mem_append.1 ht' with h | h
        · obtain ⟨c, _, rfl⟩ := List.mem_map.1 h
          have := h6.1
          cases this
        · obtain ⟨p, hp, h⟩ := List.mem_flatMap.1 h
          rcases List.mem_cons.1 h with rfl | h
          · exact hsh.2 p hp h5 h6
          · obtain ⟨c, _, rfl⟩ := List.mem_map.1 h
            have := h6.1
            cases this
      · exact h3 _ hk
  have hnodes := hsteps.nodes hi (Q := fun k nm => k.flat ∧ (k = .cee → CeeFirst s) ∧ Parser.Configured k nm.isSome ∧
      (opts.testBit 3 = true → k ≠ .literal (some []))) (by
    intro l l' h
    refine ⟨trivial, (by intro hc; cases hc), rfl, fun h8 hc => h.2.2.2 h8 ?_⟩
    have : l ++ l' = [] := by injection hc with h1; exact Option.some.inj h1
    rw [(List.append_eq_nil_iff.1 this).1]) hpar0
  obtain ⟨N, hN⟩ := normalize_total (opts := opts) (annots := annotSet (ls.flatMap RLine.annots)) he hs hi'
    (fun n nd hn => (hnodes n nd hn).1) (by
      intro h8 nd hnd
      obtain ⟨_, nd0, g1, g2, _⟩ := hnodes _ nd hnd
      rw [g2]
      cases hter : nd0.isTerminal with
      | false => rfl
      | true =>
        rw [hr'] at g1
        obtain ⟨i, a, ha, hcm, hl, _⟩ := htr.tag _ nd0 g1 hter
        obtain ⟨r, hr, rfl⟩ := hmemds a (List.mem_of_getElem? ha)
        rw [htr.start, toA_offers] at hl
        have ht0 : r.offers env = [] := List.map_eq_nil_iff.1 hl.symm
        obtain ⟨d, hd1, hd2⟩ := RuleA.takes (env := env) (r := r) (ts := []) (by rw [ht0]; exact .nil)
        have := (hshow h8 d ⟨r, hr, hd1⟩).1
        rw [← toks_show, hd2] at this
        exact absurd rfl (this (hd1.breaks.trans (Option.isNone_iff_eq_none.1 hcm)))) (by
      intro n nd hn hter
      obtain ⟨_, nd0, g1, g2, g3⟩ := hnodes n nd hn
      rw [g2] at hter
      obtain ⟨_, d, _, _, _, _, hm, _⟩ := htr.tag n nd0 g1 hter
      rw [← g3] at hm
      have : nd.rbFile = some d.file := congrArg (·.2.1) hm
      rw [this]; rfl) hann stats json0
  refine ⟨N, fun fuel hfl => ?_⟩
  obtain ⟨res, hres⟩ := hN fuel hfl
  refine ⟨res, hres, ?_⟩
  have h0 : ∀ c ∈ s, c ≠ 0 := fun c hc => (hs.ascii c hc).1
  obtain ⟨c1, c2⟩ := C17_optimise_meaning_partial hrun hopt (hplain.flat opts (annotSet (ls.flatMap RLine.annots))) h0 hres
  -- rules and matches of the graph
  have hlabel : ∀ {cs : List Json} {m : NodeId}, FWalk b b.root cs m → Chosen (lab m) cs := by
    intro cs m hw
    obtain ⟨Is, h1, h2⟩ := fwalk_chosen htr.trie hw
    rw [htr.start, List.nil_append] at h1
    rw [h1]; exact h2
  have hbwd : ∀ {tr : List Step} {m : NodeId}, Path env (b.toCtx opts (annotSet (ls.flatMap RLine.annots))) s b.root 0 tr m s.length →
      ((b.toCtx opts (annotSet (ls.flatMap RLine.annots))).node m).isTerminal = true →
      ∃ (j : Nat) (Q : RuleA) (q : RuleD) (nd : Node), rules[j]? = some Q ∧ Q.Takes q ∧ q.breaks = none ∧ b.heap m = some nd ∧ tr.map (·.field.conf) = (q.toks env).map tokConf ∧
        nd.mark = (tagBucket q.tags, some q.file, q.line) ∧ ∀ k Q', j < k → rules[k]? = some Q' → Q'.breaks = none → ∀ q', Q'.Takes q' → q'.toks env ≠ q.toks env := by
    intro tr m hp hter
    change ((b.heap m).getD {}).isTerminal = true at hter
    cases hm : b.heap m with
    | none => rw [hm] at hter; cases hter
    | some nd =>
      rw [hm] at hter
      obtain ⟨j, d, a1, a0, a2, a3, a5, a6⟩ := htr.tag m nd hm hter
      rw [← hds, List.getElem?_map, Option.map_eq_some_iff] at a1
      obtain ⟨Q, hQ, rfl⟩ := a1
      have hw := hlabel (fwalk_of_path hplain hp)
      rw [a2, toA_offers] at hw
      obtain ⟨ts, h1, h2⟩ := chosen_picks hw
      obtain ⟨q, h3, h4⟩ := RuleA.takes h2
      refine ⟨j, Q, q, nd, hQ, h3, h3.breaks.trans (Option.isNone_iff_eq_none.1 a0), rfl, by rw [h1, h4], ?_, ?_⟩
      · rw [a5, h3.tags, h3.file, h3.line]; rfl
      · intro k Q' hk hQ' hQb q' hq' heq
        have := a6 k (Q'.toA env) hk (by rw [← hds, List.getElem?_map, hQ']; rfl) (Option.isNone_iff_eq_none.2 hQb)
        rw [toA_offers, toA_offers] at this
        refine this (congrArg _ ?_)
        exact offers_eq happ (List.mem_of_getElem? hQ') (List.mem_of_getElem? hQ) _ _ (q.toks env) [] rfl rfl (heq ▸ hq'.picks) h3.picks
  have hwalk : ∀ {r : RuleA} {d : RuleD}, r ∈ rules → r.Takes d → d.breaks = none → ∃ e nd, FWalk b b.root ((d.toks env).map tokConf) e ∧ b.heap e = some nd ∧ nd.isTerminal = true := by
    intro r d hr hd hdb
    obtain ⟨e, nd, a2, a3, a4⟩ := htr.walk (r.toA env) (by rw [← hds]; exact List.mem_map.2 ⟨r, hr, rfl⟩) (Option.isNone_iff_eq_none.2 (hd.breaks.symm.trans hdb))
    exact ⟨e, nd, a2 _ (by rw [toA_offers]; exact picks_chosen hd.picks), a3, a4⟩
  have hgoes : ∀ {r : RuleA} {d : RuleD}, r ∈ rules → r.Takes d → ∃ e, FWalk b b.root ((d.toks env).map tokConf) e := by
    intro r d hr hd
    obtain ⟨e, a2⟩ := htr.goes (r.toA env) (by rw [← hds]; exact List.mem_map.2 ⟨r, hr, rfl⟩)
    exact ⟨e, a2 _ (by rw [toA_offers]; exact picks_chosen hd.picks)⟩
  have hfwd : ∀ {r : RuleA} {d : RuleD} {us : List (Option Bytes × Option Json)}, r ∈ rules → r.Takes d → d.Matches env s us →
      ∃ tr m, Path env (b.toCtx opts (annotSet (ls.flatMap RLine.annots))) s b.root 0 tr m s.length ∧
        ((b.toCtx opts (annotSet (ls.flatMap RLine.annots))).node m).isTerminal = true ∧ tr.map (·.field.conf) = (d.toks env).map tokConf := by
    intro r d us hr hd hm
    obtain ⟨e, nd, a2, a3, a4⟩ := hwalk hr hd hm.1
    obtain ⟨vs, hacc, _⟩ := acc_of_matches he hs d (htoksok hr hd) hm
    obtain ⟨tr, g1, g2, _⟩ := path_of_acc (opts := opts) (annots := annotSet (ls.flatMap RLine.annots)) he hplain hs a2 rfl (Nat.zero_le _) (htoksok hr hd) hacc
    refine ⟨tr, e, g1, ?_, g2⟩
    show ((b.heap e).getD {}).isTerminal = true
    rw [a3]; exact a4
  refine ⟨?_, ?_, ?_⟩
  · rw [c1]
    constructor
    · rintro ⟨tr, m, off', hp, hter, hend⟩
      have : off' = s.length := by
        rcases hend with h | h
        · cases h
        · exact h
      subst this
      obtain ⟨j, Q, q, nd, hQ, hq, hqb, _, hc, _⟩ := hbwd hp hter
      have hQm := List.mem_of_getElem? hQ
      obtain ⟨vs, g1, _⟩ := acc_of_path he hplain hs hp _ hc (Nat.zero_le _) (htoksok hQm hq)
      obtain ⟨us, g2, _⟩ := matches_of_acc q hqb g1
      exact ⟨q, ⟨Q, hQm, hq⟩, us, g2⟩
    · rintro ⟨d, ⟨r, hr, hd⟩, us, hm⟩
      obtain ⟨tr, m, g1, g2, _⟩ := hfwd hr hd hm
      exact ⟨tr, m, s.length, g1, g2, .inr rfl⟩
  · intro hokt
    obtain ⟨tr, e, ⟨m, off', hp, hter, hend⟩, hfe, hfin, hord⟩ := c2 hokt
    have : off' = s.length := by
      rcases hend with h | h
      · cases h
      · exact h
    subst this
    obtain ⟨i, R, r, ndm, hRi, hRr, hrb, _, hrc, _, _⟩ := hbwd hp hter
    have hR := List.mem_of_getElem? hRi
    obtain ⟨tr1, tr2, htr12, hp1, hmin⟩ := firstEnd_split hp hfe
    obtain ⟨j, Q, q, nd, hQj, hQq, hqb, hnd, hqc, hmark, hlast⟩ := hbwd hp1 (firstEnd_isTerminal hfe)
    have hQ := List.mem_of_getElem? hQj
    obtain ⟨vs, g1, g2, g3, _⟩ := acc_of_path he hplain hs hp _ hrc (Nat.zero_le _) (htoksok hR hRr)
    obtain ⟨us, g4, g5⟩ := matches_of_acc r hrb g1
    obtain ⟨vs', k1, _⟩ := acc_of_path he hplain hs hp1 _ hqc (Nat.zero_le _) (htoksok hQ hQq)
    obtain ⟨us', k2, _⟩ := matches_of_acc q hqb k1
    refine ⟨r, q, Q, j, us, ⟨R, hR, hRr⟩, hQj, hQq, g4, ⟨us', k2⟩, ?_, ?_, hlast, ?_, ?_⟩
    · refine toks_prefix (htoksdesc ⟨Q, hQ, hQq⟩) (htoksdesc ⟨R, hR, hRr⟩) ?_
      rw [← hqc, ← hrc, htr12, List.map_append]
      exact List.prefix_append ..
    · rintro q' ⟨Q', hQ', hq'⟩ ⟨ws, hm'⟩ hpre
      obtain ⟨tr0, m0, f1, f2, f3⟩ := hfwd hQ' hq' hm'
      have hpre' : tr0 <+: tr := by
        refine path_prefix hplain hp f1 ?_
        rw [f3, hrc]
        obtain ⟨u, hu⟩ := hpre
        exact ⟨u.map tokConf, by rw [← hu, List.map_append]⟩
      obtain ⟨w, hw⟩ := hmin tr0 m0 hpre' f1 f2
      refine toks_prefix (htoksdesc ⟨Q, hQ, hQq⟩) (htoksdesc ⟨Q', hQ', hq'⟩) ?_
      rw [← hqc, ← f3, ← hw, List.map_append]
      exact List.prefix_append ..
    · refine finishMatch_doc ls hok hline (hRr.desc (hf R hR)) ?_ hnd hmark (hQq.file ▸ hfile0 Q hQ) ((g2 json0).trans (g5 json0)) hfin
      rw [g3, toks_show]
    · rintro hsmall r' ⟨R', hR', hr'⟩ ⟨ws, hm'⟩
      obtain ⟨tr0, m0, f1, f2, f3⟩ := hfwd hR' hr' hm'
      have hpo : PrioOK b := by
        have hb1 : ∀ n nd, b.heap n = some nd → ∀ x ∈ nd.parsers, -1073741824 ≤ x.prio ∧ x.prio ≤ 1073741823 := by
          intro n nd hn x hx
          obtain ⟨r1, hr1, I, hI, t, ht, _, _, _, _, h4⟩ := hfield n nd hn x hx
          have hp := FType.prio_lt t.1
          have : -4194304 ≤ fieldPrio t.2 ∧ fieldPrio t.2 ≤ 4194303 := by
            rcases List.mem_append.1 hI with h | h
            · obtain ⟨c, _, rfl⟩ := List.mem_map.1 h
              rw [List.mem_singleton.1 ht]
              have : fieldPrio (RuleD.litTok c).2 = 30000 := rfl
              omega
            · obtain ⟨p, hpm, h⟩ := List.mem_flatMap.1 h
              rcases List.mem_cons.1 h with rfl | h
              · exact hsmall r1 hr1 p hpm t ht
              · obtain ⟨c, _, rfl⟩ := List.mem_map.1 h
                rw [List.mem_singleton.1 ht]
                have : fieldPrio (RuleD.litTok c).2 = 30000 := rfl
                omega
          omega
        intro n nd hn x hx y hy
        have h1 := hb1 n nd hn x hx
        have h2 := hb1 n nd hn y hy
        omega
      exact before_of_prio hplain hp f1 hrc f3 (htoksdesc ⟨R, hR, hRr⟩) (htoksdesc ⟨R', hR', hr'⟩) (hord hpo tr0 ⟨m0, s.length, f1, f2, .inr rfl⟩)
  · intro hno
    have hflat' := hsteps.flat hi opts (annotSet (ls.flatMap RLine.annots)) (hplain.flat opts _)
    rcases normalize_cases hflat' hres with ⟨h1, _⟩ | ⟨_, _, u, hu, hfar, hj⟩
    · rw [hno] at h1; cases h1
    · have hrt : (b'.toCtx opts (annotSet (ls.flatMap RLine.annots))).root = b.root := hr'
      obtain ⟨⟨tr, m, hp⟩, hmax⟩ := hfar
      rw [hrt] at hp hmax
      have hbegin : ∀ {cs : List Json} {m : NodeId}, FWalk b b.root cs m → ∃ pre, BeginsA env rules pre ∧ cs = pre.map tokConf := by
        intro cs m hw
        have h1 := hlabel hw
        rcases fwalk_offered htr.trie hw with rfl | ⟨r, hr, v, hv⟩
        · exact ⟨[], .inl rfl, rfl⟩
        · obtain ⟨a, z, h2, h3, _⟩ := List.map_eq_append_iff.1 hv.symm
          rw [← h3] at h1
          obtain ⟨ts, rfl, h4⟩ := chosen_picks h1
          obtain ⟨d, h5, h6⟩ := hextend hr h2 h4
          exact ⟨ts, .inr ⟨d, ⟨r, hr, h5⟩, h6⟩, rfl⟩
      have hbok : ∀ {pre : List (FType × Obj)}, BeginsA env rules pre → ToksOK env s pre := by
        rintro pre (rfl | ⟨d, ⟨r, hr, hd⟩, hpr⟩)
        · exact fun t ht => absurd ht (List.not_mem_nil)
        · exact fun t ht => htoksok hr hd t (hpr.subset ht)
      have hbwalk : ∀ {pre : List (FType × Obj)}, BeginsA env rules pre → ∃ m, FWalk b b.root (pre.map tokConf) m := by
        rintro pre (rfl | ⟨d, ⟨r, hr, hd⟩, v, hpr⟩)
        · exact ⟨_, .nil _⟩
        · obtain ⟨e, a2⟩ := hgoes hr hd
          rw [← hpr, List.map_append] at a2
          obtain ⟨m, g, _⟩ := a2.split
          exact ⟨m, g⟩
      refine ⟨u, hu, ?_, ?_, ?_⟩
      · have hlive : (b'.heap m).isSome := by
          have hl0 : (b'.heap b.root).isSome := hi'.ext _ hroot
          exact path_live hi' hl0 hp
        obtain ⟨tr0, hp0⟩ := (hsteps.reach h0 hi hroot opts (annotSet (ls.flatMap RLine.annots)) m u hlive).1 ⟨tr, hp⟩
        obtain ⟨pre, hpre, hconf⟩ := hbegin (fwalk_of_path hplain hp0)
        obtain ⟨vs, g1, _⟩ := acc_of_path he hplain hs hp0 pre hconf (Nat.zero_le _) (hbok hpre)
        exact ⟨pre, hpre, g1.reads⟩
      · intro pre j hpre hnot hrd
        obtain ⟨m1, hw1⟩ := hbwalk hpre
        obtain ⟨vs, hacc⟩ := hrd.acc
        obtain ⟨tr1, hp1, _⟩ := path_of_acc (opts := opts) (annots := annotSet (ls.flatMap RLine.annots)) he hplain hs hw1 rfl (Nat.zero_le _) (hbok hpre) hacc
        by_cases hlive : (b'.heap m1).isSome
        · obtain ⟨tr2, hp2⟩ := (hsteps.reach h0 hi hroot opts (annotSet (ls.flatMap RLine.annots)) m1 j hlive).2 ⟨tr1, hp1⟩
          exact hmax tr2 m1 j hp2
        · have hl1 : (b.heap m1).isSome := path_live hi (hi.ext _ hroot) hp1
          obtain ⟨⟨hter, c, hcf, hcl⟩, _⟩ := hsteps.removed hi hl1 hlive
          refine absurd ⟨?_, ?_⟩ hnot
          · rintro d ⟨r, hr, hd⟩ hdb heq
            obtain ⟨e, nd, a1, a2, a3⟩ := hwalk hr hd hdb
            rw [heq] at a1
            have := a1.functional hw1
            subst this
            rw [a2] at hter
            exact absurd (hter.symm.trans a3) (by decide)
          · obtain ⟨nd1, hnd1⟩ := Option.isSome_iff_exists.1 hl1
            have hpars : nd1.parsers = [c] := by rw [← hcf, heap_fieldsAt hnd1]
            have hcm : c ∈ nd1.parsers := by rw [hpars]; exact List.mem_cons_self ..
            obtain ⟨I, hcI, hlabc, hP⟩ := htr.trie.edge m1 nd1 hnd1 c hcm
            rw [hlabc] at hP
            obtain ⟨r, hr, a, J, z, h1, h2, rfl⟩ := offered_split hP
            obtain ⟨t, ht, htc⟩ := List.mem_map.1 hcI
            have hlb := hlabel hw1
            rw [h2] at hlb
            obtain ⟨ts, h3, h4⟩ := chosen_picks hlb
            have hdJ := (offers_desc (hf r hr) J (by rw [h1]; simp)).2 t ht
            obtain ⟨d, h5, h6⟩ := hextend hr (a := a ++ [J]) (z := z) (ts := ts ++ [t]) (by rw [h1]; simp) (forall2_append h4 (.cons ht .nil))
            have hts : ts = pre := toks_inj (fun x hx => htoksdesc ⟨r, hr, h5⟩ x (h6.subset (List.mem_append_left _ hx))) (fun x hx => (hbok hpre x hx).1) h3.symm
            subst hts
            refine ⟨t, (litConf_iff (env := env) hdJ).1 ⟨({ c with node := 0 } : Parser), ?_, ⟨hcl.kind, hcl.name⟩⟩, ⟨d, ⟨r, hr, h5⟩, h6⟩, ?_⟩
            · rw [htc]; exact hplain.field m1 nd1 hnd1 c hcm
            · rintro d' ⟨r', hr', hd'⟩ t' ⟨v, hv⟩
              obtain ⟨e, a1⟩ := hgoes hr' hd'
              rw [← hv, List.map_append, List.map_append] at a1
              obtain ⟨m2, a3, _⟩ := a1.split
              obtain ⟨m3, a4, a5⟩ := a3.split
              have := a4.functional hw1
              subst this
              cases a5 with
              | @cons _ xd _ q _ _ hx hq _ =>
                rw [hnd1] at hx
                cases hx
                have hqc : q.conf = tokConf t' := by simpa using List.find?_some hq
                have hqm := List.mem_of_find?_eq_some hq
                rw [hpars, List.mem_singleton] at hqm
                subst hqm
                exact tokConf_inj (htoksdesc ⟨r', hr', hd'⟩ t' (by rw [← hv]; simp)) hdJ (hqc.symm.trans htc.symm)
      · rw [hj]
        unfold newString
        rw [cstr_noNul fun c hc => h0 c (List.mem_of_mem_drop hc)]

end
end LN
