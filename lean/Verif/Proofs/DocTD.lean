import Verif.Proofs.DocTC
import Verif.Proofs.DocTFar
import Verif.Proofs.DocD
import Verif.Proofs.NestedFar
/- Rule bases of version 2 with user-defined types in the graph, and messages. -/
set_option autoImplicit false
namespace LN
open Spec

section
variable {env : Env} {srt : Sorter}

theorem RuleT.lexW {r : RuleT} (hr : ∀ p ∈ r.parts, p.1.OK env) :
    (lexRule env (ruleText r.lit (r.parts.map fun p => (p.1.written, p.2)))).confs = (r.toks env).map tokConfT ∧
      (lexRule env (ruleText r.lit (r.parts.map fun p => (p.1.written, p.2)))).fin = .complete ∧
      (lexRule env (ruleText r.lit (r.parts.map fun p => (p.1.written, p.2)))).errs = [] := by
  have := C49_rule_text (env := env) r.lit (r.parts.map fun p => (p.1.written, Json.obj p.1.conf, p.2)) (by
    intro p hp
    obtain ⟨x, hx, rfl⟩ := List.mem_map.1 hp
    exact (hr x hx).decl)
  simp only [List.map_map, Function.comp_def] at this
  rw [toksT_confs]
  unfold partConfs
  unfold ruleConfs at this
  rw [List.flatMap_map] at this
  exact this

theorem RuleT.lex {r : RuleT} (hr : r.OK env) :
    (∀ (b : Bld) (dag : NodeId) (tags : Option (List Bytes)) (file : Bytes) (line : Nat),
      addSamp env b dag (lexRule env r.text).confs (decide ((lexRule env r.text).fin = .complete)) tags file line =
        addSamp env b dag ((r.toks env).map tokConfT) r.breaks.isNone tags file line) ∧
      (∀ k, (lexRule env r.text).fin ≠ .ub k) ∧ (lexRule env r.text).errs = r.msgs := by
  have hconfs : ∀ more, ruleConfs env r.lit ((r.parts.map fun p => (Json.obj p.1.conf, p.2)) ++ more) =
      (r.toks env).map tokConfT ++ more.flatMap fun p => p.1 :: litParsers (litMeaning env p.2) := by
    intro more
    rw [toksT_confs]
    unfold partConfs
    simp [ruleConfs, List.flatMap_map]
  cases hb : r.breaks with
  | none =>
    have ht : r.text = ruleText r.lit (r.parts.map fun p => (p.1.written, p.2)) := by unfold RuleT.text; rw [hb]; simp
    have hm : r.msgs = [] := by unfold RuleT.msgs; rw [hb]; rfl
    rw [ht, hm]
    obtain ⟨h1, h2, h3⟩ := RuleT.lexW hr.fields
    exact ⟨fun b dag tags file line => by rw [h1, h2]; rfl, (fun k hc => by rw [h2] at hc; cases hc), h3⟩
  | some x =>
    obtain ⟨bt, es⟩ := x
    have ht : r.text = ruleText r.lit (r.parts.map fun p => (p.1.written, p.2)) ++ bt := by unfold RuleT.text; rw [hb]; rfl
    have hm : r.msgs = es := by unfold RuleT.msgs; rw [hb]; rfl
    have hdecl : ∀ p ∈ r.parts.map fun p => (p.1.written, Json.obj p.1.conf, p.2), Declares env p.1 p.2.1 := by
      intro p hp
      obtain ⟨y, hy, rfl⟩ := List.mem_map.1 hp
      exact (hr.fields y hy).decl
    rw [ht, hm]
    have hbr := hr.broken _ hb
    dsimp only at hbr
    cases hbr with
    | malformed h =>
      have := lexRule_malformed h (r.parts.map fun p => (p.1.written, Json.obj p.1.conf, p.2)) r.lit hdecl
      simp only [List.map_map, Function.comp_def] at this
      have e := hconfs []
      simp only [List.append_nil, List.flatMap_nil] at e
      rw [this]
      exact ⟨fun b dag tags file line => by rw [e]; rfl, (fun k hc => by cases hc), rfl⟩
    | @unknown f o ty lit parts hf hty hn hp =>
      have := C49_rule_text (env := env) r.lit ((r.parts.map fun p => (p.1.written, Json.obj p.1.conf, p.2)) ++ (f, Json.obj o, lit) :: parts) (by
        intro p hp'
        rcases List.mem_append.1 hp' with h | h
        · exact hdecl p h
        · rcases List.mem_cons.1 h with rfl | h
          · exact hf
          · exact hp p h)
      have e : ruleText r.lit (((r.parts.map fun p => (p.1.written, Json.obj p.1.conf, p.2)) ++ (f, Json.obj o, lit) :: parts).map fun p => (p.1, p.2.2)) =
          ruleText r.lit (r.parts.map fun p => (p.1.written, p.2)) ++ (f.text ++ ruleText lit (parts.map fun p => (p.1, p.2.2))) := by
        simp [ruleText, List.map_map, Function.comp_def]
      rw [e] at this
      obtain ⟨h1, h2, h3⟩ := this
      refine ⟨fun b dag tags file line => ?_, (fun k hc => by rw [h2] at hc; cases hc), h3⟩
      have e2 : ruleConfs env r.lit (((r.parts.map fun p => (p.1.written, Json.obj p.1.conf, p.2)) ++ (f, Json.obj o, lit) :: parts).map fun p => (p.2.1, p.2.2)) =
          (r.toks env).map tokConfT ++ Json.obj o :: (litParsers (litMeaning env lit) ++ (parts.map fun p => (p.2.1, p.2.2)).flatMap fun p => p.1 :: litParsers (litMeaning env p.2)) := by
        have := hconfs ((Json.obj o, lit) :: parts.map fun p => (p.2.1, p.2.2))
        rw [List.flatMap_cons] at this
        simpa [List.map_map, Function.comp_def] using this
      rw [h1, e2, addSamp_stops fun b dag => addParser_noType hty hn b dag]
      rfl

theorem doc_opsT : ∀ (ls : List Loc) (pfx : Option Bytes) (ds : List RuleT), ExtendOK pfx (ls.map (·.what)) →
    docDefs pfx ls = ds.map (fun r => (r.type, r.tags, r.text, r.file, r.line)) →
    (∀ r ∈ ds, r.OK env) →
    (∀ (srt : Sorter) (b : Bld), (locOps env pfx ls).foldlM (BOp.run env srt) b = ((ds.map (RuleT.toDef env)).map Def.toOp).foldlM (BOp.run env srt) b) ∧
      DocSafe env pfx (ls.map (·.what)) ∧
      defErrs env pfx (ls.map (·.what)) = ds.map RuleT.msgs
  | [], pfx, ds, _, h, _ => by
    cases ds with
    | nil => exact ⟨fun _ _ => rfl, trivial, rfl⟩
    | cons r rs => cases h
  | ⟨fl, n, l⟩ :: ls, pfx, ds, hext, h, hf => by
    cases l with
    | rule tags t =>
      change (none, tags, pfx.getD [] ++ t, fl, n) :: docDefs (RLine.nextPrefix pfx (.rule tags t)) ls = _ at h
      cases ds with
      | nil => cases h
      | cons r rs =>
        simp only [List.map_cons, List.cons.injEq, Prod.mk.injEq] at h
        obtain ⟨⟨h0, h1, h2, h4, h3⟩, h⟩ := h
        obtain ⟨i1, i2, i3⟩ := doc_opsT ls _ rs hext.2 h fun x hx => hf x (List.mem_cons_of_mem _ hx)
        obtain ⟨l1, l2, l3⟩ := RuleT.lex (hf r (List.mem_cons_self ..))
        rw [← h2] at l1 l2 l3
        refine ⟨?_, ⟨?_, i2⟩, ?_⟩
        · intro srt b
          have e : BOp.run env srt b (.rule (lexRule env (pfx.getD [] ++ t)).confs (decide ((lexRule env (pfx.getD [] ++ t)).fin = .complete)) (tagBucket tags) fl n) =
              BOp.run env srt b (RuleT.toDef env r).toOp := by
            unfold RuleT.toDef Def.toOp Rule.toOp
            rw [← h0, h1, h3, h4]
            exact l1 b b.root _ _ _
          show (BOp.run env srt b _).bind (fun b => (locOps env _ ls).foldlM (BOp.run env srt) b) = (BOp.run env srt b _).bind _
          rw [e]
          exact R_bind_congr _ fun b => i1 srt b
        · exact l2
        · rw [List.map_cons, List.map_cons]
          unfold defErrs
          rw [i3]
          simp only [RLine.errs, l3, RLine.isDef, if_true]
          rfl
    | type nm t =>
      change (some nm, [], t, fl, n) :: docDefs (RLine.nextPrefix pfx (.type nm t)) ls = _ at h
      cases ds with
      | nil => cases h
      | cons r rs =>
        simp only [List.map_cons, List.cons.injEq, Prod.mk.injEq] at h
        obtain ⟨⟨h0, h1, h2, h4, h3⟩, h⟩ := h
        obtain ⟨i1, i2, i3⟩ := doc_opsT ls _ rs hext.2 h fun x hx => hf x (List.mem_cons_of_mem _ hx)
        obtain ⟨l1, l2, l3⟩ := RuleT.lex (hf r (List.mem_cons_self ..))
        rw [← h2] at l1 l2 l3
        refine ⟨?_, ⟨?_, i2⟩, ?_⟩
        · intro srt b
          have e : BOp.run env srt b (.typeDef nm (lexRule env t).confs (decide ((lexRule env t).fin = .complete)) none fl n) =
              BOp.run env srt b (RuleT.toDef env r).toOp := by
            unfold RuleT.toDef Def.toOp
            rw [← h0, ← h1, h3, h4]
            exact l1 _ _ _ _ _
          show (BOp.run env srt b _).bind (fun b => (locOps env _ ls).foldlM (BOp.run env srt) b) = (BOp.run env srt b _).bind _
          rw [e]
          exact R_bind_congr _ fun b => i1 srt b
        · exact l2
        · rw [List.map_cons, List.map_cons]
          unfold defErrs
          rw [i3]
          simp only [RLine.errs, l3, RLine.isDef, if_true]
          rfl
    | extend t =>
      obtain ⟨i1, i2, i3⟩ := doc_opsT ls _ ds hext.2 h hf
      exact ⟨i1, ⟨hext.1 t rfl, i2⟩, i3⟩
    | skip t =>
      obtain ⟨i1, i2, i3⟩ := doc_opsT ls _ ds hext.2 h hf
      exact ⟨i1, ⟨trivial, i2⟩, i3⟩
    | prefix_ t =>
      obtain ⟨i1, i2, i3⟩ := doc_opsT ls _ ds hext.2 h hf
      exact ⟨i1, ⟨trivial, i2⟩, i3⟩
    | annotate tag ops =>
      obtain ⟨i1, i2, i3⟩ := doc_opsT ls _ ds hext.2 h hf
      exact ⟨i1, ⟨trivial, i2⟩, i3⟩
    | unknown k t =>
      obtain ⟨i1, i2, i3⟩ := doc_opsT ls _ ds hext.2 h hf
      exact ⟨i1, ⟨trivial, i2⟩, i3⟩

theorem fwalk_labT {b : Bld} {ts : List (Bytes × NodeId)} {lab : NodeId → List Json} (ht : Trie env ts b lab) {n : NodeId} {cs : List Json} {m : NodeId}
    (h : FWalk b n cs m) : lab m = lab n ++ cs := by
  induction h with
  | nil n => simp
  | @cons n nd c q cs m hn hq _ ih =>
    have hqc : q.conf = c := by simpa using List.find?_some hq
    rw [ih, (ht.edge n nd hn q (List.mem_of_find?_eq_some hq)).1, hqc, List.append_assoc]; rfl

/-- a field of the graph -/
theorem field_kindT {b : Bld} {lab : NodeId → List Json} {ds : List RuleT} (ht : IsTrie env b.types b lab (ds.map (RuleT.toDef env)))
    (hf : ∀ r ∈ ds, ∀ p ∈ r.parts, p.1.OK env) {n : NodeId} {nd : Node} (hn : b.heap n = some nd) {q : Parser} (hq : q ∈ nd.parsers) :
    ∃ r ∈ ds, ∃ k ∈ r.toks env, k.1.Described k.2 ∧ ((∃ f, k.1 = .plain f ∧ KindFor k.2 f q.kind ∧ q.name = fieldName k.2) ∨
      ∃ i, q.kind = .custom i ∧ b.types[i]?.isSome = true) := by
  obtain ⟨d, hd, x, hx, hpre⟩ := ht.used n nd hn q hq
  obtain ⟨r, hr, rfl⟩ := List.mem_map.1 hd
  obtain ⟨y, k, a1, a2, a3⟩ := toks_snoc hpre
  have hkm : k ∈ r.toks env := a1.subset (List.mem_append_right _ (List.mem_cons_self ..))
  have hde := toksT_desc (hf r hr) _ hkm
  refine ⟨r, hr, k, hkm, hde, ?_⟩
  obtain ⟨ty, o⟩ := k
  have he := (ht.trie.edge n nd hn q hq).2
  rw [← a3] at he
  rcases confField_cases he with ⟨_, h⟩ | ⟨ty', i, h1, h2, h3, h4⟩
  · cases ty with
    | plain f =>
      obtain ⟨p, h1, h2, h3, _⟩ := confField_ok (env := env) hde
      change confField env [] (.obj o) = _ at h
      rw [h1] at h
      cases h
      exact .inl ⟨f, rfl, h2, h3⟩
    | user nm =>
      change confField env [] (.obj o) = _ at h
      rw [user_not_field hde] at h; cases h
  · refine .inr ⟨i, h1, ?_⟩
    rw [List.findIdx?_eq_some_iff_getElem] at h3
    obtain ⟨hlt, _⟩ := h3
    rw [List.getElem?_eq_getElem hlt]; rfl

/-- a rule base with user-defined types in the graph, optimised: what it does to messages -/
theorem doc_coreT (he : env.TokOK) (locs : List Loc) (ls : List RLine) (hls : locs.map (·.what) = ls) (hok : ∀ l ∈ ls, l.OK)
    (hline : ∀ l ∈ ls, ∀ c ∈ l.text, c ≠ 0) (hext : ExtendOK none ls)
    (ds : List RuleT) (hdefs : docDefs none locs = ds.map fun r => (r.type, r.tags, r.text, r.file, r.line))
    (hrok : ∀ r ∈ ds, r.OK env) (hfile0 : ∀ r ∈ ds, ∀ c ∈ r.file, c ≠ 0) (hdef : Defined ds) (hlay : Layered ds)
    (hlen : ∀ t, Narrow ((ds.filter fun r => r.type = t).map (·.toks env))) :
    ∃ b, runOps env srt (locOps env none locs ++ [.optimize]) = .ok b ∧ DocSafe env none ls ∧
      defErrs env none ls = ds.map RuleT.msgs ∧
      ∀ (opts : Nat) (s : Bytes), Tame s → (∀ r ∈ ds, r.InScope env s) → Unambiguous env ds s →
        (opts.testBit 3 = true → ∀ r ∈ ds, r.Shows env) →
        ∀ (stats : NodeId → Stats) (json0 : Obj), ∃ N, ∀ fuel, N ≤ fuel → ∃ res,
          normalize env fuel (b.toCtx opts (annotSet (ls.flatMap RLine.annots))) stats s json0 = .ok res ∧
            DocOutcomeT env ls ds opts s json0 res.ok res.json := by
  have hf : ∀ r ∈ ds, ∀ p ∈ r.parts, p.1.OK env := fun r hr => (hrok r hr).fields
  obtain ⟨hops, hsafe, herrs⟩ := doc_opsT locs none ds (by rw [hls]; exact hext) hdefs hrok
  rw [hls] at hsafe herrs
  have hdlen : NarrowDefs (ds.map (RuleT.toDef env)) := by
    intro t
    refine ((hlen t).map (f := tokConfT) (P := fun k => k.1.Described k.2) ?_ ?_).mono ?_
    · intro x hx k hk
      obtain ⟨r, hr, rfl⟩ := List.mem_map.1 hx
      exact toksT_desc (hf r (List.mem_filter.1 hr).1) k hk
    · intro x y hx hy hxy
      exact tokConfT_inj hx hy hxy
    · intro x hx
      obtain ⟨d, hd, hty, rfl⟩ := mem_ofType.1 hx
      obtain ⟨r, hr, rfl⟩ := List.mem_map.1 hd
      exact List.mem_map.2 ⟨_, List.mem_map.2 ⟨r, List.mem_filter.2 ⟨hr, decide_eq_true hty⟩, rfl⟩, rfl⟩
  obtain ⟨b, lab, hb, htr⟩ := types_load (srt := srt) (ds.map (RuleT.toDef env)) (known_of_defined hf hdef)
  have hwr := htr.wr hdlen
  have hnn : b.NoNull := by
    intro n nd hn q hq
    obtain ⟨r, _, t, _, _, ⟨f, _, h2, _⟩ | ⟨i, h2, _⟩⟩ := field_kindT htr hf hn hq
    · refine ⟨fun hk => ?_, h2.notRepeat none⟩
      rcases h2.literal_iff with ⟨w, _, _, h3⟩ | ⟨_, h3⟩
      · rw [hk] at h3; cases h3
      · exact h3 _ hk
    · rw [h2]; exact ⟨(fun h => by cases h), (fun h => by cases h)⟩
  have hroot : b.root ∈ b.ctxRefs := List.mem_cons_self ..
  have htypes : ∀ t ∈ b.types, t.2 ∈ b.ctxRefs := fun t ht => List.mem_cons_of_mem _ (List.mem_map.2 ⟨t, ht, rfl⟩)
  obtain ⟨b', hopt⟩ := pdagOptimize_total (srt := srt) htr.inv hroot htypes hnn
  have hrunall : runOps env srt (locOps env none locs ++ [.optimize]) = .ok b' := by
    have hb' := hb
    unfold runOps at hb' ⊢
    rw [foldlM_append_R, hops, hb', R.ok_bind', List.foldlM_cons]
    change (pdagOptimize srt b).bind _ = _
    rw [hopt]; rfl
  refine ⟨_, hrunall, hsafe, herrs, ?_⟩
  intro opts s hs hin hamb hshow stats json0
  have hann : AnnotsOK (annotSet (ls.flatMap RLine.annots)) := docAnnots_ok ls
  generalize han : annotSet (ls.flatMap RLine.annots) = annots at hann
  obtain ⟨hsteps, hi, _⟩ := optimize_facts hb hopt
  obtain ⟨hi', _, _, hr', ht', _⟩ := hsteps.frame hi
  have h0 : ∀ c ∈ s, c ≠ 0 := fun c hc => (hs.ascii c hc).1
  have sim := hsteps.hsim (env := env) (s := s) h0 hi hroot htypes opts annots
  have hpok : ∀ d ∈ ds, PartsOK env s d.parts := fun d hd p hp => ⟨hf d hd p hp, hin d hd p hp⟩
  have hclear := clear_of_unambiguous hs hpok hamb
  have hdec := htr.decided (opts := opts) (annots := annots) hclear
  have hnorep := htr.no_repeat (opts := opts) (annots := annots)
  obtain ⟨rank, hacyc⟩ := acyclic_of_layered (opts := opts) (annots := annots) htr hf hlay
  have hpar0 : ∀ n nd, b.heap n = some nd → ∀ q ∈ nd.parsers, (∀ d, q.kind ≠ .repeat_ d) ∧ (∀ i, q.kind = .custom i → b.types[i]?.isSome = true) ∧
      (q.kind = .cee → CeeFirst s) ∧ Parser.Configured q.kind q.name.isSome ∧ (opts.testBit 3 = true → q.kind ≠ .literal (some [])) := by
    intro n nd hn q hq
    have hnr : ∀ d, q.kind ≠ .repeat_ d := by
      intro d
      refine hnorep n q ?_ d
      show q ∈ ((b.heap n).getD {}).parsers
      rw [hn]; exact hq
    obtain ⟨r, hr, ⟨ty, o⟩, ht, hd, ⟨f, hty, h2, h3⟩ | ⟨i, h2, h3⟩⟩ := field_kindT htr hf hn hq
    · dsimp only at hty h2 h3
      subst hty
      have hsc := (toks_okT (hpok r hr) _ ht).2 f rfl 0 (Nat.zero_le _)
      dsimp only at hsc
      have hnc : ∀ i, q.kind ≠ .custom i := by
        intro i hk
        have := h2.kname
        rw [hk] at this
        change bs! "USER-DEFINED" = f.name at this
        revert this
        clear hk h2 h3 hsc hd ht
        cases f <;> decide
      refine ⟨hnr, fun i hk => absurd hk (hnc i), Describes.cee_first ((toks_okT (hpok r hr) _ ht).2 f rfl) h2, ?_, ?_⟩
      · rw [h3]
        cases f <;> simp only [KindFor] at h2
        case opQuoted => rw [h2]; exact hsc
        all_goals first
          | (rw [h2]; trivial)
          | (obtain ⟨w, h4, h5⟩ := h2; rw [h5]; rfl)
          | (obtain ⟨w, h4, h5⟩ := h2; rw [h4]; rfl)
          | (rw [h2]; rfl)
      · intro h8 hk
        have hsh := hshow h8 r hr
        rcases h2.literal_iff with ⟨w, h5, h6, h7⟩ | ⟨_, h3⟩
        · rw [hk] at h7
          cases h7
          subst h5
          rcases List.mem_append.1 ht with h | h
          · obtain ⟨c, _, hc⟩ := List.mem_map.1 h
            cases hc
            have := h6.1
            cases this
          · obtain ⟨p, hp, h⟩ := List.mem_flatMap.1 h
            rcases List.mem_cons.1 h with h | h
            · obtain ⟨h1, h4⟩ := Prod.mk.injEq .. ▸ h
              exact hsh.2 p hp h1.symm (h4 ▸ h6)
            · obtain ⟨c, _, hc⟩ := List.mem_map.1 h
              cases hc
              have := h6.1
              cases this
        · exact h3 _ hk
    · refine ⟨hnr, fun j hk => ?_, ?_, ?_, ?_⟩
      · rw [h2] at hk; cases hk; exact h3
      · rw [h2]; intro h; cases h
      · rw [h2]; trivial
      · intro _; rw [h2]; intro h; cases h
  have hnodes := hsteps.nodes hi (Q := fun k nm => (∀ d, k ≠ .repeat_ d) ∧ (∀ i, k = .custom i → b.types[i]?.isSome = true) ∧
      (k = .cee → CeeFirst s) ∧ Parser.Configured k nm.isSome ∧ (opts.testBit 3 = true → k ≠ .literal (some []))) (by
    intro l l' h
    refine ⟨(fun d hc => by cases hc), (fun i hc => by cases hc), (fun hc => by cases hc), rfl, fun h8 hc => h.2.2.2.2 h8 ?_⟩
    have : l ++ l' = [] := by injection hc with h1; exact Option.some.inj h1
    rw [(List.append_eq_nil_iff.1 this).1]) hpar0
  obtain ⟨N, hN⟩ := normalize_totalT (b := b') (opts := opts) (annots := annots) he hs (sim.acy rank hacyc)
    (fun n nd hn => by
      have := (hnodes n nd hn).1
      rw [show b'.types = b.types from sim.types]; exact this) (by
      intro h8 nd hnd
      obtain ⟨_, nd0, g1, g2, _⟩ := hnodes _ nd hnd
      rw [g2]
      cases hter : nd0.isTerminal with
      | false => rfl
      | true =>
        rw [hr'] at g1
        obtain ⟨d, hd, hcm, hl⟩ := htr.term _ nd0 g1 hter
        rw [htr.start none b.root rfl] at hl
        injection hl with hl0 hl
        obtain ⟨r, hr, rfl⟩ := List.mem_map.1 hd
        have ht0 : r.toks env = [] := List.map_eq_nil_iff.1 hl
        have := (hshow h8 r hr).1 (mark_inj hl0) (Option.isNone_iff_eq_none.1 hcm)
        rw [← toksT_show, ht0] at this
        exact absurd rfl this) (by
      intro n nd hn hter
      obtain ⟨_, nd0, g1, g2, g3⟩ := hnodes n nd hn
      rw [g2] at hter
      obtain ⟨_, d, _, _, _, _, _, hm, _⟩ := htr.tag hwr n nd0 g1 hter
      rw [← g3] at hm
      have : nd.rbFile = some d.rule.file := congrArg (·.2.1) hm
      rw [this]; rfl) hann stats json0
  refine ⟨N, fun fuel hfl => ?_⟩
  obtain ⟨res, hres⟩ := hN fuel hfl
  refine ⟨res, hres, ?_⟩
  -- rules and matches of the graph
  have hbwd : ∀ {tr : List NStep} {m : NodeId}, Holds env (b.toCtx opts annots) s False (.path b.root 0 tr m s.length) →
      ((b.toCtx opts annots).node m).isTerminal = true →
      ∃ (j : Nat) (q : RuleT), ds[j]? = some q ∧ q.type = none ∧ tr.map (·.field.conf) = (q.toks env).map tokConfT ∧
        ((b.toCtx opts annots).node m).mark = (tagBucket q.tags, some q.file, q.line) ∧
        (∀ k q', j < k → ds[k]? = some q' → q'.type = none → q'.breaks = none → q'.toks env ≠ q.toks env) ∧
        ∃ us, q.Matches env ds s us ∧ ∀ o, storeNested o tr = placeValues o us := by
    intro tr m hp hter
    obtain ⟨nd, hm, hter'⟩ := ctx_terminal hter
    obtain ⟨j, d, n0, a1, a2, a3, a4, a5, a6⟩ := htr.tag hwr m nd hm hter'
    rw [List.getElem?_map, Option.map_eq_some_iff] at a1
    obtain ⟨q, hq, rfl⟩ := a1
    obtain ⟨e1, e3⟩ := htr.derives hp
    have e2 := fwalk_labT htr.trie a4
    rw [htr.start _ _ a3, List.singleton_append] at e2
    rw [htr.start none b.root rfl, List.singleton_append, e2] at e1
    injection e1 with e4 e5
    have hqt : q.type = none := mark_inj e4
    change (q.toks env).map tokConfT = _ at e5
    have hqm := List.mem_of_getElem? hq
    rw [← e5] at e3
    obtain ⟨us, g1, g2⟩ := (gives_iff_matches he hs hpok hqm).2 (Option.isNone_iff_eq_none.1 a2) _ e3
    refine ⟨j, q, hq, hqt, e5.symm, ?_, ?_, us, g1, fun o => ?_⟩
    · show ((b.heap m).getD {}).mark = _
      rw [hm]; exact a5
    · intro k q' hk hq' hqt' hbn heq
      have := a6 k (q'.toDef env) hk (by rw [List.getElem?_map, hq']; rfl) (hqt'.trans hqt.symm) (by
        show (q'.toks env).map tokConfT = (q.toks env).map tokConfT
        rw [heq])
      have this : q'.breaks.isNone = false := this
      rw [hbn] at this
      cases this
    · rw [← placeAll_store]; exact g2 o
  have hfwd : ∀ {r : RuleT} {us : List (Option Bytes × Option Json)}, r ∈ ds → r.type = none → r.Matches env ds s us →
      ∃ tr m, Holds env (b.toCtx opts annots) s False (.path b.root 0 tr m s.length) ∧
        ((b.toCtx opts annots).node m).isTerminal = true ∧ tr.map (·.field.conf) = (r.toks env).map tokConfT := by
    intro r us hr hrt hm
    obtain ⟨n0, e, nd, a1, a2, a3, a4⟩ := htr.walk hwr (r.toDef env) (List.mem_map.2 ⟨r, hr, rfl⟩) (Option.isNone_iff_eq_none.2 hm.1)
    change b.start r.type = _ at a1
    rw [hrt] at a1
    cases a1
    obtain ⟨ws, hder, _⟩ := (gives_iff_matches he hs hpok hr).1 _ hm
    obtain ⟨tr, g1, _⟩ := htr.holds (opts := opts) (annots := annots) hwr hder a2
    refine ⟨tr, e, g1, ?_, ?_⟩
    · show ((b.heap e).getD {}).isTerminal = true
      rw [a3]; exact a4
    · have e1 := (htr.derives g1).1
      have e2 := fwalk_labT htr.trie a2
      exact List.append_cancel_left (e1.symm.trans e2)
  have hdesc : ∀ d ∈ ds, ∀ t ∈ d.toks env, t.1.Described t.2 := fun d hd => toksT_desc (hf d hd)
  refine ⟨?_, ?_, ?_⟩
  · rw [(C17_types_partial hb hopt h0 hdec hnorep hres).1]
    constructor
    · rintro ⟨tr, m, hp, hter⟩
      obtain ⟨j, q, hq, hqt, _, _, _, us, hm, _⟩ := hbwd hp hter
      exact ⟨q, List.mem_of_getElem? hq, hqt, us, hm⟩
    · rintro ⟨r, hr, hrt, us, hm⟩
      obtain ⟨tr, m, g1, g2, _⟩ := hfwd hr hrt hm
      exact ⟨tr, m, g1, g2⟩
  · intro hokt
    obtain ⟨tr, m, e, rule, hp, hter, hfe, hfin, hmock, hmax⟩ := optimised_max sim hdec hnorep hacyc hres hokt
    change Holds env (b.toCtx opts annots) s False (.path b.root 0 tr m s.length) at hp
    obtain ⟨i, r, hri, hrt, hrc, _, _, vs, hrm, hst⟩ := hbwd hp hter
    have hr := List.mem_of_getElem? hri
    obtain ⟨tr1, tr2, htr12, hp1, hmin⟩ := firstEndN_split hp hfe
    obtain ⟨j, q, hqj, hqt, hqc, hmark, hlast, us, hqm, _⟩ := hbwd hp1 (firstEndN_terminal hfe)
    have hq := List.mem_of_getElem? hqj
    have hmk : mockupN tr = r.mockup env := by
      rw [← toksT_show]
      refine mockupN_toks htr (fun st hst => ?_) hrc (hdesc r hr)
      obtain ⟨k, hk⟩ := Holds.path_fields hp st hst
      obtain ⟨nd, h1, h2⟩ := ctx_parser hk
      exact ⟨k, nd, h1, h2⟩
    rw [hst] at hfin
    obtain ⟨extra, hev⟩ := finishMatch_docT (env := env) ls hok hline (by rw [han]; rfl) (hf r hr) (rule := rule) (by
      intro h8
      rw [← hmk]; exact hmock h8) hmark (hfile0 q hq) hfin
    refine ⟨r, q, j, vs, extra, hr, hrt, hqj, hqt, hrm, ⟨us, hqm⟩, ?_, hlast, hev⟩
    rintro r' hr'm hr't ⟨ws, hm'⟩
    obtain ⟨tr0, m0, f1, f2, f3⟩ := hfwd hr'm hr't hm'
    have hpre := hmax tr0 m0 f1 f2
    obtain ⟨w, hw⟩ := hmin tr0 m0 hpre f1 f2
    obtain ⟨w', hw'⟩ := hpre
    constructor
    · refine toksT_prefix (hdesc q hq) (hdesc r' hr'm) ?_
      rw [← hqc, ← f3, ← hw, List.map_append]
      exact List.prefix_append ..
    · refine toksT_prefix (hdesc r' hr'm) (hdesc r hr) ?_
      rw [← hrc, ← f3, ← hw', List.map_append]
      exact List.prefix_append ..
  · intro hno
    obtain ⟨u, hreached, hu, hfar, hj⟩ := normalize_unparsed (slack := False) (fun _ => sim.dec hdec) hres hno
    have hfar := hfar (fun h => h) (sim.norep hnorep)
    refine ⟨u, hu, ?_, ?_⟩
    · have hreach := pdagOptimize_reachH (env := env) (slack := False) h0 htr.inv (htr.single hwr) hroot htypes hopt opts annots
      have hpreok : ∀ {pre : List RTok}, (pre = [] ∨ ∃ r ∈ ds, r.type = none ∧ pre <+: r.toks env) → ∀ k ∈ pre, TokOK env s k := by
        rintro pre (rfl | ⟨r, hr, _, hpr⟩)
        · exact fun t ht => absurd ht (List.not_mem_nil)
        · exact fun t ht => toks_okT (hpok r hr) t (hpr.subset ht)
      have key : ∀ j, (∃ tr m, Holds env (b'.toCtx opts annots) s False (.path b.root 0 tr m j)) ↔ ReadsToT env ds s j := by
        intro j
        constructor
        · rintro ⟨tr, m, hp⟩
          obtain ⟨⟨tr0, hp0⟩, hmid⟩ := (hreach m j).1 ⟨tr, hp⟩
          have hw0 := fwalk_of_holds htr.trie hp0
          obtain ⟨pre, hpre, hconf⟩ := begin_of_walkT htr hw0
          have hmid' : ¬ MidTextT env ds pre := fun hm => hmid ((htr.midLit hwr (t := none) rfl hw0).2 (by
            rw [hconf]; exact (midTextT_iff hf hpre).1 hm))
          have hder := (htr.derives hp0).2
          rw [hconf] at hder
          exact ⟨pre, hpre, hmid', reads_of_derives he hs hpok hder (Nat.zero_le _) (hpreok hpre)⟩
        · rintro ⟨pre, hpre, hmid, hrd⟩
          obtain ⟨m, hw0⟩ : ∃ m, FWalk b b.root (pre.map tokConfT) m := by
            rcases hpre with rfl | ⟨r, hr, hrt, u, hpr⟩
            · exact ⟨_, .nil _⟩
            · obtain ⟨n0, e, a1, a2⟩ := htr.goes hwr (r.toDef env) (List.mem_map.2 ⟨r, hr, rfl⟩)
              change b.start r.type = _ at a1
              rw [hrt] at a1
              cases a1
              have a2 : FWalk b b.root ((r.toks env).map tokConfT) e := a2
              rw [← hpr, List.map_append] at a2
              obtain ⟨m, g, _⟩ := a2.split
              exact ⟨m, g⟩
          obtain ⟨ws, hder⟩ := derives_of_reads he hs hpok hrd (Nat.zero_le _) (hpreok hpre)
          obtain ⟨tr, g1, _⟩ := htr.holds (opts := opts) (annots := annots) hwr hder hw0
          obtain ⟨tr', h'⟩ := (hreach m j).2 ⟨⟨tr, g1⟩, fun hm => hmid ((midTextT_iff hf hpre).2 ((htr.midLit hwr (t := none) rfl hw0).1 hm))⟩
          exact ⟨tr', m, h'⟩
      have hrt : (b'.toCtx opts annots).root = b.root := hr'
      rw [hrt] at hreached hfar
      refine ⟨(key u).1 hreached, fun j hj => ?_⟩
      obtain ⟨tr1, m1, hp1⟩ := (key j).2 hj
      exact hfar tr1 m1 j hp1
    · rw [hj]
      unfold newString
      rw [cstr_noNul fun c hc => h0 c (List.mem_of_mem_drop hc)]

end
end LN
