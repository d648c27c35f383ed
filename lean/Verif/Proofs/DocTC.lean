import Verif.Proofs.DocTB
/- Rule bases of version 2 with user-defined types: results, events, the longest and the shortest rule. -/
set_option autoImplicit false
namespace LN
open Spec

section
variable {env : Env} {s : Bytes}

/-! ### there is a result -/

/-- A graph of complete fields and defined types none of which contains itself, with no rule which shows as nothing: normalising returns a result. -/
theorem normalize_totalT {b : Bld} {rank : NodeId → Nat} {opts : Nat} {annots : List Annot} (he : env.TokOK) (hs : Tame s)
    (hacyc : Acyclic (b.toCtx opts annots) rank)
    (hpar : ∀ n nd, b.heap n = some nd → ∀ q ∈ nd.parsers, (∀ d, q.kind ≠ .repeat_ d) ∧ (∀ i, q.kind = .custom i → b.types[i]?.isSome = true) ∧
      (q.kind = .cee → CeeFirst s) ∧ Parser.Configured q.kind q.name.isSome ∧ (opts.testBit 3 = true → q.kind ≠ .literal (some [])))
    (hroot : opts.testBit 3 = true → ∀ nd, b.heap b.root = some nd → nd.isTerminal = false)
    (hfile : ∀ n nd, b.heap n = some nd → nd.isTerminal = true → nd.rbFile.isSome = true)
    (hann : AnnotsOK annots) (stats : NodeId → Stats) (json0 : Obj) :
    ∃ N, ∀ fuel, N ≤ fuel → ∃ res, normalize env fuel (b.toCtx opts annots) stats s json0 = .ok res := by
  have hp : ∀ n, ∀ q ∈ ((b.toCtx opts annots).node n).parsers, ∃ nd, b.heap n = some nd ∧ q ∈ nd.parsers := fun n q hq => ctx_parser hq
  have hcee : NoCee (b.toCtx opts annots) s := by
    intro n q hq
    obtain ⟨nd, h1, h2⟩ := hp n q hq
    exact (hpar n nd h1 q h2).2.2.1
  have hnorep : ∀ n, ∀ q ∈ ((b.toCtx opts annots).node n).parsers, ∀ d, q.kind ≠ .repeat_ d := by
    intro n q hq d hk
    obtain ⟨nd, h1, h2⟩ := hp n q hq
    exact (hpar n nd h1 q h2).1 d hk
  have hsep : SepConsumes (b.toCtx opts annots) := fun n p hp a w m hk => absurd hk (hnorep n p hp _)
  have hwf : (b.toCtx opts annots).WF := by
    refine ⟨?_, ?_, fun n p hp d hk => absurd hk (hnorep n p hp d),
      fun n p hp a w m hk => absurd hk (hnorep n p hp _), ?_, ?_, ?_⟩
    · intro n q hq
      obtain ⟨nd, h1, h2⟩ := hp n q hq
      exact (hpar n nd h1 q h2).2.2.2.1
    · intro n q hq i hk
      obtain ⟨nd, h1, h2⟩ := hp n q hq
      exact (hpar n nd h1 q h2).2.1 i hk
    · intro a ha op hop _
      obtain ⟨⟨v, hv⟩, n, hn⟩ := hann a ha op hop
      exact ⟨by rw [hn]; rfl, by rw [hv]; rfl⟩
    · intro h8
      have h8' : opts.testBit 3 = true := (has_testBit (b.toCtx opts annots) 3).symm.trans h8
      refine ⟨?_, ?_⟩
      · show ((b.heap b.root).getD {}).isTerminal = false
        cases hr : b.heap b.root with
        | none => rfl
        | some nd => exact hroot h8' nd hr
      · intro n q hq
        obtain ⟨nd, h1, h2⟩ := hp n q hq
        exact (hpar n nd h1 q h2).2.2.2.2 h8'
    · intro _ n _ ht
      obtain ⟨nd, hn, ht⟩ := ctx_terminal ht
      show ((b.heap n).getD {}).rbFile.isSome = true
      rw [hn]; exact hfile n nd hn ht
  obtain ⟨N, x, hx, hN⟩ := C07_terminates_partial (s := s) he hcee hsep hacyc stats json0
  refine ⟨N, fun fuel hf => ?_⟩
  let M := rank b.root + s.length + 1
  have hpost := normalize_post (s := s) he hcee hsep hacyc (fuel := max fuel M)
    (Nat.lt_of_lt_of_le (Nat.lt_succ_self _) (Nat.le_max_right fuel M)) stats json0
  have h1 := hN fuel hf
  have h2 := hN (max fuel M) (Nat.le_trans hf (Nat.le_max_left fuel M))
  rw [h1]
  rw [h2] at hpost
  have hub := hpost.2.2 ⟨hs, hwf⟩
  cases x with
  | ok res => exact ⟨res, rfl⟩
  | fail => exact absurd h1 (normalize_nf _ _ _ _ _ _)
  | ub k => exact absurd rfl (hub k)
  | oof => exact absurd rfl hx

/-! ### paths -/

theorem Holds.path_rank {ctx : Ctx} {slack : Prop} {rank : NodeId → Nat} (ha : Acyclic ctx rank) : ∀ {tr : List NStep} {n m : NodeId} {off off' : Nat},
    Holds env ctx s slack (.path n off tr m off') → rank m + tr.length ≤ rank n
  | [], n, m, off, off', h => by cases h; simp
  | a :: tr, n, m, off, off', h => by
    cases h with
    | @cons _ _ idx p mid v _ _ _ hidx hacc htail =>
      have h1 := Holds.path_rank ha htail
      have h2 := ha.next n p (List.mem_of_getElem? hidx)
      rw [List.length_cons]
      omega

theorem Holds.path_append {ctx : Ctx} {slack : Prop} : ∀ {a w : List NStep} {n m : NodeId} {off off' : Nat},
    Holds env ctx s slack (.path n off (a ++ w) m off') →
    ∃ k mid, Holds env ctx s slack (.path n off a k mid) ∧ Holds env ctx s slack (.path k mid w m off')
  | [], w, n, m, off, off', h => ⟨n, off, .nil _ _, h⟩
  | x :: a, w, n, m, off, off', h => by
    rw [List.cons_append] at h
    cases h with
    | @cons _ _ idx p mid v _ _ _ hidx hacc htail =>
      obtain ⟨k, mid', h1, h2⟩ := Holds.path_append htail
      exact ⟨k, mid', .cons hidx hacc h1, h2⟩

theorem Holds.path_end {ctx : Ctx} {slack : Prop} : ∀ {tr : List NStep} {n m m' : NodeId} {off e e' : Nat},
    Holds env ctx s slack (.path n off tr m e) → Holds env ctx s slack (.path n off tr m' e') → m = m' ∧ e = e'
  | [], n, m, m', off, e, e', h, h' => by cases h; cases h'; exact ⟨rfl, rfl⟩
  | x :: tr, n, m, m', off, e, e', h, h' => by
    cases h with
    | @cons _ _ idx p mid v _ _ _ hidx hacc htail =>
      cases h' with
      | @cons _ _ _ _ _ _ _ _ _ hidx' hacc' htail' => exact Holds.path_end htail htail'

theorem Holds.path_fields {ctx : Ctx} {slack : Prop} : ∀ {tr : List NStep} {n m : NodeId} {off off' : Nat},
    Holds env ctx s slack (.path n off tr m off') → ∀ st ∈ tr, ∃ k, st.field ∈ (ctx.node k).parsers
  | [], n, m, off, off', h, st, hst => by cases hst
  | x :: tr, n, m, off, off', h, st, hst => by
    cases h with
    | @cons _ _ idx p mid v _ _ _ hidx hacc htail =>
      rcases List.mem_cons.1 hst with rfl | hst
      · exact ⟨n, List.mem_of_getElem? hidx⟩
      · exact Holds.path_fields htail st hst

theorem firstEndN_split {ctx : Ctx} : ∀ {tr : List NStep} {n m : NodeId} {off off' : Nat}, Holds env ctx s False (.path n off tr m off') →
    ∀ {e : NodeId}, firstEndN ctx s false n off tr = some e →
      ∃ tr1 tr2, tr = tr1 ++ tr2 ∧ Holds env ctx s False (.path n off tr1 e s.length) ∧
        ∀ tr0 m0, tr0 <+: tr → Holds env ctx s False (.path n off tr0 m0 s.length) → (ctx.node m0).isTerminal = true → tr1 <+: tr0 := by
  have hce : ∀ n off, CanEnd ctx s false n off = true → off = s.length := by
    intro n off h
    simpa [CanEnd] using (Bool.and_eq_true_iff.1 h).2
  intro tr
  induction tr with
  | nil =>
    intro n m off off' h e he
    simp only [firstEndN] at he
    split at he
    · rename_i hc
      cases he
      have := hce _ _ hc
      subst this
      exact ⟨[], [], rfl, .nil _ _, fun _ _ _ _ _ => List.nil_prefix⟩
    · cases he
  | cons a tr ih =>
    intro n m off off' h e he
    simp only [firstEndN] at he
    split at he
    · rename_i hc
      cases he
      have := hce _ _ hc
      subst this
      exact ⟨[], _, rfl, .nil _ _, fun _ _ _ _ _ => List.nil_prefix⟩
    · rename_i hc
      cases h with
      | @cons _ _ idx p mid v _ _ _ hidx hacc htail =>
        obtain ⟨tr1, tr2, h1, h2, h3⟩ := ih htail he
        subst h1
        refine ⟨_ :: tr1, tr2, rfl, .cons hidx hacc h2, ?_⟩
        intro tr0 m0 hpre hp ht
        cases hp with
        | nil =>
          exfalso
          apply hc
          simp [CanEnd, ht]
        | @cons _ _ idx' p' mid' v' tr0 _ _ hidx' hacc' htl' =>
          obtain ⟨u, hu⟩ := hpre
          simp only [List.cons_append, List.cons.injEq] at hu
          obtain ⟨hst, hu⟩ := hu
          cases hst
          have := h3 tr0 m0 ⟨u, hu⟩ htl' ht
          obtain ⟨w, hw⟩ := this
          exact ⟨w, by rw [← hw]; rfl⟩

/-- of the optimised graph: the match reported is the longest one of the graph as loaded -/
theorem optimised_max {c c' : Ctx} {rank : NodeId → Nat} (sim : HSim env s c c') (hdec : Decided env c s) (hrep : NoRepeat c) (ha : Acyclic c rank)
    {fuel : Nat} {stats : NodeId → Stats} {json0 : Obj} {res : Res} (h : normalize env fuel c' stats s json0 = .ok res) (hok : res.ok = true) :
    ∃ tr m e rule, Holds env c s False (.path c.root 0 tr m s.length) ∧ (c.node m).isTerminal = true ∧ firstEndN c s false c.root 0 tr = some e ∧
      finishMatch c s rule e (storeNested json0 tr) = .ok res.json ∧ (c.has 0x08 = true → ∃ junk, rule = junk ++ (mockupN tr).reverse) ∧
      ∀ tr' m', Holds env c s False (.path c.root 0 tr' m' s.length) → (c.node m').isTerminal = true → tr' <+: tr := by
  obtain ⟨tr', m, e, rule, h1, h2, h3, h4, h5, h6⟩ := normalize_max (sim.dec hdec) (sim.norep hrep) h hok
  obtain ⟨tr, k1, k2, k3⟩ := sim.bwd False tr' m h1 h2
  rw [sim.root] at h3
  have hfe : firstEndN c s false c.root 0 tr = some e := k3.fst.symm.trans h3
  obtain ⟨_, f2, f3, f4⟩ := sim.fin e (firstEndN_terminal hfe)
  refine ⟨tr, m, e, rule, k1, k2, hfe, ?_, ?_, ?_⟩
  · rw [← finishMatch_congr sim.opts sim.annots f2 f3 f4, ← k3.store]; exact h4
  · intro h8
    rw [← k3.mock]
    refine h5 ?_
    unfold Ctx.has
    rw [sim.opts]; exact h8
  · intro tr0 m0 hp0 ht0
    rcases Holds.chain hdec hrep k1 hp0 with ⟨u, hu, hpu⟩ | ⟨u, hu, _⟩
    · obtain ⟨tr0', g1, g2, _⟩ := sim.fwd False tr0 m0 hp0 ht0
      obtain ⟨w, hw⟩ := h6 tr0' m0 g1 g2
      subst hw
      obtain ⟨k, mid, p1, p2⟩ := Holds.path_append h1
      obtain ⟨rfl, rfl⟩ := Holds.path_end p1 g1
      have r1 := Holds.path_rank (sim.acy rank ha) p2
      have r2 := Holds.path_rank ha hpu
      have : u = [] := List.length_eq_zero_iff.1 (by omega)
      subst this
      rw [hu, List.append_nil]
      exact List.prefix_refl _
    · exact ⟨u, hu.symm⟩

/-! ### how rules are shown -/

theorem showT_noNul {k : RTok} (h : k.1.Described k.2) : ∀ c ∈ RuleT.showField k.1 k.2, c ≠ 0 := by
  obtain ⟨ty, o⟩ := k
  cases ty with
  | plain f => exact showField_noNul h
  | user nm =>
    intro c hc
    simp only [RuleT.showField, List.mem_append] at hc
    rcases hc with (hc | hc) | hc
    · revert c; decide
    · unfold fieldName at hc
      rcases DescribesUser.name h with hn | ⟨w, hw⟩
      · rw [strP, hn] at hc
        revert c
        decide
      · rw [strP, hw.1] at hc
        dsimp only at hc
        by_cases hd : some w = some (bs! "-")
        · rw [if_pos hd] at hc
          revert hc; revert c; decide
        · rw [if_neg hd] at hc
          intro h0
          subst h0
          exact hw.2 hc
    · revert c; decide

theorem mockupT_noNul {r : RuleT} (hr : ∀ p ∈ r.parts, p.1.OK env) : ∀ c ∈ r.mockup env, c ≠ 0 := by
  intro c hc
  rw [← toksT_show] at hc
  obtain ⟨t, ht, hc⟩ := List.mem_flatMap.1 hc
  exact showT_noNul (toksT_desc hr t ht) c hc

theorem field_show {b : Bld} {lab : NodeId → List Json} {defs : List Def} (ht : IsTrie env b.types b lab defs) {n : NodeId} {nd : Node}
    (hn : b.heap n = some nd) {p : Parser} (hp : p ∈ nd.parsers) {k : RTok} (hk : k.1.Described k.2) (hc : p.conf = tokConfT k) :
    mockField p = RuleT.showField k.1 k.2 := by
  obtain ⟨ty, o⟩ := k
  change p.conf = .obj o at hc
  cases ty with
  | plain f =>
    obtain ⟨q, h1, h2, h3, _⟩ := confField_ok (env := env) hk
    rcases confField_cases (ht.trie.edge n nd hn p hp).2 with ⟨_, h⟩ | ⟨ty, i, _, h, _⟩
    · rw [hc, h1] at h
      cases h
      exact show_eq (p := p) h2 h3
    · rw [hc, plain_not_user hk] at h; cases h
  | user nm =>
    rcases confField_cases (ht.trie.edge n nd hn p hp).2 with ⟨_, h⟩ | ⟨ty, i, h1, h2, _, h4⟩
    · rw [hc, user_not_field hk] at h; cases h
    · change p.kind = _ at h1
      change p.name = _ at h4
      rw [hc, DescribesUser.confName hk] at h4
      unfold mockField RuleT.showField
      rw [h1, h4]
      show _ = bs! "%" ++ (fieldName o).getD (bs! "-") ++ bs! ":USER-DEFINED%"
      simp only [List.append_assoc]
      rfl

theorem mockupN_toks {b : Bld} {lab : NodeId → List Json} {defs : List Def} (ht : IsTrie env b.types b lab defs) : ∀ {tr : List NStep} {ts : List RTok},
    (∀ st ∈ tr, ∃ n nd, b.heap n = some nd ∧ st.field ∈ nd.parsers) → tr.map (·.field.conf) = ts.map tokConfT → (∀ k ∈ ts, k.1.Described k.2) →
    mockupN tr = ts.flatMap fun k => RuleT.showField k.1 k.2
  | [], [], _, _, _ => rfl
  | [], _ :: _, _, h, _ => by cases h
  | _ :: _, [], _, h, _ => by cases h
  | st :: tr, k :: ts, hf, h, hd => by
    simp only [List.map_cons, List.cons.injEq] at h
    obtain ⟨n, nd, hn, hp⟩ := hf st (List.mem_cons_self ..)
    have ih := mockupN_toks ht (fun x hx => hf x (List.mem_cons_of_mem _ hx)) h.2 (fun x hx => hd x (List.mem_cons_of_mem _ hx))
    unfold mockupN at ih ⊢
    rw [List.map_cons, List.flatten_cons, ih, List.flatMap_cons, field_show ht hn hp (hd k (List.mem_cons_self ..)) h.1]

/-! ### the event -/

theorem finishMatch_docT {ctx : Ctx} (ls : List RLine) (hok : ∀ l ∈ ls, l.OK) (hline : ∀ l ∈ ls, ∀ c ∈ l.text, c ≠ 0)
    (han : ctx.annots = annotSet (ls.flatMap RLine.annots)) {r q : RuleT} (hr : ∀ p ∈ r.parts, p.1.OK env) {vs : List (Option Bytes × Option Json)}
    {e : NodeId} {rule : Bytes} {o o' : Obj} (hmock : ctx.has 0x08 = true → ∃ junk, rule = junk ++ (r.mockup env).reverse)
    (hmark : (ctx.node e).mark = (tagBucket q.tags, some q.file, q.line)) (hq0 : ∀ c ∈ q.file, c ≠ 0)
    (h : finishMatch ctx s rule e (placeValues o vs) = .ok o') : ∃ extra, o' = docEventT env ls ctx.opts r q extra vs s o := by
  have h4 : ctx.has 0x04 = ctx.opts.testBit 2 := has_testBit ctx 2
  have h8 : ctx.has 0x08 = ctx.opts.testBit 3 := has_testBit ctx 3
  have h10 : ctx.has 0x10 = ctx.opts.testBit 4 := has_testBit ctx 4
  generalize hopts : ctx.opts = opts at h4 h8 h10 ⊢
  simp only [Node.mark, Prod.mk.injEq] at hmark
  obtain ⟨m1, m2, m3⟩ := hmark
  have htags : addTags ctx e (placeValues o vs) = .ok (if q.tags = [] then placeValues o vs
      else annotated ls q.tags (Obj.add (placeValues o vs) (bs! "event.tags") (.arr (q.tags.map Json.str)))) := by
    unfold addTags
    rw [m1]
    unfold tagBucket
    by_cases ht : q.tags = []
    · rw [if_pos ht, if_pos ht]
    · rw [if_neg ht, if_neg ht, han]
      exact annotate_doc ls hok hline _ _
  unfold finishMatch at h
  rw [htags, R.ok_bind'] at h
  unfold addRuleMetadata metaMockup metaLocation at h
  rw [m2, m3, h4, h8, h10] at h
  unfold docEventT
  have hnul := mockupT_noNul hr
  have hfile : newString q.file = .str q.file := by unfold newString; rw [cstr_noNul hq0]
  by_cases hb3 : opts.testBit 3 = true
  · rw [hb3] at h ⊢
    simp only [if_true] at h ⊢
    obtain ⟨junk, hj⟩ := hmock (h8.trans hb3)
    have hrev : ∀ x, strrev rule = .ok x → newString x = .str (r.mockup env ++ cstr junk.reverse) := by
      intro x hx
      rw [strrev_ok hx, hj]
      unfold newString
      rw [List.reverse_append, List.reverse_reverse]
      congr 1
      unfold cstr
      rw [List.takeWhile_append_of_pos (fun c hc => by simpa using hnul c hc)]
    obtain ⟨x, hx1, h⟩ := R.bind'_eq_ok.1 h
    obtain ⟨y, hy1, hy2⟩ := R.bind'_eq_ok.1 hx1
    cases hy2
    rw [hrev y hy1] at h
    refine ⟨cstr junk.reverse, ?_⟩
    by_cases hb4 : opts.testBit 4 = true
    · simp only [hb4, if_true, R.ok_bind', Option.getD_some, R.ok.injEq] at h ⊢
      rw [← h, hfile]
      simp [Obj.add]
    · simp only [hb4, if_false, R.ok_bind'] at h ⊢
      cases h
      simp
  · have hb3' : opts.testBit 3 = false := by simpa using hb3
    refine ⟨[], ?_⟩
    rw [hb3'] at h ⊢
    simp only [Bool.false_eq_true, if_false, R.ok_bind'] at h ⊢
    by_cases hb4 : opts.testBit 4 = true
    · simp only [hb4, if_true, R.ok_bind', Option.getD_none, R.ok.injEq] at h ⊢
      rw [← h, hfile]
      simp [Obj.add]
    · simp only [hb4, if_false, R.ok_bind'] at h ⊢
      cases h
      simp

end
end LN
