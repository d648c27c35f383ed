import Verif.Proofs.DocB
import Verif.Proofs.NoFail
import Verif.Props.Engine
import Verif.Props.Safety
/- From the text of a rule base of version 2 to the event: the event, and that there is one. -/
set_option autoImplicit false
namespace LN
open Spec

section
variable {env : Env} {s : Bytes}

/-! ### the event -/

theorem showField_noNul {f : FType} {o : Obj} (h : Describes f o) : ∀ c ∈ RuleD.showField f o, c ≠ 0 := by
  unfold RuleD.showField
  have htext : ∀ k w, TextP o k w → ∀ c ∈ (strP o k).getD [], c ≠ 0 := by
    intro k w hw c hc h0
    rw [strP, hw.1] at hc
    subst h0
    exact hw.2 hc
  split
  · rename_i hf
    subst hf
    obtain ⟨w, hw⟩ := h.params
    exact htext _ w hw
  · intro c hc
    simp only [List.mem_append] at hc
    rcases hc with (((hc | hc) | hc) | hc) | hc
    · revert c; decide
    · unfold fieldName at hc
      rcases h.name with hn | ⟨w, hw⟩
      · rw [strP, hn] at hc
        revert c
        decide
      · have := htext _ w hw c
        rw [strP, hw.1] at hc this
        dsimp only at hc this
        by_cases hd : some w = some (bs! "-")
        · rw [if_pos hd] at hc
          clear this
          revert hc; revert c; decide
        · rw [if_neg hd] at hc
          exact this hc
    · revert c; decide
    · revert c
      cases f <;> decide
    · revert c; decide

theorem mockup_noNul {r : RuleD} (hr : ∀ p ∈ r.parts, Describes p.1.type p.1.conf) : ∀ c ∈ r.mockup env, c ≠ 0 := by
  intro c hc
  rw [← toks_show] at hc
  obtain ⟨t, ht, hc⟩ := List.mem_flatMap.1 hc
  exact showField_noNul (toks_descD hr t ht) c hc

theorem finishMatch_doc {b : Bld} {opts : Nat} (ls : List RLine) (hok : ∀ l ∈ ls, l.OK) (hline : ∀ l ∈ ls, ∀ c ∈ l.text, c ≠ 0)
    {r q : RuleD} (hr : ∀ p ∈ r.parts, Describes p.1.type p.1.conf) {tr : List Step} {vs : List (Option Bytes × Option Json)} {e : NodeId} {nd : Node} {o o' : Obj}
    (hmock : mockup tr = r.mockup env) (he : b.heap e = some nd)
    (hmark : nd.mark = (tagBucket q.tags, some q.file, q.line)) (hq0 : ∀ c ∈ q.file, c ≠ 0)
    (hst : storeFields o tr = placeValues o vs)
    (h : finishMatch (b.toCtx opts (annotSet (ls.flatMap RLine.annots))) s (ruleAdd (b.toCtx opts (annotSet (ls.flatMap RLine.annots))) tr) e
      (storeFields o tr) = .ok o') : o' = docEvent env ls opts r q vs s o := by
  generalize hctx : b.toCtx opts (annotSet (ls.flatMap RLine.annots)) = ctx at h
  have hopts : ctx.opts = opts := by rw [← hctx]; rfl
  have han : ctx.annots = annotSet (ls.flatMap RLine.annots) := by rw [← hctx]; rfl
  have hnode : ctx.node e = nd := by
    rw [← hctx]
    show (b.heap e).getD {} = nd
    rw [he]; rfl
  have h4 : ctx.has 0x04 = opts.testBit 2 := by rw [← hopts]; exact has_testBit ctx 2
  have h8 : ctx.has 0x08 = opts.testBit 3 := by rw [← hopts]; exact has_testBit ctx 3
  have h10 : ctx.has 0x10 = opts.testBit 4 := by rw [← hopts]; exact has_testBit ctx 4
  simp only [Node.mark, Prod.mk.injEq] at hmark
  obtain ⟨m1, m2, m3⟩ := hmark
  have htags : addTags ctx e (placeValues o vs) = .ok (if q.tags = [] then placeValues o vs
      else annotated ls q.tags (Obj.add (placeValues o vs) (bs! "event.tags") (.arr (q.tags.map Json.str)))) := by
    unfold addTags
    rw [hnode, m1]
    unfold tagBucket
    by_cases ht : q.tags = []
    · rw [if_pos ht, if_pos ht]
    · rw [if_neg ht, if_neg ht, han]
      exact annotate_doc ls hok hline _ _
  unfold finishMatch at h
  rw [hst, htags, R.ok_bind'] at h
  unfold addRuleMetadata metaMockup metaLocation at h
  rw [hnode, m2, m3, h4, h8, h10] at h
  unfold docEvent
  have hnul := mockup_noNul (env := env) hr
  have hfile : newString q.file = .str q.file := by unfold newString; rw [cstr_noNul hq0]
  have hnew : newString (r.mockup env) = .str (r.mockup env) := by unfold newString; rw [cstr_noNul hnul]
  by_cases hb3 : opts.testBit 3 = true
  · rw [hb3] at h ⊢
    simp only [if_true] at h ⊢
    have hrev : ∀ x, strrev (ruleAdd ctx tr) = .ok x → x = r.mockup env := by
      intro x hx
      rw [strrev_ok hx, ruleAdd_on (by rw [h8]; exact hb3), hmock]
    obtain ⟨x, hx1, h⟩ := R.bind'_eq_ok.1 h
    obtain ⟨y, hy1, hy2⟩ := R.bind'_eq_ok.1 hx1
    cases hy2
    rw [hrev y hy1, hnew] at h
    by_cases hb4 : opts.testBit 4 = true
    · simp only [hb4, if_true, R.ok_bind', Option.getD_some, R.ok.injEq] at h ⊢
      rw [← h, hfile]
      simp [Obj.add]
    · simp only [hb4, if_false, R.ok_bind'] at h ⊢
      cases h
      simp
  · have hb3' : opts.testBit 3 = false := by simpa using hb3
    rw [hb3'] at h ⊢
    simp only [Bool.false_eq_true, if_false, R.ok_bind'] at h ⊢
    by_cases hb4 : opts.testBit 4 = true
    · simp only [hb4, if_true, R.ok_bind', Option.getD_none, R.ok.injEq] at h ⊢
      rw [← h, hfile]
      simp [Obj.add]
    · simp only [hb4, if_false, R.ok_bind'] at h ⊢
      cases h
      simp

/-! ### where the fields of the graph come from -/

/-- all fields of the graph are of these configurations -/
def Bld.From (b : Bld) (P : Json → Prop) : Prop := ∀ (n : NodeId) (nd : Node), b.heap n = some nd → ∀ q ∈ nd.parsers, P q.conf

theorem addSeq_from {E : List NodeId} {P : Json → Prop} : ∀ (cs : List Json) {b : Bld} {dag : NodeId} {b' : Bld} {e : Option NodeId},
    Inv b E → (b.heap dag).isSome → (∀ c ∈ cs, P c ∧ ∃ p, confField env [] c = some p) → b.From P →
    addSeq env cs b dag = .ok (b', e) → b'.From P
  | [], b, dag, b', e, _, _, _, hf, h => by
    cases h; exact hf
  | c :: cs, b, dag, b', e, hi, hd, hc, hf, h => by
    obtain ⟨nd, hn⟩ := Option.isSome_iff_exists.1 hd
    obtain ⟨hP, p, hp⟩ := hc c (List.mem_cons_self ..)
    obtain ⟨o, ty, _, _, _, hpc, _⟩ := confField_spec hp
    have hne : dag ≠ b.next := Nat.ne_of_lt (hi.range _ _ hn).2
    have heq := addParser_plain (confField_types hp b.types) hn hne
    have hmem := addParser_ok (env := env) (dag := dag) (conf := c) hi (.inr hd)
    unfold addSeq at h
    cases hfd : nd.parsers.find? (fun q => decide (q.conf = c)) with
    | some q =>
      rw [hfd] at heq
      rw [heq, R.ok_bind'] at h
      have hqm : q ∈ nd.parsers := List.mem_of_find?_eq_some hfd
      have h5 : q.node ∈ b.refsOf dag := by
        unfold Bld.refsOf
        rw [hn]
        exact List.mem_flatMap.2 ⟨q, hqm, List.mem_cons_self ..⟩
      exact addSeq_from cs hi (hi.asc _ _ h5).2 (fun x hx => hc x (List.mem_cons_of_mem _ hx)) hf h
    | none =>
      rw [hfd] at heq
      rw [heq, R.ok_bind'] at h
      have h1 := hmem.ok_of heq
      dsimp only at h1
      obtain ⟨hi', _, _⟩ := h1
      have hheap : ∀ m, (b.append dag nd p).heap m = if m = dag then some (addEntry nd { p with node := b.next })
          else if m = b.next then some {} else b.heap m := fun m => rfl
      refine addSeq_from cs hi' ?_ (fun x hx => hc x (List.mem_cons_of_mem _ hx)) ?_ h
      · rw [hheap, if_neg (Ne.symm hne), if_pos rfl]; rfl
      · intro n nd' h q hq
        rw [hheap] at h
        by_cases h1 : n = dag
        · rw [if_pos h1] at h
          cases h
          unfold addEntry at hq
          dsimp only at hq
          split at hq
          · cases hq
          · rcases List.mem_append.1 hq with h2 | h2
            · exact hf _ _ hn q h2
            · rw [List.mem_singleton] at h2
              subst h2
              show P p.conf
              rw [hpc]; exact hP
        · rw [if_neg h1] at h
          by_cases h2 : n = b.next
          · rw [if_pos h2] at h
            cases h; cases hq
          · rw [if_neg h2] at h
            exact hf _ _ h q hq

theorem addSamp_from {E : List NodeId} {P : Json → Prop} {b : Bld} {dag : NodeId} {b' : Bld} {cs : List Json} {complete : Bool}
    {tags : Option (List Bytes)} {file : Bytes} {line : Nat} (hi : Inv b E) (hd : (b.heap dag).isSome)
    (hc : ∀ c ∈ cs, P c ∧ ∃ p, confField env [] c = some p) (hf : b.From P)
    (h : addSamp env b dag cs complete tags file line = .ok b') : b'.From P := by
  unfold addSamp at h
  obtain ⟨⟨b1, e⟩, h1, h⟩ := R.bind'_eq_ok.1 h
  have hf1 := addSeq_from cs hi hd hc hf h1
  dsimp only at h
  cases e with
  | none => cases h; exact hf1
  | some e =>
    dsimp only at h
    split at h
    · obtain ⟨nd, hl, h⟩ := R.bind'_eq_ok.1 h
      cases h
      have hnd : b1.heap e = some nd := by
        unfold Bld.load at hl
        cases hh : b1.heap e with
        | none => rw [hh] at hl; dsimp only at hl; split at hl <;> cases hl
        | some x => rw [hh] at hl; cases hl; rfl
      intro n nd' hn q hq
      rw [Bld.heap_store] at hn
      split at hn
      · rename_i heq
        cases hn
        exact hf1 e nd hnd q hq
      · exact hf1 n nd' hn q hq
    · cases h; exact hf1

theorem isTrie_rules_from {srt : Sorter} {P : Json → Prop} : ∀ (ds : List Def) {b : Bld} {lab : NodeId → List Json} {ds0 : List Def} {b' : Bld},
    IsTrie env [] b lab ds0 → (∀ d ∈ ds, d.rule.Plain env) → (∀ d ∈ ds, d.type = none) → (∀ d ∈ ds, ∀ c ∈ d.rule.confs, P c) → b.From P →
    (ds.map Def.toOp).foldlM (BOp.run env srt) b = .ok b' → b'.From P
  | [], b, lab, ds0, b', _, _, _, _, hf, h => by cases h; exact hf
  | d :: ds, b, lab, ds0, b', ht, hp, hty, hP, hf, h => by
    obtain ⟨b1, lab1, h1, h2⟩ := isTrie_def (srt := srt) ht (hp d (List.mem_cons_self ..))
    rw [List.map_cons, List.foldlM_cons, h1] at h
    refine isTrie_rules_from ds h2 (fun x hx => hp x (List.mem_cons_of_mem _ hx)) (fun x hx => hty x (List.mem_cons_of_mem _ hx))
      (fun x hx => hP x (List.mem_cons_of_mem _ hx)) ?_ h
    unfold Def.toOp at h1
    rw [hty d (List.mem_cons_self ..)] at h1
    exact addSamp_from ht.inv (ht.inv.ext _ (List.mem_cons_self ..))
      (fun c hc => ⟨hP d (List.mem_cons_self ..) c hc, hp d (List.mem_cons_self ..) c hc⟩) hf h1

/-! ### the optimiser keeps nodes and fields usable -/

theorem OptStep.nodes {srt : Sorter} {n0 : NodeId} {b b' : Bld} {E : List NodeId} {Q : PKind → Option Bytes → Prop} (hi : Inv b E)
    (hQ : ∀ l l', Q (.literal (some l)) none → Q (.literal (some (l ++ l'))) none) (st : OptStep srt n0 b b')
    (h : ∀ n nd, b.heap n = some nd → ∀ q ∈ nd.parsers, Q q.kind q.name) : ∀ n nd', b'.heap n = some nd' →
      (∀ q ∈ nd'.parsers, Q q.kind q.name) ∧ ∃ nd, b.heap n = some nd ∧ nd'.isTerminal = nd.isTerminal ∧ nd'.mark = nd.mark := by
  intro n nd' hh
  rcases st.heap_cases hi n nd' hh with h1 | ⟨nd, h1, rfl⟩ | ⟨i, nd, p1, vd, c, wd, l, l', hc, rfl⟩
  · exact ⟨h n nd' h1, nd', h1, rfl, rfl⟩
  · exact ⟨fun q hq => h n nd h1 q ((srt.perm _).mem_iff.1 hq), nd, h1, rfl, rfl⟩
  · refine ⟨fun q hq => ?_, nd, hc.hn, rfl, rfl⟩
    rcases List.mem_or_eq_of_mem_set hq with h2 | h2
    · exact h n nd hc.hn q h2
    · subst h2
      have := h n nd hc.hn p1 (List.mem_of_getElem? hc.hp)
      rw [hc.hk, hc.hname] at this
      show Q (.literal (some (l ++ l'))) p1.name
      rw [hc.hname]
      exact hQ l l' this

theorem OptSteps.nodes {srt : Sorter} {n0 : NodeId} {b b' : Bld} {E : List NodeId} {Q : PKind → Option Bytes → Prop} (hi : Inv b E)
    (hQ : ∀ l l', Q (.literal (some l)) none → Q (.literal (some (l ++ l'))) none) (st : OptSteps srt n0 b b')
    (h : ∀ n nd, b.heap n = some nd → ∀ q ∈ nd.parsers, Q q.kind q.name) : ∀ n nd', b'.heap n = some nd' →
      (∀ q ∈ nd'.parsers, Q q.kind q.name) ∧ ∃ nd, b.heap n = some nd ∧ nd'.isTerminal = nd.isTerminal ∧ nd'.mark = nd.mark := by
  induction st with
  | refl => intro n nd' hh; exact ⟨h n nd' hh, nd', hh, rfl, rfl⟩
  | head s _ ih =>
    intro n nd' hh
    obtain ⟨hi', _⟩ := s.frame hi
    obtain ⟨g1, nd1, g2, g3, g4⟩ := ih hi' (fun n nd hn => (s.nodes hi hQ h n nd hn).1) n nd' hh
    obtain ⟨_, nd0, f2, f3, f4⟩ := s.nodes hi hQ h n nd1 g2
    exact ⟨g1, nd0, f2, g3.trans f3, g4.trans f4⟩

/-- A graph whose fields are complete, with no rule which shows as nothing: normalising returns a result. -/
theorem normalize_total {b : Bld} {E : List NodeId} {opts : Nat} {annots : List Annot} (he : env.TokOK) (hs : Tame s) (hi : Inv b E)
    (hpar : ∀ n nd, b.heap n = some nd → ∀ q ∈ nd.parsers, q.kind.flat ∧ (q.kind = .cee → CeeFirst s) ∧ Parser.Configured q.kind q.name.isSome ∧
      (opts.testBit 3 = true → q.kind ≠ .literal (some [])))
    (hroot : opts.testBit 3 = true → ∀ nd, b.heap b.root = some nd → nd.isTerminal = false)
    (hfile : ∀ n nd, b.heap n = some nd → nd.isTerminal = true → nd.rbFile.isSome = true)
    (hann : AnnotsOK annots) (stats : NodeId → Stats) (json0 : Obj) :
    ∃ N, ∀ fuel, N ≤ fuel → ∃ res, normalize env fuel (b.toCtx opts annots) stats s json0 = .ok res := by
  have hp : ∀ n, ∀ q ∈ ((b.toCtx opts annots).node n).parsers, ∃ nd, b.heap n = some nd ∧ q ∈ nd.parsers := by
    intro n q hq
    change q ∈ ((b.heap n).getD {}).parsers at hq
    cases hn : b.heap n with
    | none => rw [hn] at hq; cases hq
    | some nd => rw [hn] at hq; exact ⟨nd, rfl, hq⟩
  have hcee : NoCee (b.toCtx opts annots) s := by
    intro n q hq
    obtain ⟨nd, h1, h2⟩ := hp n q hq
    exact (hpar n nd h1 q h2).2.1
  have hnorep : ∀ n, ∀ q ∈ ((b.toCtx opts annots).node n).parsers, ∀ d, q.kind ≠ .repeat_ d := by
    intro n q hq d hk
    obtain ⟨nd, h1, h2⟩ := hp n q hq
    have := (hpar n nd h1 q h2).1
    rw [hk] at this; exact this
  have hnocus : ∀ n, ∀ q ∈ ((b.toCtx opts annots).node n).parsers, ∀ d, q.kind ≠ .custom d := by
    intro n q hq d hk
    obtain ⟨nd, h1, h2⟩ := hp n q hq
    have := (hpar n nd h1 q h2).1
    rw [hk] at this; exact this
  have hsep : SepConsumes (b.toCtx opts annots) := fun n p hp a w m hk => absurd hk (hnorep n p hp _)
  have hacyc : Acyclic (b.toCtx opts annots) (fun n => b.next - n) := by
    refine ⟨?_, fun n p hp i hk => absurd hk (hnocus n p hp i), fun n p hp a w m hk => absurd hk (hnorep n p hp _)⟩
    intro n q hq
    obtain ⟨nd, h1, h2⟩ := hp n q hq
    have h5 : q.node ∈ b.refsOf n := by
      unfold Bld.refsOf
      rw [h1]
      exact List.mem_flatMap.2 ⟨q, h2, List.mem_cons_self ..⟩
    obtain ⟨h6, h7⟩ := hi.asc _ _ h5
    obtain ⟨nd', h7⟩ := Option.isSome_iff_exists.1 h7
    have h8 := (hi.range _ _ h7).2
    show b.next - q.node < b.next - n
    exact Nat.sub_lt_sub_left (Nat.lt_trans h6 h8) h6
  have hwf : (b.toCtx opts annots).WF := by
    refine ⟨?_, fun n p hp i hk => absurd hk (hnocus n p hp i), fun n p hp d hk => absurd hk (hnorep n p hp d),
      fun n p hp a w m hk => absurd hk (hnorep n p hp _), ?_, ?_, ?_⟩
    · intro n q hq
      obtain ⟨nd, h1, h2⟩ := hp n q hq
      exact (hpar n nd h1 q h2).2.2.1
    · intro a ha op hop _
      obtain ⟨⟨v, hv⟩, n, hn⟩ := hann a ha op hop
      exact ⟨by rw [hn]; rfl, by rw [hv]; rfl⟩
    · intro h8
      have h8' : opts.testBit 3 = true := (has_testBit (b.toCtx opts annots) 3).symm.trans h8
      refine ⟨?_, ?_⟩
      · show ((b.heap b.root).getD {}).isTerminal = false
        cases hr : b.heap b.root with
        | none => rfl
        | some nd => exact hroot h8' nd hr
      · intro n q hq
        obtain ⟨nd, h1, h2⟩ := hp n q hq
        exact (hpar n nd h1 q h2).2.2.2 h8'
    · intro _ n _ ht
      change ((b.heap n).getD {}).isTerminal = true at ht
      show ((b.heap n).getD {}).rbFile.isSome = true
      cases hn : b.heap n with
      | none => rw [hn] at ht; cases ht
      | some nd => rw [hn] at ht; exact hfile n nd hn ht
  obtain ⟨N, x, hx, hN⟩ := C07_terminates_partial (s := s) he hcee hsep hacyc stats json0
  refine ⟨N, fun fuel hf => ?_⟩
  let M := (b.next - b.root) + s.length + 1
  have hpost := normalize_post (s := s) he hcee hsep hacyc (fuel := max fuel M)
    (Nat.lt_of_lt_of_le (Nat.lt_succ_self _) (Nat.le_max_right fuel M)) stats json0
  have h1 := hN fuel hf
  have h2 := hN (max fuel M) (Nat.le_trans hf (Nat.le_max_left fuel M))
  rw [h1]
  rw [h2] at hpost
  have hub := hpost.2.2 ⟨hs, hwf⟩
  cases x with
  | ok res => exact ⟨res, rfl⟩
  | fail => exact absurd h1 (normalize_nf _ _ _ _ _ _)
  | ub k => exact absurd rfl (hub k)
  | oof => exact absurd rfl hx

end
end LN
