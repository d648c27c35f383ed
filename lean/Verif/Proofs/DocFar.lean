import Verif.Proofs.OptReach
import Verif.Proofs.DocC
import Mathlib.Data.List.Nodup
/-
How far a message is understood when no rule matches: nodes inside a literal, in terms of rules.
-/
set_option autoImplicit false
namespace LN

section
variable {env : Env} {ts : List (Bytes × NodeId)} {b : Bld} {lab : NodeId → List Json} {ds : List Def}

theorem FWalk.label (ht : Trie env ts b lab) {n : NodeId} {cs : List Json} {m : NodeId} (h : FWalk b n cs m) : lab m = lab n ++ cs := by
  induction h with
  | nil n => simp
  | @cons n nd c q cs m hn hq _ ih =>
    have hqc : q.conf = c := by simpa using List.find?_some hq
    rw [ih, (ht.edge n nd hn q (List.mem_of_find?_eq_some hq)).1, hqc, List.append_assoc]; rfl

theorem FWalk.trans {n : NodeId} {cs cs' : List Json} {m k : NodeId} (h : FWalk b n cs m) (h' : FWalk b m cs' k) : FWalk b n (cs ++ cs') k := by
  induction h with
  | nil n => exact h'
  | cons hn hq _ ih => exact .cons hn hq (ih h')

theorem FWalk.split : ∀ {cs cs' : List Json} {n k : NodeId}, FWalk b n (cs ++ cs') k → ∃ m, FWalk b n cs m ∧ FWalk b m cs' k
  | [], _, n, _, h => ⟨n, .nil n, h⟩
  | _ :: cs, cs', n, k, h => by
    cases h with
    | cons hn hq ht =>
      obtain ⟨m, h1, h2⟩ := FWalk.split ht
      exact ⟨m, .cons hn hq h1, h2⟩

theorem Trie.step (ht : Trie env ts b lab) {n : NodeId} {nd : Node} (hn : b.heap n = some nd) {q : Parser} (hq : q ∈ nd.parsers) : FWalk b n [q.conf] q.node :=
  .cons hn (find?_conf (ht.dist n nd hn) hq) (.nil _)

/-- every node of the graph belongs to a definition -/
theorem IsTrie.reached (h : IsTrie env ts b lab ds) (hw : b.wrapped = false) (hc : ∀ n ∈ b.ctxRefs, ∃ t, b.start t = some n) :
    ∀ (k : Nat) (n : NodeId) (nd : Node), (n : Nat) < k → b.heap n = some nd → ∃ t n0 cs, b.start t = some n0 ∧ FWalk b n0 cs n
  | 0, n, nd, hk, _ => absurd hk (Nat.not_lt_zero _)
  | k + 1, n, nd, hk, hn => by
    have h1 := h.inv.exact hw n nd hn
    have h2 := (h.inv.cnt n nd hn).2
    by_cases hE : n ∈ b.ctxRefs
    · obtain ⟨t, ht⟩ := hc n hE
      exact ⟨t, n, [], ht, .nil n⟩
    · rw [List.count_eq_zero_of_not_mem hE] at h1
      have h3 : n ∈ b.allRefs := List.count_pos_iff.1 (by omega)
      unfold Bld.allRefs at h3
      obtain ⟨x, _, hx⟩ := List.mem_flatMap.1 h3
      have hlt := (h.inv.asc x n hx).1
      unfold Bld.refsOf at hx
      cases hxd : b.heap x with
      | none => rw [hxd] at hx; cases hx
      | some xd =>
        rw [hxd] at hx
        obtain ⟨q, hq, hqn⟩ := List.mem_flatMap.1 hx
        have he := (h.trie.edge x xd hxd q hq).2
        obtain ⟨_, _, _, _, _, _, _, hr, _⟩ := confField_spec he
        have hr' : q.kind.refs = [] := hr
        unfold Parser.refs at hqn
        rw [hr'] at hqn
        have := List.mem_singleton.1 hqn
        subst this
        obtain ⟨t, n0, cs, g1, g2⟩ := IsTrie.reached h hw hc k x xd (Nat.lt_of_lt_of_le hlt (Nat.le_of_lt_succ hk)) hxd
        exact ⟨t, n0, cs ++ [q.conf], g1, g2.trans (h.trie.step hxd hq)⟩

theorem IsTrie.start_type (h : IsTrie env ts b lab ds) {x : Bytes × NodeId} (hx : x ∈ b.types) : b.start (some x.1) = some x.2 := by
  have : b.types.find? (fun y => decide (y.1 = x.1)) = some x := by
    have hnd := h.tnd
    revert hnd hx
    generalize b.types = l
    intro hx hnd
    induction l with
    | nil => cases hx
    | cons a l ih =>
      rw [List.map_cons, List.nodup_cons] at hnd
      rcases List.mem_cons.1 hx with rfl | hx
      · simp
      · rw [List.find?_cons_of_neg]
        · exact ih hx hnd.2
        · intro he
          have : a.1 = x.1 := by simpa using he
          exact hnd.1 (this ▸ List.mem_map.2 ⟨x, hx, rfl⟩)
  show (b.types.find? (fun y => decide (y.1 = x.1))).map (·.2) = _
  rw [this]; rfl

theorem IsTrie.starts (h : IsTrie env ts b lab ds) : ∀ n ∈ b.ctxRefs, ∃ t, b.start t = some n := by
  intro n hn
  rcases List.mem_cons.1 hn with rfl | hn
  · exact ⟨none, rfl⟩
  · obtain ⟨x, hx, rfl⟩ := List.mem_map.1 hn
    exact ⟨some x.1, h.start_type hx⟩

/-- no node is shared -/
theorem IsTrie.single (h : IsTrie env ts b lab ds) (hw : b.wrapped = false) : Single b := by
  have hst := h.starts
  have hre : ∀ n nd, b.heap n = some nd → ∃ t n0 cs, b.start t = some n0 ∧ FWalk b n0 cs n := fun n nd hn => h.reached hw hst (n + 1) n nd (Nat.lt_succ_self _) hn
  have hrefs : ∀ x xd, b.heap x = some xd → b.refsOf x = xd.parsers.map (·.node) := by
    intro x xd hx
    unfold Bld.refsOf
    rw [hx]
    have : ∀ q ∈ xd.parsers, q.kind.refs = [] := by
      intro q hq
      have he := (h.trie.edge x xd hx q hq).2
      obtain ⟨_, _, _, _, _, _, _, hr, _⟩ := confField_spec he
      exact hr
    dsimp only
    revert this
    generalize xd.parsers = l
    intro hl
    induction l with
    | nil => rfl
    | cons q l ih =>
      rw [List.flatMap_cons, ih fun q hq => hl q (List.mem_cons_of_mem _ hq)]
      unfold Parser.refs
      rw [hl q (List.mem_cons_self ..)]; rfl
  have huniq : ∀ x xd y yd, b.heap x = some xd → b.heap y = some yd → ∀ q ∈ xd.parsers, ∀ q' ∈ yd.parsers, q.node = q'.node → x = y ∧ q.conf = q'.conf := by
    intro x xd y yd hx hy q hq q' hq' e
    have e1 := (h.trie.edge x xd hx q hq).1
    have e2 := (h.trie.edge y yd hy q' hq').1
    rw [e, e2] at e1
    obtain ⟨h1, h2⟩ := List.append_inj' e1 rfl
    injection h2 with h2 _
    obtain ⟨t, n0, cs, g1, g2⟩ := hre x xd hx
    obtain ⟨t', n0', cs', g1', g2'⟩ := hre y yd hy
    rw [g2.label h.trie, g2'.label h.trie, h.start t n0 g1, h.start t' n0' g1'] at h1
    injection h1 with h3 h4
    have h3 := mark_inj h3
    have h4 : cs' = cs := h4
    subst h3 h4
    rw [g1] at g1'
    cases g1'
    exact ⟨g2.functional g2', h2.symm⟩
  have hnodup : b.allRefs.Nodup := by
    unfold Bld.allRefs
    rw [List.nodup_flatMap]
    constructor
    · intro x _
      cases hx : b.heap x with
      | none => unfold Bld.refsOf; rw [hx]; exact List.nodup_nil
      | some xd =>
        rw [hrefs x xd hx]
        have hd := h.trie.dist x xd hx
        refine List.Nodup.of_map lab ?_
        rw [List.map_map]
        have hm : xd.parsers.map (lab ∘ fun q => q.node) = (xd.parsers.map (·.conf)).map fun c => lab x ++ [c] := by
          rw [List.map_map]
          refine List.map_congr_left fun q hq => ?_
          exact (h.trie.edge x xd hx q hq).1
        rw [hm]
        refine hd.map fun a c e => ?_
        have := List.append_cancel_left e
        injection this
    · refine List.Pairwise.imp ?_ List.nodup_range
      intro x y hne
      show List.Disjoint _ _
      intro r hr hr'
      cases hx : b.heap x with
      | none => unfold Bld.refsOf at hr; rw [hx] at hr; cases hr
      | some xd =>
        cases hy : b.heap y with
        | none => unfold Bld.refsOf at hr'; rw [hy] at hr'; cases hr'
        | some yd =>
          rw [hrefs x xd hx] at hr
          rw [hrefs y yd hy] at hr'
          obtain ⟨q, hq, e⟩ := List.mem_map.1 hr
          obtain ⟨q', hq', e'⟩ := List.mem_map.1 hr'
          exact hne (huniq x xd y yd hx hy q hq q' hq' (e.trans e'.symm)).1
  have hEn : b.ctxRefs.Nodup := by
    have hlab : b.ctxRefs.map lab = [mark none] :: b.types.map fun x => [mark (some x.1)] := by
      unfold Bld.ctxRefs
      rw [List.map_cons, List.map_map]
      refine congr (congrArg List.cons (h.start none _ rfl)) ?_
      refine List.map_congr_left fun x hx => ?_
      exact h.start (some x.1) x.2 (h.start_type hx)
    refine List.Nodup.of_map lab ?_
    rw [hlab, List.nodup_cons]
    constructor
    · intro hm
      obtain ⟨x, _, hx⟩ := List.mem_map.1 hm
      injection hx with hx _
      cases mark_inj hx
    · have : (b.types.map fun x => [mark (some x.1)]) = (b.types.map (·.1)).map fun t => [mark (some t)] := by rw [List.map_map]; rfl
      rw [this]
      refine h.tnd.map fun a c e => ?_
      injection e with e _
      have := mark_inj e
      injection this
  intro n nd hn
  rw [h.inv.exact hw n nd hn]
  have h1 := List.nodup_iff_count_le_one.1 hnodup n
  have h2 := List.nodup_iff_count_le_one.1 hEn n
  by_cases hE : n ∈ b.ctxRefs
  · have : n ∉ b.allRefs := by
      intro hm
      unfold Bld.allRefs at hm
      obtain ⟨x, _, hx⟩ := List.mem_flatMap.1 hm
      cases hxd : b.heap x with
      | none => unfold Bld.refsOf at hx; rw [hxd] at hx; cases hx
      | some xd =>
        rw [hrefs x xd hxd] at hx
        obtain ⟨q, hq, rfl⟩ := List.mem_map.1 hx
        obtain ⟨t, ht⟩ := hst _ hE
        have e1 := (h.trie.edge x xd hxd q hq).1
        rw [h.start t _ ht] at e1
        obtain ⟨t', n0, cs, g1, g2⟩ := hre x xd hxd
        rw [g2.label h.trie, h.start t' n0 g1] at e1
        have := congrArg List.length e1
        simp at this
    rw [List.count_eq_zero_of_not_mem this]
    omega
  · rw [List.count_eq_zero_of_not_mem hE]
    omega

/-! ### inside a literal, in terms of descriptions of fields -/

/-- describes a literal without name -/
def LitConf (env : Env) (ts : List (Bytes × NodeId)) (c : Json) : Prop := ∃ p, confField env ts c = some p ∧ IsLit p

/-- `cs` ends inside a literal: behind it every definition of type `t` goes on with the same literal -/
structure InTextC (env : Env) (ts : List (Bytes × NodeId)) (ds : List Def) (t : Option Bytes) (cs : List Json) : Prop where
  last : ∃ c, cs.getLast? = some c ∧ LitConf env ts c
  inside : ∀ d ∈ ds, d.type = t → d.rule.complete = true → d.rule.confs ≠ cs
  next : ∃ a, LitConf env ts a ∧ (∃ d ∈ ds, d.type = t ∧ cs ++ [a] <+: d.rule.confs) ∧
    ∀ d ∈ ds, d.type = t → ∀ c, cs ++ [c] <+: d.rule.confs → c = a

theorem IsTrie.litConf (h : IsTrie env ts b lab ds) {n : NodeId} {nd : Node} (hn : b.heap n = some nd) {q : Parser} (hq : q ∈ nd.parsers) :
    LitConf env ts q.conf ↔ IsLit q := by
  have he := (h.trie.edge n nd hn q hq).2
  constructor
  · rintro ⟨p, hp, hl⟩
    rw [he] at hp
    cases hp
    exact ⟨hl.kind, hl.name⟩
  · intro hl
    exact ⟨_, he, ⟨hl.kind, hl.name⟩⟩

theorem IsTrie.midLit (h : IsTrie env ts b lab ds) (hw : b.wrapped = false)
    {t : Option Bytes} {n0 : NodeId} (h0 : b.start t = some n0) {cs : List Json} {m : NodeId} (hwk : FWalk b n0 cs m) :
    MidLit b m ↔ InTextC env ts ds t cs := by
  have hs := h.single hw
  have hlab : lab m = mark t :: cs := by rw [hwk.label h.trie, h.start t n0 h0]; rfl
  have hused : ∀ nd, b.heap m = some nd → ∀ q ∈ nd.parsers, ∃ d ∈ ds, d.type = t ∧ cs ++ [q.conf] <+: d.rule.confs := by
    intro nd hn q hq
    obtain ⟨d, hd, x, e, hp⟩ := h.used m nd hn q hq
    rw [hlab] at e
    injection e with e1 e2
    subst e2
    exact ⟨d, hd, (mark_inj e1).symm, hp⟩
  have hgoes : ∀ d ∈ ds, d.type = t → ∀ c, cs ++ [c] <+: d.rule.confs → ∃ nd q, b.heap m = some nd ∧ q ∈ nd.parsers ∧ q.conf = c := by
    intro d hd hdt c hp
    obtain ⟨n, e, a1, a2⟩ := h.goes hw d hd
    rw [hdt, h0] at a1
    cases a1
    obtain ⟨u, hu⟩ := hp
    rw [← hu, List.append_assoc] at a2
    obtain ⟨m', g1, g2⟩ := a2.split
    have := g1.functional hwk
    subst this
    cases g2 with
    | cons hn hq _ => exact ⟨_, _, hn, List.mem_of_find?_eq_some hq, by simpa using List.find?_some hq⟩
  constructor
  · rintro ⟨⟨hterm, c, hf, hcl⟩, x, q, hq, hqn, hql⟩
    obtain ⟨nd, hn⟩ : ∃ nd, b.heap m = some nd := Option.isSome_iff_exists.1 (LitOnly.live ⟨hterm, c, hf, hcl⟩)
    have hpars : nd.parsers = [c] := by rw [← heap_fieldsAt hn]; exact hf
    rw [hn] at hterm
    refine ⟨?_, ?_, c.conf, ?_, ?_, ?_⟩
    · obtain ⟨xd, hx, hxf, _⟩ := fields_refs hq
      rw [hxf] at hq
      have e := (h.trie.edge x xd hx q hq).1
      rw [hqn, hlab] at e
      have hre := h.reached hw h.starts (x + 1) x xd (Nat.lt_succ_self _) hx
      obtain ⟨t', n0', cs', g1, g2⟩ := hre
      rw [g2.label h.trie, h.start t' n0' g1] at e
      injection e with _ e
      have e : cs = cs' ++ [q.conf] := e
      exact ⟨q.conf, by rw [e]; simp, (h.litConf hx hq).2 hql⟩
    · intro d hd hdt hcmp hdc
      obtain ⟨n, e, ed, a1, a2, a3, a4⟩ := h.walk hw d hd hcmp
      rw [hdt, h0] at a1
      cases a1
      rw [hdc] at a2
      have := a2.functional hwk
      subst this
      rw [hn] at a3
      cases a3
      have ht : nd.isTerminal = false := hterm
      rw [a4] at ht; cases ht
    · exact (h.litConf hn (by rw [hpars]; exact List.mem_cons_self ..)).2 hcl
    · exact hused nd hn c (by rw [hpars]; exact List.mem_cons_self ..)
    · intro d hd hdt c' hp
      obtain ⟨nd', q', hn', hq', e⟩ := hgoes d hd hdt c' hp
      rw [hn] at hn'
      cases hn'
      rw [hpars] at hq'
      have := List.mem_singleton.1 hq'
      subst this
      exact e.symm
  · rintro ⟨⟨c, hlast, hcl⟩, hin, a, hal, ⟨d, hd, hdt, hdp⟩, hnext⟩
    obtain ⟨nd, q, hn, hq, hqa⟩ := hgoes d hd hdt a hdp
    have hone : nd.parsers = [q] := by
      have hdist := h.trie.dist m nd hn
      have hallq : ∀ q' ∈ nd.parsers, q'.conf = a := by
        intro q' hq'
        obtain ⟨d', hd', hdt', hp'⟩ := hused nd hn q' hq'
        exact hnext d' hd' hdt' _ hp'
      revert hq hdist hallq
      generalize nd.parsers = l
      intro hq hdist hallq
      match l, hq, hdist, hallq with
      | [x], hq, _, _ => rw [List.mem_singleton.1 hq]
      | x :: y :: l, _, hdist, hallq =>
        rw [List.map_cons, List.nodup_cons] at hdist
        refine absurd ?_ hdist.1
        rw [hallq x (List.mem_cons_self ..)]
        exact List.mem_map.2 ⟨y, List.mem_cons_self .., hallq y (List.mem_cons_of_mem _ (List.mem_cons_self ..))⟩
    refine ⟨⟨?_, q, by rw [heap_fieldsAt hn, hone], (h.litConf hn hq).1 (hqa ▸ hal)⟩, ?_⟩
    · rw [hn]
      show nd.isTerminal = false
      cases ht : nd.isTerminal with
      | false => rfl
      | true =>
        obtain ⟨d', hd', hcm, he⟩ := h.term m nd hn ht
        rw [hlab] at he
        injection he with e1 e2
        exact absurd e2 (hin d' hd' (mark_inj e1) hcm)
    · obtain ⟨cs', rfl⟩ : ∃ cs', cs = cs' ++ [c] := by
        rcases List.getLast?_eq_some_iff.1 hlast with ⟨ys, hys⟩
        exact ⟨ys, hys⟩
      obtain ⟨x, g1, g2⟩ := hwk.split
      cases g2 with
      | @cons _ xd _ r _ _ hx hr hnil =>
        cases hnil
        have hrm := List.mem_of_find?_eq_some hr
        have hrc : r.conf = c := by simpa using List.find?_some hr
        exact ⟨x, r, by rw [heap_fieldsAt hx]; exact hrm, rfl, (h.litConf hx hrm).1 (hrc ▸ hcl)⟩

end
end LN
