import Verif.Proofs.Walk
/-
The reports of the model are folds over the statements of a walk.
-/
set_option autoImplicit false
namespace LN

theorem fuel_step {N n m f : Nat} (h : N ≤ n + (f + 1)) (h' : n < m) : N ≤ m + f := by omega

theorem fuel_top (N n : Nat) : N ≤ n + (N + 1) := by omega

theorem asc_fieldsAt {b : Bld} {E : List NodeId} (hi : Inv b E) : Asc b.fieldsAt b.next := by
  intro n p hp
  unfold Bld.fieldsAt at hp
  cases hn : b.heap n with
  | none => rw [hn] at hp; simp at hp
  | some nd =>
    rw [hn] at hp
    have h := hi.asc n p.node (by
      unfold Bld.refsOf; rw [hn]
      exact List.mem_flatMap.2 ⟨p, hp, List.mem_cons_self ..⟩)
    obtain ⟨nd', h'⟩ := Option.isSome_iff_exists.1 h.2
    exact ⟨h.1, (hi.range _ _ h').2⟩

theorem live_fieldsAt {b : Bld} {E : List NodeId} (hi : Inv b E) {n : NodeId} {p : Parser} (hp : p ∈ b.fieldsAt n) :
    (b.heap p.node).isSome := by
  unfold Bld.fieldsAt at hp
  cases hn : b.heap n with
  | none => rw [hn] at hp; simp at hp
  | some nd =>
    rw [hn] at hp
    exact (hi.asc n p.node (by
      unfold Bld.refsOf; rw [hn]
      exact List.mem_flatMap.2 ⟨p, hp, List.mem_cons_self ..⟩)).2

theorem live_leads {b : Bld} {E : List NodeId} (hi : Inv b E) {n m : NodeId} (h : LeadsTo b.fieldsAt n m) (hn : (b.heap n).isSome) :
    (b.heap m).isSome := by
  induction h with
  | refl => exact hn
  | step hp t ih => exact ih (live_fieldsAt hi hp)

theorem lt_next {b : Bld} {E : List NodeId} (hi : Inv b E) {n : NodeId} (hn : (b.heap n).isSome) : (n : Nat) < b.next := by
  obtain ⟨nd, h⟩ := Option.isSome_iff_exists.1 hn
  exact (hi.range _ _ h).2

theorem load_getD {b : Bld} {n : NodeId} (hn : (b.heap n).isSome) : b.load n = .ok ((b.heap n).getD {}) := by
  unfold Bld.load
  cases h : b.heap n with
  | none => rw [h] at hn; cases hn
  | some nd => rfl

/-! ### clearing the flags -/

theorem clearF_spec {b : Bld} {E : List NodeId} (hi : Inv b E) : ∀ (f : Nat) (n : NodeId) (v : Flags), (b.heap n).isSome →
    (b.next : Nat) ≤ (n : Nat) + f →
    ∃ v', clearF f b v n = .ok v' ∧ (∀ m, LeadsTo b.fieldsAt n m → v' m = false) ∧ (∀ m, ¬ LeadsTo b.fieldsAt n m → v' m = v m)
  | 0, n, v, hn, hf => (Nat.lt_irrefl _ (Nat.lt_of_lt_of_le (lt_next hi hn) hf)).elim
  | f + 1, n, v, hn, hf => by
    have loop : ∀ (l : List Parser) (_ : ∀ p ∈ l, p ∈ b.fieldsAt n) (v : Flags),
        ∃ v', l.foldlM (fun v p => clearF f b v p.node) v = .ok v' ∧
          (∀ m, (∃ p ∈ l, LeadsTo b.fieldsAt p.node m) → v' m = false) ∧
          (∀ m, (¬ ∃ p ∈ l, LeadsTo b.fieldsAt p.node m) → v' m = v m) := by
      intro l
      induction l with
      | nil => intro _ v; exact ⟨v, rfl, by simp, by simp⟩
      | cons p l ih =>
        intro hl v
        have hp := hl p (List.mem_cons_self ..)
        have hlt := (asc_fieldsAt hi n p hp).1
        obtain ⟨v1, h1, h2, h3⟩ := clearF_spec hi f p.node v (live_fieldsAt hi hp) (fuel_step hf hlt)
        obtain ⟨v2, h4, h5, h6⟩ := ih (fun q hq => hl q (List.mem_cons_of_mem _ hq)) v1
        refine ⟨v2, ?_, fun m hm => ?_, fun m hm => ?_⟩
        · rw [List.foldlM_cons, h1]; exact h4
        · by_cases hm' : ∃ p ∈ l, LeadsTo b.fieldsAt p.node m
          · exact h5 m hm'
          · rw [h6 m hm']
            obtain ⟨q, hq, hq'⟩ := hm
            rcases List.mem_cons.1 hq with e | e
            · subst e; exact h2 m hq'
            · exact (hm' ⟨q, e, hq'⟩).elim
        · rw [h6 m (fun ⟨q, hq, hq'⟩ => hm ⟨q, List.mem_cons_of_mem _ hq, hq'⟩), h3 m (fun h => hm ⟨p, List.mem_cons_self .., h⟩)]
    obtain ⟨v', h1, h2, h3⟩ := loop (b.fieldsAt n) (fun _ h => h) (v.set n false)
    refine ⟨v', ?_, fun m hm => ?_, fun m hm => ?_⟩
    · unfold clearF; rw [load_getD hn]; exact h1
    · by_cases hm' : ∃ p ∈ b.fieldsAt n, LeadsTo b.fieldsAt p.node m
      · exact h2 m hm'
      · rw [h3 m hm']
        rcases hm.cases' with e | e
        · subst e; rw [Flags.set_eq, if_pos rfl]
        · exact (hm' e).elim
    · rw [h3 m (fun ⟨q, hq, hq'⟩ => hm (.step hq hq')), Flags.set_eq, if_neg (fun e => hm (by rw [e]; exact .refl _))]

theorem clearVisited_spec {b : Bld} (hi : Inv b (b.root :: b.types.map (·.2))) (v : Flags) : ∃ v', clearVisited b v = .ok v' ∧
    ∀ n ∈ b.root :: b.types.map (·.2), ∀ m, LeadsTo b.fieldsAt n m → v' m = false := by
  have loop : ∀ (l : List NodeId) (_ : ∀ n ∈ l, n ∈ b.root :: b.types.map (·.2)) (v : Flags),
      ∃ v', l.foldlM (clearF (b.next + 1) b) v = .ok v' ∧ (∀ m, v m = false → v' m = false) ∧
        ∀ n ∈ l, ∀ m, LeadsTo b.fieldsAt n m → v' m = false := by
    intro l
    induction l with
    | nil => intro _ v; exact ⟨v, rfl, fun _ h => h, by simp⟩
    | cons n l ih =>
      intro hl v
      obtain ⟨v1, h1, h2, h3⟩ := clearF_spec hi (b.next + 1) n v (hi.ext n (hl n (List.mem_cons_self ..))) (fuel_top _ _)
      obtain ⟨v2, h4, h5, h6⟩ := ih (fun q hq => hl q (List.mem_cons_of_mem _ hq)) v1
      refine ⟨v2, by rw [List.foldlM_cons, h1]; exact h4, fun m hm => h5 m ?_, fun k hk m hm => ?_⟩
      · by_cases hm' : LeadsTo b.fieldsAt n m
        · exact h2 m hm'
        · rw [h3 m hm']; exact hm
      · rcases List.mem_cons.1 hk with e | e
        · subst e; exact h5 m (h2 m hm)
        · exact h6 k e m hm
  obtain ⟨v', h1, _, h3⟩ := loop (b.types.map (·.2) ++ [b.root]) (by
    intro n hn
    rw [List.mem_append, List.mem_singleton] at hn
    rcases hn with h | h
    · exact List.mem_cons_of_mem _ h
    · rw [h]; exact List.mem_cons_self ..) v
  refine ⟨v', h1, fun n hn m hm => h3 n ?_ m hm⟩
  rw [List.mem_append, List.mem_singleton]
  rcases List.mem_cons.1 hn with h | h
  · exact .inr h
  · exact .inl h

/-! ### statistics -/

/-- the effect of a statement on the counters -/
def statsEv (b : Bld) (s : PdagStats) : Ev → PdagStats
  | .node n => s.countNode ((b.heap n).getD {})
  | .edge _ p => s.countParser p

/-- length of the path reported by a walk -/
def plen (fs : NodeId → List Parser) : Nat → NodeId → Flags → Nat
  | 0, _, _ => 0
  | fuel + 1, n, v =>
    if v n then 0
    else ((fs n).foldl (fun (a : Flags × Nat) p => ((walk fs fuel p.node a.1).1,
        if plen fs fuel p.node a.1 > a.2 then plen fs fuel p.node a.1 else a.2)) (v.set n true, 0)).2 + 1

theorem statsF_walk {b : Bld} {E : List NodeId} (hi : Inv b E) : ∀ (f : Nat) (n : NodeId) (v : Flags) (s : PdagStats),
    (b.heap n).isSome → (b.next : Nat) ≤ (n : Nat) + f →
    statsF f b n v s = .ok ((walk b.fieldsAt f n v).1, (walk b.fieldsAt f n v).2.foldl (statsEv b) s, plen b.fieldsAt f n v)
  | 0, n, v, s, hn, hf => (Nat.lt_irrefl _ (Nat.lt_of_lt_of_le (lt_next hi hn) hf)).elim
  | f + 1, n, v, s, hn, hf => by
    have loop : ∀ (l : List Parser) (_ : ∀ p ∈ l, p ∈ b.fieldsAt n) (v : Flags) (e : List Ev) (k : Nat),
        l.foldlM (fun (a : Flags × PdagStats × Nat) p =>
          (statsF f b p.node a.1 (a.2.1.countParser p)).bind fun r =>
            R.ok (r.1, r.2.1, if r.2.2 > a.2.2 then r.2.2 else a.2.2)) (v, e.foldl (statsEv b) s, k) =
        .ok ((l.foldl (fun a p => ((walk b.fieldsAt f p.node a.1).1, a.2 ++ .edge n p :: (walk b.fieldsAt f p.node a.1).2)) (v, e)).1,
          (l.foldl (fun a p => ((walk b.fieldsAt f p.node a.1).1, a.2 ++ .edge n p :: (walk b.fieldsAt f p.node a.1).2)) (v, e)).2.foldl (statsEv b) s,
          (l.foldl (fun (a : Flags × Nat) p => ((walk b.fieldsAt f p.node a.1).1,
            if plen b.fieldsAt f p.node a.1 > a.2 then plen b.fieldsAt f p.node a.1 else a.2)) (v, k)).2) := by
      intro l
      induction l with
      | nil => intro _ v e k; rfl
      | cons p l ih =>
        intro hl v e k
        have hp := hl p (List.mem_cons_self ..)
        have hlt := (asc_fieldsAt hi n p hp).1
        rw [List.foldlM_cons, statsF_walk hi f p.node v _ (live_fieldsAt hi hp) (fuel_step hf hlt)]
        simp only [List.foldl_cons]
        rw [← ih (fun q hq => hl q (List.mem_cons_of_mem _ hq))]
        show List.foldlM _ _ l = _
        congr 2
        rw [List.foldl_append, List.foldl_cons]
        rfl
    unfold statsF walk plen
    rw [load_getD hn, R.ok_bind']
    by_cases hv : v n = true
    · rw [if_pos hv, if_pos hv, if_pos hv]; rfl
    · rw [if_neg hv, if_neg hv, if_neg hv]
      have h := loop (b.fieldsAt n) (fun _ h => h) (v.set n true) [.node n] 0
      have h' : ([Ev.node n].foldl (statsEv b) s) = s.countNode ((b.heap n).getD {}) := rfl
      rw [h'] at h
      unfold Bld.fieldsAt at h ⊢
      rw [h]; rfl

/-! ### counters as sums -/

/-- effect of a list of statements -/
structure Counted (b : Bld) (s s' : PdagStats) (e : List Ev) : Prop where
  nodes : s'.nodes = s.nodes + e.countP fun | .node _ => true | _ => false
  term : s'.term = s.term + e.countP fun | .node n => ((b.heap n).getD {}).isTerminal | _ => false
  parsers : s'.parsers = s.parsers + (e.map fun | .node n => (b.fieldsAt n).length | _ => 0).sum
  maxN_ge : s.maxN ≤ s'.maxN
  maxN_le : ∀ n, Ev.node n ∈ e → (b.fieldsAt n).length ≤ s'.maxN
  maxN_mem : s'.maxN = s.maxN ∨ ∃ n, Ev.node n ∈ e ∧ (b.fieldsAt n).length = s'.maxN
  cnt : ∀ i, s'.cnt i = s.cnt i + e.countP fun | .node n => decide ((b.fieldsAt n).length = i) && decide (i < 100) | _ => false
  prs : ∀ t, s'.prs t = s.prs t + e.countP fun | .edge _ p => !p.kind.isCustom && p.kind.name = t | _ => false

theorem counted (b : Bld) : ∀ (e : List Ev) (s : PdagStats), Counted b s (e.foldl (statsEv b) s) e
  | [], s => ⟨rfl, rfl, rfl, Nat.le_refl _, by simp, .inl rfl, fun _ => rfl, fun _ => rfl⟩
  | .node n :: e, s => by
    have h := counted b e (s.countNode ((b.heap n).getD {}))
    have hm := h.maxN_ge
    have hmx : (s.countNode ((b.heap n).getD {})).maxN = if (b.fieldsAt n).length > s.maxN then (b.fieldsAt n).length else s.maxN := rfl
    rw [hmx] at hm
    refine ⟨?_, ?_, ?_, ?_, ?_, ?_, ?_, ?_⟩
    · rw [List.foldl_cons, List.countP_cons]; have := h.nodes; simp only [statsEv, PdagStats.countNode] at this ⊢; rw [this]; simp; omega
    · rw [List.foldl_cons, List.countP_cons]; have := h.term; simp only [statsEv, PdagStats.countNode] at this ⊢; rw [this]; split <;> omega
    · rw [List.foldl_cons, List.map_cons, List.sum_cons]; have := h.parsers; simp only [statsEv, PdagStats.countNode] at this ⊢; rw [this]
      unfold Bld.fieldsAt; omega
    · rw [List.foldl_cons]; simp only [statsEv]; split at hm <;> omega
    · rw [List.foldl_cons]; intro m hm'
      simp only [statsEv]
      rcases List.mem_cons.1 hm' with e' | e'
      · cases e'; split at hm <;> omega
      · exact h.maxN_le m e'
    · rw [List.foldl_cons]; simp only [statsEv]
      rcases h.maxN_mem with h1 | ⟨m, h1, h2⟩
      · rw [hmx] at h1
        split at h1
        · right; exact ⟨n, List.mem_cons_self .., h1.symm⟩
        · left; exact h1
      · right; exact ⟨m, List.mem_cons_of_mem _ h1, h2⟩
    · intro i
      rw [List.foldl_cons, List.countP_cons]
      have := h.cnt i
      simp only [statsEv] at this ⊢
      rw [this]
      have hc : (s.countNode ((b.heap n).getD {})).cnt i = s.cnt i + if (b.fieldsAt n).length = i ∧ i < 100 then 1 else 0 := by
        show (if (b.fieldsAt n).length ≥ 100 then s.cnt else fun i => if i = (b.fieldsAt n).length then s.cnt i + 1 else s.cnt i) i = _
        by_cases h1 : (b.fieldsAt n).length ≥ 100
        · rw [if_pos h1, if_neg (by omega)]; rfl
        · rw [if_neg h1]
          by_cases h2 : i = (b.fieldsAt n).length
          · simp only [if_pos h2]; rw [if_pos ⟨h2.symm, by omega⟩]
          · simp only [if_neg h2]; rw [if_neg (fun h => h2 h.1.symm)]; rfl
      rw [hc]; simp only [Bool.and_eq_true, decide_eq_true_eq]; omega
    · intro t
      rw [List.foldl_cons, List.countP_cons]
      have := h.prs t
      simp only [statsEv] at this ⊢
      rw [this]; rfl
  | .edge m p :: e, s => by
    have h := counted b e (s.countParser p)
    have h1 : (s.countParser p).nodes = s.nodes ∧ (s.countParser p).term = s.term ∧ (s.countParser p).parsers = s.parsers ∧
        (s.countParser p).maxN = s.maxN ∧ (s.countParser p).cnt = s.cnt := by
      unfold PdagStats.countParser; split <;> simp
    obtain ⟨e1, e2, e3, e4, e5⟩ := h1
    refine ⟨?_, ?_, ?_, ?_, ?_, ?_, ?_, ?_⟩
    · rw [List.foldl_cons, List.countP_cons]; have := h.nodes; rw [e1] at this; exact this
    · rw [List.foldl_cons, List.countP_cons]; have := h.term; rw [e2] at this; exact this
    · rw [List.foldl_cons, List.map_cons, List.sum_cons]; have := h.parsers; rw [e3] at this; rw [Nat.zero_add]; exact this
    · have := h.maxN_ge; rw [e4] at this; exact this
    · intro n hn
      rcases List.mem_cons.1 hn with e' | e'
      · cases e'
      · exact h.maxN_le n e'
    · rcases h.maxN_mem with h2 | ⟨n, h2, h3⟩
      · left; rw [e4] at h2; exact h2
      · right; exact ⟨n, List.mem_cons_of_mem _ h2, h3⟩
    · intro i; rw [List.foldl_cons, List.countP_cons]; have := h.cnt i; rw [e5] at this; exact this
    · intro t
      rw [List.foldl_cons, List.countP_cons]
      have := h.prs t
      simp only [statsEv] at this ⊢
      rw [this]
      unfold PdagStats.countParser
      by_cases hc : p.kind.isCustom = true
      · simp [hc]
      · by_cases ht : t = p.kind.name
        · subst ht; simp [hc]; omega
        · have ht' : ¬ p.kind.name = t := fun h => ht h.symm
          simp [hc, ht, ht']

theorem Counted.perm {b : Bld} {s s' : PdagStats} {e e' : List Ev} (h : Counted b s s' e) (hp : e.Perm e') : Counted b s s' e' where
  nodes := by rw [h.nodes, hp.countP_eq]
  term := by rw [h.term, hp.countP_eq]
  parsers := by rw [h.parsers, (hp.map _).sum_nat]
  maxN_ge := h.maxN_ge
  maxN_le n hn := h.maxN_le n (hp.mem_iff.2 hn)
  maxN_mem := by
    rcases h.maxN_mem with h1 | ⟨n, h1, h2⟩
    · exact .inl h1
    · exact .inr ⟨n, hp.mem_iff.1 h1, h2⟩
  cnt i := by rw [h.cnt, hp.countP_eq]
  prs t := by rw [h.prs, hp.countP_eq]

theorem node_mem_evs {fs : NodeId → List Parser} {L : List NodeId} {n : NodeId} : Ev.node n ∈ L.flatMap (evsAt fs) ↔ n ∈ L := by
  simp [List.mem_flatMap, evsAt]

theorem evs_countP (fs : NodeId → List Parser) (q : Ev → Bool) : ∀ L : List NodeId,
    (L.flatMap (evsAt fs)).countP q = (L.countP fun n => q (.node n)) + (L.map fun n => ((fs n).countP fun p => q (.edge n p))).sum
  | [] => rfl
  | n :: L => by
    rw [List.flatMap_cons, List.countP_append, evs_countP fs q L, List.countP_cons, List.map_cons, List.sum_cons]
    unfold evsAt
    rw [List.countP_cons, List.countP_map]
    have : (q ∘ Ev.edge n) = fun p => q (.edge n p) := rfl
    rw [this]; omega

theorem sum_zeros : ∀ L : List NodeId, (L.map fun _ => 0).sum = 0
  | [] => rfl
  | _ :: L => by rw [List.map_cons, List.sum_cons, sum_zeros L]

theorem StatsOf.of_counted {b : Bld} {s : PdagStats} {L : List NodeId} (h : Counted b {} s (L.flatMap (evsAt b.fieldsAt))) :
    StatsOf b L s where
  nodes := by rw [h.nodes, evs_countP]; simp [sum_zeros]
  term := by rw [h.term, evs_countP]; simp [sum_zeros]
  parsers := by
    rw [h.parsers]
    clear h
    induction L with
    | nil => rfl
    | cons n L ih =>
      rw [List.flatMap_cons, List.map_append, List.sum_append, List.map_cons, List.sum_cons]
      have : ((evsAt b.fieldsAt n).map fun | .node n => (b.fieldsAt n).length | _ => 0).sum = (b.fieldsAt n).length := by
        unfold evsAt
        rw [List.map_cons, List.sum_cons, List.map_map]
        have h0 : ∀ l : List Parser, (l.map ((fun | .node n => (b.fieldsAt n).length | _ => 0) ∘ Ev.edge n)).sum = 0 := by
          intro l; induction l with
          | nil => rfl
          | cons a l ih => rw [List.map_cons, List.sum_cons, ih]; rfl
        rw [h0]; rfl
      rw [this]
      have hz : ({} : PdagStats).parsers = 0 := rfl
      rw [hz] at ih ⊢
      omega
  maxN_le n hn := h.maxN_le n (node_mem_evs.2 hn)
  maxN_mem hL := by
    rcases h.maxN_mem with h1 | ⟨n, h1, h2⟩
    · cases L with
      | nil => exact absurd rfl hL
      | cons n L =>
        have := h.maxN_le n (node_mem_evs.2 (List.mem_cons_self ..))
        have hz : ({} : PdagStats).maxN = 0 := rfl
        exact ⟨n, List.mem_cons_self .., by omega⟩
    · exact ⟨n, node_mem_evs.1 h1, h2⟩
  cnt i := by
    rw [h.cnt, evs_countP]
    have hz : ({} : PdagStats).cnt i = 0 := rfl
    rw [hz]
    by_cases hi : i < 100 <;> simp [hi, sum_zeros]
  prs t := by
    rw [h.prs, evs_countP]
    have hz : ({} : PdagStats).prs t = 0 := rfl
    rw [hz, List.countP_flatMap]
    simp [Function.comp_def]

/-! ### length of the path -/

theorem plen_way {fs : NodeId → List Parser} : ∀ (f : Nat) (n : NodeId) (v : Flags), v n = false → 0 < f → Way fs n (plen fs f n v)
  | 0, _, _, _, h => absurd h (Nat.lt_irrefl _)
  | f + 1, n, v, hv, _ => by
    have loop : ∀ (l : List Parser) (_ : ∀ p ∈ l, p ∈ fs n) (a : Flags × Nat), (∃ k, a.2 = k ∧ Way fs n (k + 1)) →
        Way fs n ((l.foldl (fun (a : Flags × Nat) p => ((walk fs f p.node a.1).1,
          if plen fs f p.node a.1 > a.2 then plen fs f p.node a.1 else a.2)) a).2 + 1) := by
      intro l
      induction l with
      | nil => rintro _ a ⟨k, h1, h2⟩; rw [List.foldl_nil, h1]; exact h2
      | cons p l ih =>
        intro hl a ha
        rw [List.foldl_cons]
        refine ih (fun q hq => hl q (List.mem_cons_of_mem _ hq)) _ ?_
        dsimp only
        split
        · rename_i hgt
          refine ⟨_, rfl, .step (hl p (List.mem_cons_self ..)) ?_⟩
          cases f with
          | zero => unfold plen at hgt; exact absurd hgt (Nat.not_lt_zero _)
          | succ f =>
            refine plen_way (f + 1) p.node a.1 ?_ (Nat.succ_pos _)
            cases hc : a.1 p.node with
            | false => rfl
            | true => unfold plen at hgt; rw [if_pos hc] at hgt; exact absurd hgt (Nat.not_lt_zero _)
        · exact ha
    unfold plen
    rw [if_neg (by rw [hv]; exact Bool.false_ne_true)]
    exact loop (fs n) (fun _ h => h) _ ⟨0, rfl, .one n⟩

theorem Way.pos {fs : NodeId → List Parser} {n : NodeId} {k : Nat} (h : Way fs n k) : 0 < k := by cases h <;> omega

theorem plen_tree {fs : NodeId → List Parser} {N : Nat} (ha : Asc fs N) : ∀ (f : Nat) (n : NodeId) (v : Flags), (n : Nat) < N →
    N ≤ (n : Nat) + f → TreeAt fs n → ClosedOn fs (LeadsTo fs n) v → (∀ m, LeadsTo fs n m → v m = false) → ∀ k, Way fs n k → k ≤ plen fs f n v
  | 0, n, _, hn, hf, _, _, _, _, _ => (Nat.lt_irrefl _ (Nat.lt_of_lt_of_le hn hf)).elim
  | f + 1, n, v, hn, hf, ht, hcl, hv, k, hk => by
    have loop : ∀ (l : List Parser) (_ : ∀ p ∈ l, p ∈ fs n)
        (_ : l.Pairwise fun p q => ∀ k, LeadsTo fs p.node k → ¬ LeadsTo fs q.node k) (a : Flags × Nat)
        (_ : ∀ p ∈ l, ∀ m, LeadsTo fs p.node m → a.1 m = false) (_ : ClosedOn fs (fun m => ∃ p ∈ fs n, LeadsTo fs p.node m) a.1),
        a.2 ≤ (l.foldl (fun (a : Flags × Nat) p => ((walk fs f p.node a.1).1,
            if plen fs f p.node a.1 > a.2 then plen fs f p.node a.1 else a.2)) a).2 ∧
          ∀ p ∈ l, ∀ k, Way fs p.node k → k ≤ (l.foldl (fun (a : Flags × Nat) p => ((walk fs f p.node a.1).1,
            if plen fs f p.node a.1 > a.2 then plen fs f p.node a.1 else a.2)) a).2 := by
      intro l
      induction l with
      | nil => intro _ _ a _ _; exact ⟨Nat.le_refl _, by simp⟩
      | cons p l ih =>
        intro hl hpw a hfl hc
        rw [List.foldl_cons]
        rw [List.pairwise_cons] at hpw
        have hp := hl p (List.mem_cons_self ..)
        have hlt := ha n p hp
        obtain ⟨L, hw, _⟩ := walk_spec ha f p.node a.1 hlt.2 (by omega) (fun m hm => hc m ⟨p, hp, hm⟩)
        have hrec := plen_tree ha f p.node a.1 hlt.2 (by omega) (fun m hm => ht m (.step hp hm)) (fun m hm => hc m ⟨p, hp, hm⟩) (hfl p (List.mem_cons_self ..))
        obtain ⟨h1, h2⟩ := ih (fun q hq => hl q (List.mem_cons_of_mem _ hq)) hpw.2
          ((walk fs f p.node a.1).1, if plen fs f p.node a.1 > a.2 then plen fs f p.node a.1 else a.2)
          (fun q hq m hm => by
            cases hc' : (walk fs f p.node a.1).1 m with
            | false => rfl
            | true =>
              rcases (hw.flags m).1 hc' with h | h
              · rw [hfl q (List.mem_cons_of_mem _ hq) m hm] at h; cases h
              · exact absurd hm (hpw.1 q hq m h))
          (hw.closed (fun m j h h' => h.trans h') hc)
        have h3 : plen fs f p.node a.1 ≤ (if plen fs f p.node a.1 > a.2 then plen fs f p.node a.1 else a.2) ∧
            a.2 ≤ (if plen fs f p.node a.1 > a.2 then plen fs f p.node a.1 else a.2) := by split <;> omega
        refine ⟨Nat.le_trans h3.2 h1, fun q hq j hj => ?_⟩
        rcases List.mem_cons.1 hq with e | e
        · subst e; exact Nat.le_trans (hrec j hj) (Nat.le_trans h3.1 h1)
        · exact h2 q e j hj
    unfold plen
    rw [if_neg (by rw [hv n (.refl n)]; exact Bool.false_ne_true)]
    have hl := loop (fs n) (fun _ h => h) (ht n (.refl n)) (v.set n true, 0) (fun p hp m hm => by
        show v.set n true m = false
        rw [Flags.set_eq]
        rw [if_neg (by intro e; subst e; exact Nat.lt_irrefl _ (Nat.lt_of_lt_of_le (ha m p hp).1 (hm.le ha)))]
        exact hv m (.step hp hm)) (by
        intro m hm h j hj
        have h : v.set n true m = true := h
        show v.set n true j = true
        rw [Flags.set_eq] at h ⊢
        rw [if_neg (by
          intro e; subst e
          obtain ⟨p, hp, hm⟩ := hm
          exact Nat.lt_irrefl _ (Nat.lt_of_lt_of_le (ha m p hp).1 (hm.le ha)))] at h
        obtain ⟨p, hp, hm⟩ := hm
        split
        · rfl
        · exact hcl m (.step hp hm) h j hj)
    cases hk with
    | one => omega
    | step hp t => exact Nat.succ_le_succ (hl.2 _ hp _ t)

end LN
