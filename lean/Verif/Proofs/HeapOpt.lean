import Verif.Proofs.HeapAdd
/-
The optimiser as a sequence of elementary steps (sort a node, merge two literals), each of which
keeps the ownership invariant.
-/
set_option autoImplicit false
namespace LN

/-- merge the literal in entry `i` of node `n` with the one following it: `v` is the node between -/
structure Compaction (b : Bld) (n : NodeId) (i : Nat) (nd : Node) (p : Parser) (vd : Node) (c : Parser)
    (wd : Node) (l l' : Bytes) : Prop where
  hn : b.heap n = some nd
  hp : nd.parsers[i]? = some p
  hk : p.kind = .literal (some l)
  hname : p.name = none
  hv : b.heap p.node = some vd
  hterm : vd.isTerminal = false
  href : vd.refcnt = 1
  hpars : vd.parsers = [c]
  hck : c.kind = .literal (some l')
  hcname : c.name = none
  hw : b.heap c.node = some wd
  hwref : wd.refcnt = 1

/-- the merged entry -/
abbrev mergedPrs (p c : Parser) (l l' : Bytes) : Parser :=
  { p with kind := .literal (some (l ++ l')), node := c.node }

/-- the result of a compaction -/
def compacted (b : Bld) (n : NodeId) (i : Nat) (nd : Node) (p c : Parser) (l l' : Bytes) : Bld :=
  (b.store n { nd with parsers := nd.parsers.set i (mergedPrs p c l l') }).free p.node

/-- one elementary step of the optimiser on a node not older than `n0` -/
inductive OptStep (srt : Sorter) (n0 : NodeId) : Bld → Bld → Prop where
  | sort {b : Bld} {n : NodeId} {nd : Node} (h0 : n0 ≤ n) (hn : b.heap n = some nd) :
      OptStep srt n0 b (b.store n { nd with parsers := srt.sort nd.parsers })
  | compact {b : Bld} {n : NodeId} {i : Nat} {nd : Node} {p : Parser} {vd : Node} {c : Parser}
      {wd : Node} {l l' : Bytes} (h0 : n0 ≤ n) (h : Compaction b n i nd p vd c wd l l') :
      OptStep srt n0 b (compacted b n i nd p c l l')

/-- finitely many steps -/
inductive OptSteps (srt : Sorter) (n0 : NodeId) : Bld → Bld → Prop where
  | refl (b : Bld) : OptSteps srt n0 b b
  | head {b b' b'' : Bld} (h : OptStep srt n0 b b') (t : OptSteps srt n0 b' b'') : OptSteps srt n0 b b''

theorem OptSteps.trans {srt : Sorter} {n0 : NodeId} {b b' b'' : Bld} (h : OptSteps srt n0 b b')
    (h' : OptSteps srt n0 b' b'') : OptSteps srt n0 b b'' := by
  induction h with
  | refl => exact h'
  | head s _ ih => exact .head s (ih h')

theorem OptStep.weaken {srt : Sorter} {n0 m0 : NodeId} {b b' : Bld} (h : OptStep srt n0 b b')
    (hm : m0 ≤ n0) : OptStep srt m0 b b' := by
  cases h with
  | sort h0 hn => exact .sort (Nat.le_trans hm h0) hn
  | compact h0 hc => exact .compact (Nat.le_trans hm h0) hc

theorem OptSteps.weaken {srt : Sorter} {n0 m0 : NodeId} {b b' : Bld} (h : OptSteps srt n0 b b')
    (hm : m0 ≤ n0) : OptSteps srt m0 b b' := by
  induction h with
  | refl => exact .refl _
  | head s _ ih => exact .head (s.weaken hm) ih

theorem split_getElem? {α : Type} : ∀ {l : List α} {i : Nat} {x : α}, l[i]? = some x →
    ∃ A B, l = A ++ x :: B ∧ A.length = i
  | [], i, x, h => by simp at h
  | y :: l, 0, x, h => by simp at h; subst h; exact ⟨[], l, rfl, rfl⟩
  | y :: l, i + 1, x, h => by
    have h' : l[i]? = some x := by simpa using h
    obtain ⟨A, B, h1, h2⟩ := split_getElem? h'
    exact ⟨y :: A, B, by rw [h1]; rfl, by simp [h2]⟩

theorem set_split {α : Type} (A B : List α) (x y : α) : (A ++ x :: B).set A.length y = A ++ y :: B := by
  induction A with
  | nil => rfl
  | cons a A ih => simp [ih]

theorem Compaction.lt {b : Bld} {E : List NodeId} (h : Inv b E) {n : NodeId} {i : Nat} {nd : Node}
    {p : Parser} {vd : Node} {c : Parser} {wd : Node} {l l' : Bytes}
    (hc : Compaction b n i nd p vd c wd l l') : n < p.node ∧ p.node < c.node := by
  have h1 : p.node ∈ b.refsOf n := by
    rw [refsOf_some hc.hn]
    exact List.mem_flatMap.2 ⟨p, List.mem_of_getElem? hc.hp, List.mem_cons_self ..⟩
  have h2 : c.node ∈ b.refsOf p.node := by
    rw [refsOf_some hc.hv, hc.hpars]
    exact List.mem_flatMap.2 ⟨c, List.mem_cons_self .., List.mem_cons_self ..⟩
  exact ⟨(h.asc _ _ h1).1, (h.asc _ _ h2).1⟩

theorem Bld.heap_store (b : Bld) (n m : NodeId) (nd : Node) :
    (b.store n nd).heap m = if m = n then some nd else b.heap m := rfl
theorem Bld.heap_free (b : Bld) (n m : NodeId) :
    (b.free n).heap m = if m = n then none else b.heap m := rfl

theorem Bld.ext_heap {b b' : Bld} (h : b.heap = b'.heap) (h1 : b.next = b'.next)
    (h2 : b.types = b'.types) (h3 : b.root = b'.root) (h4 : b.wrapped = b'.wrapped) : b = b' := by
  cases b; cases b'; simp_all

theorem compact_inv {b : Bld} {E : List NodeId} (h : Inv b E) {n : NodeId} {i : Nat} {nd : Node}
    {p : Parser} {vd : Node} {c : Parser} {wd : Node} {l l' : Bytes}
    (hc : Compaction b n i nd p vd c wd l l') : Inv (compacted b n i nd p c l l') E := by
  obtain ⟨hlt1, hlt2⟩ := hc.lt h
  have hcr : c.refs = [c.node] := by simp [Parser.refs, hc.hck, PKind.refs]
  have hpr : p.refs = [p.node] := by simp [Parser.refs, hc.hk, PKind.refs]
  have hwlive : (b.heap c.node).isSome := by rw [hc.hw]; rfl
  -- 1. take the reference out of the node between
  have h1 : Inv (b.store p.node { vd with parsers := [] }) (c.node :: E) := by
    refine h.update hc.hv (by simp) ?_ ?_ (by rw [show ({ vd with parsers := [] } : Node).refcnt = vd.refcnt from rfl, hc.href]; exact Nat.one_pos)
    · intro e he
      rcases List.mem_cons.1 he with rfl | he
      · exact hwlive
      · exact h.ext e he
    · intro x
      rw [hc.hpars]
      simp only [List.flatMap_nil, List.count_nil, List.flatMap_cons, List.append_nil, hcr,
        List.count_cons]
      omega
  have hn1 : (b.store p.node { vd with parsers := [] }).heap n = some nd := by
    rw [Bld.heap_store, if_neg (Nat.ne_of_lt hlt1)]; exact hc.hn
  have hw1 : ((b.store p.node { vd with parsers := [] }).heap c.node).isSome := by
    rw [Bld.heap_store, if_neg (Nat.ne_of_gt hlt2)]; exact hwlive
  have hv1 : (b.store p.node { vd with parsers := [] }).heap p.node = some { vd with parsers := [] } := by
    rw [Bld.heap_store, if_pos rfl]
  -- 2. redirect the entry
  obtain ⟨A, B, hAB, hA⟩ := split_getElem? hc.hp
  have h2 : Inv ((b.store p.node { vd with parsers := [] }).store n { nd with parsers := nd.parsers.set i (mergedPrs p c l l') }) (p.node :: E) := by
    refine h1.update hn1 ?_ ?_ ?_ (h.cnt _ _ hc.hn).2
    · intro r hr
      have hset : nd.parsers.set i (mergedPrs p c l l') =
          A ++ (mergedPrs p c l l') :: B := by
        rw [hAB, ← hA, set_split]
      rw [show ({ nd with parsers := nd.parsers.set i (mergedPrs p c l l') } : Node).parsers = nd.parsers.set i (mergedPrs p c l l') from rfl, hset] at hr
      simp only [List.flatMap_append, List.flatMap_cons, List.mem_append] at hr
      have hold : ∀ r, r ∈ A.flatMap Parser.refs ∨ r ∈ B.flatMap Parser.refs → n < r ∧
          ((b.store p.node { vd with parsers := [] }).heap r).isSome := by
        intro r hr
        refine h1.asc n r ?_
        rw [refsOf_some hn1, hAB]
        simp only [List.flatMap_append, List.flatMap_cons, List.mem_append]
        rcases hr with hr | hr
        · exact .inl hr
        · exact .inr (.inr hr)
      rcases hr with hr | hr | hr
      · exact hold r (.inl hr)
      · simp only [Parser.refs, PKind.refs, List.mem_singleton] at hr
        subst hr
        exact ⟨Nat.lt_trans hlt1 hlt2, hw1⟩
      · exact hold r (.inr hr)
    · intro e he
      rcases List.mem_cons.1 he with rfl | he
      · rw [hv1]; rfl
      · exact h1.ext e (List.mem_cons_of_mem _ he)
    · intro x
      have hset : nd.parsers.set i (mergedPrs p c l l') =
          A ++ (mergedPrs p c l l') :: B := by
        rw [hAB, ← hA, set_split]
      simp only [hset]
      simp only [hAB, List.flatMap_append, List.flatMap_cons, List.count_append, hpr]
      simp only [Parser.refs, PKind.refs, List.count_cons, List.count_nil]
      omega
  -- 3. free the node between
  have hv2 : ((b.store p.node { vd with parsers := [] }).store n { nd with parsers := nd.parsers.set i (mergedPrs p c l l') }).heap p.node = some { vd with parsers := [] } := by
    rw [Bld.heap_store, if_neg (Nat.ne_of_gt hlt1)]; exact hv1
  have h3 := (h2.freeNode hv2 (by rw [show ({ vd with parsers := [] } : Node).refcnt = vd.refcnt from rfl, hc.href]; exact Nat.lt_irrefl 1)).1
  have heq : ((b.store p.node { vd with parsers := [] }).store n { nd with parsers := nd.parsers.set i (mergedPrs p c l l') }).free p.node =
      compacted b n i nd p c l l' := by
    refine Bld.ext_heap ?_ rfl rfl rfl rfl
    funext m
    unfold compacted
    simp only [Bld.heap_free, Bld.heap_store]
    by_cases hm : m = p.node <;> simp [hm]
  rw [heq] at h3
  simpa using h3

/-- state parts the optimiser does not change -/
theorem OptStep.frame {srt : Sorter} {n0 : NodeId} {b b' : Bld} {E : List NodeId} (hi : Inv b E)
    (h : OptStep srt n0 b b') :
    Inv b' E ∧ b'.next = b.next ∧ b'.types = b.types ∧ b'.root = b.root ∧ b'.wrapped = b.wrapped ∧
    ∀ m, m < n0 → b'.heap m = b.heap m := by
  cases h with
  | @sort n nd h0 hn =>
    refine ⟨hi.permParsers hn (srt.perm _) rfl, rfl, rfl, rfl, rfl, ?_⟩
    intro m hm
    rw [Bld.heap_store, if_neg (Nat.ne_of_lt (Nat.lt_of_lt_of_le hm h0))]
  | @compact n i nd p vd c wd l l' h0 hc =>
    refine ⟨compact_inv hi hc, rfl, rfl, rfl, rfl, ?_⟩
    intro m hm
    have hlt := (hc.lt hi).1
    unfold compacted
    rw [Bld.heap_free, if_neg (Nat.ne_of_lt (Nat.lt_trans (Nat.lt_of_lt_of_le hm h0) hlt)),
      Bld.heap_store, if_neg (Nat.ne_of_lt (Nat.lt_of_lt_of_le hm h0))]

theorem OptSteps.frame {srt : Sorter} {n0 : NodeId} {b b' : Bld} {E : List NodeId} (hi : Inv b E)
    (h : OptSteps srt n0 b b') :
    Inv b' E ∧ b'.next = b.next ∧ b'.types = b.types ∧ b'.root = b.root ∧ b'.wrapped = b.wrapped ∧
    ∀ m, m < n0 → b'.heap m = b.heap m := by
  induction h with
  | refl => exact ⟨hi, rfl, rfl, rfl, rfl, fun _ _ => rfl⟩
  | head s _ ih =>
    obtain ⟨h1, h2, h3, h4, h5, h6⟩ := s.frame hi
    obtain ⟨k1, k2, k3, k4, k5, k6⟩ := ih h1
    exact ⟨k1, k2.trans h2, k3.trans h3, k4.trans h4, k5.trans h5, fun m hm => (k6 m hm).trans (h6 m hm)⟩

/-- a step on nodes from `n` on does not free `n` -/
theorem OptStep.live {srt : Sorter} {n : NodeId} {b b' : Bld} {E : List NodeId} (hi : Inv b E)
    (h : OptStep srt n b b') (hn : (b.heap n).isSome) : (b'.heap n).isSome := by
  cases h with
  | @sort m nd h0 hm =>
    rw [Bld.heap_store]; split
    · rfl
    · exact hn
  | @compact m i nd p vd c wd l l' h0 hc =>
    have hlt := (hc.lt hi).1
    unfold compacted
    rw [Bld.heap_free, if_neg (Nat.ne_of_lt (Nat.lt_of_le_of_lt h0 hlt)), Bld.heap_store]
    split
    · rfl
    · exact hn

theorem optSteps_live {srt : Sorter} {n : NodeId} {b b' : Bld} {E : List NodeId} (hi : Inv b E)
    (h : OptSteps srt n b b') (hn : (b.heap n).isSome) : (b'.heap n).isSome := by
  induction h with
  | refl => exact hn
  | head s _ ih => exact ih (s.frame hi).1 (s.live hi hn)

/-! ### the code performs such steps -/

theorem compactable_ok {b : Bld} {E : List NodeId} (hi : Inv b E) {n : NodeId} {i : Nat} {nd : Node}
    {p : Parser} (hn : b.heap n = some nd) (hp : nd.parsers[i]? = some p) :
    Mem (fun r => ∀ d d' w, r = some (d, d', w) → ∃ vd c wd, b.heap p.node = some vd ∧
        p.kind = .literal d ∧ p.name = none ∧ vd.isTerminal = false ∧ vd.refcnt = 1 ∧
        vd.parsers = [c] ∧ c.kind = .literal d' ∧ c.name = none ∧ b.heap c.node = some wd ∧
        wd.refcnt = 1 ∧ w = c.node) (compactable b p) := by
  have hpn : (b.heap p.node).isSome := by
    refine (hi.asc n p.node ?_).2
    rw [refsOf_some hn]
    exact List.mem_flatMap.2 ⟨p, List.mem_of_getElem? hp, List.mem_cons_self ..⟩
  unfold compactable
  split
  · rename_i d hk hnm
    refine Mem.bind (Mem.nd (.inr hpn)) ?_
    intro vd hv
    split
    · intro d d' w hh; cases hh
    · rename_i hcond
      split
      · rename_i c hpars
        split
        · rename_i d' hck hcn
          have hcl : (b.heap c.node).isSome := by
            refine (hi.asc p.node c.node ?_).2
            rw [refsOf_some hv, hpars]
            exact List.mem_flatMap.2 ⟨c, List.mem_cons_self .., List.mem_cons_self ..⟩
          refine Mem.bind (Mem.nd (.inr hcl)) ?_
          intro wd hw
          split
          · rename_i hwr
            intro d1 d1' w hh
            cases hh
            have h1 : vd.isTerminal = false ∧ vd.refcnt = 1 := by
              revert hcond
              cases vd.isTerminal <;> simp
            exact ⟨vd, c, wd, hv, hk, hnm, h1.1, h1.2, hpars, hck, hcn, hw, hwr, rfl⟩
          · intro d d' w hh; cases hh
        · intro d d' w hh; cases hh
      · intro d d' w hh; cases hh
  · intro d d' w hh; cases hh

theorem deleteF_zero (fuel : Nat) (b : Bld) : deleteF (fuel + 1) b 0 = .ok b := by
  unfold deleteF; rw [if_pos rfl]

/-- the optimiser leaves the entry's node younger than its owner -/
theorem compactLoop_ok {srt : Sorter} {n : NodeId} {i : Nat} {E : List NodeId} : ∀ (fuel : Nat) (b : Bld)
    (nd : Node) (p : Parser), Inv b E → b.heap n = some nd → nd.parsers[i]? = some p →
    b.next < p.node + fuel →
    Mem (fun b' => OptSteps srt n b b' ∧ ∃ nd', b'.heap n = some nd' ∧
      nd'.parsers.length = nd.parsers.length ∧ ∀ j, j ≠ i → nd'.parsers[j]? = nd.parsers[j]?)
      (compactLoop n i fuel b) := by
  intro fuel
  induction fuel with
  | zero =>
    intro b nd p hi hn hp hlt
    have h1 : p.node ∈ b.refsOf n := by
      rw [refsOf_some hn]
      exact List.mem_flatMap.2 ⟨p, List.mem_of_getElem? hp, List.mem_cons_self ..⟩
    have h2 := (hi.live_pos (hi.asc _ _ h1).2).2
    exact absurd hlt (Nat.not_lt.2 (Nat.le_of_lt h2))
  | succ fuel ih =>
    intro b nd p hi hn hp hlt
    unfold compactLoop
    have hload : b.load n = .ok nd := by simp [Bld.load, hn]
    rw [hload]
    show Mem _ (match nd.parsers[i]? with | none => _ | some p => _)
    rw [hp]
    dsimp only
    refine Mem.bind (compactable_ok hi hn hp) ?_
    intro r hr
    cases r with
    | none => exact ⟨.refl b, nd, hn, rfl, fun _ _ => rfl⟩
    | some y =>
      obtain ⟨d, d', w⟩ := y
      obtain ⟨vd, c, wd, hv, hk, hnm, ht, hrc, hpars, hck, hcn, hw, hwr, rfl⟩ := hr d d' w rfl
      dsimp only
      cases d with
      | none => simp [combineLiteral, R.bind, Mem]
      | some l =>
        cases d' with
        | none => simp [combineLiteral, R.bind, Mem]
        | some l' =>
          have hc : Compaction b n i nd p vd c wd l l' := ⟨hn, hp, hk, hnm, hv, ht, hrc, hpars, hck, hcn, hw, hwr⟩
          obtain ⟨hlt1, hlt2⟩ := hc.lt hi
          show Mem _ ((setParser b n i (mergedPrs p c l l')).bind _)
          unfold setParser
          rw [hload]
          have hv1 : (b.store n { nd with parsers := nd.parsers.set i (mergedPrs p c l l') }).heap p.node = some vd := by
            rw [Bld.heap_store, if_neg (Nat.ne_of_gt hlt1)]; exact hv
          have hload1 : (b.store n { nd with parsers := nd.parsers.set i (mergedPrs p c l l') }).load p.node = .ok vd := by
            simp [Bld.load, hv1]
          show Mem _ (((b.store n { nd with parsers := nd.parsers.set i (mergedPrs p c l l') }).load p.node).bind _)
          rw [hload1]
          -- deleting the node between frees just this node
          have hdel : pdagDelete ((b.store n { nd with parsers := nd.parsers.set i (mergedPrs p c l l') }).store p.node
              { vd with parsers := vd.parsers.map fun c => { c with node := 0 } }) p.node =
              .ok (compacted b n i nd p c l l') := by
            have hnext : ∃ k, b.next = k + 1 := ⟨b.next - 1, by have := hi.pos; exact (Nat.succ_pred_eq_of_pos this).symm⟩
            obtain ⟨k, hk'⟩ := hnext
            unfold pdagDelete
            show deleteF (b.next + 1) _ _ = _
            rw [hk']
            unfold deleteF
            rw [if_neg (Nat.ne_of_gt (Nat.lt_of_le_of_lt (Nat.zero_le _) hlt1))]
            have hl2 : ∀ (bb : Bld) (x : Node), (bb.store p.node x).load p.node = .ok x := by
              intro bb x; simp [Bld.load, Bld.store]
            rw [hl2]
            show (if ({ vd with parsers := vd.parsers.map fun c => { c with node := 0 } } : Node).refcnt > 1 then _ else _) = _
            rw [if_neg (by rw [show ({ vd with parsers := vd.parsers.map fun c => { c with node := 0 } } : Node).refcnt = vd.refcnt from rfl, hrc]; exact Nat.lt_irrefl 1)]
            rw [show ({ vd with parsers := vd.parsers.map fun c => { c with node := 0 } } : Node).parsers = [{ c with node := 0 }] from by rw [hpars]; rfl]
            have hrefs : ([{ c with node := 0 }] : List Parser).flatMap Parser.refs = [0] := by
              simp [Parser.refs, hck, PKind.refs]
            rw [hrefs, List.foldlM_cons, deleteF_zero]
            show R.ok _ = _
            congr 1
            refine Bld.ext_heap ?_ rfl rfl rfl rfl
            funext m
            unfold compacted
            simp only [Bld.heap_free, Bld.heap_store]
            by_cases hm : m = p.node <;> simp [hm]
          show Mem _ ((pdagDelete _ p.node).bind _)
          rw [hdel]
          show Mem _ (compactLoop n i fuel (compacted b n i nd p c l l'))
          have hi' := compact_inv hi hc
          have hn' : (compacted b n i nd p c l l').heap n = some { nd with parsers := nd.parsers.set i (mergedPrs p c l l') } := by
            unfold compacted
            rw [Bld.heap_free, if_neg (Nat.ne_of_lt hlt1), Bld.heap_store, if_pos rfl]
          have hlen : i < nd.parsers.length := by
            rw [List.getElem?_eq_some_iff] at hp; exact hp.1
          refine (ih (compacted b n i nd p c l l') _ (mergedPrs p c l l') hi' hn' ?_ ?_).mono ?_
          · show (nd.parsers.set i _)[i]? = _
            rw [List.getElem?_set_self hlen]
          · show b.next < c.node + fuel
            exact Nat.lt_of_lt_of_le hlt ((by omega : ∀ (a b f : Nat), a < b → a + (f + 1) ≤ b + f) _ _ _ hlt2)
          · rintro b' ⟨hb', nd', hn2, hl2, hj2⟩
            refine ⟨.head (.compact (Nat.le_refl _) hc) hb', nd', hn2, ?_, ?_⟩
            · rw [hl2]; exact List.length_set
            · intro j hj
              rw [hj2 j hj]
              exact List.getElem?_set_ne (Ne.symm hj)

theorem optLoop_ok {srt : Sorter} {E : List NodeId} {fuel : Nat} {rec : Bld → NodeId → R Bld} {n : NodeId}
    (hrec : ∀ (b : Bld) (m : NodeId), Inv b E → (b.heap m).isSome → b.next < m + fuel →
      Mem (fun b' => OptSteps srt m b b') (rec b m)) :
    ∀ (k i : Nat) (b : Bld), Inv b E → (b.heap n).isSome → b.next < n + (fuel + 1) →
      Mem (fun b' => OptSteps srt n b b') (optLoop rec n k i b)
  | 0, i, b, hi, hn, hf => .refl b
  | k + 1, i, b, hi, hn, hf => by
    unfold optLoop
    refine Mem.bind (Mem.nd (.inr hn)) ?_
    intro nd hnd
    cases hp : nd.parsers[i]? with
    | none => exact .refl b
    | some p =>
      dsimp only
      split
      · simp [Mem]
      · refine Mem.bind (compactLoop_ok (srt := srt) (E := E) (b.next + 1) b nd p hi hnd hp
          (Nat.lt_of_lt_of_le (Nat.lt_succ_self _) (Nat.le_add_left _ _))) ?_
        rintro b1 ⟨hs1, _⟩
        obtain ⟨hi1, hx1, _, _, _, _⟩ := hs1.frame hi
        have hn1 : (b1.heap n).isSome := by
          -- steps at nodes from `n` on never free `n` itself
          exact optSteps_live hi hs1 hn
        refine Mem.bind (Mem.nd (.inr hn1)) ?_
        intro nd1 hnd1
        cases hp1 : nd1.parsers[i]? with
        | none => exact hs1
        | some p1 =>
          dsimp only
          have hmem : p1.node ∈ b1.refsOf n := by
            rw [refsOf_some hnd1]
            exact List.mem_flatMap.2 ⟨p1, List.mem_of_getElem? hp1, List.mem_cons_self ..⟩
          have hasc := hi1.asc _ _ hmem
          refine Mem.bind (hrec b1 p1.node hi1 hasc.2 ?_) ?_
          · rw [hx1]
            exact Nat.lt_of_lt_of_le hf ((by omega : ∀ (a b f : Nat), a < b → a + (f + 1) ≤ b + f) _ _ _ hasc.1)
          · intro b2 hs2
            obtain ⟨hi2, hx2, _, _, _, hold2⟩ := hs2.frame hi1
            have hn2 : (b2.heap n).isSome := by rw [hold2 n hasc.1]; exact hn1
            refine (optLoop_ok hrec k (i + 1) b2 hi2 hn2 (by rw [hx2, hx1]; exact hf)).mono ?_
            intro b3 hs3
            exact (hs1.trans (hs2.weaken (Nat.le_of_lt hasc.1))).trans hs3

theorem optimizeF_ok {srt : Sorter} {E : List NodeId} : ∀ (fuel : Nat) (b : Bld) (n : NodeId), Inv b E →
    (b.heap n).isSome → b.next < n + fuel → Mem (fun b' => OptSteps srt n b b') (optimizeF srt fuel b n)
  | 0, b, n, hi, hn, hf => absurd hf (Nat.not_lt.2 (Nat.le_of_lt (hi.live_pos hn).2))
  | fuel + 1, b, n, hi, hn, hf => by
    unfold optimizeF
    refine Mem.bind (Mem.nd (.inr hn)) ?_
    intro nd hnd
    have hs : OptSteps srt n b (b.store n (if nd.parsers.length > 1 then { nd with parsers := srt.sort nd.parsers } else nd)) := by
      split
      · exact .head (.sort (Nat.le_refl _) hnd) (.refl _)
      · have : b.store n nd = b := by
          refine Bld.ext_heap ?_ rfl rfl rfl rfl
          funext m
          rw [Bld.heap_store]
          by_cases hm : m = n
          · rw [if_pos hm, hm, hnd]
          · rw [if_neg hm]
        rw [this]; exact .refl b
    obtain ⟨hi1, hx1, _, _, _, _⟩ := hs.frame hi
    refine (optLoop_ok (srt := srt) (fuel := fuel) (fun b m h1 h2 h3 => optimizeF_ok fuel b m h1 h2 h3) _ 0 _ hi1 ?_ ?_).mono ?_
    · rw [Bld.heap_store, if_pos rfl]; rfl
    · exact hf
    · intro b' hb'; exact hs.trans hb'

theorem optimizeNode_ok {srt : Sorter} {E : List NodeId} {b : Bld} {n : NodeId} (hi : Inv b E)
    (hn : (b.heap n).isSome) : Mem (fun b' => OptSteps srt n b b') (optimizeNode srt b n) :=
  optimizeF_ok _ b n hi hn (Nat.lt_of_lt_of_le (Nat.lt_succ_self _) (Nat.le_add_left _ _))

theorem foldOptimize_ok {srt : Sorter} {E : List NodeId} : ∀ (L : List NodeId) (b : Bld), Inv b E →
    (∀ n ∈ L, n ∈ E) → Mem (fun b' => OptSteps srt 0 b b') (L.foldlM (optimizeNode srt) b)
  | [], b, _, _ => .refl b
  | n :: L, b, hi, hL => by
    rw [List.foldlM_cons]
    refine Mem.bind (optimizeNode_ok hi (hi.ext n (hL n (List.mem_cons_self ..)))) ?_
    intro b1 hs1
    have hs1' := hs1.weaken (Nat.zero_le n)
    obtain ⟨hi1, _⟩ := hs1'.frame hi
    exact (foldOptimize_ok L b1 hi1 (fun m hm => hL m (List.mem_cons_of_mem _ hm))).mono
      fun b2 hs2 => hs1'.trans hs2

theorem optimizeAll_ok {srt : Sorter} {E : List NodeId} {b : Bld} (hi : Inv b E)
    (hroot : b.root ∈ E) (htypes : ∀ t ∈ b.types, t.2 ∈ E) :
    Mem (fun b' => OptSteps srt 0 b b') (optimizeAll srt b) := by
  unfold optimizeAll
  refine Mem.bind (foldOptimize_ok (E := E) _ b hi ?_) ?_
  · intro n hn
    obtain ⟨t, ht, rfl⟩ := List.mem_map.1 hn
    exact htypes t ht
  · intro b1 hs1
    obtain ⟨hi1, _, _, hr, _⟩ := hs1.frame hi
    refine (optimizeNode_ok hi1 (hi1.ext _ (by rw [hr]; exact hroot))).mono ?_
    intro b2 hs2
    exact hs1.trans (hs2.weaken (Nat.zero_le _))

theorem refsOf_mem {b : Bld} {n : NodeId} {nd : Node} (h : b.heap n = some nd) {p : Parser} (hp : p ∈ nd.parsers) {m : NodeId}
    (hm : m ∈ p.kind.refs ++ [p.node]) : m ∈ b.refsOf n := by
  unfold Bld.refsOf
  rw [h]
  refine List.mem_flatMap.2 ⟨p, hp, ?_⟩
  unfold Parser.refs
  rcases List.mem_append.1 hm with hm | hm
  · exact List.mem_cons_of_mem _ hm
  · rw [List.mem_singleton.1 hm]; exact List.mem_cons_self ..

theorem foldUnit_ok {α : Type} {f : α → R Unit} : ∀ (l : List α), (∀ x ∈ l, Mem (fun _ => True) (f x)) → Mem (fun _ => True) (l.foldlM (fun _ x => f x) ())
  | [], _ => trivial
  | x :: l, h => by
    rw [List.foldlM_cons]
    refine Mem.bind (h x (List.mem_cons_self ..)) ?_
    intro _ _
    exact foldUnit_ok l fun y hy => h y (List.mem_cons_of_mem _ hy)

theorem displayF_ok {E : List NodeId} {b : Bld} (hi : Inv b E) : ∀ (fuel : Nat) (n : NodeId), (b.heap n).isSome → b.next < n + fuel →
    Mem (fun _ => True) (displayF fuel b n)
  | 0, n, hn, hf => by
    obtain ⟨nd, hnd⟩ := Option.isSome_iff_exists.1 hn
    exact absurd (Nat.lt_trans (hi.range n nd hnd).2 hf) (Nat.lt_irrefl _)
  | fuel + 1, n, hn, hf => by
    unfold displayF
    refine Mem.bind (Mem.nd (.inr hn)) ?_
    intro nd hnd
    refine foldUnit_ok (f := fun p => _) _ ?_
    intro p hp
    split
    · exact fun h => by cases h
    · refine foldUnit_ok (f := fun m => _) _ ?_
      intro m hm
      obtain ⟨h1, h2⟩ := hi.asc n m (refsOf_mem hnd hp hm)
      refine displayF_ok hi fuel m h2 ?_
      have h1' : n + 1 ≤ m := h1
      exact Nat.lt_of_lt_of_le hf (by rw [Nat.add_succ, ← Nat.succ_add]; exact Nat.add_le_add_right h1' _)

theorem displayAll_ok {E : List NodeId} {b : Bld} (hi : Inv b E) (hroot : b.root ∈ E) (htypes : ∀ t ∈ b.types, t.2 ∈ E) :
    Mem (fun _ => True) (displayAll b) := by
  refine foldUnit_ok (f := fun n => _) _ ?_
  intro n hn
  refine displayF_ok hi _ n (hi.ext n ?_) (Nat.lt_of_lt_of_le (Nat.lt_succ_self _) (Nat.le_add_left _ _))
  rcases List.mem_append.1 hn with hn | hn
  · obtain ⟨t, ht, rfl⟩ := List.mem_map.1 hn
    exact htypes t ht
  · rw [List.mem_singleton.1 hn]; exact hroot

theorem nameF_ok {E : List NodeId} {b : Bld} (hi : Inv b E) : ∀ (fuel : Nat) (n : NodeId), (b.heap n).isSome → b.next < n + fuel →
    Mem (fun _ => True) (nameF fuel b n)
  | 0, n, hn, hf => by
    obtain ⟨nd, hnd⟩ := Option.isSome_iff_exists.1 hn
    exact absurd (Nat.lt_trans (hi.range n nd hnd).2 hf) (Nat.lt_irrefl _)
  | fuel + 1, n, hn, hf => by
    unfold nameF
    refine Mem.bind (Mem.nd (.inr hn)) ?_
    intro nd hnd
    refine foldUnit_ok (f := fun p => _) _ ?_
    intro p hp
    split
    · exact fun h => by cases h
    · obtain ⟨h1, h2⟩ := hi.asc n p.node (refsOf_mem hnd hp (List.mem_append_right _ (List.mem_cons_self ..)))
      refine nameF_ok hi fuel p.node h2 ?_
      have h1' : n + 1 ≤ p.node := h1
      exact Nat.lt_of_lt_of_le hf (by rw [Nat.add_succ, ← Nat.succ_add]; exact Nat.add_le_add_right h1' _)

theorem nameAll_ok {E : List NodeId} {b : Bld} (hi : Inv b E) (hroot : b.root ∈ E) (htypes : ∀ t ∈ b.types, t.2 ∈ E) :
    Mem (fun _ => True) (nameAll b) := by
  refine foldUnit_ok (f := fun n => _) _ ?_
  intro n hn
  refine nameF_ok hi _ n (hi.ext n ?_) (Nat.lt_of_lt_of_le (Nat.lt_succ_self _) (Nat.le_add_left _ _))
  rcases List.mem_append.1 hn with hn | hn
  · obtain ⟨t, ht, rfl⟩ := List.mem_map.1 hn
    exact htypes t ht
  · rw [List.mem_singleton.1 hn]; exact hroot

/-- `ln_pdagOptimize` with the walk of `ln_displayPDAG` -/
theorem Mem.displayed {srt : Sorter} {E : List NodeId} {b : Bld} {P : Bld → Prop} (hi : Inv b E)
    (hroot : b.root ∈ E) (htypes : ∀ t ∈ b.types, t.2 ∈ E) (h : Mem P (optimizeAll srt b)) : Mem P (pdagOptimize srt b) := by
  have hm := optimizeAll_ok (srt := srt) hi hroot htypes
  unfold pdagOptimize
  cases ho : optimizeAll srt b with
  | ok b1 =>
    have hs := hm.ok_of ho
    obtain ⟨hi1, _, ht, hr, _⟩ := hs.frame hi
    rw [R.ok_bind']
    refine Mem.bind (nameAll_ok hi1 (by rw [hr]; exact hroot) (by rw [ht]; exact htypes)) ?_
    intro _ _
    refine Mem.bind (displayAll_ok hi1 (by rw [hr]; exact hroot) (by rw [ht]; exact htypes)) ?_
    intro _ _
    exact h.ok_of ho
  | fail => rw [ho] at hm; exact hm
  | ub k => rw [ho] at hm; exact hm
  | oof => rw [ho] at hm; exact hm

theorem pdagOptimize_ok {srt : Sorter} {E : List NodeId} {b : Bld} (hi : Inv b E)
    (hroot : b.root ∈ E) (htypes : ∀ t ∈ b.types, t.2 ∈ E) :
    Mem (fun b' => OptSteps srt 0 b b') (pdagOptimize srt b) := (optimizeAll_ok hi hroot htypes).displayed hi hroot htypes

end LN
