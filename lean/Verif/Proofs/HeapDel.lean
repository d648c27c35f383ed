import Verif.Proofs.Heap
/-
Deletion (C18): under the ownership invariant `ln_pdagDelete` succeeds, gives back one reference
and touches no older node.
-/
set_option autoImplicit false
namespace LN

/-- the parts of the state deletion does not touch; only nodes from `n` on change, and nodes that
survive keep everything except the reference count -/
structure Frame (b b' : Bld) (n : NodeId) : Prop where
  next : b'.next = b.next
  types : b'.types = b.types
  root : b'.root = b.root
  wrapped : b'.wrapped = b.wrapped
  older : ∀ m, m < n → b'.heap m = b.heap m
  same : ∀ m nd', b'.heap m = some nd' → ∃ nd, b.heap m = some nd ∧ nd' = { nd with refcnt := nd'.refcnt }

theorem Frame.refl (b : Bld) (n : NodeId) : Frame b b n :=
  ⟨rfl, rfl, rfl, rfl, fun _ _ => rfl, fun _ nd h => ⟨nd, h, rfl⟩⟩

theorem Frame.trans {b b' b'' : Bld} {n : NodeId} (h : Frame b b' n) (h' : Frame b' b'' n) :
    Frame b b'' n := by
  refine ⟨h'.next.trans h.next, h'.types.trans h.types, h'.root.trans h.root,
    h'.wrapped.trans h.wrapped, fun m hm => (h'.older m hm).trans (h.older m hm), ?_⟩
  intro m nd'' hm
  obtain ⟨nd', h1, h2⟩ := h'.same m nd'' hm
  obtain ⟨nd, h3, h4⟩ := h.same m nd' h1
  exact ⟨nd, h3, by rw [h2, h4]⟩

theorem Frame.weaken {b b' : Bld} {n m : NodeId} (h : Frame b b' n) (hm : m ≤ n) : Frame b b' m :=
  ⟨h.next, h.types, h.root, h.wrapped, fun x hx => h.older x (Nat.lt_of_lt_of_le hx hm), h.same⟩

theorem deleteF_fold (fuel : Nat) (n : NodeId)
    (ih : ∀ (b : Bld) (r : NodeId) (E : List NodeId), Inv b (r :: E) → b.next < r + fuel →
      ∃ b', deleteF fuel b r = .ok b' ∧ Inv b' E ∧ Frame b b' r) :
    ∀ (L : List NodeId) (b : Bld) (E : List NodeId), Inv b (L ++ E) →
      (∀ r ∈ L, n ≤ r ∧ b.next < r + fuel) →
      ∃ b', L.foldlM (deleteF fuel) b = .ok b' ∧ Inv b' E ∧ Frame b b' n := by
  intro L
  induction L with
  | nil => intro b E h _; exact ⟨b, rfl, h, Frame.refl _ _⟩
  | cons r L ihL =>
    intro b E h hr
    have h0 := hr r (List.mem_cons_self ..)
    obtain ⟨b1, h1, h2, h3⟩ := ih b r (L ++ E) h h0.2
    obtain ⟨b2, h4, h5, h6⟩ := ihL b1 E h2 (by
      intro r' hr'
      rw [h3.next]
      exact hr r' (List.mem_cons_of_mem _ hr'))
    refine ⟨b2, ?_, h5, (h3.weaken h0.1).trans h6⟩
    rw [List.foldlM_cons, h1]; exact h4

theorem deleteF_ok : ∀ (fuel : Nat) (b : Bld) (n : NodeId) (E : List NodeId), Inv b (n :: E) →
    b.next < n + fuel → ∃ b', deleteF fuel b n = .ok b' ∧ Inv b' E ∧ Frame b b' n := by
  intro fuel
  induction fuel with
  | zero =>
    intro b n E h hlt
    have h1 := (h.live_pos (h.ext n (List.mem_cons_self ..))).2
    exact absurd hlt (Nat.not_lt.2 (Nat.le_of_lt h1))
  | succ fuel ih =>
    intro b n E h hlt
    have hl := h.ext n (List.mem_cons_self ..)
    have hp := h.live_pos hl
    obtain ⟨nd, hnd⟩ := Option.isSome_iff_exists.1 hl
    have hne : n ≠ 0 := Nat.ne_of_gt hp.1
    have hload : b.load n = .ok nd := by simp [Bld.load, hnd]
    unfold deleteF
    rw [if_neg hne, hload]
    show ∃ b', (if nd.refcnt > 1 then R.ok (b.store n { nd with refcnt := nd.refcnt - 1 })
      else (nd.parsers.flatMap Parser.refs).foldlM (deleteF fuel) (b.free n)) = .ok b' ∧ _
    by_cases hc : 1 < nd.refcnt
    · rw [if_pos hc]
      refine ⟨_, rfl, h.decr hnd hc, ⟨rfl, rfl, rfl, rfl, ?_, ?_⟩⟩
      · intro m hm
        show (if m = n then _ else b.heap m) = _
        rw [if_neg (Nat.ne_of_lt hm)]
      · intro m nd' hm
        have hm' : (if m = n then some { nd with refcnt := nd.refcnt - 1 } else b.heap m) = some nd' := hm
        by_cases hmn : m = n
        · rw [if_pos hmn] at hm'; cases hm'; subst hmn; exact ⟨nd, hnd, rfl⟩
        · rw [if_neg hmn] at hm'; exact ⟨nd', hm', rfl⟩
    · rw [if_neg hc]
      obtain ⟨hi, _⟩ := h.freeNode hnd hc
      have hFr : Frame b (b.free n) n := by
        refine ⟨rfl, rfl, rfl, rfl, ?_, ?_⟩
        · intro m hm
          show (if m = n then none else b.heap m) = _
          rw [if_neg (Nat.ne_of_lt hm)]
        · intro m nd' hm
          have hm' : (if m = n then none else b.heap m) = some nd' := hm
          by_cases hmn : m = n
          · rw [if_pos hmn] at hm'; cases hm'
          · rw [if_neg hmn] at hm'; exact ⟨nd', hm', rfl⟩
      obtain ⟨b', h1, h2, h3⟩ := deleteF_fold fuel n ih _ _ E hi (by
        intro r hr
        rw [← refsOf_some hnd] at hr
        have := (h.asc n r hr).1
        refine ⟨Nat.le_of_lt this, ?_⟩
        show b.next < r + fuel
        have h5 : (n : Nat) < r := this
        have h6 : (b.next : Nat) < n + (fuel + 1) := hlt
        exact Nat.lt_of_lt_of_le h6 (by show (n : Nat) + (fuel + 1) ≤ r + fuel; exact (by omega : ∀ (n r f : Nat), n < r → n + (f + 1) ≤ r + f) n r fuel h5))
      exact ⟨b', h1, h2, hFr.trans h3⟩

theorem pdagDelete_ok {b : Bld} {n : NodeId} {E : List NodeId} (h : Inv b (n :: E)) :
    ∃ b', pdagDelete b n = .ok b' ∧ Inv b' E ∧ Frame b b' n :=
  deleteF_ok _ b n E h (Nat.lt_of_lt_of_le (Nat.lt_succ_self _) (Nat.le_add_left _ _))

/-- deleting the successor node and data of a list of references one after the other -/
theorem pdagDelete_list : ∀ (L : List NodeId) (b : Bld) (E : List NodeId) (n : NodeId),
    Inv b (L ++ E) → (∀ r ∈ L, n ≤ r) →
    ∃ b', L.foldlM pdagDelete b = .ok b' ∧ Inv b' E ∧ Frame b b' n := by
  intro L
  induction L with
  | nil => intro b E n h _; exact ⟨b, rfl, h, Frame.refl _ _⟩
  | cons r L ih =>
    intro b E n h hn
    obtain ⟨b1, h1, h2, h3⟩ := pdagDelete_ok (E := L ++ E) h
    obtain ⟨b2, h4, h5, h6⟩ := ih b1 E n h2 (fun r' hr' => hn r' (List.mem_cons_of_mem _ hr'))
    refine ⟨b2, ?_, h5, (h3.weaken (hn r (List.mem_cons_self ..))).trans h6⟩
    rw [List.foldlM_cons, h1]; exact h4

/-- without external references there are no nodes left -/
theorem Inv.empty {b : Bld} (h : Inv b []) (hw : b.wrapped = false) : ∀ n, b.heap n = none := by
  -- a live node has a referrer, which is older; the oldest live node has none
  have key : ∀ k : Nat, ∀ n, n < k → b.heap n = none := by
    intro k
    induction k with
    | zero => intro n hn; exact absurd hn (Nat.not_lt_zero _)
    | succ k ih =>
      intro n hn
      cases hnd : b.heap n with
      | none => rfl
      | some nd =>
        have h1 := h.exact hw n nd hnd
        have h2 := (h.cnt n nd hnd).2
        rw [List.count_nil, Nat.add_zero] at h1
        rw [h1] at h2
        have h3 := List.count_pos_iff.1 h2
        unfold Bld.allRefs at h3
        rw [List.mem_flatMap] at h3
        obtain ⟨m, _, hm⟩ := h3
        have hlt := (h.asc m n hm).1
        have hmn := ih m (Nat.lt_of_lt_of_le hlt (Nat.le_of_lt_succ hn))
        unfold Bld.refsOf at hm
        rw [hmn] at hm; cases hm
  intro n
  exact key (n + 1) n (Nat.lt_succ_self _)

/-- attaching a parser: the references it holds move from outside into the node -/
theorem Inv.attach {b : Bld} {E : List NodeId} {p : Parser} (h : Inv b (p.refs ++ E)) {dag : NodeId}
    {nd : Node} (hd : b.heap dag = some nd) (hlt : ∀ r ∈ p.refs, dag < r) :
    Inv { b.store dag (addEntry nd p) with
          wrapped := b.wrapped || decide (nd.parsers.length + 1 = 256) } E := by
  have hold : ∀ r ∈ nd.parsers.flatMap Parser.refs, dag < r ∧ (b.heap r).isSome := by
    intro r hr; exact h.asc dag r (by rw [refsOf_some hd]; exact hr)
  have hE : ∀ e ∈ E, (b.heap e).isSome := fun e he => h.ext e (List.mem_append_right _ he)
  by_cases hw : nd.parsers.length + 1 = 256
  · -- overflow of the counter
    have hps : (addEntry nd p).parsers = [] := by simp [addEntry, hw]
    have hrc : (addEntry nd p).refcnt = nd.refcnt := rfl
    have hlive : ∀ m, (b.heap m).isSome → ((b.store dag (addEntry nd p)).heap m).isSome := by
      intro m hm
      show (if m = dag then some (addEntry nd p) else b.heap m).isSome = true
      by_cases hmn : m = dag <;> simp [hmn] ; simpa using hm
    have hget : ∀ m nd₁, (b.store dag (addEntry nd p)).heap m = some nd₁ →
        (m = dag ∧ nd₁ = addEntry nd p) ∨ (m ≠ dag ∧ b.heap m = some nd₁) := by
      intro m nd₁ hm
      have hm' : (if m = dag then some (addEntry nd p) else b.heap m) = some nd₁ := hm
      by_cases hmn : m = dag
      · rw [if_pos hmn] at hm'; cases hm'; exact .inl ⟨hmn, rfl⟩
      · rw [if_neg hmn] at hm'; exact .inr ⟨hmn, hm'⟩
    refine ⟨h.pos, ?_, ?_, fun e he => hlive e (hE e he), ?_, ?_⟩
    · intro m nd₁ hm
      rcases hget m nd₁ hm with ⟨rfl, _⟩ | ⟨_, hm⟩
      · exact h.range _ _ hd
      · exact h.range _ _ hm
    · intro m r hr
      have hr' : r ∈ (b.store dag (addEntry nd p)).refsOf m := hr
      rw [refsOf_store, hps] at hr'
      by_cases hmn : m = dag
      · simp [hmn] at hr'
      · rw [if_neg hmn] at hr'
        exact ⟨(h.asc m r hr').1, hlive r (h.asc m r hr').2⟩
    · intro m nd₁ hm
      have hc := count_store h hd (nd' := addEntry nd p) m
      rw [hps] at hc
      simp only [List.flatMap_nil, List.count_nil, Nat.add_zero] at hc
      show (b.store dag (addEntry nd p)).allRefs.count m + E.count m ≤ _ ∧ _
      rcases hget m nd₁ hm with ⟨rfl, rfl⟩ | ⟨hne, hm⟩
      · have h1 := h.cnt _ _ hd
        rw [List.count_append] at h1
        rw [hrc]
        exact ⟨by omega, h1.2⟩
      · have h1 := h.cnt _ _ hm
        rw [List.count_append] at h1
        exact ⟨by omega, h1.2⟩
    · intro hf
      simp [hw] at hf
  · have hps : (addEntry nd p).parsers = nd.parsers ++ [p] := by simp [addEntry, hw]
    have hrc : (addEntry nd p).refcnt = nd.refcnt := rfl
    have hup : Inv (b.store dag (addEntry nd p)) E := by
      refine h.update hd ?_ hE ?_ (by rw [hrc]; exact (h.cnt _ _ hd).2)
      · intro r hr
        rw [hps, List.flatMap_append, List.mem_append] at hr
        rcases hr with hr | hr
        · exact hold r hr
        · simp only [List.flatMap_cons, List.flatMap_nil, List.append_nil] at hr
          exact ⟨hlt r hr, h.ext r (List.mem_append_left _ hr)⟩
      · intro x
        rw [hps, hrc]
        simp only [List.flatMap_append, List.flatMap_cons, List.flatMap_nil, List.append_nil,
          List.count_append]
        omega
    have : (b.wrapped || decide (nd.parsers.length + 1 = 256)) = b.wrapped := by simp [hw]
    rw [this]
    exact hup

end LN
