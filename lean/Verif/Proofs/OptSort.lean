import Verif.Proofs.OptSem
/-
After optimising, the alternatives of every node reachable from the roots are in order of priority.
-/
set_option autoImplicit false
namespace LN

/-- the alternatives of node `m` are in order of priority -/
def SortedAt (b : Bld) (m : NodeId) : Prop :=
  ∀ nd, b.heap m = some nd → nd.parsers.Pairwise fun p q => p.prio ≤ q.prio

/-- priorities of one node can be compared by subtraction without overflow -/
def PrioOK (b : Bld) : Prop :=
  ∀ m nd, b.heap m = some nd → ∀ p ∈ nd.parsers, ∀ q ∈ nd.parsers,
    p.prio - q.prio ≤ 2147483647 ∧ -2147483648 ≤ p.prio - q.prio

/-- reachable along the fields of rules -/
inductive Reach (b : Bld) : NodeId → NodeId → Prop where
  | refl (n : NodeId) : Reach b n n
  | step {n : NodeId} {nd : Node} {p : Parser} {m : NodeId} (hn : b.heap n = some nd) (hp : p ∈ nd.parsers)
      (t : Reach b p.node m) : Reach b n m

/-- everything reachable from `n` is in order -/
def Good (b : Bld) (n : NodeId) : Prop := ∀ m, Reach b n m → SortedAt b m

section
variable {srt : Sorter} {n0 : NodeId} {b b' : Bld} {E : List NodeId}

theorem OptStep.heap_cases (hi : Inv b E) (h : OptStep srt n0 b b') : ∀ m nd', b'.heap m = some nd' →
    (b.heap m = some nd') ∨
    (∃ nd, b.heap m = some nd ∧ nd' = { nd with parsers := srt.sort nd.parsers }) ∨
    (∃ i nd p vd c wd l l', Compaction b m i nd p vd c wd l l' ∧
      nd' = { nd with parsers := nd.parsers.set i (mergedPrs p c l l') }) := by
  intro m nd' hm
  cases h with
  | @sort n nd h0 hn =>
    rw [Bld.heap_store] at hm
    split at hm
    · rename_i he; subst he
      exact .inr (.inl ⟨nd, hn, (Option.some.inj hm).symm⟩)
    · exact .inl hm
  | @compact n i nd p vd c wd l l' h0 hc =>
    unfold compacted at hm
    rw [Bld.heap_free] at hm
    split at hm
    · cases hm
    · rw [Bld.heap_store] at hm
      split at hm
      · rename_i he; subst he
        exact .inr (.inr ⟨i, nd, p, vd, c, wd, l, l', hc, (Option.some.inj hm).symm⟩)
      · exact .inl hm

theorem set_prio_mem {L : List Parser} {i : Nat} {p p' q : Parser} (hp : L[i]? = some p)
    (hq : q ∈ L.set i p') (he : p'.prio = p.prio) : ∃ q' ∈ L, q'.prio = q.prio := by
  rcases List.mem_or_eq_of_mem_set hq with h | h
  · exact ⟨q, h, rfl⟩
  · subst h; exact ⟨p, List.mem_of_getElem? hp, he.symm⟩

theorem OptStep.prioOK (hi : Inv b E) (h : OptStep srt n0 b b') (hp : PrioOK b) : PrioOK b' := by
  intro m nd' hm p hpm q hqm
  rcases h.heap_cases hi m nd' hm with h1 | ⟨nd, h1, rfl⟩ | ⟨i, nd, p1, vd, c, wd, l, l', hc, rfl⟩
  · exact hp m nd' h1 p hpm q hqm
  · exact hp m nd h1 p ((srt.perm _).mem_iff.1 hpm) q ((srt.perm _).mem_iff.1 hqm)
  · obtain ⟨p', hp', e1⟩ := set_prio_mem (p' := mergedPrs p1 c l l') hc.hp hpm rfl
    obtain ⟨q', hq', e2⟩ := set_prio_mem (p' := mergedPrs p1 c l l') hc.hp hqm rfl
    rw [← e1, ← e2]
    exact hp m nd hc.hn p' hp' q' hq'

theorem OptStep.sortedAt (hi : Inv b E) (h : OptStep srt n0 b b') (hp : PrioOK b) {m : NodeId}
    (hs : SortedAt b m) : SortedAt b' m := by
  intro nd' hm
  rcases h.heap_cases hi m nd' hm with h1 | ⟨nd, h1, rfl⟩ | ⟨i, nd, p1, vd, c, wd, l, l', hc, rfl⟩
  · exact hs nd' h1
  · exact srt.sorted _ (hp m nd h1)
  · have h2 := hs nd hc.hn
    obtain ⟨A, B, hAB, hA⟩ := split_getElem? hc.hp
    show (nd.parsers.set i _).Pairwise _
    rw [hAB] at h2 ⊢
    rw [← hA, set_split]
    rw [List.pairwise_append, List.pairwise_cons] at h2 ⊢
    refine ⟨h2.1, ⟨h2.2.1.1, h2.2.1.2⟩, ?_⟩
    intro a ha x hx
    rcases List.mem_cons.1 hx with rfl | hx
    · exact h2.2.2 a ha p1 (List.mem_cons_self ..)
    · exact h2.2.2 a ha x (List.mem_cons_of_mem _ hx)

theorem OptStep.reach (hi : Inv b E) (h : OptStep srt n0 b b') {n m : NodeId} (hr : Reach b' n m) :
    Reach b n m := by
  induction hr with
  | refl n => exact .refl n
  | @step n nd' p m hn hp t ih =>
    rcases h.heap_cases hi n nd' hn with h1 | ⟨nd, h1, rfl⟩ | ⟨i, nd, p1, vd, c, wd, l, l', hc, rfl⟩
    · exact .step h1 hp ih
    · exact .step h1 ((srt.perm _).mem_iff.1 hp) ih
    · rcases List.mem_or_eq_of_mem_set hp with h2 | h2
      · exact .step hc.hn h2 ih
      · subst h2
        refine .step hc.hn (List.mem_of_getElem? hc.hp) (.step hc.hv (p := c) ?_ ih)
        rw [hc.hpars]; exact List.mem_cons_self ..

theorem OptSteps.good (hi : Inv b E) (h : OptSteps srt n0 b b') (hp : PrioOK b) :
    PrioOK b' ∧ (∀ m, SortedAt b m → SortedAt b' m) ∧ (∀ n, Good b n → Good b' n) := by
  induction h with
  | refl => exact ⟨hp, fun _ h => h, fun _ h => h⟩
  | head st _ ih =>
    obtain ⟨hi', _⟩ := st.frame hi
    obtain ⟨h1, h2, h3⟩ := ih hi' (st.prioOK hi hp)
    refine ⟨h1, fun m hm => h2 m (st.sortedAt hi hp hm), fun n hn => h3 n ?_⟩
    intro m hm
    exact st.sortedAt hi hp (hn m (st.reach hi hm))

end

theorem optLoop_good {srt : Sorter} {E : List NodeId} {fuel : Nat} {rec : Bld → NodeId → R Bld} {n : NodeId}
    (hrec : ∀ (b : Bld) (m : NodeId), Inv b E → (b.heap m).isSome → b.next < m + fuel → PrioOK b →
      Mem (fun b' => OptSteps srt m b b' ∧ Good b' m) (rec b m)) :
    ∀ (k i : Nat) (b : Bld) (nd : Node), Inv b E → b.heap n = some nd → b.next < n + (fuel + 1) → PrioOK b →
      nd.parsers.length = k + i → SortedAt b n →
      (∀ (j : Nat) (p : Parser), j < i → nd.parsers[j]? = some p → Good b p.node) →
      Mem (fun b' => OptSteps srt n b b' ∧ Good b' n) (optLoop rec n k i b)
  | 0, i, b, nd, hi, hn, hf, hpo, hlen, hsn, hdone => by
    refine ⟨.refl b, ?_⟩
    intro m hm
    cases hm with
    | refl => exact hsn
    | @step _ nd' p _ hn' hp t =>
      rw [hn] at hn'
      cases hn'
      obtain ⟨j, hj⟩ := List.mem_iff_getElem?.1 hp
      have hlt := (List.getElem?_eq_some_iff.1 hj).1
      exact hdone j p (by omega) hj m t
  | k + 1, i, b, nd, hi, hn, hf, hpo, hlen, hsn, hdone => by
    unfold optLoop
    have hnl : (b.heap n).isSome := by rw [hn]; rfl
    refine Mem.bind (Mem.nd (.inr hnl)) ?_
    intro nd0 hnd0
    rw [hn] at hnd0
    cases hnd0
    cases hp : nd.parsers[i]? with
    | none =>
      rw [List.getElem?_eq_none_iff] at hp
      omega
    | some p =>
      dsimp only
      split
      · simp [Mem]
      · refine Mem.bind (compactLoop_ok (srt := srt) (E := E) (b.next + 1) b nd p hi hn hp
          (Nat.lt_of_lt_of_le (Nat.lt_succ_self _) (Nat.le_add_left _ _))) ?_
        rintro b1 ⟨hs1, nd1, hnd1, hlen1, hent1⟩
        obtain ⟨hi1, hx1, _, _, _, _⟩ := hs1.frame hi
        obtain ⟨hpo1, hsort1, hgood1⟩ := hs1.good hi hpo
        refine Mem.bind (Mem.nd (.inr (by rw [hnd1]; rfl))) ?_
        intro nd1' hnd1'
        rw [hnd1] at hnd1'
        cases hnd1'
        cases hp1 : nd1.parsers[i]? with
        | none =>
          rw [List.getElem?_eq_none_iff] at hp1
          omega
        | some p1 =>
          dsimp only
          have hmem : p1.node ∈ b1.refsOf n := by
            rw [refsOf_some hnd1]
            exact List.mem_flatMap.2 ⟨p1, List.mem_of_getElem? hp1, List.mem_cons_self ..⟩
          have hasc := hi1.asc _ _ hmem
          refine Mem.bind (hrec b1 p1.node hi1 hasc.2 ?_ hpo1) ?_
          · rw [hx1]
            exact Nat.lt_of_lt_of_le hf ((by omega : ∀ (a b f : Nat), a < b → a + (f + 1) ≤ b + f) _ _ _ hasc.1)
          · rintro b2 ⟨hs2, hg2⟩
            obtain ⟨hi2, hx2, _, _, _, hold2⟩ := hs2.frame hi1
            obtain ⟨hpo2, hsort2, hgood2⟩ := hs2.good hi1 hpo1
            have hn2 : b2.heap n = some nd1 := by rw [hold2 n hasc.1]; exact hnd1
            refine (optLoop_good hrec k (i + 1) b2 nd1 hi2 hn2 (by rw [hx2, hx1]; exact hf) hpo2
              (by omega) (hsort2 _ (hsort1 _ hsn)) ?_).mono ?_
            · intro j q hj hq
              by_cases hji : j = i
              · subst hji
                rw [hp1] at hq
                cases hq
                exact hg2
              · rw [hent1 j hji] at hq
                exact hgood2 _ (hgood1 _ (hdone j q (by omega) hq))
            · rintro b3 ⟨hs3, hg3⟩
              exact ⟨(hs1.trans (hs2.weaken (Nat.le_of_lt hasc.1))).trans hs3, hg3⟩

theorem optimizeF_good {srt : Sorter} {E : List NodeId} : ∀ (fuel : Nat) (b : Bld) (n : NodeId), Inv b E →
    (b.heap n).isSome → b.next < n + fuel → PrioOK b →
    Mem (fun b' => OptSteps srt n b b' ∧ Good b' n) (optimizeF srt fuel b n)
  | 0, b, n, hi, hn, hf, _ => absurd hf (Nat.not_lt.2 (Nat.le_of_lt (hi.live_pos hn).2))
  | fuel + 1, b, n, hi, hn, hf, hpo => by
    unfold optimizeF
    refine Mem.bind (Mem.nd (.inr hn)) ?_
    intro nd hnd
    have hs : OptSteps srt n b (b.store n (if nd.parsers.length > 1 then { nd with parsers := srt.sort nd.parsers } else nd)) := by
      split
      · exact .head (.sort (Nat.le_refl _) hnd) (.refl _)
      · have : b.store n nd = b := by
          refine Bld.ext_heap ?_ rfl rfl rfl rfl
          funext m
          rw [Bld.heap_store]
          by_cases hm : m = n
          · rw [if_pos hm, hm, hnd]
          · rw [if_neg hm]
        rw [this]; exact .refl b
    obtain ⟨hi1, hx1, _, _, _, _⟩ := hs.frame hi
    obtain ⟨hpo1, _, _⟩ := hs.good hi hpo
    refine (optLoop_good (srt := srt) (fuel := fuel) (fun b m h1 h2 h3 h4 => optimizeF_good fuel b m h1 h2 h3 h4)
      _ 0 _ _ hi1 (by rw [Bld.heap_store, if_pos rfl]) hf hpo1 rfl ?_ ?_).mono ?_
    · intro nd' hn'
      rw [Bld.heap_store, if_pos rfl] at hn'
      cases hn'
      split
      · exact srt.sorted _ (hpo n nd hnd)
      · rename_i hlen
        match h : nd.parsers with
        | [] => exact .nil
        | [x] => exact List.pairwise_singleton _ _
        | x :: y :: l => rw [h] at hlen; simp at hlen
    · intro j p hj; exact absurd hj (Nat.not_lt_zero _)
    · rintro b' ⟨hb', hg⟩; exact ⟨hs.trans hb', hg⟩

theorem optimizeNode_good {srt : Sorter} {E : List NodeId} {b : Bld} {n : NodeId} (hi : Inv b E)
    (hn : (b.heap n).isSome) (hpo : PrioOK b) :
    Mem (fun b' => OptSteps srt n b b' ∧ Good b' n) (optimizeNode srt b n) :=
  optimizeF_good _ b n hi hn (Nat.lt_of_lt_of_le (Nat.lt_succ_self _) (Nat.le_add_left _ _)) hpo

theorem foldOptimize_good {srt : Sorter} {E : List NodeId} : ∀ (L : List NodeId) (b : Bld), Inv b E →
    (∀ n ∈ L, n ∈ E) → PrioOK b →
    Mem (fun b' => OptSteps srt 0 b b' ∧ ∀ n ∈ L, Good b' n) (L.foldlM (optimizeNode srt) b)
  | [], b, _, _, _ => ⟨.refl b, fun n hn => absurd hn List.not_mem_nil⟩
  | n :: L, b, hi, hL, hpo => by
    rw [List.foldlM_cons]
    refine Mem.bind (optimizeNode_good hi (hi.ext n (hL n (List.mem_cons_self ..))) hpo) ?_
    rintro b1 ⟨hs1, hg1⟩
    have hs1' := hs1.weaken (Nat.zero_le n)
    obtain ⟨hi1, _⟩ := hs1'.frame hi
    obtain ⟨hpo1, _, _⟩ := hs1'.good hi hpo
    refine (foldOptimize_good L b1 hi1 (fun m hm => hL m (List.mem_cons_of_mem _ hm)) hpo1).mono ?_
    rintro b2 ⟨hs2, hg2⟩
    refine ⟨hs1'.trans hs2, ?_⟩
    intro m hm
    rcases List.mem_cons.1 hm with rfl | hm
    · exact (hs2.good hi1 hpo1).2.2 m hg1
    · exact hg2 m hm

theorem pdagOptimize_good {srt : Sorter} {E : List NodeId} {b : Bld} (hi : Inv b E)
    (hroot : b.root ∈ E) (htypes : ∀ t ∈ b.types, t.2 ∈ E) (hpo : PrioOK b) :
    Mem (fun b' => OptSteps srt 0 b b' ∧ Good b' b'.root ∧ ∀ t ∈ b'.types, Good b' t.2) (pdagOptimize srt b) := by
  refine Mem.displayed hi hroot htypes ?_
  unfold optimizeAll
  refine Mem.bind (foldOptimize_good (E := E) _ b hi ?_ hpo) ?_
  · intro n hn
    obtain ⟨t, ht, rfl⟩ := List.mem_map.1 hn
    exact htypes t ht
  · rintro b1 ⟨hs1, hg1⟩
    obtain ⟨hi1, _, ht1, hr, _⟩ := hs1.frame hi
    obtain ⟨hpo1, _, _⟩ := hs1.good hi hpo
    refine (optimizeNode_good hi1 (hi1.ext _ (by rw [hr]; exact hroot)) hpo1).mono ?_
    rintro b2 ⟨hs2, hg2⟩
    obtain ⟨_, _, ht2, hr2, _⟩ := hs2.frame hi1
    refine ⟨hs1.trans (hs2.weaken (Nat.zero_le _)), by rw [hr2]; exact hg2, ?_⟩
    intro t ht
    refine (hs2.good hi1 hpo1).2.2 _ (hg1 _ ?_)
    rw [ht2, ht1] at ht
    exact List.mem_map.2 ⟨t, ht, rfl⟩

/-- in an ordered graph the rule tried first is the one of highest priority -/
theorem triedBefore_prio {env : Env} {s : Bytes} {b : Bld} {opts : Nat} {annots : List Annot} {n : NodeId} {off : Nat}
    {tr : List Step} {m : NodeId} {off' : Nat} (hg : Good b n)
    (hp : Path env (b.toCtx opts annots) s n off tr m off')
    (hmin : ∀ tr', Matches env (b.toCtx opts annots) s false n off tr' →
      TriedBefore (tr.map Step.idx) (tr'.map Step.idx)) :
    ∀ tr', Matches env (b.toCtx opts annots) s false n off tr' → PrioBefore tr tr' := by
  induction hp with
  | nil n off =>
    intro tr' h'
    have := hmin tr' h'
    cases tr' with
    | nil => trivial
    | cons a as => simp [TriedBefore] at this
  | @cons n off idx p len v tr m off' hidx hacc htail ih =>
    intro tr' h'
    have htb := hmin tr' h'
    obtain ⟨m', o', hp', ht', he'⟩ := h'
    cases hp' with
    | nil => trivial
    | @cons _ _ idx2 p2 len2 v2 tr2 _ _ hidx2 hacc2 htail2 =>
      have hsn : ((b.toCtx opts annots).node n).parsers.Pairwise fun p q => p.prio ≤ q.prio := by
        show ((b.heap n).getD {}).parsers.Pairwise _
        cases hh : b.heap n with
        | none => exact .nil
        | some nd => exact hg n (.refl n) nd hh
      have hgp : Good b p.node := by
        intro x hx
        cases hh : b.heap n with
        | none =>
          have : (b.toCtx opts annots).node n = {} := by
            show (b.heap n).getD {} = _
            rw [hh]; rfl
          rw [this] at hidx; simp at hidx
        | some nd =>
          have : (b.toCtx opts annots).node n = nd := by
            show (b.heap n).getD {} = _
            rw [hh]; rfl
          rw [this] at hidx
          exact hg x (.step hh (List.mem_of_getElem? hidx) hx)
      by_cases hpp : p = p2
      · subst hpp
        rw [hacc] at hacc2
        cases hacc2
        refine .inr ⟨rfl, ih hgp ?_ tr2 ⟨m', o', htail2, ht', he'⟩⟩
        intro tr3 h3
        obtain ⟨m3, o3, hp3, ht3, he3⟩ := h3
        have := hmin (⟨idx, p, off, len, v⟩ :: tr3) ⟨m3, o3, .cons hidx hacc hp3, ht3, he3⟩
        simpa [TriedBefore] using this
      · refine .inl ⟨hpp, ?_⟩
        simp only [List.map_cons, TriedBefore] at htb
        rcases htb with hlt | ⟨heq, _⟩
        · obtain ⟨h1, e1⟩ := List.getElem?_eq_some_iff.1 hidx
          obtain ⟨h2, e2⟩ := List.getElem?_eq_some_iff.1 hidx2
          have := List.pairwise_iff_getElem.1 hsn idx idx2 h1 h2 hlt
          rw [e1, e2] at this
          exact this
        · exfalso
          subst heq
          rw [hidx] at hidx2
          exact hpp (Option.some.inj hidx2)

end LN
