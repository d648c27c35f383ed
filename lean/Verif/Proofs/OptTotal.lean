import Verif.Proofs.OptSort
/-
The optimiser does not crash on graphs in which all literals have a text.
-/
set_option autoImplicit false
namespace LN

/-- nothing undefined happens -/
def NoUb {α : Type} (x : R α) : Prop := ∀ k, x ≠ .ub k

theorem NoUb.ok {α : Type} (a : α) : NoUb (.ok a : R α) := fun _ h => by cases h

theorem NoUb.bind {α β : Type} {x : R α} {f : α → R β} (hx : NoUb x) (hf : ∀ a, x = .ok a → NoUb (f a)) :
    NoUb (x.bind f) := by
  cases x with
  | ok a => exact hf a rfl
  | fail => intro k h; cases h
  | ub k => exact absurd rfl (hx k)
  | oof => intro k h; cases h

/-- all literals have a text, all repetitions their parts -/
def Bld.NoNull (b : Bld) : Prop := ∀ n nd, b.heap n = some nd → ∀ q ∈ nd.parsers, q.kind ≠ .literal none ∧ q.kind ≠ .repeat_ none

theorem OptStep.noNull {srt : Sorter} {n0 : NodeId} {b b' : Bld} {E : List NodeId} (hi : Inv b E)
    (st : OptStep srt n0 b b') (h : b.NoNull) : b'.NoNull := by
  intro n nd' hh q hq
  rcases st.heap_cases hi n nd' hh with h1 | ⟨nd, h1, rfl⟩ | ⟨i, nd, p1, vd, c, wd, l, l', hc, rfl⟩
  · exact h n nd' h1 q hq
  · exact h n nd h1 q ((srt.perm _).mem_iff.1 hq)
  · rcases List.mem_or_eq_of_mem_set hq with h2 | h2
    · exact h n nd hc.hn q h2
    · subst h2; exact ⟨(fun he => by cases he), (fun he => by cases he)⟩

theorem OptSteps.noNull {srt : Sorter} {n0 : NodeId} {b b' : Bld} {E : List NodeId} (hi : Inv b E)
    (st : OptSteps srt n0 b b') (h : b.NoNull) : b'.NoNull := by
  induction st with
  | refl => exact h
  | head s _ ih =>
    obtain ⟨hi', _⟩ := s.frame hi
    exact ih hi' (s.noNull hi h)

theorem load_live {b : Bld} {n : NodeId} (h : (b.heap n).isSome) : ∃ nd, b.heap n = some nd ∧ b.load n = .ok nd := by
  obtain ⟨nd, hn⟩ := Option.isSome_iff_exists.1 h
  exact ⟨nd, hn, by simp [Bld.load, hn]⟩

theorem compactable_noUb {b : Bld} {E : List NodeId} (hi : Inv b E) {n : NodeId} {i : Nat} {nd : Node}
    {p : Parser} (hn : b.heap n = some nd) (hp : nd.parsers[i]? = some p) : NoUb (compactable b p) := by
  have hpn : (b.heap p.node).isSome := by
    refine (hi.asc n p.node ?_).2
    rw [refsOf_some hn]
    exact List.mem_flatMap.2 ⟨p, List.mem_of_getElem? hp, List.mem_cons_self ..⟩
  unfold compactable
  split
  · obtain ⟨vd, hv, hl⟩ := load_live hpn
    rw [hl, R.ok_bind']
    split
    · exact .ok _
    · split
      · rename_i c hpars
        split
        · have hcl : (b.heap c.node).isSome := by
            refine (hi.asc p.node c.node ?_).2
            rw [refsOf_some hv, hpars]
            exact List.mem_flatMap.2 ⟨c, List.mem_cons_self .., List.mem_cons_self ..⟩
          obtain ⟨wd, hw, hl2⟩ := load_live hcl
          rw [hl2, R.ok_bind']
          split <;> exact .ok _
        · exact .ok _
      · exact .ok _
  · exact .ok _

/-- deleting the node between two merged literals frees just this node -/
theorem compact_delete {b : Bld} {E : List NodeId} (hi : Inv b E) {n : NodeId} {i : Nat} {nd : Node} {p : Parser} {vd : Node}
    {c : Parser} {wd : Node} {l l' : Bytes} (hc : Compaction b n i nd p vd c wd l l') :
    pdagDelete ((b.store n { nd with parsers := nd.parsers.set i (mergedPrs p c l l') }).store p.node
      { vd with parsers := vd.parsers.map fun c => { c with node := 0 } }) p.node = .ok (compacted b n i nd p c l l') := by
  obtain ⟨hn, hp, hk, hnm, hv, ht, hrc, hpars, hck, hcn, hw, hwr⟩ := hc
  have hc : Compaction b n i nd p vd c wd l l' := ⟨hn, hp, hk, hnm, hv, ht, hrc, hpars, hck, hcn, hw, hwr⟩
  obtain ⟨hlt1, hlt2⟩ := hc.lt hi
  have hnext : ∃ k, b.next = k + 1 := ⟨b.next - 1, by have := hi.pos; exact (Nat.succ_pred_eq_of_pos this).symm⟩
  obtain ⟨k, hk'⟩ := hnext
  unfold pdagDelete
  show deleteF (b.next + 1) _ _ = _
  rw [hk']
  unfold deleteF
  rw [if_neg (Nat.ne_of_gt (Nat.lt_of_le_of_lt (Nat.zero_le _) hlt1))]
  have hl2 : ∀ (bb : Bld) (x : Node), (bb.store p.node x).load p.node = .ok x := by
    intro bb x; simp [Bld.load, Bld.store]
  rw [hl2]
  show (if ({ vd with parsers := vd.parsers.map fun c => { c with node := 0 } } : Node).refcnt > 1 then _ else _) = _
  rw [if_neg (by rw [show ({ vd with parsers := vd.parsers.map fun c => { c with node := 0 } } : Node).refcnt = vd.refcnt from rfl, hrc]; exact Nat.lt_irrefl 1)]
  rw [show ({ vd with parsers := vd.parsers.map fun c => { c with node := 0 } } : Node).parsers = [{ c with node := 0 }] from by rw [hpars]; rfl]
  have hrefs : ([{ c with node := 0 }] : List Parser).flatMap Parser.refs = [0] := by
    simp [Parser.refs, hck, PKind.refs]
  rw [hrefs, List.foldlM_cons, deleteF_zero]
  show R.ok _ = _
  congr 1
  refine Bld.ext_heap ?_ rfl rfl rfl rfl
  funext m
  unfold compacted
  simp only [Bld.heap_free, Bld.heap_store]
  by_cases hm : m = p.node <;> simp [hm]

theorem compactLoop_noUb (srt : Sorter) {n : NodeId} {i : Nat} {E : List NodeId} : ∀ (fuel : Nat) (b : Bld),
    Inv b E → (b.heap n).isSome → b.NoNull → NoUb (compactLoop n i fuel b) := by
  intro fuel
  induction fuel with
  | zero => intro b _ _ _ k h; cases h
  | succ fuel ih =>
    intro b hi hl hnn
    unfold compactLoop
    obtain ⟨nd, hn, hload⟩ := load_live hl
    rw [hload, R.ok_bind']
    cases hp : nd.parsers[i]? with
    | none => exact .ok _
    | some p =>
      dsimp only
      refine .bind (compactable_noUb hi hn hp) fun r hr => ?_
      have hr := (compactable_ok hi hn hp).ok_of hr
      cases r with
      | none => exact .ok _
      | some y =>
        obtain ⟨d, d', w⟩ := y
        obtain ⟨vd, c, wd, hv, hk, hnm, ht, hrc, hpars, hck, hcn, hw, hwr, rfl⟩ := hr d d' w rfl
        dsimp only
        cases d with
        | none => exact absurd hk (hnn n nd hn p (List.mem_of_getElem? hp)).1
        | some l =>
          cases d' with
          | none => exact absurd hck (hnn p.node vd hv c (by rw [hpars]; exact List.mem_cons_self ..)).1
          | some l' =>
            have hc : Compaction b n i nd p vd c wd l l' := ⟨hn, hp, hk, hnm, hv, ht, hrc, hpars, hck, hcn, hw, hwr⟩
            obtain ⟨hlt1, hlt2⟩ := hc.lt hi
            show NoUb ((setParser b n i (mergedPrs p c l l')).bind _)
            unfold setParser
            rw [hload]
            have hv1 : (b.store n { nd with parsers := nd.parsers.set i (mergedPrs p c l l') }).heap p.node = some vd := by
              rw [Bld.heap_store, if_neg (Nat.ne_of_gt hlt1)]; exact hv
            have hload1 : (b.store n { nd with parsers := nd.parsers.set i (mergedPrs p c l l') }).load p.node = .ok vd := by
              simp [Bld.load, hv1]
            show NoUb (((b.store n { nd with parsers := nd.parsers.set i (mergedPrs p c l l') }).load p.node).bind _)
            rw [hload1]
            show NoUb ((pdagDelete _ p.node).bind _)
            rw [compact_delete hi hc]
            show NoUb (compactLoop n i fuel (compacted b n i nd p c l l'))
            refine ih _ (compact_inv hi hc) ?_ ?_
            · unfold compacted
              rw [Bld.heap_free, if_neg (Nat.ne_of_lt hlt1), Bld.heap_store, if_pos rfl]; rfl
            · exact (OptStep.compact (srt := srt) (n0 := 0) (Nat.zero_le _) hc).noNull hi hnn

theorem optLoop_noUb {srt : Sorter} {E : List NodeId} {fuel : Nat} {rec : Bld → NodeId → R Bld} {n : NodeId}
    (hrec : ∀ (b : Bld) (m : NodeId), Inv b E → (b.heap m).isSome → b.next < m + fuel →
      Mem (fun b' => OptSteps srt m b b') (rec b m))
    (hrec' : ∀ (b : Bld) (m : NodeId), Inv b E → (b.heap m).isSome → b.next < m + fuel → b.NoNull → NoUb (rec b m)) :
    ∀ (k i : Nat) (b : Bld), Inv b E → (b.heap n).isSome → b.next < n + (fuel + 1) → b.NoNull →
      NoUb (optLoop rec n k i b)
  | 0, i, b, hi, hn, hf, hnn => .ok _
  | k + 1, i, b, hi, hn, hf, hnn => by
    unfold optLoop
    obtain ⟨nd, hnd, hload⟩ := load_live hn
    rw [hload, R.ok_bind']
    cases hp : nd.parsers[i]? with
    | none => exact .ok _
    | some p =>
      dsimp only
      split
      · rename_i hm
        have := hnn n nd hnd p (List.mem_of_getElem? hp)
        revert hm this
        cases p.kind <;> simp
        rename_i d
        cases d <;> simp
      · refine .bind (compactLoop_noUb srt _ b hi hn hnn) ?_
        intro b1 hb1
        obtain ⟨hs1, _⟩ := (compactLoop_ok (srt := srt) (E := E) (b.next + 1) b nd p hi hnd hp
          (Nat.lt_of_lt_of_le (Nat.lt_succ_self _) (Nat.le_add_left _ _))).ok_of hb1
        obtain ⟨hi1, hx1, _, _, _, _⟩ := hs1.frame hi
        have hnn1 := hs1.noNull hi hnn
        have hn1 : (b1.heap n).isSome := optSteps_live hi hs1 hn
        obtain ⟨nd1, hnd1, hload1⟩ := load_live hn1
        rw [hload1, R.ok_bind']
        cases hp1 : nd1.parsers[i]? with
        | none => exact .ok _
        | some p1 =>
          dsimp only
          have hmem : p1.node ∈ b1.refsOf n := by
            rw [refsOf_some hnd1]
            exact List.mem_flatMap.2 ⟨p1, List.mem_of_getElem? hp1, List.mem_cons_self ..⟩
          have hasc := hi1.asc _ _ hmem
          have hlt : b1.next < p1.node + fuel := by
            rw [hx1]
            exact Nat.lt_of_lt_of_le hf ((by omega : ∀ (a b f : Nat), a < b → a + (f + 1) ≤ b + f) _ _ _ hasc.1)
          refine .bind (hrec' b1 p1.node hi1 hasc.2 hlt hnn1) ?_
          intro b2 hb2
          have hs2 := (hrec b1 p1.node hi1 hasc.2 hlt).ok_of hb2
          obtain ⟨hi2, hx2, _, _, _, hold2⟩ := hs2.frame hi1
          have hn2 : (b2.heap n).isSome := by rw [hold2 n hasc.1]; exact hn1
          exact optLoop_noUb hrec hrec' k (i + 1) b2 hi2 hn2 (by rw [hx2, hx1]; exact hf) (hs2.noNull hi1 hnn1)

theorem optimizeF_noUb {srt : Sorter} {E : List NodeId} : ∀ (fuel : Nat) (b : Bld) (n : NodeId), Inv b E →
    (b.heap n).isSome → b.next < n + fuel → b.NoNull → NoUb (optimizeF srt fuel b n)
  | 0, b, n, hi, hn, hf, hnn => absurd hf (Nat.not_lt.2 (Nat.le_of_lt (hi.live_pos hn).2))
  | fuel + 1, b, n, hi, hn, hf, hnn => by
    unfold optimizeF
    obtain ⟨nd, hnd, hload⟩ := load_live hn
    rw [hload, R.ok_bind']
    have hs : OptSteps srt n b (b.store n (if nd.parsers.length > 1 then { nd with parsers := srt.sort nd.parsers } else nd)) := by
      split
      · exact .head (.sort (Nat.le_refl _) hnd) (.refl _)
      · have : b.store n nd = b := by
          refine Bld.ext_heap ?_ rfl rfl rfl rfl
          funext m
          rw [Bld.heap_store]
          by_cases hm : m = n
          · rw [if_pos hm, hm, hnd]
          · rw [if_neg hm]
        rw [this]; exact .refl b
    obtain ⟨hi1, hx1, _, _, _, _⟩ := hs.frame hi
    refine optLoop_noUb (srt := srt) (fuel := fuel) (fun b m h1 h2 h3 => optimizeF_ok fuel b m h1 h2 h3)
      (fun b m h1 h2 h3 h4 => optimizeF_noUb fuel b m h1 h2 h3 h4) _ 0 _ hi1 ?_ hf (hs.noNull hi hnn)
    rw [Bld.heap_store, if_pos rfl]; rfl

theorem optimizeNode_noUb {srt : Sorter} {E : List NodeId} {b : Bld} {n : NodeId} (hi : Inv b E)
    (hn : (b.heap n).isSome) (hnn : b.NoNull) : NoUb (optimizeNode srt b n) :=
  optimizeF_noUb _ b n hi hn (Nat.lt_of_lt_of_le (Nat.lt_succ_self _) (Nat.le_add_left _ _)) hnn

theorem foldOptimize_noUb {srt : Sorter} {E : List NodeId} : ∀ (L : List NodeId) (b : Bld), Inv b E →
    (∀ n ∈ L, n ∈ E) → b.NoNull → NoUb (L.foldlM (optimizeNode srt) b)
  | [], b, _, _, _ => .ok _
  | n :: L, b, hi, hL, hnn => by
    rw [List.foldlM_cons]
    have hl := hi.ext n (hL n (List.mem_cons_self ..))
    refine NoUb.bind (optimizeNode_noUb hi hl hnn) ?_
    intro b1 hb1
    have hs1' := ((optimizeNode_ok hi hl).ok_of hb1).weaken (Nat.zero_le n)
    obtain ⟨hi1, _⟩ := hs1'.frame hi
    exact foldOptimize_noUb L b1 hi1 (fun m hm => hL m (List.mem_cons_of_mem _ hm)) (hs1'.noNull hi hnn)

theorem foldUnit_noUb {α : Type} {f : α → R Unit} : ∀ (l : List α), (∀ x ∈ l, NoUb (f x)) → NoUb (l.foldlM (fun _ x => f x) ())
  | [], _ => .ok _
  | x :: l, h => by
    rw [List.foldlM_cons]
    refine NoUb.bind (h x (List.mem_cons_self ..)) ?_
    intro _ _
    exact foldUnit_noUb l fun y hy => h y (List.mem_cons_of_mem _ hy)

theorem displayF_noUb {E : List NodeId} {b : Bld} (hi : Inv b E) (hnn : b.NoNull) : ∀ (fuel : Nat) (n : NodeId), (b.heap n).isSome →
    NoUb (displayF fuel b n)
  | 0, n, hn => by intro k h; cases h
  | fuel + 1, n, hn => by
    unfold displayF
    obtain ⟨nd, hnd⟩ := Option.isSome_iff_exists.1 hn
    unfold Bld.load
    rw [hnd]
    show NoUb (List.foldlM _ _ _)
    refine foldUnit_noUb (f := fun p => _) _ ?_
    intro p hp
    have h1 := (hnn n nd hnd p hp).2
    split
    · rename_i h2
      exact absurd h2 h1
    · rw [if_neg (by simp)]
      refine foldUnit_noUb (f := fun m => _) _ ?_
      intro m hm
      exact displayF_noUb hi hnn fuel m (hi.asc n m (refsOf_mem hnd hp hm)).2

theorem nameF_noUb {E : List NodeId} {b : Bld} (hi : Inv b E) (hnn : b.NoNull) : ∀ (fuel : Nat) (n : NodeId), (b.heap n).isSome →
    NoUb (nameF fuel b n)
  | 0, n, hn => by intro k h; cases h
  | fuel + 1, n, hn => by
    unfold nameF
    obtain ⟨nd, hnd⟩ := Option.isSome_iff_exists.1 hn
    unfold Bld.load
    rw [hnd]
    show NoUb (List.foldlM _ _ _)
    refine foldUnit_noUb (f := fun p => _) _ ?_
    intro p hp
    have h1 := (hnn n nd hnd p hp).1
    split
    · rename_i h2
      exact absurd h2 h1
    · rw [if_neg (by simp)]
      exact nameF_noUb hi hnn fuel p.node (hi.asc n p.node (refsOf_mem hnd hp (List.mem_append_right _ (List.mem_cons_self ..)))).2

/-- The optimiser succeeds. -/
theorem pdagOptimize_total {srt : Sorter} {E : List NodeId} {b : Bld} (hi : Inv b E)
    (hroot : b.root ∈ E) (htypes : ∀ t ∈ b.types, t.2 ∈ E) (hnn : b.NoNull) :
    ∃ b', pdagOptimize srt b = .ok b' := by
  have hub : NoUb (pdagOptimize srt b) := by
    unfold pdagOptimize
    refine .bind ?_ ?_
    rotate_left
    · intro b1 hb1
      have hs1 := (optimizeAll_ok (srt := srt) hi hroot htypes).ok_of hb1
      obtain ⟨hi1, _, ht, hr, _⟩ := hs1.frame hi
      have hE : ∀ n ∈ b1.types.map (·.2) ++ [b1.root], n ∈ E := by
        intro n hn
        rcases List.mem_append.1 hn with hn | hn
        · obtain ⟨t, ht', rfl⟩ := List.mem_map.1 hn
          exact htypes t (by rw [← ht]; exact ht')
        · rw [List.mem_singleton.1 hn, hr]; exact hroot
      refine .bind (foldUnit_noUb (f := fun n => _) _ fun n hn => nameF_noUb hi1 (hs1.noNull hi hnn) _ n (hi1.ext n (hE n hn))) fun _ _ => ?_
      refine .bind ?_ fun _ _ => .ok _
      exact foldUnit_noUb (f := fun n => _) _ fun n hn => displayF_noUb hi1 (hs1.noNull hi hnn) _ n (hi1.ext n (hE n hn))
    unfold optimizeAll
    have hL : ∀ n ∈ b.types.map (·.2), n ∈ E := by
      intro n hn
      obtain ⟨t, ht, rfl⟩ := List.mem_map.1 hn
      exact htypes t ht
    refine .bind (foldOptimize_noUb (E := E) _ b hi hL hnn) ?_
    intro b1 hb1
    have hs1 := (foldOptimize_ok (E := E) _ b hi hL).ok_of hb1
    obtain ⟨hi1, _, _, hr, _⟩ := hs1.frame hi
    exact optimizeNode_noUb hi1 (hi1.ext _ (by rw [hr]; exact hroot)) (hs1.noNull hi hnn)
  have hm := pdagOptimize_ok (srt := srt) hi hroot htypes
  cases h : pdagOptimize srt b with
  | ok b' => exact ⟨b', rfl⟩
  | fail => rw [h] at hm; exact hm.elim
  | ub k => exact absurd h (hub k)
  | oof => rw [h] at hm; exact hm.elim

end LN
