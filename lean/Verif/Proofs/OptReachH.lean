import Verif.Proofs.OptReach
import Verif.Proofs.OptHolds
/- The nodes the optimiser leaves are reached at the same places of a message: rule bases with user-defined types. -/
set_option autoImplicit false
namespace LN

/-- the nodes that remain are reached at the same places of a message as before -/
theorem OptSteps.reachH {srt : Sorter} {n0 : NodeId} {b b' : Bld} {E : List NodeId} {env : Env} {s : Bytes} {slack : Prop} (h0 : ∀ c ∈ s, c ≠ 0)
    (hi : Inv b E) (hroot : b.root ∈ E) (htypes : ∀ t ∈ b.types, t.2 ∈ E) (h : OptSteps srt n0 b b')
    (opts : Nat) (annots : List Annot) (m : NodeId) (u : Nat) (hm : (b'.heap m).isSome) :
    (∃ tr, Holds env (b'.toCtx opts annots) s slack (.path b.root 0 tr m u)) ↔ ∃ tr, Holds env (b.toCtx opts annots) s slack (.path b.root 0 tr m u) := by
  induction h with
  | refl => exact Iff.rfl
  | @head b b1 b2 st t ih =>
    obtain ⟨hi1, _, ht, hr, _, _⟩ := st.frame hi
    have key := ih hi1 (by rw [hr]; exact hroot) (by rw [ht]; exact htypes) hm
    rw [hr] at key
    refine key.trans ?_
    have hm1 := t.alive hi1 hm
    cases st with
    | sort _ hn =>
      have cr := sort_corr (srt := srt) hn opts annots
      constructor
      · rintro ⟨tr, hp⟩
        obtain ⟨_, tr', h1, _⟩ := cr.backward h0 hp trivial
        exact ⟨tr', h1⟩
      · rintro ⟨tr, hp⟩
        obtain ⟨tr', h1, _⟩ := (cr.forward h0 hp trivial).1 trivial
        exact ⟨tr', h1⟩
    | @compact n i nd p vd c wd l l' _ hc =>
      have hne : m ≠ p.node := by
        rintro rfl
        unfold compacted at hm1
        rw [Bld.heap_free, if_pos rfl] at hm1; cases hm1
      have cr := compact_corr hi hc hroot htypes opts annots
      constructor
      · rintro ⟨tr, hp⟩
        obtain ⟨_, tr', h1, _⟩ := cr.backward h0 hp cr.droot
        exact ⟨tr', h1⟩
      · rintro ⟨tr, hp⟩
        obtain ⟨tr', h1, _⟩ := (cr.forward h0 hp hne).1 cr.droot
        exact ⟨tr', h1⟩

theorem path_leadsH {env : Env} {b : Bld} {s : Bytes} {slack : Prop} {opts : Nat} {annots : List Annot} :
    ∀ {tr : List NStep} {x m : NodeId} {o u : Nat}, Holds env (b.toCtx opts annots) s slack (.path x o tr m u) → LeadsTo b.fieldsAt x m
  | [], _, _, _, _, h => by cases h; exact .refl _
  | _ :: _, _, _, _, _, h => by
    cases h with
    | cons hidx _ ht => exact .step (List.mem_of_getElem? hidx) (path_leadsH ht)

/-- where the optimised graph can be reached: at the nodes not inside a literal, as before -/
theorem pdagOptimize_reachH {env : Env} {srt : Sorter} {b b' : Bld} {E : List NodeId} {s : Bytes} {slack : Prop} (h0 : ∀ c ∈ s, c ≠ 0) (hi : Inv b E)
    (hs : Single b) (hroot : b.root ∈ E) (htypes : ∀ t ∈ b.types, t.2 ∈ E) (h : pdagOptimize srt b = .ok b') (opts : Nat) (annots : List Annot)
    (m : NodeId) (u : Nat) :
    (∃ tr, Holds env (b'.toCtx opts annots) s slack (.path b.root 0 tr m u)) ↔
      (∃ tr, Holds env (b.toCtx opts annots) s slack (.path b.root 0 tr m u)) ∧ ¬ MidLit b m := by
  have hst := (pdagOptimize_ok hi hroot htypes).ok_of h
  obtain ⟨hi', _, _, hr', _, _⟩ := hst.frame hi
  constructor
  · rintro ⟨tr, hp⟩
    have hl := path_leadsH hp
    have hlive : (b'.heap m).isSome := live_leads hi' hl (hi'.ext _ hroot)
    exact ⟨(hst.reachH h0 hi hroot htypes opts annots m u hlive).1 ⟨tr, hp⟩, pdagOptimize_clean hi hs hroot htypes h hl⟩
  · rintro ⟨⟨tr, hp⟩, hni⟩
    have hlive : (b.heap m).isSome := live_leads hi (path_leadsH hp) (hi.ext _ hroot)
    have hlive' : (b'.heap m).isSome := Classical.byContradiction fun hd => hni (hst.removed hi hlive hd)
    exact (hst.reachH h0 hi hroot htypes opts annots m u hlive').2 ⟨tr, hp⟩

end LN
