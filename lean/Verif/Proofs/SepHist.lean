import Verif.Proofs.Sep
import Verif.Props.Build
/-
Over a whole history of loads the graphs of types and the main graph stay apart.
-/
set_option autoImplicit false
namespace LN

theorem OptStep.split {srt : Sorter} {n0 : NodeId} {b b' : Bld} {C : NodeId → Prop} (h : Split C b) (s : OptStep srt n0 b b') : Split C b' := by
  cases s with
  | @sort n nd h0 hn =>
    refine h.store fun p hp => h.iff n p ?_
    unfold Bld.fieldsAt; rw [hn]
    exact (srt.perm _).mem_iff.1 hp
  | @compact n i nd p vd c wd l l' h0 hc =>
    unfold compacted
    refine (h.store fun q hq => ?_).free _
    rcases List.mem_or_eq_of_mem_set hq with hq | hq
    · refine h.iff n q ?_
      unfold Bld.fieldsAt; rw [hc.hn]; exact hq
    · subst hq
      have h1 := h.iff n p (by unfold Bld.fieldsAt; rw [hc.hn]; exact List.mem_of_getElem? hc.hp)
      have h2 := h.iff p.node c (by unfold Bld.fieldsAt; rw [hc.hv]; show c ∈ vd.parsers; rw [hc.hpars]; exact List.mem_singleton.2 rfl)
      exact h1.trans h2

theorem OptSteps.split {srt : Sorter} {n0 : NodeId} {b b' : Bld} {C : NodeId → Prop} (h : Split C b) (s : OptSteps srt n0 b b') :
    Split C b' := by
  induction s with
  | refl => exact h
  | head s _ ih => exact ih (s.split h)

theorem Split.compl {b : Bld} {E : List NodeId} {D : NodeId → Prop} (h : Split D b) (hi : Inv b E) :
    Split (fun m => 0 < m ∧ m < b.next ∧ ¬ D m) b where
  iff n p hp := by
    have h1 := h.iff n p hp
    have h2 := asc_fieldsAt hi n p hp
    have h3 : 0 < n := by
      unfold Bld.fieldsAt at hp
      cases hn : b.heap n with
      | none => rw [hn] at hp; simp at hp
      | some nd => exact (hi.range n nd hn).1
    constructor
    · rintro ⟨_, _, h4⟩; exact ⟨Nat.lt_trans h3 h2.1, h2.2, fun h => h4 (h1.2 h)⟩
    · rintro ⟨_, _, h4⟩; exact ⟨h3, Nat.lt_trans h2.1 h2.2, fun h => h4 (h1.1 h)⟩
  old _ h := h.2.1
  pos h := Nat.lt_irrefl _ h.1

/-- the roots are different, and each has a set of nodes of its own -/
structure Apart (b : Bld) : Prop where
  nodup : b.ctxRefs.Nodup
  sep : ∀ r ∈ b.ctxRefs, ∃ C, Split C b ∧ C r ∧ ∀ r' ∈ b.ctxRefs, r' ≠ r → ¬ C r'

theorem Inv.live_lt {b : Bld} {E : List NodeId} (hi : Inv b E) {r : NodeId} (h : r ∈ E) : 0 < r ∧ r < b.next := by
  obtain ⟨nd, hn⟩ := Option.isSome_iff_exists.1 (hi.ext r h)
  exact hi.range r nd hn

theorem Apart.addSamp {env : Env} {b b' : Bld} {dag : NodeId} {cs : List Json} {complete : Bool}
    {tags : Option (List Bytes)} {file : Bytes} {line : Nat} (hi : Inv b b.ctxRefs) (ha : Apart b) (hd : dag ∈ b.ctxRefs)
    (e : addSamp env b dag cs complete tags file line = .ok b') : Apart b' := by
  obtain ⟨hi', g⟩ := (addSamp_ok (env := env) (cs := cs) (complete := complete) (tags := tags) (file := file) (line := line) hi (.inr (hi.ext _ hd))).ok_of e
  have hr : b'.ctxRefs = b.ctxRefs := by rw [Bld.ctxRefs, Bld.ctxRefs, g.root, g.types]
  refine ⟨by rw [hr]; exact ha.nodup, fun r hrr => ?_⟩
  rw [hr] at hrr ⊢
  obtain ⟨C, h1, h2, h3⟩ := ha.sep r hrr
  by_cases hdr : dag = r
  · subst hdr
    have h4 := h1.compl hi
    have h5 := addSamp_split h4 (fun h => h.2.2 h2) e
    refine ⟨_, h5.compl hi', ⟨(hi'.live_lt hrr).1, (hi'.live_lt hrr).2, fun h => h.2.2 h2⟩, fun r' hr' hne h => h.2.2 ?_⟩
    exact ⟨(hi.live_lt hr').1, (hi.live_lt hr').2, h3 r' hr' hne⟩
  · exact ⟨C, addSamp_split h1 (h3 dag hd hdr) e, h2, h3⟩

theorem BOp.apart {env : Env} {srt : Sorter} {b b' : Bld} (hi : Inv b b.ctxRefs) (ha : Apart b) (op : BOp)
    (e : op.run env srt b = .ok b') : Apart b' := by
  cases op with
  | rule confs complete tags file line => exact ha.addSamp hi (List.mem_cons_self ..) e
  | typeDef name confs complete tags file line =>
    have e : LN.addSamp env (findTypeAdd b name).1 (findTypeAdd b name).2 confs complete tags file line = .ok b' := e
    unfold findTypeAdd at e
    cases hf : b.types.find? (fun t => t.1 = name) with
    | some t =>
      rw [hf] at e
      refine ha.addSamp hi ?_ e
      exact List.mem_cons_of_mem _ (List.mem_map.2 ⟨t, List.mem_of_find?_eq_some hf, rfl⟩)
    | none =>
      rw [hf] at e
      have h1 := hi.newNode
      have he : ({ b.newPDAG.1 with types := b.newPDAG.1.types ++ [(name, b.newPDAG.2)] } : Bld).ctxRefs =
          b.ctxRefs ++ [b.next] := by
        simp [Bld.ctxRefs, Bld.newPDAG]
      have h2 : Inv { b.newPDAG.1 with types := b.newPDAG.1.types ++ [(name, b.newPDAG.2)] } (b.ctxRefs ++ [b.next]) := by
        obtain ⟨hpos, hrange, hasc, hext, hcnt, hexact⟩ := h1.1.perm (List.perm_append_singleton _ _).symm
        exact ⟨hpos, hrange, hasc, hext, hcnt, hexact⟩
      have hfresh : ∀ r ∈ b.ctxRefs, r ≠ b.next := fun r hr e => Nat.lt_irrefl _ (e ▸ (hi.live_lt hr).2)
      have h3 : Apart { b.newPDAG.1 with types := b.newPDAG.1.types ++ [(name, b.newPDAG.2)] } := by
        refine ⟨?_, fun r hr => ?_⟩
        · rw [he, List.nodup_append]
          refine ⟨ha.nodup, by simp, fun a ha' c hc => ?_⟩
          rw [List.mem_singleton.1 hc]; exact hfresh a ha'
        · rw [he] at hr ⊢
          rcases List.mem_append.1 hr with hr | hr
          · obtain ⟨C, h4, h5, h6⟩ := ha.sep r hr
            have h7 := h4.new
            refine ⟨C, ⟨h7.1.iff, h7.1.old, h7.1.pos⟩, h5, fun r' hr' hne => ?_⟩
            rcases List.mem_append.1 hr' with hr' | hr'
            · exact h6 r' hr' hne
            · rw [List.mem_singleton.1 hr']; exact h7.2
          · rw [List.mem_singleton.1 hr]
            refine ⟨fun m => m = b.next, ⟨fun n p hp => ?_, fun m hm => ?_, fun h => ?_⟩, rfl, fun r' hr' hne => ?_⟩
            · have hp : p ∈ b.newPDAG.1.fieldsAt n := hp
              rw [fieldsAt_new] at hp
              split at hp
              · cases hp
              · rename_i hne
                exact ⟨fun h => (hne h).elim, fun h => (Nat.lt_irrefl _ (h ▸ (asc_fieldsAt hi n p hp).2)).elim⟩
            · rw [hm]; exact Nat.lt_succ_self _
            · exact Nat.lt_irrefl _ (h ▸ hi.pos)
            · exact fun h => hne h
      refine h3.addSamp (by rw [he]; exact h2) ?_ e
      rw [he]; exact List.mem_append_right _ (List.mem_singleton.2 rfl)
  | optimize =>
    have hst := (pdagOptimize_ok (E := b.ctxRefs) (srt := srt) hi (List.mem_cons_self ..) (fun t ht =>
      List.mem_cons_of_mem _ (List.mem_map.2 ⟨t, ht, rfl⟩))).ok_of e
    obtain ⟨_, _, h3, h4, _, _⟩ := hst.frame hi
    have hr : b'.ctxRefs = b.ctxRefs := by rw [Bld.ctxRefs, Bld.ctxRefs, h3, h4]
    refine ⟨by rw [hr]; exact ha.nodup, fun r hrr => ?_⟩
    rw [hr] at hrr ⊢
    obtain ⟨C, h1, h2, h3⟩ := ha.sep r hrr
    exact ⟨C, hst.split h1, h2, h3⟩

theorem initBld_apart : Apart initBld := by
  refine ⟨by simp [Bld.ctxRefs, initBld, Bld.newPDAG], fun r hr => ⟨fun m => m = 1, ⟨fun n p hp => ?_, fun m hm => ?_, by simp⟩, ?_, ?_⟩⟩
  · have : initBld.fieldsAt n = [] := by
      unfold Bld.fieldsAt initBld Bld.newPDAG
      dsimp only
      split <;> rfl
    rw [this] at hp; cases hp
  · rw [hm]; exact Nat.lt_succ_self 1
  · simpa [Bld.ctxRefs, initBld, Bld.newPDAG] using hr
  · intro r' hr' hne
    simp [Bld.ctxRefs, initBld, Bld.newPDAG] at hr hr'
    rw [hr, hr'] at hne; exact (hne rfl).elim

theorem runOps_apart {env : Env} {srt : Sorter} {ops : List BOp} {b : Bld} (h : runOps env srt ops = .ok b) : Apart b := by
  have loop : ∀ (ops : List BOp) (b b' : Bld), Inv b b.ctxRefs → Apart b → ops.foldlM (BOp.run env srt) b = .ok b' → Apart b' := by
    intro ops
    induction ops with
    | nil => intro b b' _ ha e; cases e; exact ha
    | cons op ops ih =>
      intro b b' hi ha e
      rw [List.foldlM_cons] at e
      obtain ⟨b1, h1, h2⟩ := R.bind_eq_ok.1 e
      exact ih b1 b' ((BOp.run_ok hi op).ok_of h1).1 (op.apart hi ha h1) h2
  exact loop ops initBld b initBld_inv initBld_apart h

theorem Split.leads {b : Bld} {C : NodeId → Prop} (h : Split C b) {n m : NodeId} (hl : LeadsTo b.fieldsAt n m) : C n ↔ C m := by
  induction hl with
  | refl => exact Iff.rfl
  | step hp t ih => exact (h.iff _ _ hp).trans ih

theorem Apart.disjoint {b : Bld} (h : Apart b) {r r' : NodeId} (hr : r ∈ b.ctxRefs) (hr' : r' ∈ b.ctxRefs) (hne : r ≠ r') {m : NodeId}
    (hm : LeadsTo b.fieldsAt r m) : ¬ LeadsTo b.fieldsAt r' m := by
  obtain ⟨C, h1, h2, h3⟩ := h.sep r hr
  intro hm'
  exact h3 r' hr' (fun e => hne e.symm) ((h1.leads hm').2 ((h1.leads hm).1 h2))

end LN
