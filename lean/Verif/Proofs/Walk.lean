import Verif.Spec.Report
import Verif.Proofs.Heap
/-
Walking through the graph with the flag `visited`.
-/
set_option autoImplicit false
namespace LN

theorem Flags.set_eq (v : Flags) (n m : NodeId) (x : Bool) : v.set n x m = if m = n then x else v m := rfl

theorem LeadsTo.trans {fs : NodeId → List Parser} {a b c : NodeId} (h : LeadsTo fs a b) (h' : LeadsTo fs b c) : LeadsTo fs a c := by
  induction h with
  | refl n => exact h'
  | step hp t ih => exact .step hp (ih h')

theorem LeadsTo.cases' {fs : NodeId → List Parser} {a c : NodeId} (h : LeadsTo fs a c) :
    c = a ∨ ∃ p ∈ fs a, LeadsTo fs p.node c := by
  cases h with
  | refl => exact .inl rfl
  | @step p _ _ hp t => exact .inr ⟨_, hp, t⟩

/-- fields lead to younger nodes, all below `N` -/
def Asc (fs : NodeId → List Parser) (N : Nat) : Prop := ∀ (n : Nat) (p : Parser), p ∈ fs n → n < (p.node : Nat) ∧ (p.node : Nat) < N

theorem LeadsTo.le {fs : NodeId → List Parser} {N : Nat} (ha : Asc fs N) {a c : NodeId} (h : LeadsTo fs a c) : (a : Nat) ≤ (c : Nat) := by
  induction h with
  | refl n => exact Nat.le_refl _
  | @step n p m hp t ih => exact Nat.le_trans (Nat.le_of_lt (ha n p hp).1) ih

/-- the statements made by a walk, and the flags after it -/
def walk (fs : NodeId → List Parser) : Nat → NodeId → Flags → Flags × List Ev
  | 0, _, v => (v, [])
  | fuel + 1, n, v =>
    if v n then (v, [])
    else (fs n).foldl (fun a p => ((walk fs fuel p.node a.1).1, a.2 ++ .edge n p :: (walk fs fuel p.node a.1).2))
      (v.set n true, [.node n])

/-- what can be reached from a flagged node is flagged, for nodes in `K` -/
def ClosedOn (fs : NodeId → List Parser) (K : NodeId → Prop) (v : Flags) : Prop :=
  ∀ m, K m → v m = true → ∀ j, LeadsTo fs m j → v j = true

/-- result of a walk -/
structure Walked (fs : NodeId → List Parser) (S : NodeId → Prop) (v v' : Flags) (L : List NodeId) : Prop where
  nodup : L.Nodup
  mem : ∀ m, m ∈ L ↔ S m ∧ v m = false
  flags : ∀ m, v' m = true ↔ v m = true ∨ S m

theorem Walked.closed {fs : NodeId → List Parser} {S : NodeId → Prop} {v v' : Flags} {L : List NodeId}
    (h : Walked fs S v v' L) (hS : ∀ m j, S m → LeadsTo fs m j → S j) {K : NodeId → Prop} (hc : ClosedOn fs K v) : ClosedOn fs K v' := by
  intro m hm hv j hj
  rw [h.flags] at hv ⊢
  rcases hv with hv | hv
  · exact .inl (hc m hm hv j hj)
  · exact .inr (hS m j hv hj)

theorem Walked.append {fs : NodeId → List Parser} {S T : NodeId → Prop} {v v' v'' : Flags} {L M : List NodeId}
    (h : Walked fs S v v' L) (h' : Walked fs T v' v'' M) : Walked fs (fun m => S m ∨ T m) v v'' (L ++ M) where
  nodup := by
    rw [List.nodup_append]
    refine ⟨h.nodup, h'.nodup, fun a ha c hc hac => ?_⟩
    subst hac
    have h1 := ((h'.mem a).1 hc).2
    have h2 := (h.flags a).2 (.inr ((h.mem a).1 ha).1)
    rw [h1] at h2; cases h2
  mem m := by
    have hf := h.flags m
    rw [List.mem_append, h.mem, h'.mem]
    constructor
    · rintro (⟨a, b⟩ | ⟨a, b⟩)
      · exact ⟨.inl a, b⟩
      · refine ⟨.inr a, ?_⟩
        cases hv : v m with
        | false => rfl
        | true => rw [hf.2 (.inl hv)] at b; cases b
    · rintro ⟨a, b⟩
      cases hv : v' m with
      | true =>
        rcases hf.1 hv with h1 | h1
        · rw [b] at h1; cases h1
        · exact .inl ⟨h1, b⟩
      | false =>
        rcases a with a | a
        · rw [hf.2 (.inr a)] at hv; cases hv
        · exact .inr ⟨a, rfl⟩
  flags m := by rw [h'.flags, h.flags]; exact or_assoc

theorem walk_loop {fs : NodeId → List Parser} {n : NodeId} {N : Nat} (ha : Asc fs N) {f : Nat}
    (rec : ∀ (m : NodeId) (v : Flags), (m : Nat) < N → N ≤ (m : Nat) + f → ClosedOn fs (LeadsTo fs m) v →
      ∃ L, Walked fs (LeadsTo fs m) v (walk fs f m v).1 L ∧ (walk fs f m v).2.Perm (L.flatMap (evsAt fs)))
    (hf : N ≤ (n : Nat) + (f + 1)) :
    ∀ (l : List Parser) (_ : ∀ p ∈ l, p ∈ fs n) (v : Flags) (e : List Ev), ClosedOn fs (fun m => ∃ p ∈ fs n, LeadsTo fs p.node m) v →
    ∃ L ev, Walked fs (fun m => ∃ p ∈ l, LeadsTo fs p.node m) v
        (l.foldl (fun a p => ((walk fs f p.node a.1).1, a.2 ++ .edge n p :: (walk fs f p.node a.1).2)) (v, e)).1 L ∧
      (l.foldl (fun a p => ((walk fs f p.node a.1).1, a.2 ++ .edge n p :: (walk fs f p.node a.1).2)) (v, e)).2 = e ++ ev ∧
      ev.Perm (l.map (Ev.edge n) ++ L.flatMap (evsAt fs))
  | [], _, v, e, _ => ⟨[], [], ⟨List.nodup_nil, by simp, by simp⟩, by simp, by simp⟩
  | p :: l, hl, v, e, hc => by
    have hp := hl p (List.mem_cons_self ..)
    have hlt := ha n p hp
    obtain ⟨L, hw, hperm⟩ := rec p.node v hlt.2 (by omega) (fun m hm => hc m ⟨p, hp, hm⟩)
    have hc' := hw.closed (fun m j h h' => h.trans h') hc
    obtain ⟨M, ev, hw', he, hperm'⟩ := walk_loop ha rec hf l (fun q hq => hl q (List.mem_cons_of_mem _ hq))
      (walk fs f p.node v).1 (e ++ .edge n p :: (walk fs f p.node v).2) hc'
    refine ⟨L ++ M, .edge n p :: (walk fs f p.node v).2 ++ ev, ?_, ?_, ?_⟩
    · have h := hw.append hw'
      refine ⟨h.nodup, fun m => ?_, fun m => ?_⟩
      · rw [h.mem]; simp
      · rw [List.foldl_cons, h.flags]; simp
    · rw [List.foldl_cons, he, List.append_assoc]
    · rw [List.map_cons, List.cons_append, List.cons_append, List.flatMap_append]
      refine List.Perm.cons _ ?_
      refine (hperm.append hperm').trans ?_
      rw [← List.append_assoc, ← List.append_assoc]
      exact List.Perm.append_right _ List.perm_append_comm

theorem walk_spec {fs : NodeId → List Parser} {N : Nat} (ha : Asc fs N) : ∀ (f : Nat) (n : NodeId) (v : Flags), (n : Nat) < N →
    N ≤ (n : Nat) + f → ClosedOn fs (LeadsTo fs n) v →
    ∃ L, Walked fs (LeadsTo fs n) v (walk fs f n v).1 L ∧ (walk fs f n v).2.Perm (L.flatMap (evsAt fs))
  | 0, n, v, hn, hf, _ => (Nat.lt_irrefl _ (Nat.lt_of_lt_of_le hn hf)).elim
  | f + 1, n, v, hn, hf, hc => by
    unfold walk
    by_cases hv : v n = true
    · rw [if_pos hv]
      refine ⟨[], ⟨List.nodup_nil, fun m => ?_, fun m => ?_⟩, by simp⟩
      · simp only [List.not_mem_nil, false_iff, not_and]
        intro h h'
        rw [hc n (.refl n) hv m h] at h'; cases h'
      · constructor
        · exact .inl
        · rintro (h | h)
          · exact h
          · exact hc n (.refl n) hv m h
    · rw [if_neg hv]
      have hv' : v n = false := by simpa using hv
      have hnn : ¬ ∃ p ∈ fs n, LeadsTo fs p.node n := by
        rintro ⟨p, hp, h⟩
        exact Nat.lt_irrefl _ (Nat.lt_of_lt_of_le (ha n p hp).1 (h.le ha))
      obtain ⟨L, ev, hw, he, hperm⟩ := walk_loop ha (walk_spec ha f) hf (fs n) (fun _ h => h) (v.set n true) [.node n] (by
        intro m hm h j hj
        rw [Flags.set_eq] at h ⊢
        rw [if_neg (by intro e; subst e; exact hnn hm)] at h
        obtain ⟨p, hp, hm⟩ := hm
        split
        · rfl
        · exact hc m (.step hp hm) h j hj)
      refine ⟨n :: L, ⟨?_, fun m => ?_, fun m => ?_⟩, ?_⟩
      · rw [List.nodup_cons]
        refine ⟨fun h => ?_, hw.nodup⟩
        exact hnn ((hw.mem n).1 h).1
      · rw [List.mem_cons, hw.mem, Flags.set_eq]
        constructor
        · rintro (h | ⟨⟨p, hp, h⟩, h'⟩)
          · subst h; exact ⟨.refl _, hv'⟩
          · refine ⟨.step hp h, ?_⟩
            split at h'
            · cases h'
            · exact h'
        · rintro ⟨h, h'⟩
          rcases h.cases' with h | ⟨p, hp, hq⟩
          · exact .inl h
          · right
            refine ⟨⟨p, hp, hq⟩, ?_⟩
            rw [if_neg]; · exact h'
            intro e; subst e; exact hnn ⟨p, hp, hq⟩
      · rw [hw.flags, Flags.set_eq]
        constructor
        · rintro (h | ⟨p, hp, h⟩)
          · split at h
            · rename_i e; subst e; exact .inr (.refl _)
            · exact .inl h
          · exact .inr (.step hp h)
        · rintro (h | h)
          · left; split
            · rfl
            · exact h
          · rcases h.cases' with h | h
            · left; rw [if_pos h]
            · exact .inr h
      · rw [he]
        exact List.Perm.cons _ hperm

end LN
