import Verif.Model.Build
import Verif.Proofs.RLemmas
/-
Ownership invariant of the parse graph: reference counts equal the number of references, edges
lead to younger nodes, nothing refers to freed memory.
-/
set_option autoImplicit false
namespace LN

/-- outcome without use after free and without running forever; `Q` on success -/
def Mem {α : Type} (Q : α → Prop) : R α → Prop
  | .ok a => Q a
  | .fail => False
  | .ub k => k ≠ .useAfterFree
  | .oof => False

namespace Mem
variable {α β : Type} {P : α → Prop} {Q : β → Prop}

theorem bind {x : R α} {f : α → R β} (hx : Mem P x) (hf : ∀ a, P a → Mem Q (f a)) :
    Mem Q (x.bind f) := by
  cases x with
  | ok a => exact hf a hx
  | fail => exact hx
  | ub k => exact hx
  | oof => exact hx

theorem mono {x : R α} {P' : α → Prop} (hx : Mem P x) (h : ∀ a, P a → P' a) : Mem P' x := by
  cases x with
  | ok a => exact h a hx
  | fail => exact hx
  | ub k => exact hx
  | oof => exact hx

theorem ok_of {x : R α} {a : α} (hx : Mem P x) (h : x = .ok a) : P a := by subst h; exact hx

theorem nd {b : Bld} {n : NodeId} (h : n = 0 ∨ (b.heap n).isSome) :
    Mem (fun nd => b.heap n = some nd) (b.load n) := by
  unfold Bld.load
  cases hn : b.heap n with
  | some nd => exact rfl
  | none =>
    rcases h with h | h
    · simp [h, Mem]
    · rw [hn] at h; cases h

end Mem

/-- what node `m` refers to -/
def Bld.refsOf (b : Bld) (m : NodeId) : List NodeId :=
  match b.heap m with
  | some nd => nd.parsers.flatMap Parser.refs
  | none => []

/-- all references held by nodes -/
def Bld.allRefs (b : Bld) : List NodeId := (List.range b.next).flatMap b.refsOf

/-- `E` = the references held outside of the nodes (context, types, data under construction). -/
structure Inv (b : Bld) (E : List NodeId) : Prop where
  pos : 0 < b.next
  range : ∀ m nd, b.heap m = some nd → 0 < m ∧ m < b.next
  asc : ∀ m r, r ∈ b.refsOf m → m < r ∧ (b.heap r).isSome
  ext : ∀ e ∈ E, (b.heap e).isSome
  cnt : ∀ n nd, b.heap n = some nd → b.allRefs.count n + E.count n ≤ nd.refcnt ∧ 0 < nd.refcnt
  exact : b.wrapped = false → ∀ n nd, b.heap n = some nd →
    nd.refcnt = b.allRefs.count n + E.count n

/-! ### counting -/

theorem count_flatMap_ge (f g : Nat → List Nat) (k m x : Nat) (hm : k ≤ m)
    (h : ∀ i, i ≠ m → f i = g i) :
    ((List.range k).flatMap f).count x = ((List.range k).flatMap g).count x := by
  induction k with
  | zero => simp
  | succ k ih =>
    rw [List.range_succ, List.flatMap_append, List.flatMap_append, List.count_append,
      List.count_append, ih (by omega)]
    simp [h k (by omega)]

theorem count_flatMap_update (f g : Nat → List Nat) (k m x : Nat) (hm : m < k)
    (h : ∀ i, i ≠ m → f i = g i) :
    ((List.range k).flatMap f).count x + (g m).count x =
    ((List.range k).flatMap g).count x + (f m).count x := by
  induction k with
  | zero => omega
  | succ k ih =>
    rw [List.range_succ, List.flatMap_append, List.flatMap_append, List.count_append,
      List.count_append]
    simp only [List.flatMap_cons, List.flatMap_nil, List.append_nil]
    by_cases hk : m = k
    · subst hk
      rw [count_flatMap_ge f g m m x (Nat.le_refl _) h]; omega
    · have h1 := ih (by omega)
      rw [h k (by omega)]; omega

theorem Inv.refs_live {b : Bld} {E : List NodeId} (h : Inv b E) {n : NodeId}
    (hn : n ∈ b.allRefs) : (b.heap n).isSome := by
  unfold Bld.allRefs at hn
  rw [List.mem_flatMap] at hn
  obtain ⟨m, _, hm⟩ := hn
  exact (h.asc m n hm).2

theorem Inv.fresh_none {b : Bld} {E : List NodeId} (h : Inv b E) : b.heap b.next = none := by
  cases hn : b.heap b.next with
  | none => rfl
  | some nd => exact absurd (h.range _ _ hn).2 (Nat.lt_irrefl _)

theorem Inv.zero_none {b : Bld} {E : List NodeId} (h : Inv b E) : b.heap 0 = none := by
  cases hn : b.heap 0 with
  | none => rfl
  | some nd => exact absurd (h.range _ _ hn).1 (Nat.lt_irrefl _)

theorem Inv.live_pos {b : Bld} {E : List NodeId} (h : Inv b E) {n : NodeId}
    (hn : (b.heap n).isSome) : 0 < n ∧ n < b.next := by
  obtain ⟨nd, hnd⟩ := Option.isSome_iff_exists.1 hn
  exact h.range _ _ hnd

/-- the external references matter only up to permutation -/
theorem Inv.perm {b : Bld} {E E' : List NodeId} (h : Inv b E) (hp : E.Perm E') : Inv b E' := by
  refine ⟨h.pos, h.range, h.asc, fun e he => h.ext e (hp.mem_iff.2 he), ?_, ?_⟩
  · intro n nd hn; rw [← hp.count_eq]; exact h.cnt n nd hn
  · intro hw n nd hn; rw [← hp.count_eq]; exact h.exact hw n nd hn

/-! ### elementary operations -/

theorem refsOf_store (b : Bld) (n : NodeId) (nd : Node) (m : NodeId) :
    (b.store n nd).refsOf m = if m = n then nd.parsers.flatMap Parser.refs else b.refsOf m := by
  unfold Bld.refsOf Bld.store
  by_cases h : m = n <;> simp [h]

theorem refsOf_free (b : Bld) (n : NodeId) (m : NodeId) :
    (b.free n).refsOf m = if m = n then [] else b.refsOf m := by
  unfold Bld.refsOf Bld.free
  by_cases h : m = n <;> simp [h]

theorem refsOf_some {b : Bld} {n : NodeId} {nd : Node} (h : b.heap n = some nd) :
    b.refsOf n = nd.parsers.flatMap Parser.refs := by simp [Bld.refsOf, h]

theorem count_store {b : Bld} {E : List NodeId} (h : Inv b E) {n : NodeId} {nd nd' : Node}
    (hn : b.heap n = some nd) (x : NodeId) :
    (b.store n nd').allRefs.count x + (nd.parsers.flatMap Parser.refs).count x =
    b.allRefs.count x + (nd'.parsers.flatMap Parser.refs).count x := by
  unfold Bld.allRefs
  have h1 := count_flatMap_update (b.store n nd').refsOf b.refsOf b.next n x (h.range n nd hn).2
    (by intro i hi; rw [refsOf_store]; simp [hi])
  have h2 : (b.store n nd').next = b.next := rfl
  rw [h2, ← refsOf_some hn]
  have h3 : (b.store n nd').refsOf n = nd'.parsers.flatMap Parser.refs := by simp [refsOf_store]
  rw [← h3]; exact h1

theorem count_free {b : Bld} {E : List NodeId} (h : Inv b E) {n : NodeId} {nd : Node}
    (hn : b.heap n = some nd) (x : NodeId) :
    (b.free n).allRefs.count x + (nd.parsers.flatMap Parser.refs).count x = b.allRefs.count x := by
  unfold Bld.allRefs
  have h1 := count_flatMap_update (b.free n).refsOf b.refsOf b.next n x (h.range n nd hn).2
    (by intro i hi; rw [refsOf_free]; simp [hi])
  have h2 : (b.free n).next = b.next := rfl
  have h3 : (b.free n).refsOf n = [] := by simp [refsOf_free]
  rw [h2, ← refsOf_some hn, h1, h3]
  simp

/-- replacing the references of node `n`, with the external references adjusted accordingly -/
theorem Inv.update {b : Bld} {E E' : List NodeId} (h : Inv b E) {n : NodeId} {nd nd' : Node}
    (hn : b.heap n = some nd)
    (hrefs : ∀ r ∈ nd'.parsers.flatMap Parser.refs, n < r ∧ (b.heap r).isSome)
    (hext : ∀ e ∈ E', (b.heap e).isSome)
    (hcnt : ∀ x, (nd'.parsers.flatMap Parser.refs).count x + E'.count x + nd.refcnt * (if x = n then 1 else 0)
      = (nd.parsers.flatMap Parser.refs).count x + E.count x + nd'.refcnt * (if x = n then 1 else 0))
    (hpos : 0 < nd'.refcnt) :
    Inv (b.store n nd') E' := by
  have hlive : ∀ m, (b.heap m).isSome → ((b.store n nd').heap m).isSome := by
    intro m hm
    show (if m = n then some nd' else b.heap m).isSome = true
    by_cases hmn : m = n <;> simp [hmn] ; simpa using hm
  have hget : ∀ m nd₁, (b.store n nd').heap m = some nd₁ → (m = n ∧ nd₁ = nd') ∨ (m ≠ n ∧ b.heap m = some nd₁) := by
    intro m nd₁ hm
    have hm' : (if m = n then some nd' else b.heap m) = some nd₁ := hm
    by_cases hmn : m = n
    · simp only [if_pos hmn] at hm'; cases hm'; exact .inl ⟨hmn, rfl⟩
    · rw [if_neg hmn] at hm'; exact .inr ⟨hmn, hm'⟩
  refine ⟨h.pos, ?_, ?_, fun e he => hlive e (hext e he), ?_, ?_⟩
  · intro m nd₁ hm
    rcases hget m nd₁ hm with ⟨rfl, _⟩ | ⟨_, hm⟩
    · exact h.range _ _ hn
    · exact h.range _ _ hm
  · intro m r hr
    rw [refsOf_store] at hr
    by_cases hmn : m = n
    · rw [if_pos hmn] at hr; subst hmn
      exact ⟨(hrefs r hr).1, hlive r (hrefs r hr).2⟩
    · rw [if_neg hmn] at hr
      exact ⟨(h.asc m r hr).1, hlive r (h.asc m r hr).2⟩
  · intro m nd₁ hm
    have hc := count_store h hn (nd' := nd') m
    have he := hcnt m
    rcases hget m nd₁ hm with ⟨rfl, rfl⟩ | ⟨hne, hm⟩
    · have h1 := h.cnt _ _ hn
      simp only [if_true, Nat.mul_one] at he
      exact ⟨by omega, hpos⟩
    · have h1 := h.cnt _ _ hm
      simp only [if_neg hne, Nat.mul_zero, Nat.add_zero] at he
      exact ⟨by omega, h1.2⟩
  · intro hw m nd₁ hm
    have hw' : b.wrapped = false := hw
    have hc := count_store h hn (nd' := nd') m
    have he := hcnt m
    rcases hget m nd₁ hm with ⟨rfl, rfl⟩ | ⟨hne, hm⟩
    · have h1 := h.exact hw' _ _ hn
      simp only [if_true, Nat.mul_one] at he
      omega
    · have h1 := h.exact hw' _ _ hm
      simp only [if_neg hne, Nat.mul_zero, Nat.add_zero] at he
      omega

/-- changing nothing but flags, tags, location -/
theorem Inv.flags {b : Bld} {E : List NodeId} (h : Inv b E) {n : NodeId} {nd nd' : Node}
    (hn : b.heap n = some nd) (hp : nd'.parsers.flatMap Parser.refs = nd.parsers.flatMap Parser.refs)
    (hr : nd'.refcnt = nd.refcnt) : Inv (b.store n nd') E := by
  refine h.update hn ?_ h.ext ?_ (by rw [hr]; exact (h.cnt n nd hn).2)
  · intro r hr'
    rw [hp, ← refsOf_some hn] at hr'
    exact h.asc n r hr'
  · intro x; rw [hp, hr]

/-- permuting the parsers -/
theorem Inv.permParsers {b : Bld} {E : List NodeId} (h : Inv b E) {n : NodeId} {nd nd' : Node}
    (hn : b.heap n = some nd) (hp : nd'.parsers.Perm nd.parsers)
    (hr : nd'.refcnt = nd.refcnt) : Inv (b.store n nd') E := by
  have hp' : (nd'.parsers.flatMap Parser.refs).Perm (nd.parsers.flatMap Parser.refs) :=
    hp.flatMap_right _
  refine h.update hn ?_ h.ext ?_ (by rw [hr]; exact (h.cnt n nd hn).2)
  · intro r hr'
    rw [hp'.mem_iff, ← refsOf_some hn] at hr'
    exact h.asc n r hr'
  · intro x; rw [hp'.count_eq, hr]

theorem Inv.incr {b : Bld} {E : List NodeId} (h : Inv b E) {n : NodeId} {nd : Node}
    (hn : b.heap n = some nd) : Inv (b.store n { nd with refcnt := nd.refcnt + 1 }) (n :: E) := by
  refine h.update hn (fun r hr => h.asc n r (by rw [refsOf_some hn]; exact hr)) ?_ ?_ (Nat.succ_pos _)
  · intro e he
    rcases List.mem_cons.1 he with rfl | he
    · simp [hn]
    · exact h.ext e he
  · intro x
    by_cases hx : x = n
    · simp [hx, List.count_cons]; omega
    · simp [hx, List.count_cons, show n ≠ x from fun he => hx he.symm]

theorem Inv.decr {b : Bld} {E : List NodeId} {n : NodeId} (h : Inv b (n :: E)) {nd : Node}
    (hn : b.heap n = some nd) (hc : 1 < nd.refcnt) :
    Inv (b.store n { nd with refcnt := nd.refcnt - 1 }) E := by
  refine h.update hn (fun r hr => h.asc n r (by rw [refsOf_some hn]; exact hr)) ?_ ?_ (by simp; omega)
  · intro e he; exact h.ext e (List.mem_cons_of_mem _ he)
  · intro x
    by_cases hx : x = n
    · simp [hx, List.count_cons]; omega
    · simp [hx, List.count_cons, show n ≠ x from fun he => hx he.symm]

theorem Inv.freeNode {b : Bld} {E : List NodeId} {n : NodeId} (h : Inv b (n :: E)) {nd : Node}
    (hn : b.heap n = some nd) (hc : ¬ 1 < nd.refcnt) :
    Inv (b.free n) (nd.parsers.flatMap Parser.refs ++ E) ∧ n ∉ E := by
  have h0 := h.cnt n nd hn
  simp only [List.count_cons_self] at h0
  have hE : E.count n = 0 := by omega
  have hA : b.allRefs.count n = 0 := by omega
  have hnE : n ∉ E := List.count_eq_zero.1 hE
  have hnA : n ∉ b.allRefs := List.count_eq_zero.1 hA
  have hlive : ∀ m, m ≠ n → (b.heap m).isSome → ((b.free n).heap m).isSome := by
    intro m hm hs
    show (if m = n then none else b.heap m).isSome = true
    rw [if_neg hm]; exact hs
  have hget : ∀ m nd₁, (b.free n).heap m = some nd₁ → m ≠ n ∧ b.heap m = some nd₁ := by
    intro m nd₁ hm
    have hm' : (if m = n then none else b.heap m) = some nd₁ := hm
    by_cases hmn : m = n
    · rw [if_pos hmn] at hm'; cases hm'
    · rw [if_neg hmn] at hm'; exact ⟨hmn, hm'⟩
  have hmem : ∀ m r, r ∈ b.refsOf m → m < b.next → r ≠ n := by
    intro m r hr hm he
    subst he
    exact hnA (by unfold Bld.allRefs; rw [List.mem_flatMap]; exact ⟨m, List.mem_range.2 hm, hr⟩)
  refine ⟨⟨h.pos, ?_, ?_, ?_, ?_, ?_⟩, hnE⟩
  · intro m nd₁ hm; exact h.range _ _ (hget m nd₁ hm).2
  · intro m r hr
    rw [refsOf_free] at hr
    by_cases hmn : m = n
    · rw [if_pos hmn] at hr; cases hr
    · rw [if_neg hmn] at hr
      have h1 := h.asc m r hr
      have hm : m < b.next := by
        unfold Bld.refsOf at hr
        split at hr
        · rename_i nd₁ hm; exact (h.range _ _ hm).2
        · cases hr
      exact ⟨h1.1, hlive r (hmem m r hr hm) h1.2⟩
  · intro e he
    rcases List.mem_append.1 he with he | he
    · rw [← refsOf_some hn] at he
      have h1 := h.asc n e he
      exact hlive e (Nat.ne_of_gt h1.1) h1.2
    · exact hlive e (fun hh => hnE (hh ▸ he)) (h.ext e (List.mem_cons_of_mem _ he))
  · intro m nd₁ hm
    obtain ⟨hne, hm⟩ := hget m nd₁ hm
    have h1 := h.cnt _ _ hm
    have h2 := count_free h hn m
    rw [List.count_append]
    rw [List.count_cons_of_ne (fun hh => hne hh.symm)] at h1
    exact ⟨by omega, h1.2⟩
  · intro hw m nd₁ hm
    obtain ⟨hne, hm⟩ := hget m nd₁ hm
    have h1 := h.exact hw _ _ hm
    have h2 := count_free h hn m
    rw [List.count_append]
    rw [List.count_cons_of_ne (fun hh => hne hh.symm)] at h1
    omega

theorem Inv.newNode {b : Bld} {E : List NodeId} (h : Inv b E) :
    Inv b.newPDAG.1 (b.next :: E) ∧ b.newPDAG.1.heap b.next = some {} := by
  have hf := h.fresh_none
  have hget : ∀ m nd₁, b.newPDAG.1.heap m = some nd₁ →
      (m = b.next ∧ nd₁ = {}) ∨ (m ≠ b.next ∧ b.heap m = some nd₁) := by
    intro m nd₁ hm
    have hm' : (if m = b.next then some ({} : Node) else b.heap m) = some nd₁ := hm
    by_cases hmn : m = b.next
    · rw [if_pos hmn] at hm'; cases hm'; exact .inl ⟨hmn, rfl⟩
    · rw [if_neg hmn] at hm'; exact .inr ⟨hmn, hm'⟩
  have hlive : ∀ m, (b.heap m).isSome → (b.newPDAG.1.heap m).isSome := by
    intro m hm
    show (if m = b.next then some ({} : Node) else b.heap m).isSome = true
    by_cases hmn : m = b.next <;> simp [hmn] ; simpa using hm
  have hrefs : ∀ m, b.newPDAG.1.refsOf m = b.refsOf m := by
    intro m
    unfold Bld.refsOf
    by_cases hmn : m = b.next
    · subst hmn; rw [hf]; simp [Bld.newPDAG]
    · simp [Bld.newPDAG, hmn]
  have hnext : b.newPDAG.1.next = b.next + 1 := rfl
  have hall : ∀ x, b.newPDAG.1.allRefs.count x = b.allRefs.count x := by
    intro x
    unfold Bld.allRefs
    rw [hnext, List.range_succ, List.flatMap_append, List.count_append]
    have h1 : b.newPDAG.1.refsOf = b.refsOf := funext hrefs
    rw [h1]
    have h2 : b.refsOf b.next = [] := by simp [Bld.refsOf, hf]
    simp [h2]
  have hz : b.allRefs.count b.next = 0 := by
    rw [List.count_eq_zero]
    intro hmem
    have := h.refs_live hmem
    rw [hf] at this; cases this
  have hzE : E.count b.next = 0 := by
    rw [List.count_eq_zero]
    intro hmem
    have := h.ext _ hmem
    rw [hf] at this; cases this
  refine ⟨⟨Nat.succ_pos _, ?_, ?_, ?_, ?_, ?_⟩, by simp [Bld.newPDAG]⟩
  · intro m nd₁ hm
    rw [hnext]
    rcases hget m nd₁ hm with ⟨rfl, _⟩ | ⟨_, hm⟩
    · exact ⟨h.pos, Nat.lt_succ_self _⟩
    · exact ⟨(h.range _ _ hm).1, Nat.lt_succ_of_lt (h.range _ _ hm).2⟩
  · intro m r hr
    rw [hrefs] at hr
    exact ⟨(h.asc m r hr).1, hlive r (h.asc m r hr).2⟩
  · intro e he
    rcases List.mem_cons.1 he with rfl | he
    · simp [Bld.newPDAG]
    · exact hlive e (h.ext e he)
  · intro m nd₁ hm
    rw [hall]
    rcases hget m nd₁ hm with ⟨rfl, rfl⟩ | ⟨hne, hm⟩
    · simp [hz, hzE]
    · rw [List.count_cons_of_ne (fun hh => hne hh.symm)]; exact h.cnt _ _ hm
  · intro hw m nd₁ hm
    rw [hall]
    rcases hget m nd₁ hm with ⟨rfl, rfl⟩ | ⟨hne, hm⟩
    · simp [hz, hzE]
    · rw [List.count_cons_of_ne (fun hh => hne hh.symm)]; exact h.exact hw _ _ hm

end LN
