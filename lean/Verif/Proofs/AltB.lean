import Verif.Proofs.Alt
import Verif.Proofs.DocFar
/- Rule bases with alternatives in the graph. -/
set_option autoImplicit false
namespace LN

section
variable {env : Env} {srt : Sorter}

/-- a rule with alternatives as it reaches the graph -/
structure ARule where
  items : List AItem
  tags : Option (List Bytes)
  file : Bytes
  line : Nat
  complete : Bool := true

def ARule.offers (r : ARule) : List (List Json) := r.items.map (·.choices)

def ARule.toDef (r : ARule) : Def :=
  { rule := { confs := r.items.map (·.conf), complete := r.complete, tags := r.tags, file := r.file, line := r.line } }

/-- the graph consists of the rules -/
structure AIs (env : Env) (P : List (List Json) → Prop) (b : Bld) (lab : NodeId → List (List Json)) (ds : List ARule) : Prop where
  inv : Inv b b.ctxRefs
  types : b.types = []
  start : lab b.root = []
  trie : ATrie env P b lab
  full : AFull b lab
  wr : b.wrapped = false
  goes : ∀ d ∈ ds, ∃ e, ∀ cs, Chosen d.offers cs → FWalk b b.root cs e
  walk : ∀ d ∈ ds, d.complete = true → ∃ e nd, (∀ cs, Chosen d.offers cs → FWalk b b.root cs e) ∧ b.heap e = some nd ∧ nd.isTerminal = true
  tag : ∀ n nd, b.heap n = some nd → nd.isTerminal = true → ∃ (i : Nat) (d : ARule), ds[i]? = some d ∧ d.complete = true ∧ lab n = d.offers ∧
    (∀ cs, Chosen d.offers cs → FWalk b b.root cs n) ∧ nd.mark = (d.tags, some d.file, d.line) ∧
    ∀ (j : Nat) (d' : ARule), i < j → ds[j]? = some d' → d'.complete = true → d'.offers ≠ d.offers

theorem exists_chosen : ∀ (Is : List (List Json)), (∀ I ∈ Is, I ≠ []) → ∃ cs, Chosen Is cs
  | [], _ => ⟨[], .nil⟩
  | I :: Is, h => by
    obtain ⟨cs, hcs⟩ := exists_chosen Is fun x hx => h x (List.mem_cons_of_mem _ hx)
    cases I with
    | nil => exact absurd rfl (h [] (List.mem_cons_self ..))
    | cons c I => exact ⟨c :: cs, .cons (List.mem_cons_self ..) hcs⟩

theorem aIs_init (P : List (List Json) → Prop) : AIs env P initBld (fun _ => []) [] := by
  have hheap : ∀ n nd, initBld.heap n = some nd → nd = {} := by
    intro n nd h
    change (if n = 1 then some ({} : Node) else none) = some nd at h
    split at h
    · cases h; rfl
    · cases h
  refine ⟨initBld_inv, rfl, rfl, ⟨⟨?_, ?_⟩, ?_, ?_⟩, ?_, rfl, ?_, ?_, ?_⟩
  · intro n nd h q hq; rw [hheap n nd h] at hq; cases hq
  · intro n nd h; rw [hheap n nd h]; exact List.nodup_nil
  · intro n nd h q hq; rw [hheap n nd h] at hq; cases hq
  · intro n nd h q hq; rw [hheap n nd h] at hq; cases hq
  · intro n nd h q hq; rw [hheap n nd h] at hq; cases hq
  · intro d hd; cases hd
  · intro d hd; cases hd
  · intro n nd h ht; rw [hheap n nd h] at ht; cases ht

theorem store_self {b : Bld} {e : NodeId} {nd : Node} (h : b.heap e = some nd) : b.store e nd = b := by
  have : (fun m => if m = e then some nd else b.heap m) = b.heap := by
    funext m
    split
    · next hm => rw [hm, h]
    · rfl
  unfold Bld.store
  rw [this]

theorem aIs_add {P : List (List Json) → Prop} {b : Bld} {lab : NodeId → List (List Json)} {ds : List ARule} (h : AIs env P b lab ds) (d : ARule)
    (hok : ∀ it ∈ d.items, it.OK env) (hP : ∀ x I y, d.offers = x ++ I :: y → P (x ++ [I]))
    (happ : ∀ L I J, P (L ++ [I]) → P (L ++ [J]) → (∃ c, c ∈ I ∧ c ∈ J) → I = J) (hnar : NarrowP P) :
    ∃ b' lab', d.toDef.toOp.run env srt b = .ok b' ∧ AIs env P b' lab' (ds ++ [d]) := by
  have hlive := h.inv.ext b.root (List.mem_cons_self ..)
  obtain ⟨b1, e, lab1, h1, hi1, ht1, hfu1, g1, hw1, hs1, hl1, hd1, hle1, hwk1, htm1⟩ := addSeq_atrie (P := P) (E := b.ctxRefs) d.items hok h.inv h.trie h.full hlive (by
      intro x I y hxy
      rw [h.start, List.nil_append]
      exact hP x I y hxy) happ h.wr hnar
  rw [h.start, List.nil_append] at hle1
  obtain ⟨nd, hnd⟩ := Option.isSome_iff_exists.1 hl1
  obtain ⟨nd', hnd'⟩ : ∃ nd' : Node, nd' = if d.complete = true then { nd with isTerminal := true, tags := d.tags, rbFile := some d.file, rbLine := d.line } else nd := ⟨_, rfl⟩
  have hpar : nd'.parsers = nd.parsers := by rw [hnd']; split <;> rfl
  have hrun : d.toDef.toOp.run env srt b = .ok (b1.store e nd') := by
    show addSamp env b b.root (d.items.map (·.conf)) d.complete d.tags d.file d.line = _
    unfold addSamp
    rw [h1]
    cases hc : d.complete with
    | true => simp [Bld.load, hnd, R.bind, hnd', hc]
    | false =>
      rw [hnd', if_neg (by rw [hc]; simp), store_self hnd]
      simp [R.bind]
  have hheap : ∀ m, (b1.store e nd').heap m = if m = e then some nd' else b1.heap m := fun m => rfl
  have g2 : Grow b1 (b1.store e nd') := Grow.store hnd (by rw [hpar]; exact List.prefix_refl _) (fun h => by rw [hnd']; split; exacts [rfl, h])
  have hold : ∀ n ndx, (b1.store e nd').heap n = some ndx → ∃ nd0, b1.heap n = some nd0 ∧ nd0.parsers = ndx.parsers := by
    intro n ndx hn
    rw [hheap] at hn
    by_cases hne : n = e
    · rw [if_pos hne] at hn; cases hn
      exact ⟨nd, by rw [hne]; exact hnd, hpar.symm⟩
    · rw [if_neg hne] at hn
      exact ⟨ndx, hn, rfl⟩
  have hroot : (b1.store e nd').root = b.root := g1.root
  have hw2 : (b1.store e nd').wrapped = false := hw1
  refine ⟨b1.store e nd', lab1, hrun, ?_, ?_, ?_, ⟨⟨?_, ?_⟩, ?_, ?_⟩, ?_, hw2, ?_, ?_, ?_⟩
  · have : (b1.store e nd').ctxRefs = b.ctxRefs := by
      show b1.ctxRefs = _
      rw [Bld.ctxRefs, Bld.ctxRefs, g1.root, g1.types]
    rw [this]
    refine hi1.flags hnd ?_ ?_ <;> rw [hnd'] <;> split <;> rfl
  · show b1.types = []
    rw [g1.types]; exact h.types
  · rw [hroot, hs1 _ hlive]; exact h.start
  · intro n ndx hn q hq
    obtain ⟨nd0, k1, k2⟩ := hold n ndx hn
    exact ht1.plain.field n nd0 k1 q (k2 ▸ hq)
  · intro n ndx hn
    obtain ⟨nd0, k1, k2⟩ := hold n ndx hn
    rw [← k2]; exact ht1.plain.dist n nd0 k1
  · intro n ndx hn q hq
    obtain ⟨nd0, k1, k2⟩ := hold n ndx hn
    exact ht1.edge n nd0 k1 q (k2 ▸ hq)
  · intro n ndx hn q hq q' hq'
    obtain ⟨nd0, k1, k2⟩ := hold n ndx hn
    exact ht1.uniq n nd0 k1 q (k2 ▸ hq) q' (k2 ▸ hq')
  · intro n ndx hn q hq
    obtain ⟨nd0, k1, k2⟩ := hold n ndx hn
    rw [← k2] at hq ⊢
    exact hfu1 n nd0 k1 q hq
  · intro d' hd'
    rw [hroot]
    rcases List.mem_append.1 hd' with h2 | h2
    · obtain ⟨e', k1⟩ := h.goes d' h2
      exact ⟨e', fun cs hcs => (k1 cs hcs).grow (g1.trans g2) hw2⟩
    · rw [List.mem_singleton] at h2
      subst h2
      exact ⟨e, fun cs hcs => (hwk1 cs hcs).grow g2 hw2⟩
  · intro d' hd' hcm
    rw [hroot]
    rcases List.mem_append.1 hd' with h2 | h2
    · obtain ⟨e', ndx, k1, k2, k3⟩ := h.walk d' h2 hcm
      obtain ⟨ndy, k4, _, k5⟩ := (g1.trans g2).keep _ _ k2
      exact ⟨e', ndy, fun cs hcs => (k1 cs hcs).grow (g1.trans g2) hw2, k4, k5 k3⟩
    · rw [List.mem_singleton] at h2
      subst h2
      exact ⟨e, nd', fun cs hcs => (hwk1 cs hcs).grow g2 hw2, by rw [hheap, if_pos rfl], by rw [hnd', if_pos hcm]⟩
  · intro n ndx hn ht
    rw [hroot]
    by_cases hne : n = e ∧ d.complete = true
    · obtain ⟨rfl, hcm⟩ := hne
      rw [hheap, if_pos rfl] at hn
      cases hn
      refine ⟨ds.length, d, by simp, hcm, hle1, fun cs hcs => (hwk1 cs hcs).grow g2 hw2, by rw [hnd', if_pos hcm]; rfl, ?_⟩
      intro j d' hj hd'
      have := (List.getElem?_eq_some_iff.1 hd').1
      rw [List.length_append, List.length_singleton] at this
      omega
    · have hn : b1.heap n = some ndx := by
        rw [hheap] at hn
        by_cases h2 : n = e
        · subst h2
          rw [if_pos rfl] at hn
          cases hn
          rw [hnd', if_neg fun hcm => hne ⟨rfl, hcm⟩]
          exact hnd
        · rwa [if_neg h2] at hn
      obtain ⟨nd0, k1, k2, k3⟩ := htm1 n ndx hn ht
      obtain ⟨i, d', a1, a0, a2, a3, a4, a5⟩ := h.tag n nd0 k1 k2
      have hil : i < ds.length := (List.getElem?_eq_some_iff.1 a1).1
      refine ⟨i, d', by rw [List.getElem?_append_left hil]; exact a1, a0, by rw [hs1 n (by rw [k1]; rfl)]; exact a2,
        fun cs hcs => (a3 cs hcs).grow (g1.trans g2) hw2, k3.symm.trans a4, ?_⟩
      intro j d'' hj hd'' hcm hoff
      by_cases hlt : j < ds.length
      · rw [List.getElem?_append_left hlt] at hd''
        exact a5 j d'' hj hd'' hcm hoff
      · have hjl := (List.getElem?_eq_some_iff.1 hd'').1
        rw [List.length_append, List.length_singleton] at hjl
        have hje : j = ds.length := by omega
        subst hje
        simp at hd''
        subst hd''
        obtain ⟨cs, hcs⟩ := exists_chosen d.offers (by
          intro I hI
          obtain ⟨it, hit, rfl⟩ := List.mem_map.1 hI
          exact (hok it hit).some_)
        have w1 := (hwk1 cs hcs).grow g2 hw2
        have w2 := (a3 cs (hoff ▸ hcs)).grow (g1.trans g2) hw2
        exact hne ⟨w2.functional w1, hcm⟩

theorem aIs_rules {P : List (List Json) → Prop} (happ : ∀ L I J, P (L ++ [I]) → P (L ++ [J]) → (∃ c, c ∈ I ∧ c ∈ J) → I = J) (hnar : NarrowP P) : ∀ (ds : List ARule) {b : Bld}
    {lab : NodeId → List (List Json)} {ds0 : List ARule}, AIs env P b lab ds0 → (∀ d ∈ ds, (∀ it ∈ d.items, it.OK env) ∧ ∀ x I y, d.offers = x ++ I :: y → P (x ++ [I])) →
    ∃ b' lab', ((ds.map ARule.toDef).map Def.toOp).foldlM (BOp.run env srt) b = .ok b' ∧ AIs env P b' lab' (ds0 ++ ds)
  | [], b, lab, ds0, h, _ => ⟨b, lab, rfl, by rw [List.append_nil]; exact h⟩
  | d :: ds, b, lab, ds0, h, hok => by
    have hs : ds0 ++ d :: ds = (ds0 ++ [d]) ++ ds := by simp
    rw [hs]
    obtain ⟨b1, lab1, h1, h2⟩ := aIs_add (srt := srt) h d (hok d (List.mem_cons_self ..)).1 (hok d (List.mem_cons_self ..)).2 happ hnar
    obtain ⟨b2, lab2, h3, h4⟩ := aIs_rules happ hnar ds h2 (fun x hx => hok x (List.mem_cons_of_mem _ hx))
    refine ⟨b2, lab2, ?_, h4⟩
    rw [List.map_cons, List.map_cons, List.foldlM_cons, h1]
    exact h3

/-- a walk is labelled with what was offered -/
theorem fwalk_chosen {P : List (List Json) → Prop} {b : Bld} {lab : NodeId → List (List Json)} (ht : ATrie env P b lab) {n : NodeId} {cs : List Json} {m : NodeId} (h : FWalk b n cs m) :
    ∃ Is, lab m = lab n ++ Is ∧ Chosen Is cs := by
  induction h with
  | nil n => exact ⟨[], by simp, .nil⟩
  | @cons n nd c q cs m hn hq _ ih =>
    have hqc : q.conf = c := by simpa using List.find?_some hq
    obtain ⟨Is, h1, h2⟩ := ih
    obtain ⟨I, h3, h4, _⟩ := ht.edge n nd hn q (List.mem_of_find?_eq_some hq)
    exact ⟨I :: Is, by rw [h1, h4, List.append_assoc]; rfl, .cons (hqc ▸ h3) h2⟩

/-- everything reached by a walk is offered -/
theorem fwalk_offered {P : List (List Json) → Prop} {b : Bld} {lab : NodeId → List (List Json)} (ht : ATrie env P b lab) {n : NodeId} {cs : List Json} {m : NodeId} (h : FWalk b n cs m) :
    cs = [] ∨ P (lab m) := by
  induction h with
  | nil n => exact .inl rfl
  | @cons n nd c q cs m hn hq hw ih =>
    right
    rcases ih with rfl | h
    · cases hw
      exact (ht.edge n nd hn q (List.mem_of_find?_eq_some hq)).choose_spec.2.2
    · exact h

end
end LN
