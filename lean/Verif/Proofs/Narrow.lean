import Verif.Spec.Rules
import Mathlib.Data.List.Perm.Subperm
import Mathlib.Data.List.Nodup
/- Sequences which nowhere go on in more than 255 different ways. -/
set_option autoImplicit false
namespace LN

theorem Narrow.mono {α : Type} {l l' : List (List α)} (h : Narrow l) (hs : ∀ x ∈ l', x ∈ l) : Narrow l' :=
  fun pre ts hn ht => h pre ts hn fun t m => (ht t m).imp fun _ hr => ⟨hs _ hr.1, hr.2⟩

theorem mem_ofType {ds : List Def} {t : Option Bytes} {cs : List Json} :
    cs ∈ ofType ds t ↔ ∃ d ∈ ds, d.type = t ∧ d.rule.confs = cs := by
  unfold ofType
  simp only [List.mem_map, List.mem_filter, decide_eq_true_eq, and_assoc]

theorem NarrowDefs.mono {ds ds' : List Def} (h : NarrowDefs ds) (hs : ∀ d ∈ ds', d ∈ ds) : NarrowDefs ds' := by
  intro t
  refine (h t).mono fun x hx => ?_
  obtain ⟨d, h1, h2⟩ := mem_ofType.1 hx
  exact mem_ofType.2 ⟨d, hs d h1, h2⟩

/-- few sequences -/
theorem narrow_of_length {α : Type} {l : List (List α)} (h : l.length ≤ 255) : Narrow l := by
  intro pre ts hn ht
  have hsub : ts.map some ⊆ l.map fun r => r[pre.length]? := by
    intro o ho
    obtain ⟨t, hm, rfl⟩ := List.mem_map.1 ho
    obtain ⟨r, hr, u, hu⟩ := ht t hm
    refine List.mem_map.2 ⟨r, hr, ?_⟩
    rw [← hu]
    simp
  have hnd : (ts.map some).Nodup := hn.map (fun _ _ h => Option.some.inj h)
  have := (List.subperm_of_subset hnd hsub).length_le
  rw [List.length_map, List.length_map] at this
  omega

theorem NarrowDefs.of_length {ds : List Def} (h : ds.length ≤ 255) : NarrowDefs ds := by
  intro t
  refine narrow_of_length ?_
  unfold ofType
  rw [List.length_map]
  exact Nat.le_trans (List.length_filter_le ..) h

theorem exists_map {α β : Type} {f : α → β} {P : α → Prop} : ∀ {ts' : List β}, (∀ t' ∈ ts', ∃ t, f t = t' ∧ P t) →
    ∃ ts : List α, ts.map f = ts' ∧ ∀ t ∈ ts, P t
  | [], _ => ⟨[], rfl, fun _ h => by cases h⟩
  | t' :: ts', h => by
    obtain ⟨t, h1, h2⟩ := h t' List.mem_cons_self
    obtain ⟨ts, h3, h4⟩ := exists_map (ts' := ts') fun x hx => h x (List.mem_cons_of_mem _ hx)
    refine ⟨t :: ts, by rw [List.map_cons, h1, h3], fun x hx => ?_⟩
    rcases List.mem_cons.1 hx with rfl | hx
    · exact h2
    · exact h4 x hx

theorem map_inj_on {α β : Type} {f : α → β} {P : α → Prop} (hf : ∀ x y, P x → P y → f x = f y → x = y) :
    ∀ {a c : List α}, (∀ x ∈ a, P x) → (∀ x ∈ c, P x) → a.map f = c.map f → a = c
  | [], [], _, _, _ => rfl
  | [], _ :: _, _, _, h => by cases h
  | _ :: _, [], _, _, h => by cases h
  | x :: a, y :: c, ha, hc, h => by
    rw [List.map_cons, List.map_cons] at h
    injection h with h1 h2
    rw [hf x y (ha x List.mem_cons_self) (hc y List.mem_cons_self) h1,
      map_inj_on hf (fun z hz => ha z (List.mem_cons_of_mem _ hz)) (fun z hz => hc z (List.mem_cons_of_mem _ hz)) h2]

/-- the same for what the elements stand for -/
theorem Narrow.map {α β : Type} {f : α → β} {l : List (List α)} (h : Narrow l) {P : α → Prop} (hP : ∀ r ∈ l, ∀ x ∈ r, P x)
    (hf : ∀ x y, P x → P y → f x = f y → x = y) : Narrow (l.map fun r => r.map f) := by
  intro pre' ts' hn ht
  have split : ∀ t' ∈ ts', ∃ r ∈ l, ∃ pre t, pre ++ [t] <+: r ∧ pre.map f = pre' ∧ f t = t' := by
    intro t' hm
    obtain ⟨r', hr', u, hu⟩ := ht t' hm
    obtain ⟨r, hr, rfl⟩ := List.mem_map.1 hr'
    obtain ⟨a, c, rfl, ha, hc⟩ := List.map_eq_append_iff.1 hu.symm
    obtain ⟨a1, a2, rfl, h1, h2⟩ := List.map_eq_append_iff.1 ha
    obtain ⟨t, rfl, h3⟩ := List.map_eq_singleton_iff.1 h2
    exact ⟨_, hr, a1, t, ⟨c, rfl⟩, h1, h3⟩
  cases ts' with
  | nil => exact Nat.zero_le _
  | cons t0 ts0 =>
    obtain ⟨r0, hr0, pre, _, hp0, hpre, _⟩ := split t0 List.mem_cons_self
    obtain ⟨ts, hts, hall⟩ := exists_map (f := f) (P := fun t => ∃ r ∈ l, pre ++ [t] <+: r) (ts' := t0 :: ts0) (by
      intro t' hm
      obtain ⟨r, hr, pre1, t, hp, hpre1, htt⟩ := split t' hm
      refine ⟨t, htt, r, hr, ?_⟩
      have : pre1 = pre := by
        refine map_inj_on hf ?_ ?_ (hpre1.trans hpre.symm)
        · intro x hx; exact hP r hr x (hp.subset (List.mem_append_left _ hx))
        · intro x hx; exact hP r0 hr0 x (hp0.subset (List.mem_append_left _ hx))
      rw [← this]; exact hp)
    have hlen := h pre ts (by rw [← hts] at hn; exact List.Nodup.of_map f hn) hall
    rw [← hts, List.length_map]
    exact hlen

theorem narrow_filter {α β : Type} {ds : List β} {p : β → Bool} {g : β → List α} (h : ds.length ≤ 255) : Narrow ((ds.filter p).map g) := by
  refine narrow_of_length ?_
  rw [List.length_map]
  exact Nat.le_trans (List.length_filter_le ..) h

/-- any number of sequences, with at most 255 different elements -/
theorem narrow_of_elements {α : Type} {l : List (List α)} {A : List α} (hA : A.length ≤ 255) (h : ∀ r ∈ l, ∀ t ∈ r, t ∈ A) : Narrow l := by
  intro pre ts hn ht
  refine Nat.le_trans (List.subperm_of_subset hn fun t hm => ?_).length_le hA
  obtain ⟨r, hr, hp⟩ := ht t hm
  exact h r hr t (hp.subset (by simp))

end LN
