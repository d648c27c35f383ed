import Verif.Proofs.SafetyC
/-
Reading positions described by the rest of the message: `s.drop i = a ++ b` means that the text
`a` is at offset `i`, followed by `b`.
-/
set_option autoImplicit false
namespace LN

theorem Post.isDefined {α : Type} {Q : α → Prop} {x : R α} (h : Post True Q x) : x.Defined := by
  obtain ⟨h1, h2, h3⟩ := h
  cases x with
  | ok a => exact .inl ⟨a, rfl⟩
  | fail => exact .inr rfl
  | ub k => exact absurd rfl (h3 trivial k)
  | oof => exact absurd rfl (by assumption)

/-- `p` does not hold of the first byte of `t` (or `t` is empty) -/
def HeadNot (p : UInt8 → Bool) (t : Bytes) : Prop := ∀ c, t.head? = some c → p c = false

theorem HeadNot.nil {p : UInt8 → Bool} : HeadNot p [] := by intro c h; cases h
theorem headNot_cons {p : UInt8 → Bool} {c : UInt8} {t : Bytes} : HeadNot p (c :: t) ↔ p c = false := by
  simp [HeadNot]

variable {s a b t : Bytes} {i : Nat} {p : UInt8 → Bool} {c : UInt8}

theorem drop_of_append (h : s.drop i = a ++ b) : s.drop (i + a.length) = b := by
  rw [← List.drop_drop, h, List.drop_left]
theorem drop_of_cons (h : s.drop i = c :: b) : s.drop (i + 1) = b := by
  rw [← List.drop_drop, h]; rfl
theorem slice_of_append (h : s.drop i = a ++ b) : slice s i a.length = a := by
  rw [slice, h, List.take_left]
theorem atP_head : atP p s i = (s.drop i).head?.any p := by
  unfold atP
  rw [List.head?_drop]
  cases s[i]? <;> rfl
theorem takeWhile_of_split (ha : ∀ c ∈ a, p c = true) (hb : HeadNot p b) :
    (a ++ b).takeWhile p = a := by
  cases b with
  | nil => rw [List.append_nil, takeWhile_all ha]
  | cons x xs => exact takeWhile_stop ha (headNot_cons.1 hb)
theorem scan_of_append (h : s.drop i = a ++ b) (ha : ∀ c ∈ a, p c = true) (hb : HeadNot p b) :
    scan p s i = i + a.length := by
  rw [scan, h, takeWhile_of_split ha hb]
theorem split_at (p : UInt8 → Bool) (t : Bytes) :
    ∃ a b, t = a ++ b ∧ (∀ c ∈ a, p c = true) ∧ HeadNot p b ∧ a = t.takeWhile p := by
  refine ⟨t.takeWhile p, t.dropWhile p, List.takeWhile_append_dropWhile.symm,
    fun c h => takeWhile_mem h, ?_, rfl⟩
  intro c hc
  rcases takeWhile_split p t with h | ⟨w, r, h, hw⟩
  · have h1 : t.takeWhile p ++ t.dropWhile p = t.takeWhile p ++ [] := by
      rw [List.takeWhile_append_dropWhile, List.append_nil]; exact h
    have this := List.append_cancel_left h1
    rw [this] at hc; cases hc
  · have h1 : t.takeWhile p ++ t.dropWhile p = t.takeWhile p ++ w :: r := by
      rw [List.takeWhile_append_dropWhile]; exact h
    have h2 := List.append_cancel_left h1
    rw [h2] at hc
    simp at hc
    rw [← hc]; exact hw
theorem scan_split (p : UInt8 → Bool) (s : Bytes) (i : Nat) :
    ∃ a b, s.drop i = a ++ b ∧ (∀ c ∈ a, p c = true) ∧ HeadNot p b ∧ scan p s i = i + a.length := by
  obtain ⟨a, b, h, ha, hb, e⟩ := split_at p (s.drop i)
  exact ⟨a, b, h, ha, hb, by rw [scan, ← e]⟩
theorem rd_of_cons (h : s.drop i = c :: b) : rd s i = .ok c := by
  rw [rd_eq_ok]; left
  rw [← List.head?_drop, h]; rfl
theorem lt_of_drop_cons (h : s.drop i = c :: b) : i < s.length := by
  have := congrArg List.length h
  simp at this; omega
theorem len_of_drop (h : s.drop i = t) (hi : i ≤ s.length) : s.length = i + t.length := by
  have := congrArg List.length h
  simp at this; omega
theorem drop_eq_nil_len (h : s.drop i = []) (hi : i ≤ s.length) : i = s.length := by
  have := len_of_drop h hi; simp at this; omega

end LN
