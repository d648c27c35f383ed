import Verif.Model.ParseMore
/- The character classes which the field types are defined with, spelled out. -/
set_option autoImplicit false
namespace LN

/-- The character classes (those of the "C" locale), byte by byte. -/
theorem C20_character_classes (c : UInt8) :
    (isDigit c = true ↔ c ∈ bs! "0123456789") ∧
    (isXDigit c = true ↔ c ∈ bs! "0123456789abcdefABCDEF") ∧
    (isUpper c = true ↔ c ∈ bs! "ABCDEFGHIJKLMNOPQRSTUVWXYZ") ∧
    (isLower c = true ↔ c ∈ bs! "abcdefghijklmnopqrstuvwxyz") ∧
    (isAlpha c = true ↔ c ∈ bs! "abcdefghijklmnopqrstuvwxyzABCDEFGHIJKLMNOPQRSTUVWXYZ") ∧
    (isAlnum c = true ↔ c ∈ bs! "abcdefghijklmnopqrstuvwxyzABCDEFGHIJKLMNOPQRSTUVWXYZ0123456789") ∧
    (isSpace c = true ↔ c ∈ bs! " \t\n\r" ++ [11, 12]) ∧
    (isValidNameChar c = true ↔ c ∈ bs! "abcdefghijklmnopqrstuvwxyzABCDEFGHIJKLMNOPQRSTUVWXYZ0123456789._-") := by
  revert c
  have h : ∀ n : Fin 256, let c := UInt8.ofNat n.val
    (isDigit c = true ↔ c ∈ bs! "0123456789") ∧
    (isXDigit c = true ↔ c ∈ bs! "0123456789abcdefABCDEF") ∧
    (isUpper c = true ↔ c ∈ bs! "ABCDEFGHIJKLMNOPQRSTUVWXYZ") ∧
    (isLower c = true ↔ c ∈ bs! "abcdefghijklmnopqrstuvwxyz") ∧
    (isAlpha c = true ↔ c ∈ bs! "abcdefghijklmnopqrstuvwxyzABCDEFGHIJKLMNOPQRSTUVWXYZ") ∧
    (isAlnum c = true ↔ c ∈ bs! "abcdefghijklmnopqrstuvwxyzABCDEFGHIJKLMNOPQRSTUVWXYZ0123456789") ∧
    (isSpace c = true ↔ c ∈ bs! " \t\n\r" ++ [11, 12]) ∧
    (isValidNameChar c = true ↔ c ∈ bs! "abcdefghijklmnopqrstuvwxyzABCDEFGHIJKLMNOPQRSTUVWXYZ0123456789._-") := by decide +kernel
  intro c
  have := h ⟨c.toNat, c.toNat_lt⟩
  simpa using this

/-- The values of the hexadecimal digits: the i-th digit (of either case) has value i. -/
theorem C20_hex_digit_values {c : UInt8} {i : Nat} (h : (bs! "0123456789abcdef")[i]? = some c ∨ (bs! "0123456789ABCDEF")[i]? = some c) : hexVal c = i := by
  have h1 : ∀ k : Fin 16, ∀ d, (bs! "0123456789abcdef")[k.val]? = some d ∨ (bs! "0123456789ABCDEF")[k.val]? = some d → hexVal d = k.val := by
    intro k d h
    have h2 : ∀ k : Fin 16, ((bs! "0123456789abcdef")[k.val]?).map hexVal = some k.val ∧ ((bs! "0123456789ABCDEF")[k.val]?).map hexVal = some k.val := by
      decide +kernel
    have h3 := h2 k
    rcases h with h | h
    · rw [h] at h3
      exact Option.some.inj h3.1
    · rw [h] at h3
      exact Option.some.inj h3.2
  have hi : i < 16 := by
    rcases h with h | h
    · exact (List.getElem?_eq_some_iff.1 h).1
    · exact (List.getElem?_eq_some_iff.1 h).1
  exact h1 ⟨i, hi⟩ c h

example : hexVal (ch! 'B') = 11 := C20_hex_digit_values (i := 11) (.inr (by decide))

end LN
