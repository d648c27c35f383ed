import Verif.Proofs.V6Exact
import Verif.Proofs.SafetyB
/-
C35: ipv6, exactly.
-/
set_option autoImplicit false
namespace LN
open Spec

/-- **C35** (what is accepted, exactly) An ipv6 field accepts what `Spec.ipv6` describes, and nothing else; the value is the text accepted. -/
theorem C35_exact {s : Bytes} {offs : Nat} (h : offs ≤ s.length) (want : Bool) :
    Implements (parseIPv6 s offs want) (ipv6 (s.drop offs)) (text want (s.drop offs)) := by
  refine ⟨?_, fun hno => ?_⟩
  · rintro n ⟨h2, w, tl, hs, rfl, hw⟩
    rw [hs, List.length_append] at h2
    exact v6_complete want h hs h2 hw
  · have hw := parseIPv6_within (U := True) h want
    cases hp : parseIPv6 s offs want with
    | ok r => exact absurd (v6_sound h hp) (hno r.1)
    | fail => rfl
    | ub k => rw [hp] at hw; exact absurd rfl (hw.2.2 trivial k)
    | oof => rw [hp] at hw; exact absurd rfl hw.2.1

/-- **C35** Addresses of RFC 4291 are among what is accepted, with the two exceptions. -/
theorem C35_addresses_accepted {w tl : Bytes} (hw : V6Text w) (ht : ∀ c, tl.head? = some c → isSpace c = true) (hq : ¬ V6Quirk w tl) : ipv6 (w ++ tl) w.length := by
  have hd : (w ++ tl).drop 0 = w ++ tl := rfl
  have := v6_sound (Nat.zero_le _) (C35_accepts_partial w tl true (Nat.zero_le _) hd hw ht hq)
  exact this

/-- `:::` and nine parts are not addresses, but accepted; so is any hex number in front of a blank -/
example : ipv6 (bs! "1:::2") 5 ∧ ipv6 (bs! "1:2:3:4:5:6:7:8:1.2.3.4x") 23 ∧ ipv6 (bs! "ab cd") 2 ∧
    parseIPv6 (bs! "1:2:3:4:5:6:7:8:1.2.3.4x") 0 true = .ok (23, some (.str (bs! "1:2:3:4:5:6:7:8:1.2.3.4"))) := by
  refine ⟨⟨by decide, bs! "1:::2", [], rfl, rfl, ?_⟩, ⟨by decide, bs! "1:2:3:4:5:6:7:8:1.2.3.4", bs! "x", rfl, rfl, ?_⟩, ⟨by decide, bs! "ab", bs! " cd", rfl, rfl, ?_⟩, by decide +kernel⟩
  · exact .abbr [bs! "1"] (bs! ":") [bs! "2"] [] (by unfold V6Group; decide) (.inr rfl) (by unfold V6Group; decide) (by decide) (by simp)
  · refine .groups4 [bs! "1", bs! "2", bs! "3", bs! "4", bs! "5", bs! "6", bs! "7", bs! "8"] (bs! "1.2.3.4") (bs! "x") (by unfold V6Group; decide) (by decide) (by decide) ?_
    exact ⟨bs! "1", bs! "2", bs! "3", bs! "4", bs! "x", rfl, by unfold Octet; decide, by unfold Octet; decide, by unfold Octet; decide, by unfold Octet; decide,
      .inr (by intro x hx; cases hx; decide), rfl⟩
  · exact .groups [bs! "ab"] (bs! " cd") (by unfold V6Group; decide) (by decide) (by decide) (by intro c hc; cases hc; decide)

end LN
