import Verif.Proofs.Fields
/-
C20-C36, first part: the scalar field types.  In every theorem `s` is the message, `offs` the
position of the field (at most the length), `t = s.drop offs` the remaining message, and
`want` = "the field has a name".
-/
set_option autoImplicit false
namespace LN
open Spec

variable {s : Bytes} {offs : Nat}

local macro "chk" : tactic => `(tactic|
  repeat' first
    | exact Chk.pure _
    | exact Chk.fail
    | exact Chk.digit rfl
    | exact Chk.char rfl
    | exact Chk.range rfl
    | exact Chk.guard _
    | apply Chk.rdBind rfl
    | apply Chk.bind
    | apply Chk.ite)

/-! ### C31 -/

/-- C31 date-iso. -/
theorem C31_date_iso (h : offs ≤ s.length) (want : Bool) :
    Implements (parseISODate s offs want) (isoDate (s.drop offs)) (text want (s.drop offs)) := by
  refine implements_of_chk (n0 := 10) (fun n hn => hn.2.2.2.2.2) ?_
  unfold parseISODate isoMonth isoDay
  have h0 : guardDigit s offs = guardDigit (s.drop offs) 0 := guardDigit_drop (k := 0) h
  have hl : (offs + 10 ≤ s.length) ↔ 10 ≤ (s.drop offs).length := by simp; omega
  have hs : strRes want s offs 10 = (10, text want (s.drop offs) 10) := rfl
  simp only [h0, guardDigit_drop h, guardChar_drop h, guardRange_drop h, ← rd_drop h, hl, hs]
  generalize s.drop offs = t
  by_cases h10 : 10 ≤ t.length
  · obtain ⟨c0, c1, c2, c3, c4, c5, c6, c7, c8, c9, t, rfl⟩ := len10 h10
    apply Chk.congr
    · chk
    · clear h h0 hl hs h10
      simp only [isoDate, fits, num2, is]
      simp [-not_and, isDigit_iff, u8_eq, decVal]
      omega
  · simp [Chk, h10]
    intro hsp
    exact absurd (fits_length hsp.1) h10


example : parseISODate (bs! "x 2024-02-31 y") 2 true
    = .ok (10, some (.str (bs! "2024-02-31"))) := by rfl
example : parseISODate (bs! "2024-13-31") 0 true = .fail := by rfl

/-! ### C32 -/

/-- C32 time-24hr. -/
theorem C32_time_24hr (h : offs ≤ s.length) (want : Bool) :
    Implements (parseTime24hr s offs want) (timeOfDay 23 (s.drop offs))
      (text want (s.drop offs)) := by
  refine implements_of_chk (n0 := 8) (fun n hn => hn.2.2.2.2) ?_
  unfold parseTime24hr timeTail hour24
  have hl : (offs + 8 ≤ s.length) ↔ 8 ≤ (s.drop offs).length := by simp; omega
  have hs : strRes want s offs 8 = (8, text want (s.drop offs) 8) := rfl
  simp only [rd_drop0 h, guardDigit_drop h, guardChar_drop h, guardRange_drop h, hl, hs]
  generalize s.drop offs = t
  by_cases h8 : 8 ≤ t.length
  · obtain ⟨c0, c1, c2, c3, c4, c5, c6, c7, t, rfl⟩ := len8 h8
    apply Chk.congr
    · chk
    · clear h hl hs h8
      simp only [timeOfDay, fits, num2, is]
      simp [-not_and, isDigit_iff, u8_eq, decVal]
      omega
  · simp [Chk, h8]
    intro hsp
    exact absurd (fits_length hsp.1) h8

/-- C32 time-12hr (hours 00 to 12). -/
theorem C32_time_12hr (h : offs ≤ s.length) (want : Bool) :
    Implements (parseTime12hr s offs want) (timeOfDay 12 (s.drop offs))
      (text want (s.drop offs)) := by
  refine implements_of_chk (n0 := 8) (fun n hn => hn.2.2.2.2) ?_
  unfold parseTime12hr timeTail hour12
  have hl : (offs + 8 ≤ s.length) ↔ 8 ≤ (s.drop offs).length := by simp; omega
  have hs : strRes want s offs 8 = (8, text want (s.drop offs) 8) := rfl
  simp only [rd_drop0 h, guardDigit_drop h, guardChar_drop h, guardRange_drop h, hl, hs]
  generalize s.drop offs = t
  by_cases h8 : 8 ≤ t.length
  · obtain ⟨c0, c1, c2, c3, c4, c5, c6, c7, t, rfl⟩ := len8 h8
    apply Chk.congr
    · chk
    · clear h hl hs h8
      simp only [timeOfDay, fits, num2, is]
      simp [-not_and, isDigit_iff, u8_eq, decVal]
      omega
  · simp [Chk, h8]
    intro hsp
    exact absurd (fits_length hsp.1) h8

example : parseTime24hr (bs! "at 23:59:00.") 3 true
    = .ok (8, some (.str (bs! "23:59:00"))) := by rfl
example : parseTime12hr (bs! "13:59:00") 0 true = .fail := by rfl

/-! ### C33 -/

private theorem minSec_chk {u : Bytes} {r : Nat × Option Json} (h5 : 5 ≤ u.length) :
    Chk (guardRange u 0 (ch! '0') (ch! '5') >>= fun _ => guardDigit u 1 >>= fun _ =>
      guardChar u 2 (ch! ':') >>= fun _ => guardRange u 3 (ch! '0') (ch! '5') >>= fun _ =>
      guardDigit u 4 >>= fun _ => (pure r : PR)) (minSec u) r := by
  obtain ⟨c0, c1, c2, c3, c4, u, rfl⟩ := len5 h5
  apply Chk.congr
  · chk
  · clear h5
    simp only [minSec, fits, num2, is]
    simp [-not_and, isDigit_iff, u8_eq, decVal]
    omega

/-- C33 duration. -/
theorem C33_duration (h : offs ≤ s.length) (want : Bool) :
    Implements (parseDuration s offs want) (duration (s.drop offs))
      (text want (s.drop offs)) := by
  have hS : ∀ n, strRes want s offs n = (n, text want (s.drop offs) n) := fun _ => rfl
  have hgd : ∀ k, offs + k ≤ s.length → ∀ j, guardDigit s (offs + k + j)
      = guardDigit ((s.drop offs).drop k) j := by
    intro k hk j; rw [guardDigit_drop hk, List.drop_drop]
  have hgc : ∀ k, offs + k ≤ s.length → ∀ j x, guardChar s (offs + k + j) x
      = guardChar ((s.drop offs).drop k) j x := by
    intro k hk j x; rw [guardChar_drop hk, List.drop_drop]
  have hgr : ∀ k, offs + k ≤ s.length → ∀ j x y, guardRange s (offs + k + j) x y
      = guardRange ((s.drop offs).drop k) j x y := by
    intro k hk j x y; rw [guardRange_drop hk, List.drop_drop]
  have hg0 : guardDigit s offs = guardDigit (s.drop offs) 0 := guardDigit_drop (k := 0) h
  have hlen : (s.drop offs).length = s.length - offs := by simp
  -- the tail after the first colon
  have tail : ∀ k, offs + k ≤ s.length → Chk (R.guard (offs + k + 5 ≤ s.length) >>= fun _ =>
      guardRange s (offs + k) (ch! '0') (ch! '5') >>= fun _ =>
      guardDigit s (offs + k + 1) >>= fun _ =>
      guardChar s (offs + k + 2) (ch! ':') >>= fun _ =>
      guardRange s (offs + k + 3) (ch! '0') (ch! '5') >>= fun _ =>
      guardDigit s (offs + k + 4) >>= fun _ =>
      (pure (strRes want s offs (offs + k + 5 - offs)) : PR))
      (minSec ((s.drop offs).drop k)) (k + 5, text want (s.drop offs) (k + 5)) := by
    intro k hk
    by_cases h5 : offs + k + 5 ≤ s.length
    · have := minSec_chk (r := (k + 5, text want (s.drop offs) (k + 5)))
        (u := (s.drop offs).drop k) (by simp; omega)
      have h0 : guardRange s (offs + k) (ch! '0') (ch! '5')
          = guardRange ((s.drop offs).drop k) 0 (ch! '0') (ch! '5') := hgr k hk 0 _ _
      rw [h0, hgd k hk, hgc k hk, hgr k hk, hgd k hk, hS,
        show offs + k + 5 - offs = k + 5 by omega]
      simp only [h5, decide_true, R.guard_true, R.ok_bind]
      exact this
    · constructor
      · intro hm
        have := fits_length hm.1
        simp at this; omega
      · intro _; simp [h5]
  unfold parseDuration
  rw [hg0]
  rcases ht : s.drop offs with _ | ⟨c0, t1⟩
  · constructor
    · rintro n (hn | hn) <;> exact absurd hn.1 (by simp [fits])
    · intro _; rfl
  by_cases hc0 : isDigit c0 = true
  rotate_left
  · constructor
    · rintro n (hn | hn) <;> exact absurd hn.1 (by simp [fits, hc0])
    · intro _; simp [guardDigit, rd, hc0]
  have hlt : offs + 1 ≤ s.length := by
    have := congrArg List.length ht; simp at this; omega
  have hrd1 : rd s (offs + 1) = rd (c0 :: t1) 1 := by rw [← ht, rd_drop h]
  have hg : guardDigit (c0 :: t1) 0 = .ok () := by simp [guardDigit, rd, hc0]
  rw [hg]; dsimp only; rw [hrd1]
  rcases t1 with _ | ⟨c1, t2⟩
  · constructor
    · rintro n (hn | hn) <;> exact absurd hn.1 (by simp [fits])
    · intro _
      have h1 : s.length = offs + 1 := by have := congrArg List.length ht; simp at this; omega
      have : rd s (offs + 1) = .ok 0 := by rw [← h1]; exact rd_end s
      simp [rd, isDigit, guardChar, h1]
  have hr1 : rd (c0 :: c1 :: t2) 1 = .ok c1 := by simp [rd]
  simp only [hr1, R.ok_bind]
  have hlt2 : offs + 2 ≤ s.length := by
    have := congrArg List.length ht; simp at this; omega
  have hrdc1 : rd s (offs + 1) = .ok c1 := by rw [hrd1, hr1]
  by_cases hc1 : isDigit c1 = true
  · -- two digits before the colon
    have hne : c1 ≠ 58 := by rintro rfl; exact absurd hc1 (by decide)
    rcases t2 with _ | ⟨c2, t3⟩
    · constructor
      · rintro n (hn | hn)
        · exact absurd hn.1 (by simp [fits, is, hne])
        · exact absurd hn.1 (by simp [fits])
      · intro _
        have h1 : s.length = offs + 2 := by have := congrArg List.length ht; simp at this; omega
        simp [hc1, guardChar, rd, h1]
    have hlt3 : offs + 3 ≤ s.length := by
      have := congrArg List.length ht; simp at this; omega
    have hrdc2 : rd s (offs + 2) = .ok c2 := by rw [← rd_drop h, ht]; simp [rd]
    have tl := tail 3 hlt3
    simp only [hc1, if_true, guardChar, hrdc2, R.ok_bind]
    by_cases hc2 : c2 = 58
    · subst hc2
      simp only [decide_true, R.guard_true, R.ok_bind]
      rw [← ht]
      refine implements_of_chk (n0 := 8) ?_ (tl.congr ?_)
      · rintro n (hn | hn)
        · rw [ht] at hn; exact absurd hn.1 (by simp [fits, is, hne])
        · exact hn.2.2
      · simp [duration, ht, fits, is, hc0, hc1]
    · constructor
      · rintro n (hn | hn)
        · exact absurd hn.1 (by simp [fits, is, hne])
        · exact absurd hn.1 (by simp [fits, is, hc2])
      · intro _; simp [hc2]
  · have tl := tail 2 hlt2
    simp only [hc1, guardChar, hrdc1, R.ok_bind, Bool.false_eq_true, if_false]
    by_cases hc2 : c1 = 58
    · subst hc2
      simp only [decide_true, R.guard_true, R.ok_bind]
      rw [← ht]
      refine implements_of_chk (n0 := 7) ?_ (tl.congr ?_)
      · rintro n (hn | hn)
        · exact hn.2.2
        · rw [ht] at hn; exact absurd hn.1 (by simp [fits, hc1])
      · simp [duration, ht, fits, is, hc0]
    · constructor
      · rintro n (hn | hn)
        · exact absurd hn.1 (by simp [fits, is, hc2])
        · exact absurd hn.1 (by simp [fits, hc1])
      · intro _; simp [hc2]

example : parseDuration (bs! "took 1:02:03 s") 5 true
    = .ok (7, some (.str (bs! "1:02:03"))) := by rfl
example : parseDuration (bs! "101:02:03") 0 true = .fail := by rfl

/-! ### C36 -/

theorem Chk.hex {t : Bytes} {k : Nat} {c : UInt8} (h : rd t k = .ok c) :
    Chk (guardX t k) (isXDigit c = true) () := by
  unfold guardX; rw [h]; exact Chk.okBind (Chk.guard _)

/-- C36 mac48. -/
theorem C36_mac48 (h : offs ≤ s.length) (want : Bool) :
    Implements (parseMAC48 s offs want) (mac48 (s.drop offs)) (text want (s.drop offs)) := by
  refine implements_of_chk (n0 := 17) (fun n hn => hn.2) ?_
  unfold parseMAC48
  have h0 : guardX s offs = guardX (s.drop offs) 0 := guardX_drop (k := 0) h
  have hl : (offs + 17 ≤ s.length) ↔ 17 ≤ (s.drop offs).length := by simp; omega
  have hs : strRes want s offs 17 = (17, text want (s.drop offs) 17) := rfl
  simp only [h0, guardX_drop h, guardChar_drop h, ← rd_drop h, hl, hs]
  generalize s.drop offs = t
  by_cases h17 : 17 ≤ t.length
  · obtain ⟨c0, c1, c2, c3, c4, c5, c6, c7, c8, c9, c10, c11, c12, c13, c14, c15, c16, t, rfl⟩ :=
      len17 h17
    apply Chk.congr
    · repeat' first
        | exact Chk.pure _
        | exact Chk.hex rfl
        | exact Chk.char rfl
        | exact Chk.guard _
        | apply Chk.rdBind rfl
        | apply Chk.bind
    · clear h h0 hl hs h17
      simp only [mac48, fits, is]
      simp [-not_and, ← u8_eq]
      constructor
      · rintro ⟨h1, h2, h3, h4, h5, h6, h7, h8, h9, h10, h11, h12, h13, h14, h15, h16, h17⟩
        rcases h3 with h3 | h3 <;> subst h3 <;> simp [*]
      · rintro (⟨h1, h2, h3, h4, h5, h6, h7, h8, h9, h10, h11, h12, h13, h14, h15, h16, h17⟩ |
          ⟨h1, h2, h3, h4, h5, h6, h7, h8, h9, h10, h11, h12, h13, h14, h15, h16, h17⟩) <;> simp [*]
  · simp [Chk, h17]
    rintro ⟨⟨_, _, hsp⟩, _⟩
    exact absurd (fits_length hsp) h17

example : parseMAC48 (bs! "at f0:f6:1c:5f:cc:A2.") 3 true
    = .ok (17, some (.str (bs! "f0:f6:1c:5f:cc:A2"))) := by rfl
example : parseMAC48 (bs! "f0:f6:1c-5f:cc:A2") 0 true = .fail := by rfl

end LN
