import Verif.Props.FieldsG
/-
ipv6: exactly what is accepted.
-/
set_option autoImplicit false
namespace LN
open Spec

theorem v4_text_of {v4 tl : Bytes} (h : ipv4 (v4 ++ tl) v4.length) : V4Text v4 := by
  obtain ⟨a, b, c, d, rest, he, ha, hb, hc, hd, -, hn⟩ := h
  have hl : v4 = a ++ bs! "." ++ b ++ bs! "." ++ c ++ bs! "." ++ d := by
    have := congrArg (List.take v4.length) he
    rw [List.take_left, List.take_append_of_le_length (by simp; omega), List.take_of_length_le (by simp; omega)] at this
    exact this
  exact ⟨a, b, c, d, [], by rw [List.append_nil]; exact hl, ha, hb, hc, hd, .inr (fun x hx => by cases hx), hn⟩

/-- a colon at the end of the message -/
theorem v6_colon_end {s : Bytes} {i : Nat} {g : Bytes} (n bb nb : Nat) (ab : Bool)
    (h : s.drop i = g ++ [ch! ':']) (hg : g.length ≤ 4) (hx : ∀ c ∈ g, isXDigit c = true) :
    ipv6Loop s (n + 1) i bb nb ab = .ok ⟨i + g.length + 1, i, nb + 1, ab, false⟩ := by
  have hi : i < s.length := by
    cases g with
    | nil => exact lt_of_drop_cons h
    | cons x g => exact lt_of_drop_cons h
  have d1 := drop_of_append h
  have l1 := lt_of_drop_cons d1
  have hl := len_of_drop h (by omega)
  simp at hl
  rw [ipv6Loop]
  simp only [skipBlock hi h hg hx (headNot_cons.2 (by decide)), R.ok_bind, rd_of_cons d1]
  rw [if_neg (by omega), if_neg (by decide), if_neg (by decide)]
  simp only [R.guard, decide_true, if_true, R.ok_bind]
  rw [if_pos (by omega)]
  rfl

/-- behind `::`: perhaps a third colon, groups -/
theorem v6_tail {s : Bytes} {x : Bytes} (hx : x = [] ∨ x = bs! ":") (b : List Bytes) (tl : Bytes) (hb : ∀ g ∈ b, V6Group g)
    (ht : HeadNot (fun c => !isSpace c) tl) {j : Nat} (hd : s.drop j = x ++ sepBy (ch! ':') b ++ tl) (hne : x ++ sepBy (ch! ':') b ++ tl ≠ [])
    {n bb nb : Nat} (hn : x.length + (if b = [] ∧ tl ≠ [] then 1 else b.length) ≤ n) :
    ∃ bb', ipv6Loop s n j bb nb true =
      .ok ⟨j + (x ++ sepBy (ch! ':') b).length, bb', nb + x.length + (if b = [] ∧ tl ≠ [] then 1 else b.length), true, false⟩ := by
  -- without the third colon
  have key : ∀ (j n bb nb : Nat), s.drop j = sepBy (ch! ':') b ++ tl → sepBy (ch! ':') b ++ tl ≠ [] → (if b = [] ∧ tl ≠ [] then 1 else b.length) ≤ n →
      ∃ bb', ipv6Loop s n j bb nb true = .ok ⟨j + (sepBy (ch! ':') b).length, bb', nb + (if b = [] ∧ tl ≠ [] then 1 else b.length), true, false⟩ := by
    intro j n bb nb hd hne hn
    by_cases hb0 : b = []
    · subst hb0
      have ht0 : tl ≠ [] := by simpa [sepBy] using hne
      rw [if_pos ⟨rfl, ht0⟩] at hn ⊢
      obtain ⟨m, rfl⟩ : ∃ m, n = m + 1 := ⟨n - 1, by omega⟩
      have hlt : j < s.length := by
        cases tl with
        | nil => exact absurd rfl ht0
        | cons c tl => exact lt_of_drop_cons (by simpa [sepBy] using hd)
      exact ⟨j, by simpa [sepBy] using v6_fin (g := []) m bb nb true hlt (by simpa [sepBy] using hd) (by simp) (by simp) ht⟩
    · rw [if_neg (fun h => hb0 h.1)] at hn ⊢
      obtain ⟨bb', f⟩ := v6_to_end b (n - b.length) j bb nb true tl hb hb0 hd ht
      rw [show b.length + (n - b.length) = n by omega] at f
      exact ⟨bb', f⟩
  rcases hx with rfl | rfl
  · simpa using key j n bb nb (by simpa using hd) (by simpa using hne) (by simpa using hn)
  · have e1 : (bs! ":").length = 1 := rfl
    rw [e1] at hn ⊢
    obtain ⟨m, rfl⟩ : ∃ m, n = m + 1 := ⟨n - 1, by omega⟩
    by_cases hr : sepBy (ch! ':') b ++ tl = []
    · have hb0 : b = [] := by
        by_cases h : b = []
        · exact h
        · obtain ⟨c, r, h1, -⟩ := v6_first h hb tl
          rw [hr] at h1; cases h1
      subst hb0
      have ht0 : tl = [] := by simpa [sepBy] using hr
      subst ht0
      exact ⟨j, by simpa [sepBy] using v6_colon_end (g := []) m bb nb true (by simpa [sepBy] using hd) (by simp) (by simp)⟩
    · obtain ⟨c, r, hcr, hc⟩ : ∃ c r, sepBy (ch! ':') b ++ tl = c :: r ∧ c ≠ ch! ':' := by
        by_cases h : b = []
        · subst h
          cases tl with
          | nil => exact absurd rfl hr
          | cons c tl =>
            refine ⟨c, tl, rfl, ?_⟩
            intro h0; subst h0
            have := headNot_cons.1 ht
            revert this; decide
        · obtain ⟨c, r, h1, h2⟩ := v6_first h hb tl
          exact ⟨c, r, h1, xd_ne_colon h2⟩
      have hd' : s.drop j = [] ++ ch! ':' :: c :: r := by rw [hd, ← hcr]; rfl
      have hd2 : s.drop (j + 1) = sepBy (ch! ':') b ++ tl := by rw [hcr]; exact drop_of_cons hd'
      rw [v6_colon m bb nb true hd' (by simp) (by simp) hc]
      obtain ⟨bb', f⟩ := key (j + 1) m j (nb + 1) hd2 hr (by omega)
      refine ⟨bb', ?_⟩
      have e2 : j + ([] : Bytes).length + 1 = j + 1 := rfl
      rw [e2, f]
      simp only [List.length_append, e1]
      congr 2
      omega

/-- behind `::`: perhaps a third colon, groups and an IPv4 address -/
theorem v6_tail4 {s : Bytes} {x : Bytes} (hx : x = [] ∨ x = bs! ":") (b : List Bytes) (v4 tl : Bytes) (hb : ∀ g ∈ b, V6Group g)
    (h4 : V4Text v4) {j : Nat} (hd : s.drop j = x ++ sepBy (ch! ':') (b ++ [v4]) ++ tl)
    {n bb nb : Nat} (hn : x.length + b.length + 1 ≤ n) :
    ∃ k, ipv6Loop s n j bb nb true = .ok ⟨k, j + (x ++ gcol b).length, nb + x.length + b.length + 1, true, true⟩ := by
  rcases hx with rfl | rfl
  · obtain ⟨k, f⟩ := v6_to_v4 b v4 (n - b.length - 1) j bb nb true tl hb h4 (by simpa using hd)
    simp only [List.length_nil] at hn
    rw [show b.length + (n - b.length - 1 + 1) = n by omega] at f
    exact ⟨k, by simpa using f⟩
  · have e1 : (bs! ":").length = 1 := rfl
    rw [e1] at hn ⊢
    obtain ⟨m, rfl⟩ : ∃ m, n = m + 1 := ⟨n - 1, by omega⟩
    obtain ⟨c, r, hcr, hc⟩ : ∃ c r, sepBy (ch! ':') (b ++ [v4]) ++ tl = c :: r ∧ c ≠ ch! ':' := by
      by_cases h : b = []
      · subst h
        obtain ⟨x1, x2, x3, x4, rest, he, ho, -⟩ := h4
        cases hk : x1 with
        | nil => have := ho.1; rw [hk] at this; simp at this
        | cons c k =>
          refine ⟨c, _, by simp only [List.nil_append, sepBy, he, hk, List.cons_append]; rfl, ?_⟩
          have h1 := ho.2.2.1 c (by rw [hk]; simp)
          intro h0; subst h0; revert h1; decide
      · obtain ⟨c, r, h1, h2⟩ := v6_first h hb (ch! ':' :: v4 ++ tl)
        refine ⟨c, r, ?_, xd_ne_colon h2⟩
        rw [← h1]
        obtain ⟨g0, g, rfl⟩ := snoc_of_ne_nil h
        rw [sepBy_snoc, sepBy_snoc]; simp
    have hd' : s.drop j = [] ++ ch! ':' :: c :: r := by rw [hd, ← hcr]; simp
    have hd2 : s.drop (j + 1) = sepBy (ch! ':') (b ++ [v4]) ++ tl := by rw [hcr]; exact drop_of_cons hd'
    rw [v6_colon m bb nb true hd' (by simp) (by simp) hc]
    obtain ⟨k, f⟩ := v6_to_v4 b v4 (m - b.length - 1) (j + 1) j (nb + 1) true tl hb h4 hd2
    rw [show b.length + (m - b.length - 1 + 1) = m by omega] at f
    refine ⟨k, ?_⟩
    have e2 : j + ([] : Bytes).length + 1 = j + 1 := rfl
    rw [e2, f]
    simp only [List.length_append, e1]
    congr 2 <;> omega

/-- what is described is accepted -/
theorem v6_complete {s : Bytes} {offs : Nat} {w tl : Bytes} (want : Bool) (h : offs ≤ s.length) (hs : s.drop offs = w ++ tl)
    (h2 : 2 ≤ w.length + tl.length) (hw : V6Loose w tl) :
    parseIPv6 s offs want = .ok (w.length, text want (s.drop offs) w.length) := by
  have hlen := len_of_drop hs h
  simp only [List.length_append] at hlen
  cases hw with
  | groups gs tl hv h1 h8 ht =>
    have ht' : HeadNot (fun c => !isSpace c) tl := fun c hc => by simp [ht c hc]
    have hne : gs ≠ [] := by intro h0; rw [h0] at h1; simp at h1
    obtain ⟨bb, hl⟩ := v6_to_end gs (9 - gs.length) offs offs 0 false tl hv hne hs ht'
    rw [show gs.length + (9 - gs.length) = 9 by omega] at hl
    obtain ⟨c, r, h3, h4⟩ := v6_first hne hv []
    rw [List.append_nil] at h3
    obtain ⟨u, e, h5, h6⟩ := v6_last hne hv []
    exact v6_finish want h hs h2 ⟨c, r, h3, .inl h4⟩ ⟨u, e, h5, .inl h6⟩ _ _ hl
      (ipv6V4_no rfl) rfl (by simpa using h8) (by simp)
  | groups4 gs v4 tl hv h1 h8 h4 =>
    have hne : gs ≠ [] := by intro h0; rw [h0] at h1; simp at h1
    have h4t := v4_text_of h4
    obtain ⟨k, hl⟩ := v6_to_v4 gs v4 (8 - gs.length) offs offs 0 false tl hv h4t hs
    rw [show gs.length + (8 - gs.length + 1) = 9 by omega] at hl
    obtain ⟨c, r, h3, h5⟩ := v6_first hne hv (ch! ':' :: v4)
    have e0 : sepBy (ch! ':') (gs ++ [v4]) = sepBy (ch! ':') gs ++ ch! ':' :: v4 := by
      obtain ⟨g0, g, rfl⟩ := snoc_of_ne_nil hne
      rw [sepBy_snoc, sepBy_snoc]; simp
    obtain ⟨u, e, h6, h7⟩ := v4_last h4t gs []
    have d4 : s.drop (offs + (gcol gs).length) = v4 ++ tl := by
      apply drop_of_append
      rw [hs, sepBy_snoc]; simp [gcol]
    have hgl : 0 < (gcol gs).length := by
      obtain ⟨g0, g, rfl⟩ := snoc_of_ne_nil hne
      simp [gcol]; omega
    have hwl : (sepBy (ch! ':') (gs ++ [v4])).length = (gcol gs).length + v4.length := by
      rw [sepBy_snoc, List.length_append]; rfl
    have y := ipv6V4_yes (s := s) (offs := offs) (k := k) (bb := offs + (gcol gs).length) (nb := 0 + gs.length + 1) (ab := false)
      (by omega) (by omega) (by rw [d4]; exact h4)
    exact v6_finish want h hs h2 ⟨c, r, by rw [e0]; exact h3, .inl h5⟩ ⟨u, e, h6, .inl h7⟩ _ _ hl y (by simp only; omega) (by simpa using h8) (by simp)
  | abbr a x b tl ha hx hb hn ht =>
    have ht' : HeadNot (fun c => !isSpace c) tl := fun c hc => by simp [ht c hc]
    have hs1 : s.drop offs = sepBy (ch! ':') a ++ ch! ':' :: ch! ':' :: (x ++ sepBy (ch! ':') b ++ tl) := by
      rw [hs]; simp
    obtain ⟨bb, hl⟩ := v6_upto_dbl a (9 - max 1 a.length) offs offs _ ha hs1
    rw [show max 1 a.length + (9 - max 1 a.length) = 9 by omega] at hl
    have hd : s.drop (offs + (sepBy (ch! ':') a).length + 2) = x ++ sepBy (ch! ':') b ++ tl := by
      have := drop_of_cons (drop_of_cons (drop_of_append hs1))
      rw [← this]
    have h2' : (bs! "::").length = 2 := rfl
    have hfirst : ∃ c r, sepBy (ch! ':') a ++ bs! "::" ++ x ++ sepBy (ch! ':') b = c :: r ∧ (isXDigit c = true ∨
        ∃ r', sepBy (ch! ':') a ++ bs! "::" ++ x ++ sepBy (ch! ':') b = ch! ':' :: ch! ':' :: r') := by
      by_cases h0 : a = []
      · subst h0; exact ⟨_, _, rfl, .inr ⟨_, rfl⟩⟩
      · obtain ⟨c, r, h1, h2⟩ := v6_first h0 ha (bs! "::" ++ x ++ sepBy (ch! ':') b)
        exact ⟨c, r, by rw [← h1]; simp, .inl h2⟩
    have hlast : ∃ u c, sepBy (ch! ':') a ++ bs! "::" ++ x ++ sepBy (ch! ':') b = u ++ [c] ∧
        (c ≠ ch! ':' ∨ ∃ u', sepBy (ch! ':') a ++ bs! "::" ++ x ++ sepBy (ch! ':') b = u' ++ [ch! ':', ch! ':']) := by
      by_cases hb0 : b = []
      · subst hb0
        rcases hx with rfl | rfl
        · exact ⟨sepBy (ch! ':') a ++ bs! ":", ch! ':', by simp [sepBy], .inr ⟨sepBy (ch! ':') a, by simp [sepBy]⟩⟩
        · exact ⟨sepBy (ch! ':') a ++ bs! "::", ch! ':', by simp [sepBy], .inr ⟨sepBy (ch! ':') a ++ bs! ":", by simp [sepBy]⟩⟩
      · obtain ⟨u, e, h3, h4⟩ := v6_last hb0 hb (sepBy (ch! ':') a ++ bs! "::" ++ x)
        exact ⟨u, e, h3, .inl h4⟩
    by_cases hr : x ++ sepBy (ch! ':') b ++ tl = []
    · rw [if_pos hr] at hl
      have hr' : x ++ sepBy (ch! ':') b = [] := (List.append_eq_nil_iff.1 hr).1
      refine v6_finish want h hs h2 hfirst hlast _ _ hl (ipv6V4_no rfl) ?_ (by simp only; omega) (by simp only; omega)
      rw [List.append_assoc, hr']; simp; omega
    · rw [if_neg hr] at hl
      obtain ⟨bb', f⟩ := v6_tail hx b tl hb ht' hd hr (n := 9 - max 1 a.length) (bb := bb) (nb := max 1 a.length) (by omega)
      rw [f] at hl
      exact v6_finish want h hs h2 hfirst hlast _ _ hl (ipv6V4_no rfl) (by simp only [List.length_append]; omega) (by simp only; omega) (by simp only; omega)
  | abbr4 a x b v4 tl ha hx hb hn h4 =>
    have h4t := v4_text_of h4
    have hs1 : s.drop offs = sepBy (ch! ':') a ++ ch! ':' :: ch! ':' :: (x ++ sepBy (ch! ':') (b ++ [v4]) ++ tl) := by
      rw [hs]; simp
    obtain ⟨bb, hl⟩ := v6_upto_dbl a (9 - max 1 a.length) offs offs _ ha hs1
    rw [show max 1 a.length + (9 - max 1 a.length) = 9 by omega] at hl
    have hd : s.drop (offs + (sepBy (ch! ':') a).length + 2) = x ++ sepBy (ch! ':') (b ++ [v4]) ++ tl := by
      have := drop_of_cons (drop_of_cons (drop_of_append hs1))
      rw [← this]
    have h2' : (bs! "::").length = 2 := rfl
    have hfirst : ∃ c r, sepBy (ch! ':') a ++ bs! "::" ++ x ++ sepBy (ch! ':') (b ++ [v4]) = c :: r ∧ (isXDigit c = true ∨
        ∃ r', sepBy (ch! ':') a ++ bs! "::" ++ x ++ sepBy (ch! ':') (b ++ [v4]) = ch! ':' :: ch! ':' :: r') := by
      by_cases h0 : a = []
      · subst h0; exact ⟨_, _, rfl, .inr ⟨_, rfl⟩⟩
      · obtain ⟨c, r, h1, h2⟩ := v6_first h0 ha (bs! "::" ++ x ++ sepBy (ch! ':') (b ++ [v4]))
        exact ⟨c, r, by rw [← h1]; simp, .inl h2⟩
    obtain ⟨u, e, h3, h5⟩ := v4_last h4t b (sepBy (ch! ':') a ++ bs! "::" ++ x)
    have hv4l := v4_len h4t
    have hbl : (sepBy (ch! ':') (b ++ [v4])).length = (gcol b).length + v4.length := by
      rw [sepBy_snoc, List.length_append]; rfl
    rw [if_neg (by
      intro h0
      have := congrArg List.length h0
      simp only [List.length_append, List.length_nil, hbl] at this
      omega)] at hl
    obtain ⟨k, f⟩ := v6_tail4 hx b v4 tl hb h4t hd (n := 9 - max 1 a.length) (bb := bb) (nb := max 1 a.length) (by omega)
    rw [f] at hl
    have d4 : s.drop (offs + (sepBy (ch! ':') a).length + 2 + (x ++ gcol b).length) = v4 ++ tl := by
      apply drop_of_append
      rw [hd, sepBy_snoc]; simp [gcol]
    have y := ipv6V4_yes (s := s) (offs := offs) (k := k) (bb := offs + (sepBy (ch! ':') a).length + 2 + (x ++ gcol b).length)
      (nb := max 1 a.length + x.length + b.length + 1) (ab := true) (by omega) (by simp only [List.length_append] at hlen ⊢; omega)
      (by rw [d4]; exact h4)
    exact v6_finish want h hs h2 hfirst ⟨u, e, h3, .inl h5⟩ _ _ hl y
      (by simp only [List.length_append]; omega) (by simp only; omega) (by simp only; omega)

/-- one block -/
theorem skipBlock_inv {s : Bytes} {i j : Nat} (h : skipIPv6AddrBlock s i = .ok j) (hi : i ≤ s.length) :
    ∃ g r : Bytes, s.drop i = g ++ r ∧ g.length ≤ 4 ∧ (∀ c ∈ g, isXDigit c = true) ∧ j = i + g.length ∧ i < s.length := by
  unfold skipIPv6AddrBlock at h
  obtain ⟨_, hg, h⟩ := R.bind_eq_ok.1 h
  simp only [R.pure_eq, R.ok.injEq] at h
  have hne := of_decide_eq_true (R.guard_eq_ok.1 hg)
  obtain ⟨r, hr⟩ : ((s.drop i).take 4).takeWhile isXDigit <+: s.drop i :=
    (List.takeWhile_prefix _).trans (List.take_prefix _ _)
  refine ⟨_, r, hr.symm, ?_, fun c hc => takeWhile_mem hc, h.symm, by omega⟩
  have := (List.takeWhile_prefix isXDigit (l := (s.drop i).take 4)).length_le
  simp at this ⊢
  omega

theorem rd_head {s : Bytes} {j : Nat} {c : UInt8} {r : Bytes} (h : rd s j = .ok c) (hd : s.drop j = r) (hj : j < s.length) : ∃ r', r = c :: r' := by
  subst hd
  rcases rd_eq_ok.1 h with h | ⟨h, -⟩
  · rw [← List.head?_drop] at h
    cases hk : s.drop j with
    | nil => rw [hk] at h; cases h
    | cons d r => rw [hk] at h; cases h; exact ⟨r, rfl⟩
  · omega

/-- one turn of the loop, if the field is accepted -/
inductive V6Step (s : Bytes) (n i nb : Nat) (ab : Bool) (w : V6) (g r : Bytes) : Prop
  | ends : HeadNot (fun c => !isSpace c) r → w = ⟨i + g.length, i, nb + 1, ab, false⟩ → V6Step s n i nb ab w g r
  | dot (r' : Bytes) : r = ch! '.' :: r' → w = ⟨i + g.length, i, nb + 1, ab, true⟩ → V6Step s n i nb ab w g r
  | colonEnd : r = [ch! ':'] → w = ⟨i + g.length + 1, i, nb + 1, ab, false⟩ → V6Step s n i nb ab w g r
  | dblEnd : ab = false → r = [ch! ':', ch! ':'] → w = ⟨i + g.length + 2, i, nb + 1, true, false⟩ → V6Step s n i nb ab w g r
  | dbl (r' : Bytes) : ab = false → r = ch! ':' :: ch! ':' :: r' → r' ≠ [] → ipv6Loop s n (i + g.length + 2) i (nb + 1) true = .ok w → V6Step s n i nb ab w g r
  | colon (c : UInt8) (r' : Bytes) : r = ch! ':' :: c :: r' → c ≠ ch! ':' → ipv6Loop s n (i + g.length + 1) i (nb + 1) ab = .ok w → V6Step s n i nb ab w g r

theorem v6_step {s : Bytes} {n i bb nb : Nat} {ab : Bool} {w : V6} (hi : i ≤ s.length) (h : ipv6Loop s (n + 1) i bb nb ab = .ok w) :
    ∃ g r : Bytes, s.drop i = g ++ r ∧ g.length ≤ 4 ∧ (∀ c ∈ g, isXDigit c = true) ∧ V6Step s n i nb ab w g r := by
  rw [ipv6Loop] at h
  dsimp only at h
  obtain ⟨j, h1, h⟩ := R.bind_eq_ok.1 h
  obtain ⟨g, r, hd, hg, hx, rfl, hlt⟩ := skipBlock_inv h1 hi
  refine ⟨g, r, hd, hg, hx, ?_⟩
  have hl := len_of_drop hd hi
  simp at hl
  have d1 := drop_of_append hd
  by_cases e1 : i + g.length = s.length
  · rw [if_pos e1] at h
    have : r = [] := List.length_eq_zero_iff.1 (by omega)
    subst this
    exact .ends .nil (R.ok.inj h).symm
  rw [if_neg e1] at h
  obtain ⟨c, hc, h⟩ := R.bind_eq_ok.1 h
  obtain ⟨r', hr'⟩ := rd_head hc d1 (by omega)
  subst hr'
  by_cases e2 : isSpace c = true
  · rw [if_pos e2] at h
    exact .ends (headNot_cons.2 (by simp [e2])) (R.ok.inj h).symm
  rw [if_neg e2] at h
  by_cases e3 : c = ch! '.'
  · rw [if_pos e3] at h
    subst e3
    exact .dot r' rfl (R.ok.inj h).symm
  rw [if_neg e3] at h
  obtain ⟨_, hg', k⟩ := R.bind_eq_ok.1 h
  clear h
  have hcol := of_decide_eq_true (R.guard_eq_ok.1 hg')
  subst hcol
  simp at hl
  have d2 := drop_of_cons d1
  by_cases e4 : i + g.length + 1 = s.length
  · rw [if_pos e4] at k
    have : r' = [] := List.length_eq_zero_iff.1 (by omega)
    subst this
    exact .colonEnd rfl (R.ok.inj k).symm
  rw [if_neg e4] at k
  obtain ⟨c2, hc2, k⟩ := R.bind_eq_ok.1 k
  obtain ⟨r2, hr2⟩ := rd_head hc2 d2 (by omega)
  subst hr2
  simp at hl
  by_cases e5 : ab = true
  · rw [if_pos e5] at k
    obtain ⟨_, hg2, k⟩ := R.bind_eq_ok.1 k
    exact .colon c2 r2 rfl (of_decide_eq_true (R.guard_eq_ok.1 hg2)) k
  rw [if_neg e5] at k
  have e5' : ab = false := by simpa using e5
  by_cases e6 : c2 = ch! ':'
  · rw [if_pos e6] at k
    subst e6
    by_cases e7 : i + g.length + 1 + 1 = s.length
    · rw [if_pos e7] at k
      have : r2 = [] := List.length_eq_zero_iff.1 (by omega)
      subst this
      exact .dblEnd e5' rfl (R.ok.inj k).symm
    · rw [if_neg e7] at k
      exact .dbl r2 e5' rfl (by intro h0; subst h0; simp at hl; omega) k
  · rw [if_neg e6] at k
    exact .colon c2 r2 rfl e6 k

/-- what a row of groups, beginning with something else than a colon, can be followed by -/
inductive V6Row (s : Bytes) (n i nb : Nat) (ab : Bool) (w : V6) (gs : List Bytes) : Prop
  | ends (g tl : Bytes) : s.drop i = gcol gs ++ (g ++ tl) → g.length ≤ 4 → (∀ c ∈ g, isXDigit c = true) → HeadNot (fun c => !isSpace c) tl →
      w = ⟨i + (gcol gs).length + g.length, i + (gcol gs).length, nb + gs.length + 1, ab, false⟩ → V6Row s n i nb ab w gs
  | dot (g r : Bytes) : s.drop i = gcol gs ++ (g ++ ch! '.' :: r) →
      w = ⟨i + (gcol gs).length + g.length, i + (gcol gs).length, nb + gs.length + 1, ab, true⟩ → V6Row s n i nb ab w gs
  | colonEnd (k : Nat) : gs ≠ [] → s.drop i = gcol gs → w = ⟨i + (gcol gs).length, k, nb + gs.length, ab, false⟩ → V6Row s n i nb ab w gs
  | dblEnd (k : Nat) : gs ≠ [] → ab = false → s.drop i = gcol gs ++ [ch! ':'] → w = ⟨i + (gcol gs).length + 1, k, nb + gs.length, true, false⟩ → V6Row s n i nb ab w gs
  | dbl (m k : Nat) (r : Bytes) : gs ≠ [] → ab = false → s.drop i = gcol gs ++ ch! ':' :: r → r ≠ [] → n = gs.length + m →
      ipv6Loop s m (i + (gcol gs).length + 1) k (nb + gs.length) true = .ok w → V6Row s n i nb ab w gs
  | exhausted : w.nBlocks = nb + n → w.hasIPv4 = false → V6Row s n i nb ab w gs

theorem gcol_cons (g : Bytes) (gs : List Bytes) : gcol (g :: gs) = g ++ ch! ':' :: gcol gs := by simp [gcol]

theorem v6_row {s : Bytes} : ∀ (n i bb nb : Nat) (ab : Bool) (w : V6), i ≤ s.length → (s.drop i).head? ≠ some (ch! ':') →
    ipv6Loop s n i bb nb ab = .ok w → ∃ gs : List Bytes, (∀ g ∈ gs, V6Group g) ∧ V6Row s n i nb ab w gs
  | 0, i, bb, nb, ab, w, _, _, h => by
    rw [ipv6Loop] at h
    cases h
    exact ⟨[], by simp, .exhausted rfl rfl⟩
  | n + 1, i, bb, nb, ab, w, hi, hh, h => by
    obtain ⟨g, r, hd, hg, hx, hst⟩ := v6_step hi h
    have hgne : ∀ r', r = ch! ':' :: r' → V6Group g := by
      intro r' hr
      refine ⟨?_, hg, hx⟩
      cases g with
      | nil => rw [hd, hr] at hh; exact absurd rfl hh
      | cons c g => simp
    have hl := len_of_drop hd hi
    simp at hl
    cases hst with
    | ends ht hw => exact ⟨[], by simp, .ends g r (by simpa [gcol] using hd) hg hx ht (by simpa [gcol] using hw)⟩
    | dot r' hr hw => subst hr; exact ⟨[], by simp, .dot g r' (by simpa [gcol] using hd) (by simpa [gcol] using hw)⟩
    | colonEnd hr hw =>
      subst hr
      exact ⟨[g], by simpa using hgne _ rfl, .colonEnd i (by simp) (by simpa [gcol] using hd) (by rw [hw]; simp [gcol]; omega)⟩
    | dblEnd hab hr hw =>
      subst hr
      exact ⟨[g], by simpa using hgne _ rfl, .dblEnd i (by simp) hab (by simpa [gcol] using hd) (by rw [hw]; simp [gcol]; omega)⟩
    | dbl r' hab hr hne hw =>
      subst hr
      refine ⟨[g], by simpa using hgne _ rfl, .dbl n i r' (by simp) hab (by simpa [gcol] using hd) hne (by simp; omega) ?_⟩
      rw [← hw]
      simp [gcol]; congr 1
    | colon c r' hr hc hw =>
      subst hr
      have d1 := drop_of_cons (drop_of_append hd)
      obtain ⟨gs, hgs, hrow⟩ := v6_row n (i + g.length + 1) i (nb + 1) ab w (by simp at hl; omega) (by rw [d1]; simpa using hc) hw
      have hcons : ∀ X : Bytes, s.drop (i + g.length + 1) = gcol gs ++ X → s.drop i = gcol (g :: gs) ++ X := by
        intro X hX
        rw [hd, gcol_cons]
        rw [d1] at hX
        simp [hX]
      have hlen : i + g.length + 1 + (gcol gs).length = i + (gcol (g :: gs)).length := by rw [gcol_cons]; simp; omega
      refine ⟨g :: gs, ?_, ?_⟩
      · intro x hx'
        rcases List.mem_cons.1 hx' with rfl | hx'
        · exact hgne _ rfl
        · exact hgs x hx'
      · have hnb : nb + 1 + gs.length = nb + (g :: gs).length := by simp; omega
        cases hrow with
        | ends g' tl h1 h2 h3 h4 h5 => exact .ends g' tl (hcons _ h1) h2 h3 h4 (by rw [h5, hlen, hnb])
        | dot g' r'' h1 h2 => exact .dot g' r'' (hcons _ h1) (by rw [h2, hlen, hnb])
        | colonEnd k h0 h1 h2 => exact .colonEnd k (by simp) (by have := hcons [] (by simpa using h1); simpa using this) (by rw [h2, hlen, hnb])
        | dblEnd k h0 hab h1 h2 => exact .dblEnd k (by simp) hab (hcons _ h1) (by rw [h2, hlen, hnb])
        | dbl m k r'' h0 hab h1 h2 h3 h4 => exact .dbl m k r'' (by simp) hab (hcons _ h1) h2 (by rw [h3]; simp; omega) (by rw [← hlen, ← hnb]; exact h4)
        | exhausted h1 h2 => exact .exhausted (by rw [h1]; omega) h2

/-- the check at the end: no single colon -/
def ColonsOK (s : Bytes) (i : Nat) : Prop := rd s (i - 1) = .ok (ch! ':') → rd s (i - 2) = .ok (ch! ':')

theorem no_trailing_colon {s : Bytes} {j : Nat} {gs : List Bytes} {X : Bytes} (hne : gs ≠ []) (hgs : ∀ g ∈ gs, V6Group g) (hd : s.drop j = gcol gs ++ X)
    (hc : ColonsOK s (j + (gcol gs).length)) : False := by
  obtain ⟨g0, g, rfl⟩ := snoc_of_ne_nil hne
  obtain ⟨h1, -, h3⟩ := hgs g (by simp)
  obtain ⟨u, c, rfl⟩ := snoc_of_ne_nil (l := g) (by intro h; rw [h] at h1; simp at h1)
  have e : gcol (g0 ++ [u ++ [c]]) = (gcol g0 ++ u) ++ [c, ch! ':'] := by simp [gcol]
  rw [e] at hd hc
  have d1 : s.drop (j + (gcol g0 ++ u).length) = c :: ch! ':' :: X := drop_of_append (by rw [hd]; simp)
  have d2 := drop_of_cons d1
  have r1 := rd_of_cons d1
  have r2 := rd_of_cons d2
  have i1 : j + (gcol g0 ++ u ++ [c, ch! ':']).length - 1 = j + (gcol g0 ++ u).length + 1 := by simp; omega
  have i2 : j + (gcol g0 ++ u ++ [c, ch! ':']).length - 2 = j + (gcol g0 ++ u).length := by simp; omega
  unfold ColonsOK at hc
  rw [i1, i2, r1] at hc
  have := hc r2
  cases this
  have := h3 (ch! ':') (by simp)
  revert this; decide

/-- a row of groups, if the field is accepted -/
inductive V6Out (s : Bytes) (offs n j nb : Nat) (ab : Bool) (v0 v' : V6) (gs : List Bytes) : Prop
  | groups (b : List Bytes) (tl : Bytes) : b ≠ [] → (∀ g ∈ b, V6Group g) → s.drop j = sepBy (ch! ':') b ++ tl → HeadNot (fun c => !isSpace c) tl →
      v'.i = j + (sepBy (ch! ':') b).length → v'.nBlocks = nb + b.length → v'.abbr = ab → V6Out s offs n j nb ab v0 v' gs
  | v4 (v4 tl : Bytes) : s.drop j = sepBy (ch! ':') (gs ++ [v4]) ++ tl → ipv4 (v4 ++ tl) v4.length → v'.i = j + (sepBy (ch! ':') (gs ++ [v4])).length →
      v'.nBlocks = nb + gs.length → v'.abbr = ab → j + (gcol gs).length ≠ offs → V6Out s offs n j nb ab v0 v' gs
  | empty : HeadNot (fun c => !isSpace c) (s.drop j) → v'.i = j → v'.nBlocks = nb + 1 → v'.abbr = ab → V6Out s offs n j nb ab v0 v' gs
  | dblEnd : gs ≠ [] → ab = false → s.drop j = gcol gs ++ [ch! ':'] → v'.i = j + (gcol gs).length + 1 → v'.nBlocks = nb + gs.length → v'.abbr = true →
      V6Out s offs n j nb ab v0 v' gs
  | dbl (m k : Nat) (r : Bytes) : gs ≠ [] → ab = false → s.drop j = gcol gs ++ ch! ':' :: r → r ≠ [] → n = gs.length + m →
      ipv6Loop s m (j + (gcol gs).length + 1) k (nb + gs.length) true = .ok v0 → V6Out s offs n j nb ab v0 v' gs
  | exhausted : v'.nBlocks = nb + n → V6Out s offs n j nb ab v0 v' gs

theorem v6V4_false {s : Bytes} {offs : Nat} {v0 v' : V6} (h : ipv6V4 s offs v0 = .ok v') (h0 : v0.hasIPv4 = false) : v' = v0 := by
  rw [ipv6V4_no h0] at h; exact (R.ok.inj h).symm

theorem v6_row_out {s : Bytes} {offs n j nb : Nat} {ab : Bool} {v0 v' : V6} {gs : List Bytes} (hj : j ≤ s.length) (hgs : ∀ g ∈ gs, V6Group g)
    (hrow : V6Row s n j nb ab v0 gs) (hv4 : ipv6V4 s offs v0 = .ok v') (hc : ColonsOK s v'.i) : V6Out s offs n j nb ab v0 v' gs := by
  cases hrow with
  | ends g tl h1 h2 h3 h4 h5 =>
    have hv := v6V4_false hv4 (by rw [h5])
    subst hv
    rw [h5] at hc
    by_cases hg : g = []
    · subst hg
      by_cases hgs0 : gs = []
      · subst hgs0
        exact .empty (by simpa [h1, gcol] using h4) (by rw [h5]; simp [gcol]) (by rw [h5]; simp) (by rw [h5])
      · exact (no_trailing_colon hgs0 hgs h1 (by simpa using hc)).elim
    · refine .groups (gs ++ [g]) tl (by simp) ?_ ?_ h4 ?_ (by rw [h5]; simp; omega) (by rw [h5])
      · intro x hx
        rcases List.mem_append.1 hx with hx | hx
        · exact hgs x hx
        · rw [List.mem_singleton.1 hx]; exact ⟨List.length_pos_iff.2 hg, h2, h3⟩
      · rw [h1, sepBy_snoc]; simp [gcol]
      · rw [h5, sepBy_snoc, List.length_append]; show j + (gcol gs).length + g.length = j + ((gcol gs).length + g.length); omega
  | dot g r h1 h2 =>
    subst h2
    unfold ipv6V4 at hv4
    rw [if_pos rfl] at hv4
    obtain ⟨_, hg, hv4⟩ := R.bind_eq_ok.1 hv4
    have hne := of_decide_eq_true (R.guard_eq_ok.1 hg)
    obtain ⟨⟨m, o⟩, h5, hv4⟩ := R.bind_eq_ok.1 hv4
    have hv' := R.ok.inj hv4
    subst hv'
    dsimp only at h5 hne hc ⊢
    have hlen := len_of_drop h1 hj
    simp only [List.length_append] at hlen
    have d1 := drop_of_append h1
    have hi := C34_ipv4 (s := s) (offs := j + (gcol gs).length) (by omega) false
    obtain ⟨k, hk⟩ : ∃ k, ipv4 (s.drop (j + (gcol gs).length)) k := by
      by_cases hx : ∃ k, ipv4 (s.drop (j + (gcol gs).length)) k
      · exact hx
      · rw [hi.2 fun k hk => hx ⟨k, hk⟩] at h5; cases h5
    have := hi.1 k hk
    rw [h5] at this
    have hmk : m = k := by cases this; rfl
    subst hmk
    have hm : m ≤ (s.drop (j + (gcol gs).length)).length := by
      obtain ⟨a, b, c, d, r', e, -, -, -, -, -, hn⟩ := hk
      rw [e]; simp; omega
    have hl : ((s.drop (j + (gcol gs).length)).take m).length = m := by rw [List.length_take]; omega
    refine .v4 ((s.drop (j + (gcol gs).length)).take m) ((s.drop (j + (gcol gs).length)).drop m) ?_ ?_ ?_ (by dsimp only; omega) rfl hne
    · rw [sepBy_snoc, List.append_assoc, List.take_append_drop, d1, h1]; rfl
    · rw [List.take_append_drop, hl]; exact hk
    · rw [sepBy_snoc, List.length_append, hl]
      show j + (gcol gs).length + m = j + ((gcol gs).length + m)
      omega
  | colonEnd k h0 h1 h2 =>
    have hv := v6V4_false hv4 (by rw [h2])
    subst hv
    rw [h2] at hc
    exact (no_trailing_colon (X := []) h0 hgs (by simpa using h1) hc).elim
  | dblEnd k h0 hab h1 h2 =>
    have hv := v6V4_false hv4 (by rw [h2])
    subst hv
    exact .dblEnd h0 hab h1 (by rw [h2]) (by rw [h2]) (by rw [h2])
  | dbl m k r h0 hab h1 h2 h3 h4 => exact .dbl m k r h0 hab h1 h2 h3 h4
  | exhausted h1 h2 =>
    have hv := v6V4_false hv4 h2
    subst hv
    exact .exhausted h1

/-- what stands behind `::` -/
inductive V6Rest (s : Bytes) (j nb : Nat) (v' : V6) : Prop
  | groups (x : Bytes) (b : List Bytes) (tl : Bytes) : (x = [] ∨ x = bs! ":") → (∀ g ∈ b, V6Group g) → s.drop j = x ++ sepBy (ch! ':') b ++ tl →
      HeadNot (fun c => !isSpace c) tl → v'.i = j + (x ++ sepBy (ch! ':') b).length →
      v'.nBlocks = nb + x.length + (if b = [] ∧ tl ≠ [] then 1 else b.length) → V6Rest s j nb v'
  | v4 (x : Bytes) (b : List Bytes) (v4 tl : Bytes) : (x = [] ∨ x = bs! ":") → (∀ g ∈ b, V6Group g) → s.drop j = x ++ sepBy (ch! ':') (b ++ [v4]) ++ tl →
      ipv4 (v4 ++ tl) v4.length → v'.i = j + (x ++ sepBy (ch! ':') (b ++ [v4])).length → v'.nBlocks = nb + x.length + b.length → V6Rest s j nb v'

theorem v6_behind {s : Bytes} {offs n j bb nb : Nat} {v0 v' : V6} (hj : j < s.length) (hn : nb + n = 9) (h : ipv6Loop s n j bb nb true = .ok v0)
    (hv4 : ipv6V4 s offs v0 = .ok v') (hc : ColonsOK s v'.i) (h8 : v'.nBlocks ≤ 8) : V6Rest s j nb v' ∧ v'.abbr = true := by
  -- a row which does not begin with a colon
  have key : ∀ (x : Bytes) (j' n' bb' nb' : Nat), (x = [] ∨ x = bs! ":") → j' < s.length → s.drop j = x ++ s.drop j' → j' = j + x.length → nb' + n' = 9 → nb' = nb + x.length →
      (s.drop j').head? ≠ some (ch! ':') → ipv6Loop s n' j' bb' nb' true = .ok v0 → V6Rest s j nb v' ∧ v'.abbr = true := by
    intro x j' n' bb' nb' hx hj' hd hjj hn' hnb' hh h
    obtain ⟨gs, hgs, hrow⟩ := v6_row n' j' bb' nb' true v0 (by omega) hh h
    cases v6_row_out (offs := offs) (by omega) hgs hrow hv4 hc with
    | groups b tl h0 h1 h2 h3 h4 h5 h6 =>
      refine ⟨.groups x b tl hx h1 (by rw [hd, h2, List.append_assoc]) h3 (by rw [h4, List.length_append]; omega) ?_, h6⟩
      rw [h5, if_neg (fun h => h0 h.1)]; omega
    | v4 v4 tl h1 h2 h3 h4 h5 h6 =>
      exact ⟨.v4 x gs v4 tl hx hgs (by rw [hd, h1, List.append_assoc]) h2 (by rw [h3, List.length_append]; omega) (by rw [h4]; omega), h5⟩
    | empty h1 h2 h3 h4 =>
      refine ⟨.groups x [] (s.drop j') hx (by simp) (by simp [sepBy, hd]) h1 (by rw [h2]; simp [sepBy]; omega) ?_, h4⟩
      rw [h3, if_pos ⟨rfl, by
        intro h0
        have := congrArg List.length h0
        simp at this; omega⟩]
      omega
    | dblEnd h0 h1 => cases h1
    | dbl m k r h0 h1 => cases h1
    | exhausted h1 => omega
  by_cases hh : (s.drop j).head? = some (ch! ':')
  · obtain ⟨m, rfl⟩ : ∃ m, n = m + 1 := by
      cases n with
      | zero =>
        rw [ipv6Loop] at h; cases h
        have := v6V4_false hv4 rfl
        subst this
        dsimp only at h8
        omega
      | succ m => exact ⟨m, rfl⟩
    obtain ⟨g, r, hd, hg, hx, hst⟩ := v6_step (by omega) h
    have hg0 : g = [] := by
      cases g with
      | nil => rfl
      | cons c g =>
        rw [hd] at hh
        have hh' : c = ch! ':' := by simpa using hh
        have := hx c (by simp)
        rw [hh'] at this
        exact absurd this (by decide)
    subst hg0
    rw [List.nil_append] at hd
    cases hst with
    | ends ht hw =>
      have := ht (ch! ':') (by rw [← hd]; exact hh)
      exact absurd this (by decide)
    | dot r' hr hw => rw [hd, hr] at hh; revert hh; simp
    | colonEnd hr hw =>
      have := v6V4_false hv4 (by rw [hw])
      subst this
      refine ⟨.groups (bs! ":") [] [] (.inr rfl) (by simp) (by rw [hd, hr]; rfl) .nil (by rw [hw]; rfl) (by rw [hw]; simp), by rw [hw]⟩
    | dblEnd hab => cases hab
    | dbl r' hab => cases hab
    | colon c r' hr hc' hw =>
      have d1 := drop_of_cons (hd.trans hr)
      exact key (bs! ":") (j + 1) m j (nb + 1) (.inr rfl) (lt_of_drop_cons d1) (by rw [d1, hd, hr]; rfl) rfl (by omega) rfl (by rw [d1]; simpa using hc') (by simpa using hw)
  · exact key [] j n bb nb (.inl rfl) hj rfl rfl hn rfl hh h

theorem headNot_space {tl : Bytes} (h : HeadNot (fun c => !isSpace c) tl) : ∀ c, tl.head? = some c → isSpace c = true := by
  intro c hc
  simpa using h c hc

theorem gcol_dbl {gs : List Bytes} (hne : gs ≠ []) (r : Bytes) : gcol gs ++ ch! ':' :: r = sepBy (ch! ':') gs ++ bs! "::" ++ r := by
  obtain ⟨g0, g, rfl⟩ := snoc_of_ne_nil hne
  rw [sepBy_snoc]; simp [gcol]

/-- from what stands behind `::` to all -/
theorem v6_rest_loose {s : Bytes} {offs : Nat} {v' : V6} {a : List Bytes} (ha : ∀ g ∈ a, V6Group g) {r : Bytes}
    (hd : s.drop offs = sepBy (ch! ':') a ++ bs! "::" ++ r) {j : Nat} (hj : j = offs + (sepBy (ch! ':') a ++ bs! "::").length) (hdj : s.drop j = r)
    (hr : V6Rest s j (max 1 a.length) v') (h8 : v'.nBlocks < 8) : ∃ w tl : Bytes, s.drop offs = w ++ tl ∧ v'.i - offs = w.length ∧ V6Loose w tl := by
  rw [← hdj] at hd
  cases hr with
  | groups x b tl hx hb h1 h2 h3 h4 =>
    refine ⟨sepBy (ch! ':') a ++ bs! "::" ++ x ++ sepBy (ch! ':') b, tl, by rw [hd, h1]; simp, ?_, .abbr a x b tl ha hx hb (by omega) (headNot_space h2)⟩
    rw [h3, hj]; simp only [List.length_append]; omega
  | v4 x b v4 tl hx hb h1 h2 h3 h4 =>
    refine ⟨sepBy (ch! ':') a ++ bs! "::" ++ x ++ sepBy (ch! ':') (b ++ [v4]), tl, by rw [hd, h1]; simp, ?_, .abbr4 a x b v4 tl ha hx hb (by omega) h2⟩
    rw [h3, hj]; simp only [List.length_append]; omega

/-- what is accepted is described -/
theorem v6_sound {s : Bytes} {offs n : Nat} {want : Bool} {v : Option Json} (h : offs ≤ s.length) (hp : parseIPv6 s offs want = .ok (n, v)) :
    ipv6 (s.drop offs) n := by
  unfold parseIPv6 at hp
  obtain ⟨_, g0, hp⟩ := R.bind_eq_ok.1 hp
  have h2 : offs + 2 ≤ s.length := of_decide_eq_true (R.guard_eq_ok.1 g0)
  obtain ⟨c0, hc0, hp⟩ := R.bind_eq_ok.1 hp
  obtain ⟨c1, hc1, hp⟩ := R.bind_eq_ok.1 hp
  obtain ⟨_, g1, hp⟩ := R.bind_eq_ok.1 hp
  have hfirst := R.guard_eq_ok.1 g1
  obtain ⟨v0, hl, hp⟩ := R.bind_eq_ok.1 hp
  obtain ⟨v', h4, hp⟩ := R.bind_eq_ok.1 hp
  obtain ⟨_, g2, hp⟩ := R.bind_eq_ok.1 hp
  obtain ⟨_, g3, hp⟩ := R.bind_eq_ok.1 hp
  have h8 : v'.nBlocks ≤ 8 := by simpa using R.guard_eq_ok.1 g2
  have h8a : v'.abbr = true → v'.nBlocks < 8 := by
    intro hab
    have := R.guard_eq_ok.1 g3
    rw [hab] at this
    simpa using this
  have hfin : n = v'.i - offs ∧ ColonsOK s v'.i := by
    by_cases z : v'.i = 0
    · rw [if_pos z] at hp; cases hp
    rw [if_neg z] at hp
    obtain ⟨a, ha, hp⟩ := R.bind_eq_ok.1 hp
    by_cases z1 : a = ch! ':'
    · rw [if_pos z1] at hp
      by_cases z2 : v'.i < 2
      · rw [if_pos z2] at hp; cases hp
      rw [if_neg z2] at hp
      obtain ⟨b, hb, hp⟩ := R.bind_eq_ok.1 hp
      obtain ⟨_, g4, hp⟩ := R.bind_eq_ok.1 hp
      refine ⟨(congrArg Prod.fst (R.ok.inj hp)).symm, fun _ => ?_⟩
      rw [hb, of_decide_eq_true (R.guard_eq_ok.1 g4)]
    · rw [if_neg z1] at hp
      refine ⟨(congrArg Prod.fst (R.ok.inj hp)).symm, fun h0 => ?_⟩
      rw [ha] at h0
      cases h0
      exact absurd rfl z1
  clear hp
  obtain ⟨hn, hcol⟩ := hfin
  refine ⟨by simp; omega, ?_⟩
  rw [hn]
  have hd2 : ∃ r, s.drop offs = c0 :: c1 :: r := by
    obtain ⟨r, hr⟩ := rd_head hc0 rfl (by omega)
    obtain ⟨r', hr'⟩ := rd_head hc1 (drop_of_cons hr) (by omega)
    exact ⟨r', by rw [hr, hr']⟩
  obtain ⟨r, hd⟩ := hd2
  by_cases hx : isXDigit c0 = true
  · obtain ⟨gs, hgs, hrow⟩ := v6_row 9 offs offs 0 false v0 h (by rw [hd]; simpa using xd_ne_colon hx) hl
    cases v6_row_out (offs := offs) h hgs hrow h4 hcol with
    | groups b tl e0 e1 e2 e3 e4 e5 e6 =>
      exact ⟨_, tl, e2, by omega, .groups b tl e1 (List.length_pos_iff.2 e0) (by omega) (headNot_space e3)⟩
    | v4 v4 tl e1 e2 e3 e4 e5 e6 =>
      have hgs0 : gs ≠ [] := by
        intro h0; subst h0
        exact e6 (by simp [gcol])
      exact ⟨_, tl, e1, by omega, .groups4 gs v4 tl hgs (List.length_pos_iff.2 hgs0) (by omega) e2⟩
    | empty e1 e2 e3 e4 =>
      have := e1 c0 (by rw [hd]; rfl)
      exfalso
      revert this hx
      simp only [isXDigit, isSpace, isDigit, UInt8.le_iff_toNat_le, Bool.or_eq_true, Bool.and_eq_true,
        decide_eq_true_eq, Bool.not_eq_false', beq_iff_eq, u8_eq]
      simp
      omega
    | dblEnd e0 e1 e2 e3 e4 e5 =>
      have hda : s.drop offs = sepBy (ch! ':') gs ++ bs! "::" ++ [] := by rw [e2, gcol_dbl e0]
      have := h8a e5
      have hlen : (gcol gs ++ [ch! ':']).length = (sepBy (ch! ':') gs ++ bs! "::" ++ []).length := by rw [gcol_dbl e0]
      have hge : 0 < gs.length := List.length_pos_iff.2 e0
      refine ⟨sepBy (ch! ':') gs ++ bs! "::" ++ [] ++ sepBy (ch! ':') [], [], by rw [hda]; simp [sepBy], ?_,
        .abbr gs [] [] [] hgs (.inl rfl) (by simp) (by simp; omega) (by simp)⟩
      rw [e3]
      simp only [List.length_append, List.length_cons, List.length_nil, sepBy] at hlen ⊢
      omega
    | dbl m k r' e0 e1 e2 e3 e4 e5 =>
      have hge : 0 < gs.length := List.length_pos_iff.2 e0
      have hr' : s.drop (offs + (gcol gs).length + 1) = r' := drop_of_cons (drop_of_append e2)
      have hlt : offs + (gcol gs).length + 1 < s.length := by
        cases r' with
        | nil => exact absurd rfl e3
        | cons c r' => exact lt_of_drop_cons hr'
      obtain ⟨hrest, hab⟩ := v6_behind (offs := offs) hlt (by omega) e5 h4 hcol h8
      have hlen : (gcol gs ++ [ch! ':']).length = (sepBy (ch! ':') gs ++ bs! "::" ++ []).length := by rw [gcol_dbl e0]
      refine v6_rest_loose hgs (r := r') (by rw [e2, gcol_dbl e0]) (j := offs + (gcol gs).length + 1) ?_ hr' ?_ (h8a hab)
      · simp only [List.length_append, List.length_cons, List.length_nil] at hlen ⊢
        omega
      · rw [show max 1 gs.length = 0 + gs.length by omega]; exact hrest
    | exhausted e1 => omega
  · have hcc : c0 = ch! ':' ∧ c1 = ch! ':' := by
      rw [Bool.or_eq_true, Bool.and_eq_true] at hfirst
      rcases hfirst with hf | hf
      · exact absurd hf hx
      · exact ⟨of_decide_eq_true hf.1, of_decide_eq_true hf.2⟩
    obtain ⟨rfl, rfl⟩ := hcc
    have hda : s.drop offs = sepBy (ch! ':') [] ++ bs! "::" ++ r := by rw [hd]; rfl
    have hstep := v6_dbl (g := []) 8 offs 0 (by rw [hd]; rfl) (by simp) (by simp)
    rw [hl] at hstep
    by_cases hr : r = []
    · rw [if_pos hr] at hstep
      have hv0 := R.ok.inj hstep
      have hv := v6V4_false h4 (by rw [hv0])
      subst hv
      refine ⟨sepBy (ch! ':') [] ++ bs! "::" ++ [] ++ sepBy (ch! ':') [], [], by rw [hda, hr]; simp [sepBy], ?_,
        .abbr [] [] [] [] (by simp) (.inl rfl) (by simp) (by simp) (by simp)⟩
      rw [hv0]; simp [sepBy]
    · rw [if_neg hr] at hstep
      have hdr : s.drop (offs + 2) = r := drop_of_cons (drop_of_cons hd)
      have hlt : offs + 2 < s.length := by
        cases r with
        | nil => exact absurd rfl hr
        | cons c r => exact lt_of_drop_cons hdr
      obtain ⟨hrest, hab⟩ := v6_behind (offs := offs) hlt (by omega) hstep.symm h4 hcol h8
      exact v6_rest_loose (a := []) (by simp) hda (j := offs + 2) (by simp [sepBy]) hdr (by simpa using hrest) (h8a hab)

end LN
