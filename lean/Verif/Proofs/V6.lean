import Verif.Proofs.StructC
import Verif.Props.FieldsD
import Verif.Spec.Addr
/-
ipv6: every text form of an address is accepted.
-/
set_option autoImplicit false
namespace LN
open Spec

/-- groups, each followed by a colon -/
def gcol (gs : List Bytes) : Bytes := (gs.map (· ++ [ch! ':'])).flatten

theorem sepBy_snoc (x : UInt8) (gs : List Bytes) (g : Bytes) :
    sepBy x (gs ++ [g]) = (gs.map (· ++ [x])).flatten ++ g := by
  induction gs with
  | nil => rfl
  | cons a gs ih =>
    cases gs with
    | nil => simp [sepBy]
    | cons b gs =>
      simp only [List.cons_append, sepBy] at ih ⊢
      rw [ih]; simp

theorem snoc_of_ne_nil {α : Type} {l : List α} (h : l ≠ []) : ∃ a b, l = a ++ [b] :=
  ⟨l.dropLast, l.getLast h, (List.dropLast_concat_getLast h).symm⟩

theorem skipBlock {s : Bytes} {i : Nat} {g r : Bytes} (hi : i < s.length) (h : s.drop i = g ++ r)
    (hg : g.length ≤ 4) (hx : ∀ c ∈ g, isXDigit c = true) (hr : HeadNot isXDigit r) :
    skipIPv6AddrBlock s i = .ok (i + g.length) := by
  unfold skipIPv6AddrBlock
  have h1 : decide (i ≠ s.length) = true := by simp; omega
  rw [h1, h]
  have h2 : (g ++ r).take 4 = g ++ r.take (4 - g.length) := by
    rw [List.take_append, List.take_of_length_le hg]
  rw [h2, takeWhile_of_split hx]
  · rfl
  · intro c hc
    apply hr
    cases r with
    | nil => simp at hc
    | cons x r =>
      cases hk : 4 - g.length with
      | zero => rw [hk] at hc; simp at hc
      | succ k => rw [hk] at hc; simpa using hc

theorem v6_bb (s : Bytes) (n i bb bb' nb : Nat) (ab : Bool) :
    ipv6Loop s (n + 1) i bb nb ab = ipv6Loop s (n + 1) i bb' nb ab := rfl

theorem v6_colon {s : Bytes} {i : Nat} {g r : Bytes} {c : UInt8} (n bb nb : Nat) (ab : Bool)
    (h : s.drop i = g ++ ch! ':' :: c :: r) (hg : g.length ≤ 4) (hx : ∀ c ∈ g, isXDigit c = true)
    (hc : c ≠ ch! ':') :
    ipv6Loop s (n + 1) i bb nb ab = ipv6Loop s n (i + g.length + 1) i (nb + 1) ab := by
  have hi : i < s.length := by
    cases g with
    | nil => exact lt_of_drop_cons h
    | cons x g => exact lt_of_drop_cons h
  have d1 := drop_of_append h
  have d2 := drop_of_cons d1
  have l1 := lt_of_drop_cons d1
  have l2 := lt_of_drop_cons d2
  rw [ipv6Loop]
  simp only [skipBlock hi h hg hx (headNot_cons.2 (by decide)), R.ok_bind, rd_of_cons d1]
  rw [if_neg (by omega), if_neg (by decide), if_neg (by decide)]
  simp only [R.guard, decide_true, if_true, R.ok_bind]
  rw [if_neg (by omega)]
  simp only [rd_of_cons d2, R.ok_bind]
  cases ab <;> simp [hc]

theorem v6_dbl {s : Bytes} {i : Nat} {g r : Bytes} (n bb nb : Nat)
    (h : s.drop i = g ++ ch! ':' :: ch! ':' :: r) (hg : g.length ≤ 4) (hx : ∀ c ∈ g, isXDigit c = true) :
    ipv6Loop s (n + 1) i bb nb false =
      if r = [] then .ok ⟨i + g.length + 2, i, nb + 1, true, false⟩
      else ipv6Loop s n (i + g.length + 2) i (nb + 1) true := by
  have hi : i < s.length := by
    cases g with
    | nil => exact lt_of_drop_cons h
    | cons x g => exact lt_of_drop_cons h
  have d1 := drop_of_append h
  have d2 := drop_of_cons d1
  have l1 := lt_of_drop_cons d1
  have l2 := lt_of_drop_cons d2
  rw [ipv6Loop]
  simp only [skipBlock hi h hg hx (headNot_cons.2 (by decide)), R.ok_bind, rd_of_cons d1]
  rw [if_neg (by omega), if_neg (by decide), if_neg (by decide)]
  simp only [R.guard, decide_true, if_true, R.ok_bind]
  rw [if_neg (by omega)]
  simp only [rd_of_cons d2, R.ok_bind]
  have hl := len_of_drop h (by omega)
  simp at hl
  by_cases hr : r = []
  · subst hr
    simp at hl
    have e : i + g.length + 1 + 1 = s.length := by omega
    simp [e]
  · have : 0 < r.length := List.length_pos_iff.2 hr
    have e : i + g.length + 1 + 1 ≠ s.length := by omega
    simp [hr, e]

theorem v6_fin {s : Bytes} {i : Nat} {g tl : Bytes} (n bb nb : Nat) (ab : Bool) (hi : i < s.length)
    (h : s.drop i = g ++ tl) (hg : g.length ≤ 4) (hx : ∀ c ∈ g, isXDigit c = true)
    (ht : HeadNot (fun c => !isSpace c) tl) :
    ipv6Loop s (n + 1) i bb nb ab = .ok ⟨i + g.length, i, nb + 1, ab, false⟩ := by
  have d1 := drop_of_append h
  rw [ipv6Loop]
  simp only [skipBlock hi h hg hx (headNot_mono ht (by
    intro c hc
    revert hc
    simp only [isXDigit, isSpace, isDigit, UInt8.le_iff_toNat_le, Bool.or_eq_true, Bool.and_eq_true,
      decide_eq_true_eq, Bool.not_eq_true', beq_eq_false_iff_ne, Bool.or_eq_false_iff, ne_eq, u8_eq]
    intro hc
    refine ⟨by simp at *; omega, ?_⟩
    simp at *
    omega)), R.ok_bind]
  cases tl with
  | nil =>
    have : i + g.length = s.length := by have := len_of_drop h (by omega); simp at this; omega
    simp [this]
  | cons c tl =>
    have l1 := lt_of_drop_cons d1
    rw [if_neg (by omega), rd_of_cons d1]
    have : isSpace c = true := by simpa using headNot_cons.1 ht
    simp [this]

theorem v6_dot {s : Bytes} {i : Nat} {g r : Bytes} (n bb nb : Nat) (ab : Bool)
    (h : s.drop i = g ++ ch! '.' :: r) (hg : g.length ≤ 4) (hx : ∀ c ∈ g, isXDigit c = true) :
    ipv6Loop s (n + 1) i bb nb ab = .ok ⟨i + g.length, i, nb + 1, ab, true⟩ := by
  have hi : i < s.length := by
    cases g with
    | nil => exact lt_of_drop_cons h
    | cons x g => exact lt_of_drop_cons h
  have d1 := drop_of_append h
  have l1 := lt_of_drop_cons d1
  rw [ipv6Loop]
  simp only [skipBlock hi h hg hx (headNot_cons.2 (by decide)), R.ok_bind, rd_of_cons d1]
  rw [if_neg (by omega), if_neg (by decide), if_pos (by decide)]
  rfl

/-- a row of groups, each followed by a single colon -/
theorem v6_groups {s : Bytes} : ∀ (gs : List Bytes) (n i bb nb : Nat) (ab : Bool) (X : Bytes),
    (∀ g ∈ gs, V6Group g) → X ≠ [] → X.head? ≠ some (ch! ':') → s.drop i = gcol gs ++ X →
    ipv6Loop s (gs.length + (n + 1)) i bb nb ab
      = ipv6Loop s (n + 1) (i + (gcol gs).length) bb (nb + gs.length) ab := by
  intro gs
  induction gs with
  | nil => intro n i bb nb ab X _ _ _ _; simp [gcol]
  | cons g gs ih =>
    intro n i bb nb ab X hv hX hXh h
    obtain ⟨h1, h2, h3⟩ := hv g (by simp)
    have h' : s.drop i = g ++ ch! ':' :: (gcol gs ++ X) := by rw [h]; simp [gcol]
    obtain ⟨c, r, hcr, hc⟩ : ∃ c r, gcol gs ++ X = c :: r ∧ c ≠ ch! ':' := by
      cases gs with
      | nil =>
        cases X with
        | nil => exact absurd rfl hX
        | cons c r => exact ⟨c, r, rfl, by simpa using hXh⟩
      | cons k gs =>
        obtain ⟨k1, k2, k3⟩ := hv k (by simp)
        cases hk : k with
        | nil => rw [hk] at k1; simp at k1
        | cons c r =>
          refine ⟨c, _, by simp only [gcol, List.map_cons, List.flatten_cons, List.cons_append]; rfl, ?_⟩
          intro h0; subst h0
          have := k3 (ch! ':') (by rw [hk]; simp)
          revert this; decide
    have hd := drop_of_cons (drop_of_append h')
    rw [hcr] at h'
    have hn : (g :: gs).length + (n + 1) = (gs.length + n + 1) + 1 := by simp; omega
    rw [hn, v6_colon _ bb nb ab h' h2 h3 hc]
    rw [v6_bb s _ _ i bb, show gs.length + n + 1 = gs.length + (n + 1) by omega,
      ih n _ bb (nb + 1) ab X (fun x hx => hv x (by simp [hx])) hX hXh hd]
    congr 1
    · simp [gcol]; omega
    · simp; omega

/-- The same for the text up to and including `::`. -/
theorem v6_upto_dbl {s : Bytes} (a : List Bytes) (n i bb : Nat) (r : Bytes)
    (hv : ∀ g ∈ a, V6Group g) (h : s.drop i = sepBy (ch! ':') a ++ ch! ':' :: ch! ':' :: r) :
    ∃ bb', ipv6Loop s (max 1 a.length + n) i bb 0 false =
      if r = [] then .ok ⟨i + (sepBy (ch! ':') a).length + 2, bb', max 1 a.length, true, false⟩
      else ipv6Loop s n (i + (sepBy (ch! ':') a).length + 2) bb' (max 1 a.length) true := by
  cases Classical.em (a = []) with
  | inl h0 =>
    subst h0
    have := v6_dbl (g := []) n bb 0 h (by simp) (by simp)
    refine ⟨i, ?_⟩
    have e : max 1 ([] : List Bytes).length + n = n + 1 := by simp; omega
    rw [e, this]
    rfl
  | inr h0 =>
    obtain ⟨gs, g, rfl⟩ := snoc_of_ne_nil h0
    rw [sepBy_snoc] at h ⊢
    have hg := hv g (by simp)
    have hm : max 1 (gs ++ [g]).length = gs.length + 1 := by simp
    have h' : s.drop i = gcol gs ++ (g ++ ch! ':' :: ch! ':' :: r) := by
      rw [h]; simp [gcol]
    have hh : (g ++ ch! ':' :: ch! ':' :: r).head? ≠ some (ch! ':') := by
      cases hk : g with
      | nil => have := hg.1; rw [hk] at this; simp at this
      | cons c k =>
        simp
        intro h0; subst h0
        have := hg.2.2 (ch! ':') (by rw [hk]; simp)
        revert this; decide
    have e1 : max 1 (gs ++ [g]).length + n = gs.length + (n + 1) := by rw [hm]; omega
    have s1 := v6_groups gs n i bb 0 false _ (fun x hx => hv x (by simp [hx])) (by simp) hh h'
    have s2 := v6_dbl n bb (0 + gs.length) (drop_of_append h') hg.2.1 hg.2.2
    refine ⟨i + (gcol gs).length, ?_⟩
    rw [e1, s1, s2, hm]
    have e2 : i + (gcol gs).length + g.length + 2 = i + ((gs.map (· ++ [ch! ':'])).flatten ++ g).length + 2 := by
      rw [List.length_append]; simp only [gcol]; omega
    rw [e2, Nat.zero_add]

/-- the last groups -/
theorem v6_to_end {s : Bytes} (b : List Bytes) (n i bb nb : Nat) (ab : Bool) (tl : Bytes)
    (hv : ∀ g ∈ b, V6Group g) (hne : b ≠ []) (h : s.drop i = sepBy (ch! ':') b ++ tl)
    (ht : HeadNot (fun c => !isSpace c) tl) :
    ∃ bb', ipv6Loop s (b.length + n) i bb nb ab
      = .ok ⟨i + (sepBy (ch! ':') b).length, bb', nb + b.length, ab, false⟩ := by
  obtain ⟨gs, g, rfl⟩ := snoc_of_ne_nil hne
  rw [sepBy_snoc] at h ⊢
  have hg := hv g (by simp)
  have h' : s.drop i = gcol gs ++ (g ++ tl) := by rw [h]; simp [gcol]
  have hgne : g ≠ [] := by intro h0; have := hg.1; rw [h0] at this; simp at this
  have hh : (g ++ tl).head? ≠ some (ch! ':') := by
    cases hk : g with
    | nil => exact absurd hk hgne
    | cons c k =>
      simp
      intro h0; subst h0
      have := hg.2.2 (ch! ':') (by rw [hk]; simp)
      revert this; decide
  have e1 : (gs ++ [g]).length + n = gs.length + (n + 1) := by simp; omega
  have s1 := v6_groups gs n i bb nb ab _ (fun x hx => hv x (by simp [hx])) (by simp [hgne]) hh h'
  have hlt : i + (gcol gs).length < s.length := by
    have hd := drop_of_append h'
    cases hk : g with
    | nil => exact absurd hk hgne
    | cons c k => rw [hk] at hd; exact lt_of_drop_cons hd
  have s2 := v6_fin n bb (nb + gs.length) ab hlt (drop_of_append h') hg.2.1 hg.2.2 ht
  refine ⟨i + (gcol gs).length, ?_⟩
  rw [e1, s1, s2]
  have e2 : i + (gcol gs).length + g.length = i + ((gs.map (· ++ [ch! ':'])).flatten ++ g).length := by
    rw [List.length_append]; simp only [gcol]; omega
  rw [e2]
  simp; omega

/-- the last groups and an IPv4 address -/
theorem v6_to_v4 {s : Bytes} (b : List Bytes) (v4 : Bytes) (n i bb nb : Nat) (ab : Bool) (tl : Bytes)
    (hv : ∀ g ∈ b, V6Group g) (h4 : V4Text v4) (h : s.drop i = sepBy (ch! ':') (b ++ [v4]) ++ tl) :
    ∃ k, ipv6Loop s (b.length + (n + 1)) i bb nb ab
      = .ok ⟨k, i + (gcol b).length, nb + b.length + 1, ab, true⟩ := by
  rw [sepBy_snoc] at h
  have h' : s.drop i = gcol b ++ (v4 ++ tl) := by rw [h]; simp [gcol]
  obtain ⟨x1, x2, x3, x4, rest, he, ho, -⟩ := h4
  have hne : x1 ≠ [] := by intro h0; have := ho.1; rw [h0] at this; simp at this
  have hh : (v4 ++ tl).head? ≠ some (ch! ':') := by
    rw [he]
    cases hk : x1 with
    | nil => exact absurd hk hne
    | cons c k =>
      simp
      intro h0; subst h0
      have := ho.2.2.1 (ch! ':') (by rw [hk]; simp)
      revert this; decide
  have s1 := v6_groups b n i bb nb ab _ hv (by rw [he]; simp [hne]) hh h'
  have hd := drop_of_append h'
  have hd' : s.drop (i + (gcol b).length) = x1 ++ ch! '.' :: (x2 ++ bs! "." ++ x3 ++ bs! "." ++ x4 ++ rest ++ tl) := by
    rw [hd, he]; simp
  have s2 := v6_dot n bb (nb + b.length) ab hd' (by have := ho.2.1; omega) (by
    intro c hc
    have := ho.2.2.1 c hc
    simp [isXDigit, this])
  exact ⟨_, by rw [s1, s2]⟩

theorem v4_append {w tl : Bytes} (h : V4Text w) (ht : HeadNot isDigit tl) : ipv4 (w ++ tl) w.length := by
  obtain ⟨a, b, c, d, rest, he, ha, hb, hc, hd, hr, hn⟩ := h
  have : rest = [] := by
    have h1 := congrArg List.length he
    simp at h1
    have : rest.length = 0 := by omega
    simpa using this
  subst this
  refine ⟨a, b, c, d, tl, by rw [he]; simp, ha, hb, hc, hd, .inr ht, hn⟩

theorem space_not_digit {tl : Bytes} (ht : HeadNot (fun c => !isSpace c) tl) : HeadNot isDigit tl :=
  headNot_mono ht (by
    intro c hc
    revert hc
    simp only [isSpace, isDigit, UInt8.le_iff_toNat_le, Bool.and_eq_true,
      decide_eq_true_eq, Bool.not_eq_true', beq_eq_false_iff_ne, Bool.or_eq_false_iff, ne_eq, u8_eq]
    intro hc
    refine ⟨by simp at *; omega, ?_⟩
    simp at *
    omega)

/-- the final checks -/
theorem v6_finish {s : Bytes} {offs : Nat} {w tl : Bytes} (want : Bool) (h : offs ≤ s.length)
    (hs : s.drop offs = w ++ tl) (hw : 2 ≤ w.length + tl.length)
    (h0 : ∃ c r, w = c :: r ∧ (isXDigit c = true ∨ ∃ r', w = ch! ':' :: ch! ':' :: r'))
    (hl : ∃ u c, w = u ++ [c] ∧ (c ≠ ch! ':' ∨ ∃ u', w = u' ++ [ch! ':', ch! ':']))
    (v v' : V6) (hloop : ipv6Loop s 9 offs offs 0 false = .ok v) (hv4 : ipv6V4 s offs v = .ok v')
    (hvi : v'.i = offs + w.length) (hnb : v'.nBlocks ≤ 8) (hab : v'.abbr = true → v'.nBlocks < 8) :
    parseIPv6 s offs want = .ok (w.length, text want (s.drop offs) w.length) := by
  have hlen := len_of_drop hs h
  simp at hlen
  obtain ⟨c, r, hcr, hx⟩ := h0
  have hw1 : 1 ≤ w.length := by rw [hcr]; simp
  unfold parseIPv6
  have g1 : decide (offs + 2 ≤ s.length) = true := by simp; omega
  have d0 : s.drop offs = c :: (r ++ tl) := by rw [hs, hcr]; rfl
  rw [g1]
  simp only [R.guard_true, R.ok_bind, rd_of_cons d0]
  have hrd1 : ∃ c1, rd s (offs + 1) = .ok c1 ∧
      (isXDigit c || (decide (c = ch! ':') && decide (c1 = ch! ':'))) = true := by
    rcases hx with hx | ⟨r', hr'⟩
    · rcases rd_defined (s := s) (i := offs + 1) (by omega) with ⟨c1, h1⟩ | h1
      · exact ⟨c1, h1, by simp [hx]⟩
      · exfalso
        unfold rd at h1
        split at h1
        · cases h1
        · split at h1 <;> cases h1
    · have d1 : s.drop offs = ch! ':' :: ch! ':' :: (r' ++ tl) := by rw [hs, hr']; rfl
      have hc : c = ch! ':' := by rw [hr'] at hcr; cases hcr; rfl
      exact ⟨_, rd_of_cons (drop_of_cons d1), by simp [hc]⟩
  obtain ⟨c1, h1, h2⟩ := hrd1
  rw [h1]
  simp only [R.ok_bind, h2, R.guard_true, hloop, hv4]
  have g3 : (!decide (v'.nBlocks > 8)) = true := by simp; omega
  have g4 : (!(v'.abbr && decide (v'.nBlocks ≥ 8))) = true := by
    cases hb : v'.abbr with
    | false => rfl
    | true => have := hab hb; simp; omega
  rw [g3, g4]
  simp only [R.guard_true, R.ok_bind]
  rw [if_neg (by omega)]
  obtain ⟨u, e, hue, hcase⟩ := hl
  have dl : s.drop (v'.i - 1) = e :: tl := by
    have : s.drop offs = u ++ (e :: tl) := by rw [hs, hue]; simp
    have := drop_of_append this
    rw [← this]; congr 1
    rw [hvi, hue]; simp
  rw [rd_of_cons dl]
  simp only [R.ok_bind]
  have hres : (pure (strRes want s offs (v'.i - offs)) : PR)
      = .ok (w.length, text want (s.drop offs) w.length) := by
    rw [hvi, strRes_eq, show offs + w.length - offs = w.length by omega]; rfl
  by_cases hc : e = ch! ':'
  · rw [if_pos hc]
    rcases hcase with hn | ⟨u', hu'⟩
    · exact absurd hc hn
    · have dl2 : s.drop (v'.i - 2) = ch! ':' :: ch! ':' :: tl := by
        have : s.drop offs = u' ++ (ch! ':' :: ch! ':' :: tl) := by rw [hs, hu']; simp
        have := drop_of_append this
        rw [← this]; congr 1
        rw [hvi, hu']; simp
        omega
      have hw2 : 2 ≤ w.length := by rw [hu']; simp
      rw [if_neg (by omega), rd_of_cons dl2]
      simp only [R.ok_bind, decide_true, R.guard_true]
      exact hres
  · rw [if_neg hc]
    exact hres

end LN
