import Verif.Proofs.V6
import Verif.Props.Examples
/-
C35: ipv6.
-/
set_option autoImplicit false
namespace LN
open Spec

theorem xd_ne_colon {c : UInt8} (h : isXDigit c = true) : c ≠ ch! ':' := by
  intro h0; subst h0; revert h; decide

theorem v6_first {gs : List Bytes} (hne : gs ≠ []) (hv : ∀ g ∈ gs, V6Group g) (x : Bytes) :
    ∃ c r, sepBy (ch! ':') gs ++ x = c :: r ∧ isXDigit c = true := by
  cases gs with
  | nil => exact absurd rfl hne
  | cons g gs =>
    obtain ⟨h1, -, h3⟩ := hv g (by simp)
    cases hk : g with
    | nil => rw [hk] at h1; simp at h1
    | cons c k =>
      refine ⟨c, ?_⟩
      have := h3 c (by rw [hk]; simp)
      cases gs with
      | nil => exact ⟨k ++ x, by simp [sepBy], this⟩
      | cons g' gs => exact ⟨k ++ (ch! ':' :: sepBy (ch! ':') (g' :: gs)) ++ x, by simp [sepBy], this⟩

theorem snoc_ne_colon {w u : Bytes} {P : UInt8 → Bool} (hne : w ≠ []) (hw : ∀ c ∈ w, P c = true)
    (hp : P (ch! ':') = false) : ∃ k c, u ++ w = k ++ [c] ∧ c ≠ ch! ':' := by
  obtain ⟨a, c, rfl⟩ := snoc_of_ne_nil hne
  refine ⟨u ++ a, c, by simp, ?_⟩
  intro h0; subst h0
  have := hw (ch! ':') (by simp)
  rw [hp] at this; cases this

theorem v6_last {gs : List Bytes} (hne : gs ≠ []) (hv : ∀ g ∈ gs, V6Group g) (x : Bytes) :
    ∃ u c, x ++ sepBy (ch! ':') gs = u ++ [c] ∧ c ≠ ch! ':' := by
  obtain ⟨a, g, rfl⟩ := snoc_of_ne_nil hne
  obtain ⟨h1, -, h3⟩ := hv g (by simp)
  rw [sepBy_snoc, ← List.append_assoc]
  exact snoc_ne_colon (by intro h; rw [h] at h1; simp at h1) h3 (by decide)

theorem v4_last {w : Bytes} (h : V4Text w) (a : List Bytes) (x : Bytes) :
    ∃ u c, x ++ sepBy (ch! ':') (a ++ [w]) = u ++ [c] ∧ c ≠ ch! ':' := by
  rw [sepBy_snoc, ← List.append_assoc]
  obtain ⟨p, q, r, d, rest, he, -, -, -, hd, -, hn⟩ := h
  have : rest = [] := by
    have h1 := congrArg List.length he
    simp at h1
    have : rest.length = 0 := by omega
    simpa using this
  subst this
  rw [he, List.append_nil, ← List.append_assoc]
  exact snoc_ne_colon (by intro h; have := hd.1; rw [h] at this; simp at this) hd.2.2.1 (by decide)

theorem v4_len {w : Bytes} (h : V4Text w) : 2 ≤ w.length := by
  obtain ⟨p, q, r, d, rest, he, hp, hq, hr, hd, -, hn⟩ := h
  omega

theorem sepBy_len (gs : List Bytes) (hv : ∀ g ∈ gs, V6Group g) : 2 ≤ gs.length → 2 ≤ (sepBy (ch! ':') gs).length := by
  intro h
  match gs, h with
  | a :: b :: gs, _ =>
    have := (hv a (by simp)).1
    simp [sepBy]; omega

theorem ipv6V4_no {s : Bytes} {offs : Nat} {v : V6} (h : v.hasIPv4 = false) : ipv6V4 s offs v = .ok v := by
  unfold ipv6V4; simp [h]

theorem ipv6V4_yes {s : Bytes} {offs k bb nb n : Nat} {ab : Bool} (h : bb ≠ offs) (hb : bb ≤ s.length)
    (h4 : ipv4 (s.drop bb) n) :
    ipv6V4 s offs ⟨k, bb, nb, ab, true⟩ = .ok ⟨bb + n, bb, nb - 1, ab, true⟩ := by
  have := (C34_ipv4 hb false).1 n h4
  unfold ipv6V4
  simp [h, this, R.guard]

/-- An address is accepted by this version except in two cases of `::` standing for exactly one
group: at the beginning, and at the end if something follows. -/
def V6Quirk (w tl : Bytes) : Prop :=
  (∃ b : List Bytes, b.length = 7 ∧ w = bs! "::" ++ sepBy (ch! ':') b) ∨
  (∃ a : List Bytes, a.length = 7 ∧ w = sepBy (ch! ':') a ++ bs! "::" ∧ tl ≠ [])

/-- C35 (partial: one direction): every RFC 4291 text form of an address that is followed by white
space or ends the message is matched, except for the quirk cases. -/
theorem C35_accepts_partial {s : Bytes} {offs : Nat} (w tl : Bytes) (want : Bool) (h : offs ≤ s.length)
    (hs : s.drop offs = w ++ tl) (hw : V6Text w) (ht : ∀ c, tl.head? = some c → isSpace c = true)
    (hq : ¬ V6Quirk w tl) :
    parseIPv6 s offs want = .ok (w.length, text want (s.drop offs) w.length) := by
  have ht' : HeadNot (fun c => !isSpace c) tl := fun c hc => by simp [ht c hc]
  cases hw with
  | full gs hv hn =>
    have hne : gs ≠ [] := by intro h0; rw [h0] at hn; simp at hn
    obtain ⟨bb, hl⟩ := v6_to_end gs 1 offs offs 0 false tl hv hne hs ht'
    rw [hn] at hl
    obtain ⟨c, r, h1, h2⟩ := v6_first hne hv []
    rw [List.append_nil] at h1
    obtain ⟨u, e, h3, h4⟩ := v6_last hne hv []
    exact v6_finish want h hs (by have := sepBy_len gs hv (by omega); omega) ⟨c, r, h1, .inl h2⟩ ⟨u, e, h3, .inl h4⟩ _ _ hl
      (ipv6V4_no rfl) rfl (by simp) (by simp)
  | full4 gs v4 hv hn h4 =>
    have hne : gs ≠ [] := by intro h0; rw [h0] at hn; simp at hn
    obtain ⟨k, hl⟩ := v6_to_v4 gs v4 2 offs offs 0 false tl hv h4 hs
    rw [hn] at hl
    obtain ⟨c, r, h1, h2⟩ := v6_first hne hv (ch! ':' :: v4)
    have e0 : sepBy (ch! ':') (gs ++ [v4]) = sepBy (ch! ':') gs ++ ch! ':' :: v4 := by
      obtain ⟨g0, g, rfl⟩ := snoc_of_ne_nil hne
      rw [sepBy_snoc, sepBy_snoc]; simp
    obtain ⟨u, e, h3, h5⟩ := v4_last h4 gs []
    have d4 : s.drop (offs + (gcol gs).length) = v4 ++ tl := by
      apply drop_of_append
      rw [hs, sepBy_snoc]; simp [gcol]
    have hgl : 0 < (gcol gs).length := by
      obtain ⟨g0, g, rfl⟩ := snoc_of_ne_nil hne
      simp [gcol]; omega
    have hbl : offs + (gcol gs).length ≤ s.length := by
      have := len_of_drop hs h
      rw [sepBy_snoc] at this
      simp only [List.length_append] at this
      unfold gcol
      omega
    have y := ipv6V4_yes (s := s) (offs := offs) (k := k) (bb := offs + (gcol gs).length) (nb := 0 + 6 + 1) (ab := false)
      (by omega) hbl (by rw [d4]; exact v4_append h4 (space_not_digit ht'))
    refine v6_finish want h hs ?_ ⟨c, r, by rw [e0]; exact h1, .inl h2⟩ ⟨u, e, h3, .inl h5⟩ _ _ hl y ?_ (by simp) (by simp)
    · have := v4_len h4
      rw [e0]; simp; omega
    · rw [sepBy_snoc]
      simp only [List.length_append]
      unfold gcol; omega
  | abbr a b ha hb hn =>
    have hs1 : s.drop offs = sepBy (ch! ':') a ++ ch! ':' :: ch! ':' :: (sepBy (ch! ':') b ++ tl) := by
      rw [hs]; simp
    obtain ⟨bb, hl⟩ := v6_upto_dbl a (9 - max 1 a.length) offs offs _ ha hs1
    rw [show max 1 a.length + (9 - max 1 a.length) = 9 by omega] at hl
    have hd : s.drop (offs + (sepBy (ch! ':') a).length + 2) = sepBy (ch! ':') b ++ tl := by
      have := drop_of_cons (drop_of_cons (drop_of_append hs1))
      rw [← this]
    have hlen := len_of_drop hs h
    simp only [List.length_append] at hlen
    have hfirst : ∃ c r, sepBy (ch! ':') a ++ bs! "::" ++ sepBy (ch! ':') b = c :: r ∧ (isXDigit c = true ∨
        ∃ r', sepBy (ch! ':') a ++ bs! "::" ++ sepBy (ch! ':') b = ch! ':' :: ch! ':' :: r') := by
      by_cases h0 : a = []
      · subst h0; exact ⟨_, _, rfl, .inr ⟨_, rfl⟩⟩
      · obtain ⟨c, r, h1, h2⟩ := v6_first h0 ha (bs! "::" ++ sepBy (ch! ':') b)
        exact ⟨c, r, by rw [List.append_assoc]; exact h1, .inl h2⟩
    have h2l : 2 ≤ (sepBy (ch! ':') a ++ bs! "::" ++ sepBy (ch! ':') b).length := by
      simp only [List.length_append]
      have : (bs! "::").length = 2 := rfl
      omega
    have h2' : (bs! "::").length = 2 := rfl
    by_cases hb0 : b = []
    · subst hb0
      have hlast : ∃ u c, sepBy (ch! ':') a ++ bs! "::" ++ sepBy (ch! ':') [] = u ++ [c] ∧
          (c ≠ ch! ':' ∨ ∃ u', sepBy (ch! ':') a ++ bs! "::" ++ sepBy (ch! ':') [] = u' ++ [ch! ':', ch! ':']) :=
        ⟨sepBy (ch! ':') a ++ bs! ":", ch! ':', by simp [sepBy], .inr ⟨sepBy (ch! ':') a, by simp [sepBy]⟩⟩
      by_cases ht0 : tl = []
      · subst ht0
        rw [if_pos (by simp [sepBy])] at hl
        exact v6_finish want h hs (by omega) hfirst hlast _ _ hl (ipv6V4_no rfl) (by simp [sepBy]; omega)
          (by simp; simp at hn; omega) (by simp; simp at hn; omega)
      · rw [if_neg (by simp [sepBy, ht0])] at hl
        have hlt : offs + (sepBy (ch! ':') a).length + 2 < s.length := by
          have : 0 < tl.length := List.length_pos_iff.2 ht0
          omega
        have f := v6_fin (g := []) (8 - max 1 a.length) bb (max 1 a.length) true hlt (by simpa [sepBy] using hd) (by simp) (by simp) ht'
        rw [show 9 - max 1 a.length = 8 - max 1 a.length + 1 by simp at hn; omega, f] at hl
        have hn7 : a.length ≠ 7 := fun h7 => hq (.inr ⟨a, h7, by simp [sepBy], ht0⟩)
        exact v6_finish want h hs (by omega) hfirst hlast _ _ hl (ipv6V4_no rfl) (by simp [sepBy]; omega)
          (by simp; simp at hn; omega) (by simp; simp at hn; omega)
    · have hb1 : 0 < b.length := List.length_pos_iff.2 hb0
      rw [if_neg (by
        intro h0
        obtain ⟨c, r, h1, -⟩ := v6_first hb0 hb tl
        rw [h1] at h0; cases h0)] at hl
      obtain ⟨bb', f⟩ := v6_to_end b (9 - max 1 a.length - b.length) (offs + (sepBy (ch! ':') a).length + 2) bb
        (max 1 a.length) true tl hb hb0 hd ht'
      rw [show b.length + (9 - max 1 a.length - b.length) = 9 - max 1 a.length by omega] at f
      rw [f] at hl
      obtain ⟨u, e, h3, h4⟩ := v6_last hb0 hb (sepBy (ch! ':') a ++ bs! "::")
      have hn7 : a = [] → b.length ≠ 7 := fun ha0 h7 => hq (.inl ⟨b, h7, by rw [ha0]; rfl⟩)
      have hlt : max 1 a.length + b.length < 8 := by
        by_cases ha0 : a = []
        · have := hn7 ha0
          subst ha0
          simp at hn ⊢; omega
        · have : 0 < a.length := List.length_pos_iff.2 ha0
          omega
      exact v6_finish want h hs (by omega) hfirst ⟨u, e, h3, .inl h4⟩ _ _ hl (ipv6V4_no rfl)
        (by simp only [List.length_append]; omega) (by simp only; omega) (by simp only; omega)
  | abbr4 a b v4 ha hb hn h4 =>
    have hs1 : s.drop offs = sepBy (ch! ':') a ++ ch! ':' :: ch! ':' :: (sepBy (ch! ':') (b ++ [v4]) ++ tl) := by
      rw [hs]; simp
    obtain ⟨bb, hl⟩ := v6_upto_dbl a (9 - max 1 a.length) offs offs _ ha hs1
    rw [show max 1 a.length + (9 - max 1 a.length) = 9 by omega] at hl
    have hd : s.drop (offs + (sepBy (ch! ':') a).length + 2) = sepBy (ch! ':') (b ++ [v4]) ++ tl := by
      have := drop_of_cons (drop_of_cons (drop_of_append hs1))
      rw [← this]
    have hlen := len_of_drop hs h
    simp only [List.length_append] at hlen
    have h2' : (bs! "::").length = 2 := rfl
    have hfirst : ∃ c r, sepBy (ch! ':') a ++ bs! "::" ++ sepBy (ch! ':') (b ++ [v4]) = c :: r ∧ (isXDigit c = true ∨
        ∃ r', sepBy (ch! ':') a ++ bs! "::" ++ sepBy (ch! ':') (b ++ [v4]) = ch! ':' :: ch! ':' :: r') := by
      by_cases h0 : a = []
      · subst h0; exact ⟨_, _, rfl, .inr ⟨_, rfl⟩⟩
      · obtain ⟨c, r, h1, h2⟩ := v6_first h0 ha (bs! "::" ++ sepBy (ch! ':') (b ++ [v4]))
        exact ⟨c, r, by rw [List.append_assoc]; exact h1, .inl h2⟩
    obtain ⟨u, e, h3, h5⟩ := v4_last h4 b (sepBy (ch! ':') a ++ bs! "::")
    have hv4l := v4_len h4
    have hbl : (sepBy (ch! ':') (b ++ [v4])).length = (gcol b).length + v4.length := by
      rw [sepBy_snoc, List.length_append]; rfl
    rw [if_neg (by
      intro h0
      have := congrArg List.length h0
      simp only [List.length_append, List.length_nil, hbl] at this
      omega)] at hl
    obtain ⟨k, f⟩ := v6_to_v4 b v4 (8 - max 1 a.length - b.length) (offs + (sepBy (ch! ':') a).length + 2) bb
      (max 1 a.length) true tl hb h4 hd
    rw [show b.length + (8 - max 1 a.length - b.length + 1) = 9 - max 1 a.length by omega] at f
    rw [f] at hl
    have d4 : s.drop (offs + (sepBy (ch! ':') a).length + 2 + (gcol b).length) = v4 ++ tl := by
      apply drop_of_append
      rw [hd, sepBy_snoc]; simp [gcol]
    have y := ipv6V4_yes (s := s) (offs := offs) (k := k) (bb := offs + (sepBy (ch! ':') a).length + 2 + (gcol b).length)
      (nb := max 1 a.length + b.length + 1) (ab := true) (by omega) (by omega)
      (by rw [d4]; exact v4_append h4 (space_not_digit ht'))
    exact v6_finish want h hs (by simp only [List.length_append]; omega) hfirst ⟨u, e, h3, .inl h5⟩ _ _ hl y
      (by simp only [List.length_append]; omega) (by simp only; omega) (by simp only; omega)

/-- the text forms of the documentation -/
example : V6Text (bs! "2001:db8::1") :=
  .abbr [bs! "2001", bs! "db8"] [bs! "1"] (by unfold V6Group; decide) (by unfold V6Group; decide) (by decide)
example : V6Text (bs! "1:2:3:4:5:6:7:8") :=
  .full [bs! "1", bs! "2", bs! "3", bs! "4", bs! "5", bs! "6", bs! "7", bs! "8"] (by unfold V6Group; decide) (by decide)
example : parseIPv6 (bs! "2001:db8::1 x") 0 true = .ok (11, some (.str (bs! "2001:db8::1"))) := by decide +kernel

/-! ### what is accepted at least looks like an address -/

/-- the alphabet of addresses -/
def v6Char (c : UInt8) : Prop := isXDigit c = true ∨ c = ch! ':' ∨ c = ch! '.'

/-- bytes `i .. j` are address characters -/
def V6All (s : Bytes) (i j : Nat) : Prop := ∀ (k : Nat) (c : UInt8), i ≤ k → k < j → s[k]? = some c → v6Char c

theorem V6All.trans {s : Bytes} {i j k : Nat} (h1 : V6All s i j) (h2 : V6All s j k) : V6All s i k := by
  intro m c hm hk hc
  by_cases h : m < j
  · exact h1 m c hm h hc
  · exact h2 m c (by omega) hk hc

theorem V6All.one {s : Bytes} {i : Nat} {c : UInt8} (h : rd s i = .ok c) (hc : v6Char c) : V6All s i (i + 1) := by
  intro m d hm hk hd
  have : m = i := by omega
  subst this
  rcases rd_eq_ok.1 h with h | ⟨h, -⟩
  · rw [h] at hd; cases hd; exact hc
  · have := (List.getElem?_eq_some_iff.1 hd).1; omega

theorem V6All.of_append {s w r : Bytes} {i : Nat} (h : s.drop i = w ++ r) (hw : ∀ c ∈ w, v6Char c) :
    V6All s i (i + w.length) := by
  intro k c hk hj hc
  have h1 : s[k]? = (s.drop i)[k - i]? := by rw [List.getElem?_drop]; congr 1; omega
  rw [h1, h, List.getElem?_append_left (by omega)] at hc
  exact hw c (List.mem_of_getElem? hc)

theorem skipBlock_sound {s : Bytes} {i j : Nat} (h : skipIPv6AddrBlock s i = .ok j) : i ≤ j ∧ V6All s i j := by
  unfold skipIPv6AddrBlock at h
  obtain ⟨_, hg, h⟩ := R.bind_eq_ok.1 h
  simp only [R.pure_eq, R.ok.injEq] at h
  subst h
  refine ⟨by omega, ?_⟩
  obtain ⟨r, hr⟩ : ((s.drop i).take 4).takeWhile isXDigit <+: s.drop i :=
    (List.takeWhile_prefix _).trans (List.take_prefix _ _)
  exact V6All.of_append hr.symm fun c hc => .inl (takeWhile_mem hc)

theorem ipv6Loop_sound {s : Bytes} : ∀ (n i bb nb : Nat) (ab : Bool) (v : V6), ipv6Loop s n i bb nb ab = .ok v →
    i ≤ v.i ∧ V6All s i v.i ∧ ((n = 0 ∧ v.hasIPv4 = false) ∨ (i ≤ v.beginBlock ∧ v.beginBlock ≤ v.i)) := by
  intro n
  induction n with
  | zero =>
    intro i bb nb ab v h
    rw [ipv6Loop] at h; cases h
    exact ⟨Nat.le_refl _, by intro k c hk hj; dsimp only at hj; omega, .inl ⟨rfl, rfl⟩⟩
  | succ n ih =>
    intro i bb nb ab v h
    rw [ipv6Loop] at h
    dsimp only at h
    obtain ⟨j, h1, h⟩ := R.bind_eq_ok.1 h
    obtain ⟨hij, ha⟩ := skipBlock_sound h1
    have step : ∀ (j' nb' : Nat) (ab' : Bool), i ≤ j' → V6All s i j' → ipv6Loop s n j' i nb' ab' = .ok v →
        i ≤ v.i ∧ V6All s i v.i ∧ ((n + 1 = 0 ∧ v.hasIPv4 = false) ∨ (i ≤ v.beginBlock ∧ v.beginBlock ≤ v.i)) := by
      intro j' nb' ab' hj' ha' hl
      obtain ⟨q1, q2, q3⟩ := ih _ _ _ _ _ hl
      refine ⟨by omega, ha'.trans q2, ?_⟩
      right
      rcases q3 with ⟨q3, -⟩ | q3
      · subst q3
        rw [ipv6Loop] at hl; cases hl
        exact ⟨Nat.le_refl _, hj'⟩
      · omega
    have fin : ∀ (j' nb' : Nat) (ab' b : Bool), i ≤ j' → V6All s i j' → (⟨j', i, nb', ab', b⟩ : V6) = v →
        i ≤ v.i ∧ V6All s i v.i ∧ ((n + 1 = 0 ∧ v.hasIPv4 = false) ∨ (i ≤ v.beginBlock ∧ v.beginBlock ≤ v.i)) := by
      intro j' nb' ab' b hj' ha' hv
      subst hv
      exact ⟨hj', ha', .inr ⟨Nat.le_refl _, hj'⟩⟩
    by_cases e1 : j = s.length
    · rw [if_pos e1] at h; exact fin _ _ _ _ hij ha (R.ok.inj h)
    rw [if_neg e1] at h
    obtain ⟨c, hc, h⟩ := R.bind_eq_ok.1 h
    by_cases e2 : isSpace c = true
    · rw [if_pos e2] at h; exact fin _ _ _ _ hij ha (R.ok.inj h)
    rw [if_neg e2] at h
    by_cases e3 : c = ch! '.'
    · rw [if_pos e3] at h; exact fin _ _ _ _ hij ha (R.ok.inj h)
    rw [if_neg e3] at h
    obtain ⟨_, hg, h⟩ := R.bind_eq_ok.1 h
    have hcol := of_decide_eq_true (R.guard_eq_ok.1 hg)
    have ha1 := ha.trans (V6All.one hc (.inr (.inl hcol)))
    by_cases e4 : j + 1 = s.length
    · rw [if_pos e4] at h; exact fin _ _ _ _ (by omega) ha1 (R.ok.inj h)
    rw [if_neg e4] at h
    obtain ⟨c2, hc2, h⟩ := R.bind_eq_ok.1 h
    by_cases e5 : ab = true
    · rw [if_pos e5] at h
      obtain ⟨_, _, h⟩ := R.bind_eq_ok.1 h
      exact step _ _ _ (by omega) ha1 h
    rw [if_neg e5] at h
    by_cases e6 : c2 = ch! ':'
    · rw [if_pos e6] at h
      have ha2 := ha1.trans (V6All.one hc2 (.inr (.inl e6)))
      by_cases e7 : j + 1 + 1 = s.length
      · rw [if_pos e7] at h; exact fin _ _ _ _ (by omega) ha2 (R.ok.inj h)
      · rw [if_neg e7] at h; exact step _ _ _ (by omega) ha2 h
    · rw [if_neg e6] at h; exact step _ _ _ (by omega) ha1 h

theorem ipv4_chars {t : Bytes} {n : Nat} (h : ipv4 t n) : ∀ c ∈ t.take n, v6Char c := by
  obtain ⟨a, b, c, d, r, e, ha, hb, hc, hd, -, hn⟩ := h
  have dg : ∀ {w : Bytes}, Octet w → ∀ x ∈ w, v6Char x := by
    intro w hw x hx
    left
    have := hw.2.2.1 x hx
    simp [isXDigit, this]
  have ht : t.take n = a ++ bs! "." ++ b ++ bs! "." ++ c ++ bs! "." ++ d := by
    rw [e]
    apply List.take_left'
    simp; omega
  rw [ht]
  intro x hx
  simp only [List.mem_append, List.mem_singleton] at hx
  rcases hx with (((((hx | hx) | hx) | hx) | hx) | hx) | hx
  · exact dg ha x hx
  · exact .inr (.inr hx)
  · exact dg hb x hx
  · exact .inr (.inr hx)
  · exact dg hc x hx
  · exact .inr (.inr hx)
  · exact dg hd x hx

/-- C35 (partial, the other direction): what is matched consists of hex digits, colons and dots. (That
it always is an address is false, see below.) -/
theorem C35_alphabet_partial {s : Bytes} {offs n : Nat} {want : Bool} {v : Option Json} (h : offs ≤ s.length)
    (hp : parseIPv6 s offs want = .ok (n, v)) :
    ∀ c ∈ (s.drop offs).take n, isXDigit c = true ∨ c = ch! ':' ∨ c = ch! '.' := by
  unfold parseIPv6 at hp
  obtain ⟨_, g0, hp⟩ := R.bind_eq_ok.1 hp
  obtain ⟨c0, _, hp⟩ := R.bind_eq_ok.1 hp
  obtain ⟨c1, _, hp⟩ := R.bind_eq_ok.1 hp
  obtain ⟨_, _, hp⟩ := R.bind_eq_ok.1 hp
  obtain ⟨w, hl, hp⟩ := R.bind_eq_ok.1 hp
  obtain ⟨w', h4, hp⟩ := R.bind_eq_ok.1 hp
  obtain ⟨_, _, hp⟩ := R.bind_eq_ok.1 hp
  obtain ⟨_, _, hp⟩ := R.bind_eq_ok.1 hp
  obtain ⟨q1, q2, q3⟩ := ipv6Loop_sound _ _ _ _ _ _ hl
  have hall : offs ≤ w'.i ∧ V6All s offs w'.i := by
    unfold ipv6V4 at h4
    by_cases hb : w.hasIPv4 = true
    · rw [if_pos hb] at h4
      obtain ⟨_, _, h4⟩ := R.bind_eq_ok.1 h4
      obtain ⟨⟨m, o⟩, h5, h4⟩ := R.bind_eq_ok.1 h4
      have hw' := R.ok.inj h4
      subst hw'
      have q4 : offs ≤ w.beginBlock ∧ w.beginBlock ≤ w.i := by
        rcases q3 with ⟨-, q⟩ | q
        · rw [q] at hb; cases hb
        · exact q
      have hbl : w.beginBlock ≤ s.length := by
        by_cases hx : w.beginBlock ≤ s.length
        · exact hx
        · exfalso
          unfold parseIPv4 at h5
          have : decide (w.beginBlock + 7 ≤ s.length) = false := by simp; omega
          simp [this] at h5
      have hi := C34_ipv4 hbl false
      obtain ⟨k, hk⟩ : ∃ k, ipv4 (s.drop w.beginBlock) k := by
        by_cases hx : ∃ k, ipv4 (s.drop w.beginBlock) k
        · exact hx
        · rw [hi.2 fun k hk => hx ⟨k, hk⟩] at h5; cases h5
      have := hi.1 k hk
      rw [h5] at this
      have hmk : m = k := by cases this; rfl
      subst hmk
      refine ⟨by dsimp only; omega, ?_⟩
      have hA : V6All s offs w.beginBlock := fun a c h1 h2 => q2 a c h1 (by omega)
      refine hA.trans ?_
      have hsp : s.drop w.beginBlock = (s.drop w.beginBlock).take m ++ (s.drop w.beginBlock).drop m :=
        (List.take_append_drop _ _).symm
      have hm : ((s.drop w.beginBlock).take m).length = m := by
        obtain ⟨a, b, c, d, r, e, -, -, -, -, -, hn⟩ := hk
        rw [e]; simp; omega
      have := V6All.of_append hsp (ipv4_chars hk)
      rw [hm] at this
      exact this
    · rw [if_neg hb] at h4
      have hw' := R.ok.inj h4
      subst hw'
      exact ⟨q1, q2⟩
  have hn : n = w'.i - offs := by
    by_cases z : w'.i = 0
    · rw [if_pos z] at hp; cases hp
    rw [if_neg z] at hp
    obtain ⟨a, _, hp⟩ := R.bind_eq_ok.1 hp
    by_cases z1 : a = ch! ':'
    · rw [if_pos z1] at hp
      by_cases z2 : w'.i < 2
      · rw [if_pos z2] at hp; cases hp
      rw [if_neg z2] at hp
      obtain ⟨b, _, hp⟩ := R.bind_eq_ok.1 hp
      obtain ⟨_, _, hp⟩ := R.bind_eq_ok.1 hp
      have := congrArg Prod.fst (R.ok.inj hp)
      exact this.symm
    · rw [if_neg z1] at hp
      have := congrArg Prod.fst (R.ok.inj hp)
      exact this.symm
  intro c hc
  obtain ⟨k, hk⟩ := List.getElem?_of_mem hc
  have hkn : k < n := by
    have := (List.getElem?_eq_some_iff.1 hk).1
    simp at this; omega
  rw [List.getElem?_take_of_lt hkn, List.getElem?_drop] at hk
  exact hall.2 (offs + k) c (by omega) (by omega) hk

theorem v6_colons {w : Bytes} (h : V6Text w) : ch! ':' ∈ w := by
  cases h with
  | full gs hv hn => match gs, hn with
    | a :: b :: gs, _ => simp [sepBy]
  | abbr a b _ _ _ => simp
  | full4 gs v4 hv hn h4 =>
    rw [sepBy_snoc]
    match gs, hn with
    | a :: gs, _ => simp
  | abbr4 a b v4 _ _ _ _ => simp

/-- C35, only addresses: violated. -/
theorem C35_sound_violated :
    ¬ ∀ (w : Bytes) (n : Nat) (v : Option Json), parseIPv6 w 0 true = .ok (n, v) → V6Text (w.take n) := by
  intro h
  have := v6_colons (h (bs! "ab") 2 (some (.str (bs! "ab"))) (by decide +kernel))
  revert this; decide

/-- C35, all addresses: violated by the quirk cases. -/
theorem C35_complete_violated :
    ¬ ∀ (w : Bytes), V6Text w → (parseIPv6 w 0 true) = .ok (w.length, some (.str w)) := by
  intro h
  have := h (bs! "::2:3:4:5:6:7:8")
    (.abbr [] [bs! "2", bs! "3", bs! "4", bs! "5", bs! "6", bs! "7", bs! "8"] (by unfold V6Group; decide) (by unfold V6Group; decide) (by decide))
  revert this; decide +kernel

end LN
