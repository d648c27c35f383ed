import Verif.Proofs.StructC
import Verif.Proofs.Dates
import Verif.Props.FieldsB
import Verif.Props.FieldsD
import Verif.Spec.Addr
/-
C37: cisco-interface-spec.
-/
set_option autoImplicit false
namespace LN
open Spec

theorem portDigits_bound {d : Bytes} (hd : ∀ c ∈ d, isDigit c = true) (hl : d.length ≤ 18) :
    (decVal d : Int) + 48 ≤ int64Max := by
  have h1 := decVal_lt d hd
  have h2 : 10 ^ d.length ≤ 10 ^ 18 := Nat.pow_le_pow_right (by decide) hl
  have h3 : decVal d < 10 ^ 18 := Nat.lt_of_lt_of_le h1 h2
  have h4 : int64Max = 9223372036854775807 := rfl
  rw [h4]; omega

/-- no digit string of the message is too long for 64 bit arithmetic -/
def Digits18 (s : Bytes) : Prop := ∀ i, ((s.drop i).takeWhile isDigit).length ≤ 18

theorem num_ok {s : Bytes} {i : Nat} (hf : Digits18 s) {p r : Bytes} (h : s.drop i = p ++ r) (hp : Port p)
    (hr : HeadNot isDigit r) : parseNumber s i none false = .ok (p.length, none) := by
  have ht : (s.drop i).takeWhile isDigit = p := by rw [h]; exact takeWhile_of_split hp.2 hr
  have hb : (decVal ((s.drop i).takeWhile isDigit) : Int) + 48 ≤ int64Max :=
    portDigits_bound (fun c hc => takeWhile_mem hc) (hf i)
  have := (C20_number_partial (s := s) (offs := i) none false hb).1 p.length ⟨List.length_pos_iff.2 hp.1, by rw [run_iff, ht], by simp⟩
  rw [this]; simp [text]

theorem num_fail {s : Bytes} {i : Nat} (hf : Digits18 s) (h : ∀ p r, s.drop i = p ++ r → Port p → ¬ HeadNot isDigit r) :
    parseNumber s i none false = .fail := by
  have hb : (decVal ((s.drop i).takeWhile isDigit) : Int) + 48 ≤ int64Max :=
    portDigits_bound (fun c hc => takeWhile_mem hc) (hf i)
  refine (C20_number_partial (s := s) (offs := i) none false hb).2 fun n hn => ?_
  obtain ⟨a, b, h1, h2, h3, h4⟩ := split_at isDigit (s.drop i)
  have := run_iff.1 hn.2.1
  rw [← h4] at this
  exact h a b h1 ⟨by intro h0; rw [h0] at this; simp at this; have := hn.1; omega, h2⟩ h3

theorem num_cases {s : Bytes} {i : Nat} (hf : Digits18 s) :
    (∃ p r, s.drop i = p ++ r ∧ Port p ∧ HeadNot isDigit r ∧ parseNumber s i none false = .ok (p.length, none)) ∨
    ((∀ p r, s.drop i = p ++ r → Port p → ¬ HeadNot isDigit r) ∧ parseNumber s i none false = .fail) := by
  by_cases h : ∃ p r, s.drop i = p ++ r ∧ Port p ∧ HeadNot isDigit r
  · obtain ⟨p, r, h1, h2, h3⟩ := h
    exact .inl ⟨p, r, h1, h2, h3, num_ok hf h1 h2 h3⟩
  · have : ∀ p r, s.drop i = p ++ r → Port p → ¬ HeadNot isDigit r := fun p r a b c => h ⟨p, r, a, b, c⟩
    exact .inr ⟨this, num_fail hf this⟩

theorem port_unique {p r p' r' : Bytes} (h : p ++ r = p' ++ r') (hp : Port p) (hp' : Port p')
    (hr : HeadNot isDigit r) (hr' : HeadNot isDigit r') : p = p' ∧ r = r' := by
  have h1 : (p ++ r).takeWhile isDigit = p := takeWhile_of_split hp.2 hr
  have h2 : (p' ++ r').takeWhile isDigit = p' := takeWhile_of_split hp'.2 hr'
  rw [h] at h1
  rw [h1] at h2
  refine ⟨h2, ?_⟩
  rw [h2] at h
  exact List.append_cancel_left h

theorem ipv4_beyond {s : Bytes} {i : Nat} (want : Bool) :
    Implements (parseIPv4 s i want) (ipv4 (s.drop i)) (text want (s.drop i)) := by
  by_cases h : i ≤ s.length
  · exact C34_ipv4 h want
  · have hd : s.drop i = [] := List.drop_eq_nil_of_le (by omega)
    refine ⟨fun n hn => ?_, fun _ => ?_⟩
    · exfalso
      rw [hd] at hn
      obtain ⟨a, b, c, d, r, e, -⟩ := hn
      have := congrArg List.length e
      simp at this
    · unfold parseIPv4
      have : decide (i + 7 ≤ s.length) = false := by simp; omega
      rw [this]; rfl

theorem ipv4_cases (s : Bytes) (i : Nat) :
    (∃ n, ipv4 (s.drop i) n ∧ parseIPv4 s i false = .ok (n, none)) ∨
    ((∀ n, ¬ ipv4 (s.drop i) n) ∧ parseIPv4 s i false = .fail) := by
  by_cases h : ∃ n, ipv4 (s.drop i) n
  · obtain ⟨n, hn⟩ := h
    exact .inl ⟨n, hn, by rw [(ipv4_beyond false).1 n hn]; simp [text]⟩
  · have : ∀ n, ¬ ipv4 (s.drop i) n := fun n hn => h ⟨n, hn⟩
    exact .inr ⟨this, (ipv4_beyond false).2 this⟩

theorem ipv4_unique {t : Bytes} {n m : Nat} (hn : ipv4 t n) (hm : ipv4 t m) : n = m := by
  have h := C34_ipv4 (s := t) (offs := 0) (by omega) false
  rw [List.drop_zero] at h
  have h1 := h.1 n hn
  rw [h.1 m hm] at h1
  cases h1; rfl

theorem ipv4_len {t : Bytes} {n : Nat} (hn : ipv4 t n) : 7 ≤ n ∧ n ≤ t.length := by
  obtain ⟨a, b, c, d, r, e, ha, hb, hc, hd, -, hn⟩ := hn
  have h1 := ha.1; have h2 := hb.1; have h3 := hc.1; have h4 := hd.1
  refine ⟨by omega, ?_⟩
  rw [e]; simp; omega

theorem ipv4_first {t : Bytes} {n : Nat} (hn : ipv4 t n) : ∃ c r, t = c :: r ∧ isDigit c = true := by
  obtain ⟨a, b, c, d, r, e, ha, -⟩ := hn
  cases hk : a with
  | nil => have := ha.1; rw [hk] at this; simp at this
  | cons x a' =>
    have := ha.2.2.1 x (by rw [hk]; simp)
    refine ⟨x, a' ++ bs! "." ++ b ++ bs! "." ++ c ++ bs! "." ++ d ++ r, ?_, this⟩
    rw [e, hk]; simp

/-- what a text beginning with `ip/port` determines -/
theorem IpPort.spec {t ip port r : Bytes} (h : IpPort t ip port r) {s : Bytes} {i : Nat} (hs : s.drop i = t)
    (hf : Digits18 s) :
    parseIPv4 s i false = .ok (ip.length, none) ∧ slice s i ip.length = ip ∧
    s.drop (i + ip.length) = ch! '/' :: (port ++ r) ∧
    parseNumber s (i + ip.length + 1) none false = .ok (port.length, none) ∧
    slice s (i + ip.length + 1) port.length = port ∧
    s.drop (i + ip.length + 1 + port.length) = r := by
  obtain ⟨h1, h2, h3, h4⟩ := h
  have e1 : s.drop i = ip ++ (ch! '/' :: (port ++ r)) := by rw [hs, h1]; simp
  have e2 := drop_of_append e1
  have e3 := drop_of_cons e2
  refine ⟨?_, slice_of_append e1, e2, num_ok hf e3 h3 h4, slice_of_append e3, drop_of_append e3⟩
  rw [(ipv4_beyond false).1 ip.length (by rw [hs]; exact h2)]; simp [text]

/-! ### the head -/

theorem ciscoHead_ok {s : Bytes} {offs : Nat} (h : offs ≤ s.length) (hf : Digits18 s) {iface : Option Bytes} {ip port r : Bytes}
    (hh : CiscoHead (s.drop offs) iface ip port r) :
    ∃ c ifc j, rd s offs = .ok c ∧ (!(c = ch! ':' || isSpace c)) = true ∧
      ciscoHead s offs = .ok (ifc, j, ip.length, j + ip.length) ∧
      (match ifc with | some (a, n) => some (slice s a n) | none => none) = iface ∧
      slice s j ip.length = ip ∧
      s.drop (j + ip.length) = ch! '/' :: (port ++ r) ∧
      parseNumber s (j + ip.length + 1) none false = .ok (port.length, none) ∧
      slice s (j + ip.length + 1) port.length = port ∧
      s.drop (j + ip.length + 1 + port.length) = r := by
  cases iface with
  | none =>
    obtain ⟨h1, h2, h3, h4, h5, h6⟩ := IpPort.spec hh rfl hf
    obtain ⟨c, r', hc, hd⟩ := ipv4_first hh.2.1
    refine ⟨c, none, offs, rd_of_cons hc, ?_, ?_, rfl, h2, h3, h4, h5, h6⟩
    · revert hd
      simp only [isSpace, isDigit, UInt8.le_iff_toNat_le, Bool.and_eq_true,
        decide_eq_true_eq, Bool.not_eq_true', u8_eq, Bool.or_eq_false_iff, decide_eq_false_iff_not, beq_eq_false_iff_ne, ne_eq]
      intro hd
      simp at *
      omega
    · unfold ciscoHead
      have hl := ipv4_len hh.2.1
      have hlt := lt_of_drop_cons h3
      rw [h1]
      simp only [R.attempt_ok, R.ok_bind]
      have g : decide (offs + ip.length - 1 ≠ s.length) = true := by simp; omega
      rw [g]
      simp only [R.guard_true, R.ok_bind]
      have : offs + ip.length - 1 + 1 = offs + ip.length := by omega
      rw [this]; rfl
  | some f =>
    obtain ⟨hn4, hne, hch, t', ht, hip⟩ := hh
    have e0 : s.drop offs = f ++ (ch! ':' :: t') := by rw [ht]; simp
    have e1 := drop_of_append e0
    have e2 := drop_of_cons e1
    have hlt := lt_of_drop_cons e1
    obtain ⟨h1, h2, h3, h4, h5, h6⟩ := IpPort.spec hip e2 hf
    cases hk : f with
    | nil => exact absurd hk hne
    | cons c f' =>
      have hc := hch c (by rw [hk]; simp)
      refine ⟨c, some (offs, f.length), offs + f.length + 1, ?_, ?_, ?_, ?_, h2, h3, h4, h5, h6⟩
      · exact rd_of_cons (b := f' ++ (ch! ':' :: t')) (by rw [e0, hk]; rfl)
      · simp [hc.1, hc.2]
      · unfold ciscoHead
        rw [(ipv4_beyond false).2 hn4]
        simp only [R.attempt_fail, R.ok_bind]
        rw [scan_of_append (p := fun c => !isSpace c && c != ch! ':') e0 (fun c hc => by simp [hch c hc])
          (headNot_cons.2 (by decide))]
        have g1 : (!atP isSpace s (offs + f.length)) = true := by
          rw [atP_head, e1]; rfl
        have g2 : decide (offs + f.length ≠ s.length) = true := by simp; omega
        rw [g1, g2]
        simp only [R.guard_true, R.ok_bind, h1]
        simp
      · simp only
        rw [slice_of_append e0, hk]

theorem slash_ok {s : Bytes} {i : Nat} {t : Bytes} (h : s.drop i = ch! '/' :: t) :
    guardChar s i (ch! '/') = .ok () := by
  unfold guardChar; rw [rd_of_cons h]; rfl

theorem slash_cases (s : Bytes) (i : Nat) : i ≤ s.length → i ≠ s.length →
    (∃ t, s.drop i = ch! '/' :: t) ∨ guardChar s i (ch! '/') = .fail := by
  intro h h'
  cases hd : s.drop i with
  | nil => exact absurd (drop_eq_nil_len hd h) h'
  | cons c t =>
    by_cases hc : c = ch! '/'
    · left; subst hc; exact ⟨t, rfl⟩
    · right; unfold guardChar; rw [rd_of_cons hd]; simp [hc]

/-- without an interface specification at this position, the parser fails -/
theorem cisco_fail {s : Bytes} {offs : Nat} (h : offs ≤ s.length) (hf : Digits18 s) (want : Bool)
    (hn : ∀ iface ip port r, ¬ CiscoHead (s.drop offs) iface ip port r) : parseCisco s offs want = .fail := by
  unfold parseCisco
  rcases rd_defined h with ⟨c, hc⟩ | hc
  rotate_left
  · rw [hc]; rfl
  rw [hc]
  simp only [R.ok_bind]
  by_cases hg : (!(decide (c = ch! ':') || isSpace c)) = true
  rotate_left
  · rw [Bool.eq_false_iff.2 hg]; rfl
  rw [hg]
  simp only [R.guard_true, R.ok_bind]
  -- after an address: slash and port
  have tail : ∀ (j n : Nat), ipv4 (s.drop j) n → j ≤ s.length →
      (∀ port r, ¬ IpPort (s.drop j) ((s.drop j).take n) port r) →
      ∀ (K : Nat × Option Json → PR),
        (R.guard (decide (j + n ≠ s.length)) >>= fun _ => guardChar s (j + n) (ch! '/') >>= fun _ =>
          parseNumber s (j + n + 1) none false >>= K) = .fail := by
    intro j n h4 hj hno K
    have hl := ipv4_len h4
    have hln : (s.drop j).length = s.length - j := by simp
    by_cases e : j + n = s.length
    · have : decide (j + n ≠ s.length) = false := by simp [e]
      rw [this]; rfl
    have : decide (j + n ≠ s.length) = true := by simp [e]
    rw [this]
    simp only [R.guard_true, R.ok_bind]
    rcases slash_cases s (j + n) (by omega) e with ⟨t, ht⟩ | hx
    · rw [slash_ok ht]
      simp only [R.ok_bind]
      rcases num_cases (i := j + n + 1) hf with ⟨p, r, h1, h2, h3, -⟩ | ⟨-, hx⟩
      · exfalso
        refine hno p r ⟨?_, ?_, h2, h3⟩
        · have e1 : s.drop j = (s.drop j).take n ++ (s.drop j).drop n := (List.take_append_drop _ _).symm
          rw [List.drop_drop, ht, ← drop_of_cons ht, h1] at e1
          conv => lhs; rw [e1]
          simp
        · rw [List.length_take]
          have : min n (s.drop j).length = n := by omega
          rw [this]; exact h4
      · rw [hx]; rfl
    · rw [hx]; rfl
  unfold ciscoHead
  rcases ipv4_cases s offs with ⟨n, h4, hp⟩ | ⟨h4, hp⟩
  · rw [hp]
    have hl := ipv4_len h4
    have hln : (s.drop offs).length = s.length - offs := by simp
    simp only [R.attempt_ok, R.ok_bind]
    have g : decide (offs + n - 1 ≠ s.length) = true := by simp; omega
    rw [g]
    simp only [R.guard_true, R.ok_bind, R.pure_eq]
    rw [show offs + n - 1 + 1 = offs + n by omega]
    exact tail offs n h4 h (fun port r hip => hn none _ port r hip) _
  · rw [hp]
    simp only [R.attempt_fail, R.ok_bind]
    obtain ⟨f, b, e0, hfch, hb, hsc⟩ := scan_split (fun c => !isSpace c && c != ch! ':') s offs
    rw [hsc]
    by_cases g1 : (!atP isSpace s (offs + f.length)) = true
    rotate_left
    · rw [Bool.eq_false_iff.2 g1]; rfl
    rw [g1]
    simp only [R.guard_true, R.ok_bind]
    by_cases g2 : offs + f.length = s.length
    · have : decide (offs + f.length ≠ s.length) = false := by simp [g2]
      rw [this]; rfl
    have : decide (offs + f.length ≠ s.length) = true := by simp [g2]
    rw [this]
    simp only [R.guard_true, R.ok_bind]
    have e1 := drop_of_append e0
    have hlen := len_of_drop e0 h
    simp only [List.length_append] at hlen
    obtain ⟨b', rfl⟩ : ∃ b', b = ch! ':' :: b' := by
      cases b with
      | nil => simp at hlen; omega
      | cons x b' =>
        have h1 := headNot_cons.1 hb
        rw [atP_head, e1] at g1
        simp at g1 h1
        exact ⟨b', by rw [h1 g1]⟩
    have e2 := drop_of_cons e1
    have hfne : f ≠ [] := by
      intro h0; subst h0
      have : rd s offs = .ok (ch! ':') := rd_of_cons e0
      rw [hc] at this
      cases this
      simp at hg
    simp only [List.length_cons] at hlen
    rcases ipv4_cases s (offs + f.length + 1) with ⟨n, h5, hp5⟩ | ⟨h5, hp5⟩
    · rw [hp5]
      simp only [R.ok_bind, R.pure_eq]
      refine tail _ n h5 (by omega) (fun port r hip => ?_) _
      refine hn (some f) _ port r ⟨h4, hfne, fun c hc => ?_, b', by rw [e0]; simp, by rw [← e2]; exact hip⟩
      have := hfch c hc
      simp at this
      exact ⟨by simpa using this.1, this.2⟩
    · rw [hp5]; rfl

/-! ### the optional parts -/

/-- a second `ip port` pair is written with a slash -/
def SlashUsed (s : Bytes) : Prop :=
  ∀ (k : Nat) (t ip port r : Bytes) (x : UInt8), s.drop k = bs! " (" ++ t → t = ip ++ x :: (port ++ bs! ")" ++ r) →
    ipv4 t ip.length → Port port → x = ch! '/'

theorem ciscoSecond_some {s : Bytes} {i : Nat} (hf : Digits18 s) {ip port r : Bytes}
    (h : SecondAt (s.drop i) ip port r) :
    ∃ a b, ciscoSecond s i = .ok (some ((a, ip.length, b, port.length), b + port.length + 1)) ∧
      slice s a ip.length = ip ∧ slice s b port.length = port ∧ s.drop (b + port.length + 1) = r ∧
      b + port.length + 1 ≤ s.length := by
  obtain ⟨t', ht, hip⟩ := h
  have e0 : s.drop i = ch! ' ' :: ch! '(' :: t' := by rw [ht]; rfl
  have e1 := drop_of_cons e0
  have e2 := drop_of_cons e1
  obtain ⟨h1, h2, h3, h4, h5, h6⟩ := IpPort.spec hip e2 hf
  have hl := ipv4_len hip.2.1
  have hlt := lt_of_drop_cons h3
  refine ⟨i + 2, i + 2 + ip.length + 1, ?_, h2, h5, ?_⟩
  · unfold ciscoSecond
    have c1 : decide (i + 5 < s.length) = true := by simp; omega
    rw [c1, atP_head, atP_head, e0, e1]
    simp only [List.head?_cons, Option.any_some, decide_true, Bool.true_and, if_true, h1, R.attempt_ok, R.ok_bind, h4]
    rw [atP_head, h6]
    rfl
  · have e6 : s.drop (i + 2 + ip.length + 1 + port.length) = ch! ')' :: r := by rw [h6]; rfl
    exact ⟨drop_of_cons e6, lt_of_drop_cons e6⟩

theorem ciscoSecond_none {s : Bytes} {i : Nat} (hf : Digits18 s) (hs : SlashUsed s)
    (h : ∀ ip port r, ¬ SecondAt (s.drop i) ip port r) : ciscoSecond s i = .ok none := by
  unfold ciscoSecond
  by_cases hc : (decide (i + 5 < s.length) && atP (fun x => decide (x = ch! ' ')) s i &&
      atP (fun x => decide (x = ch! '(')) s (i + 1)) = true
  rotate_left
  · rw [if_neg hc]; rfl
  rw [if_pos hc]
  simp only [Bool.and_eq_true, decide_eq_true_eq] at hc
  obtain ⟨⟨hl, h1⟩, h2⟩ := hc
  dsimp only
  rcases ipv4_cases s (i + 2) with ⟨n, h4, hp⟩ | ⟨h4, hp⟩
  rotate_left
  · rw [hp]; rfl
  rw [hp]
  simp only [R.attempt_ok, R.ok_bind]
  rcases num_cases (i := i + 2 + n + 1) hf with ⟨p, r, q1, q2, q3, q4⟩ | ⟨-, hx⟩
  rotate_left
  · rw [hx]; rfl
  rw [q4]
  simp only [R.attempt_ok, R.ok_bind]
  by_cases h5 : atP (fun x => decide (x = ch! ')')) s (i + 2 + n + 1 + p.length) = true
  rotate_left
  · rw [if_neg h5]; rfl
  exfalso
  have head : ∀ {j : Nat} {x : UInt8}, atP (fun y => decide (y = x)) s j = true → ∃ t, s.drop j = x :: t := by
    intro j x hx
    rw [atP_head] at hx
    cases hd : s.drop j with
    | nil => rw [hd] at hx; simp at hx
    | cons y t => rw [hd] at hx; simp at hx; exact ⟨t, by rw [hx]⟩
  obtain ⟨t1, e1⟩ := head h1
  obtain ⟨t2, e2⟩ := head h2
  obtain ⟨t3, e3⟩ := head h5
  have e1' := drop_of_cons e1
  rw [e2] at e1'
  subst e1'
  have e4 := drop_of_cons e2
  have hln := ipv4_len h4
  rw [e4] at h4 hln
  have e5 : t2 = t2.take n ++ t2.drop n := (List.take_append_drop _ _).symm
  have hr : r = ch! ')' :: t3 := by
    have := drop_of_append q1
    rw [e3] at this; exact this.symm
  have e6 : ∃ x, t2.drop n = x :: (p ++ r) := by
    have : t2.drop n = s.drop (i + 2 + n) := by rw [← e4, List.drop_drop]
    rw [this]
    cases hd : s.drop (i + 2 + n) with
    | nil =>
      exfalso
      have hd' : s.drop (i + 2 + n + 1) = [] := by rw [← List.drop_drop, hd]; rfl
      rw [hd'] at q1
      have := q2.1
      have q1' : p ++ r = [] := q1.symm
      simp at q1'
      exact this q1'.1
    | cons x t => exact ⟨x, by rw [← q1, drop_of_cons hd]⟩
  obtain ⟨x, e6⟩ := e6
  have hn : (t2.take n).length = n := by rw [List.length_take]; omega
  have hx : x = ch! '/' := by
    refine hs i t2 (t2.take n) p t3 x (by rw [e1]; rfl) ?_ (by rw [hn]; exact h4) q2
    conv => lhs; rw [e5, e6, hr]
    simp
  refine h (t2.take n) p t3 ⟨t2, by rw [e1]; rfl, ?_, by rw [hn]; exact h4, q2, ?_⟩
  · conv => lhs; rw [e5, e6, hr, hx]
    simp
  · intro c hc; simp at hc; subst hc; decide

theorem ciscoUser_some {s : Bytes} {i : Nat} {u r : Bytes} (h : UserAt (s.drop i) u r) :
    ∃ k, ciscoUser s i = some ((k, u.length), k + u.length + 1) ∧ slice s k u.length = u ∧
      s.drop (k + u.length + 1) = r ∧ k + u.length + 1 ≤ s.length := by
  obtain ⟨ht, hu, hr⟩ := h
  have key : ∀ k, s.drop k = u ++ ch! ')' :: r → k ≤ s.length ∧ k + 1 < s.length ∧
      (∃ c t, s.drop k = c :: t ∧ isSpace c = false) ∧
      scan (fun c => !isSpace c && c != ch! ')') s k = k + u.length ∧
      atP (fun x => decide (x = ch! ')')) s (k + u.length) = true ∧ slice s k u.length = u ∧
      s.drop (k + u.length + 1) = r ∧ k + u.length + 1 ≤ s.length := by
    intro k hk
    have d1 := drop_of_append hk
    have l1 := lt_of_drop_cons d1
    have hlen := len_of_drop hk (by omega)
    simp at hlen
    refine ⟨by omega, ?_, ?_, ?_, ?_, slice_of_append hk, drop_of_cons d1, l1⟩
    · by_cases h0 : u = []
      · have : 0 < r.length := List.length_pos_iff.2 (hr h0)
        omega
      · have : 0 < u.length := List.length_pos_iff.2 h0
        omega
    · cases hku : u with
      | nil => rw [hku] at hk; exact ⟨_, _, hk, by decide⟩
      | cons c u' => exact ⟨c, u' ++ ch! ')' :: r, by rw [hk, hku]; rfl, (hu c (by rw [hku]; simp)).1⟩
    · exact scan_of_append (p := fun c => !isSpace c && c != ch! ')') hk (fun c hc => by simp [hu c hc]) (headNot_cons.2 (by decide))
    · rw [atP_head, d1]; rfl
  unfold ciscoUser
  rcases ht with ht | ht
  · have e0 : s.drop i = ch! '(' :: (u ++ ch! ')' :: r) := by rw [ht]; simp
    have e1 := drop_of_cons e0
    obtain ⟨k1, k2, ⟨c, t, k3, k3'⟩, k4, k5, k6, k7⟩ := key (i + 1) e1
    refine ⟨i + 1, ?_, k6, k7⟩
    have c1 : decide (i + 2 < s.length) = true := by simp; omega
    have c2 : atP (fun x => decide (x = ch! '(')) s i = true := by rw [atP_head, e0]; rfl
    have c3 : atP (fun c => !isSpace c) s (i + 1) = true := by rw [atP_head, k3]; simp [k3']
    have c4 : atP (fun x => decide (x = ch! ' ')) s i = false := by rw [atP_head, e0]; rfl
    rw [c1, c2, c3, c4]
    simp only [Bool.and_true, Bool.true_or, if_true, Bool.false_eq_true, if_false, k4, k5]
    simp
  · have e0 : s.drop i = ch! ' ' :: ch! '(' :: (u ++ ch! ')' :: r) := by rw [ht]; simp
    have e1 := drop_of_cons e0
    have e2 := drop_of_cons e1
    obtain ⟨k1, k2, ⟨c, t, k3, k3'⟩, k4, k5, k6, k7⟩ := key (i + 2) e2
    refine ⟨i + 2, ?_, k6, k7⟩
    have c1 : decide (i + 3 < s.length) = true := by simp; omega
    have c2 : atP (fun x => decide (x = ch! '(')) s (i + 1) = true := by rw [atP_head, e1]; rfl
    have c3 : atP (fun c => !isSpace c) s (i + 2) = true := by rw [atP_head, k3]; simp [k3']
    have c4 : atP (fun x => decide (x = ch! ' ')) s i = true := by rw [atP_head, e0]; rfl
    rw [c1, c2, c3, c4]
    simp only [Bool.and_true, Bool.or_true, if_true, k4, k5]
    simp

theorem ciscoUser_none {s : Bytes} {i : Nat} (h : ∀ u r, ¬ UserAt (s.drop i) u r) : ciscoUser s i = none := by
  have head : ∀ {j : Nat} {x : UInt8}, atP (fun y => decide (y = x)) s j = true → ∃ t, s.drop j = x :: t := by
    intro j x hx
    rw [atP_head] at hx
    cases hd : s.drop j with
    | nil => rw [hd] at hx; simp at hx
    | cons y t => rw [hd] at hx; simp at hx; exact ⟨t, by rw [hx]⟩
  have fin : ∀ k, k + 1 < s.length → (∀ u r, s.drop k = u ++ ch! ')' :: r → (∀ c ∈ u, isSpace c = false ∧ c ≠ ch! ')') →
      (u = [] → r ≠ []) → False) →
      (if atP (fun x => decide (x = ch! ')')) s (scan (fun c => !isSpace c && c != ch! ')') s k) = true then
        some ((k, scan (fun c => !isSpace c && c != ch! ')') s k - k), scan (fun c => !isSpace c && c != ch! ')') s k + 1)
       else none) = none := by
    intro k hk hno
    obtain ⟨u, b, e0, hu, hb, hsc⟩ := scan_split (fun c => !isSpace c && c != ch! ')') s k
    rw [hsc]
    by_cases hc : atP (fun x => decide (x = ch! ')')) s (k + u.length) = true
    · exfalso
      obtain ⟨t, ht⟩ := head hc
      have := drop_of_append e0
      rw [ht] at this
      subst this
      refine hno u t e0 (fun c hc => by have := hu c hc; simp at this; exact ⟨by simpa using this.1, this.2⟩) ?_
      intro h0 h1
      subst h0; subst h1
      have := len_of_drop e0 (by omega)
      simp at this; omega
    · rw [if_neg hc]
  unfold ciscoUser
  split
  · rename_i hc
    simp only [Bool.or_eq_true, Bool.and_eq_true, decide_eq_true_eq] at hc
    rcases hc with ⟨⟨h1, h2⟩, h3⟩ | ⟨⟨⟨h1, h2⟩, h3⟩, h4⟩
    · obtain ⟨t, ht⟩ := head h2
      have c4 : atP (fun x => decide (x = ch! ' ')) s i = false := by rw [atP_head, ht]; rfl
      rw [c4]
      exact fin (i + 1) (by omega) fun u r hur hu hur' => h u r ⟨.inl (by rw [ht, ← drop_of_cons ht, hur]; simp), hu, hur'⟩
    · obtain ⟨t, ht⟩ := head h2
      obtain ⟨t', ht'⟩ := head h3
      have ht2 := drop_of_cons ht
      rw [ht'] at ht2
      subst ht2
      rw [h2]
      exact fin (i + 2) (by omega) fun u r hur hu hur' =>
        h u r ⟨.inr (by rw [ht, ← drop_of_cons ht', hur]; simp), hu, hur'⟩
  · rfl

/-- C37: the parser matches exactly the interface specifications, and yields their parts.

Missing for the full property: messages in which some other character stands between the second
address and its port (see `C37_second_separator_violated`), and messages with digit strings that
exceed 64 bit arithmetic (see C20). -/
theorem C37_cisco_partial {s : Bytes} {offs : Nat} (want : Bool) (h : offs ≤ s.length) (hf : Digits18 s) (hs : SlashUsed s) :
    (∀ v n, cisco (s.drop offs) v n → parseCisco s offs want = .ok (n, ifNamed want v.value)) ∧
    ((∀ v n, ¬ cisco (s.drop offs) v n) → parseCisco s offs want = .fail) := by
  constructor
  · rintro ⟨iface, ip, port, second, user⟩ n ⟨r, r2, r3, hh, h2, hu, hn⟩
    dsimp only at hh h2 hu
    obtain ⟨c, ifc, j, q1, q2, q3, q4, q5, q6, q7, q8, q9⟩ := ciscoHead_ok h hf hh
    unfold parseCisco
    rw [q1]
    simp only [R.ok_bind, q2, R.guard_true, q3]
    have hlt := lt_of_drop_cons q6
    have g : decide (j + ip.length ≠ s.length) = true := by simp; omega
    rw [g, slash_ok q6]
    simp only [R.guard_true, R.ok_bind, q7]
    have hi1 : j + ip.length + 1 + port.length ≤ s.length := by
      have hp0 : port ≠ [] := by
        cases iface with
        | none => exact hh.2.2.1.1
        | some f => obtain ⟨_, _, _, t', _, hip⟩ := hh; exact hip.2.2.1.1
      have h0 : 0 < port.length := List.length_pos_iff.2 hp0
      have hpl := congrArg List.length (drop_of_cons q6)
      simp at hpl
      omega
    simp only [q5, q8]
    have fin : ∀ i3, s.drop i3 = r3 → i3 ≤ s.length → i3 - offs = n := by
      intro i3 h1 h2
      rw [hn, ← h1]; simp; omega
    have usr : ∀ i2, s.drop i2 = r2 → i2 ≤ s.length →
        (user = none ∧ ciscoUser s i2 = none ∧ i2 - offs = n) ∨
        (∃ k u, user = some u ∧ ciscoUser s i2 = some ((k, u.length), k + u.length + 1) ∧
          slice s k u.length = u ∧ k + u.length + 1 - offs = n) := by
      intro i2 hi2 hle
      cases user with
      | none =>
        obtain ⟨hua, hub⟩ := hu
        exact .inl ⟨rfl, ciscoUser_none (by rw [hi2]; exact hub), fin _ (by rw [hi2, hua]) hle⟩
      | some u =>
        obtain ⟨k, w1, w2, w3, w4⟩ := ciscoUser_some (i := i2) (by rw [hi2]; exact hu)
        exact .inr ⟨k, u, rfl, w1, w2, fin _ w3 w4⟩
    cases second with
    | none =>
      obtain ⟨h2a, h2b⟩ := h2
      rw [ciscoSecond_none hf hs (by rw [q9]; exact h2b)]
      simp only [R.ok_bind]
      rcases usr _ (by rw [q9, h2a]) hi1 with ⟨rfl, w1, w2⟩ | ⟨k, u, rfl, w1, w2, w3⟩
      · simp only [w1, w2]; (cases ifc with | none => (subst q4; rfl) | some x => (obtain ⟨a, n⟩ := x; subst q4; rfl))
      · simp only [w1, w2, w3]; (cases ifc with | none => (subst q4; rfl) | some x => (obtain ⟨a, n⟩ := x; subst q4; rfl))
    | some x =>
      obtain ⟨ip2, port2⟩ := x
      obtain ⟨a, b, v1, v2, v3, v4, v5⟩ := ciscoSecond_some hf (i := j + ip.length + 1 + port.length) (by rw [q9]; exact h2)
      rw [v1]
      simp only [R.ok_bind, v2, v3]
      rcases usr _ v4 v5 with ⟨rfl, w1, w2⟩ | ⟨k, u, rfl, w1, w2, w3⟩
      · simp only [w1, w2]; (cases ifc with | none => (subst q4; rfl) | some x => (obtain ⟨a, n⟩ := x; subst q4; rfl))
      · simp only [w1, w2, w3]; (cases ifc with | none => (subst q4; rfl) | some x => (obtain ⟨a, n⟩ := x; subst q4; rfl))
  · intro hno
    apply cisco_fail h hf
    intro iface ip port r hh
    by_cases h2 : ∃ a b c, SecondAt r a b c
    · obtain ⟨a, b, c, h2⟩ := h2
      by_cases hu : ∃ u d, UserAt c u d
      · obtain ⟨u, d, hu⟩ := hu
        exact hno ⟨iface, ip, port, some (a, b), some u⟩ _ ⟨r, c, d, hh, h2, hu, rfl⟩
      · exact hno ⟨iface, ip, port, some (a, b), none⟩ _ ⟨r, c, c, hh, h2, ⟨rfl, fun u d hx => hu ⟨u, d, hx⟩⟩, rfl⟩
    · have h2' : r = r ∧ ∀ a b c, ¬ SecondAt r a b c := ⟨rfl, fun a b c hx => h2 ⟨a, b, c, hx⟩⟩
      by_cases hu : ∃ u d, UserAt r u d
      · obtain ⟨u, d, hu⟩ := hu
        exact hno ⟨iface, ip, port, none, some u⟩ _ ⟨r, r, d, hh, h2', hu, rfl⟩
      · exact hno ⟨iface, ip, port, none, none⟩ _ ⟨r, r, r, hh, h2', ⟨rfl, fun u d hx => hu ⟨u, d, hx⟩⟩, rfl⟩

/-! A specification with all parts, and one whose user name follows directly. -/
example : cisco (bs! "outside:192.0.2.1/80 (198.51.100.2/8080) (joe) more")
    ⟨some (bs! "outside"), bs! "192.0.2.1", bs! "80", some (bs! "198.51.100.2", bs! "8080"), some (bs! "joe")⟩ 46 := by
  refine ⟨bs! " (198.51.100.2/8080) (joe) more", bs! " (joe) more", bs! " more", ⟨?_, by decide, by decide, _, rfl, ?_⟩, ⟨_, rfl, ?_⟩, ⟨.inr rfl, by decide, by decide⟩, by decide⟩
  · rintro n ⟨a, b, c, d, r, e, ha, -⟩
    cases a with
    | nil => have := ha.1; simp at this
    | cons x a =>
      have := ha.2.2.1 x (by simp)
      simp at e
      rw [← e.1] at this
      revert this; decide
  · refine ⟨rfl, ⟨bs! "192", bs! "0", bs! "2", bs! "1", bs! "/80 (198.51.100.2/8080) (joe) more", rfl, ?_, ?_, ?_, ?_, .inr ?_, by decide⟩, ⟨by decide, by decide⟩, by simp; decide⟩
    all_goals first | (unfold Octet; decide) | (simp; decide)
  · refine ⟨rfl, ⟨bs! "198", bs! "51", bs! "100", bs! "2", bs! "/8080) (joe) more", rfl, ?_, ?_, ?_, ?_, .inr ?_, by decide⟩, ⟨by decide, by decide⟩, by simp; decide⟩
    all_goals first | (unfold Octet; decide) | (simp; decide)
example : (parseCisco (bs! "outside:192.0.2.1/80 (198.51.100.2/8080) (joe) more") 0 true) =
    .ok (46, some (.obj [(bs! "interface", .str (bs! "outside")), (bs! "ip", .str (bs! "192.0.2.1")), (bs! "port", .str (bs! "80")),
      (bs! "ip2", .str (bs! "198.51.100.2")), (bs! "port2", .str (bs! "8080")), (bs! "user", .str (bs! "joe"))])) := by
  decide +kernel

/-- A second address and port are accepted whatever character stands between them, so `SlashUsed`
cannot be dropped: here `(198.51.100.2x8080)` is a user name. -/
theorem C37_second_separator_violated :
    ¬ ∀ (s : Bytes) (v : Cisco) (n : Nat), Digits18 s → cisco s v n → parseCisco s 0 true = .ok (n, some v.value) := by
  intro h
  have hd : Digits18 (bs! "192.0.2.1/80 (198.51.100.2x8080)") := by
    intro i
    have h1 := (List.takeWhile_prefix (l := (bs! "192.0.2.1/80 (198.51.100.2x8080)").drop i) isDigit).length_le
    by_cases hi : i < 14
    · have : i = 0 ∨ i = 1 ∨ i = 2 ∨ i = 3 ∨ i = 4 ∨ i = 5 ∨ i = 6 ∨ i = 7 ∨ i = 8 ∨ i = 9 ∨ i = 10 ∨ i = 11 ∨ i = 12 ∨ i = 13 := by omega
      rcases this with h | h | h | h | h | h | h | h | h | h | h | h | h | h <;> subst h <;> decide
    · simp at h1; omega
  have := h (bs! "192.0.2.1/80 (198.51.100.2x8080)")
    ⟨none, bs! "192.0.2.1", bs! "80", none, some (bs! "198.51.100.2x8080")⟩ 32 hd ?_
  · revert this; decide +kernel
  · refine ⟨bs! " (198.51.100.2x8080)", bs! " (198.51.100.2x8080)", [], ?_, ⟨rfl, ?_⟩, ⟨.inr rfl, by decide, by decide⟩, by decide⟩
    · refine ⟨rfl, ⟨bs! "192", bs! "0", bs! "2", bs! "1", bs! "/80 (198.51.100.2x8080)", rfl, ?_, ?_, ?_, ?_, .inr ?_, by decide⟩, ⟨by decide, by decide⟩, by simp; decide⟩
      all_goals first | (unfold Octet; decide) | (simp; decide)
    · rintro a b c ⟨t, ht, h1, h2, -⟩
      have ht' : t = bs! "198.51.100.2x8080)" := by
        have h3 : (bs! " (") ++ t = (bs! " (") ++ (bs! "198.51.100.2x8080)") := ht.symm
        exact List.append_cancel_left h3
      subst ht'
      have h12 : ipv4 (bs! "198.51.100.2x8080)") 12 := by
        refine ⟨bs! "198", bs! "51", bs! "100", bs! "2", bs! "x8080)", rfl, ?_, ?_, ?_, ?_, .inr ?_, by decide⟩
        all_goals first | (unfold Octet; decide) | (simp; decide)
      have hl := ipv4_unique h2 h12
      have h4 := congrArg (fun l => (List.drop a.length l).head?) h1
      simp only [List.append_assoc, List.drop_left] at h4
      rw [hl] at h4
      simp at h4

end LN
