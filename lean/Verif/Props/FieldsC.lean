import Verif.Proofs.Fields
/-
C22, C23, C26, C28, C30, C34: further fields.  In every theorem `s` is the message, `offs` the
position of the field (at most the length), `s.drop offs` the remaining message, and
`want` = "the field has a name".
-/
set_option autoImplicit false
namespace LN
open Spec

variable {s : Bytes} {offs : Nat}

/-! ### C22 -/

private theorem accHex_eq (ds : Bytes) : ∀ v, v < 18446744073709551616 →
    accHex ds v = (ds.foldl (fun v c => v * 16 + hexVal c) v) % 18446744073709551616 := by
  induction ds with
  | nil => intro v hv; simp [accHex, Nat.mod_eq_of_lt hv]
  | cons c ds ih =>
    intro v hv
    have h1 : ∀ (l : Bytes) a b, a % 18446744073709551616 = b % 18446744073709551616 →
        (l.foldl (fun v c => v * 16 + hexVal c) a) % 18446744073709551616
        = (l.foldl (fun v c => v * 16 + hexVal c) b) % 18446744073709551616 := by
      intro l
      induction l with
      | nil => intro a b h; simpa using h
      | cons d l ihl => intro a b h; simp only [List.foldl_cons]; exact ihl _ _ (by omega)
    have := ih ((v * 16 + hexVal c) % 18446744073709551616) (by omega)
    simp only [accHex, List.foldl_cons] at this ⊢
    rw [this]
    exact h1 ds _ _ (by omega)

private theorem accHex_val {ds : Bytes} (h : hexValue ds < 18446744073709551616) :
    accHex ds 0 = hexValue ds := by
  rw [accHex_eq ds 0 (by omega)]
  exact Nat.mod_eq_of_lt h

private theorem isSpace_not_x {w : UInt8} (h : isSpace w = true) : isXDigit w = false := by
  revert h
  simp only [isSpace, isXDigit, isDigit]
  simp [UInt8.le_iff_toNat_le, u8_eq]
  omega

/-- C22 hexnumber.

Missing for the full property: numbers of 2^63 and more in fields with a maximum or number format, for which the 64 bit accumulator (or the
conversion to the signed JSON integer) wraps around, see `C22_hexnumber_violated`. -/
theorem C22_hexnumber_partial (h : offs ≤ s.length) (data : DataHexNumber) (want : Bool)
    (hov : 0 < data.maxval ∨ data.fmt ≠ .asString →
      hexValue (((s.drop offs).drop 2).takeWhile isXDigit) < 9223372036854775808) :
    Implements (parseHexNumber s offs data want) (hexnumber data.maxval (s.drop offs))
      (fun n => if data.fmt = .asString then text want (s.drop offs) n
        else ifNamed want (.int (hexValue (((s.drop offs).take n).drop 2)))) := by
  unfold parseHexNumber
  have hr1 : rd s (offs + 1) = rd (s.drop offs) 1 := (rd_drop h).symm
  rw [rd_drop0 h, hr1]
  dsimp only
  simp only [scan_eq, strRes_eq, slice]
  rw [show s.drop (offs + 2) = (s.drop offs).drop 2 from by rw [List.drop_drop]]
  rcases ht : s.drop offs with _ | ⟨c0, _ | ⟨c1, t⟩⟩
  · constructor
    · rintro n ⟨ds, w, r, e, _⟩; simp at e
    · intro _; rfl
  · constructor
    · rintro n ⟨ds, w, r, e, _⟩; simp at e
    · intro _
      simp only [rd]
      by_cases hc : c0 = 48 <;> simp [R.guard, hc]
  have hd2 : s.drop (offs + 2) = t := by rw [← List.drop_drop, ht]; rfl
  have hle2 : offs + 2 ≤ s.length := by
    have := congrArg List.length ht; simp at this; omega
  rw [ht] at hov
  have hdr : List.drop 2 (c0 :: c1 :: t) = t := rfl
  rw [hdr] at hov
  have hrd : ∀ k, rd s (offs + 2 + k) = rd t k := by
    intro k; rw [← rd_drop hle2, hd2]
  have e0 : rd (c0 :: c1 :: t) 0 = .ok c0 := rfl
  have e1 : rd (c0 :: c1 :: t) 1 = .ok c1 := rfl
  simp only [e0, e1, R.ok_bind, hdr, hrd]
  have e2 : offs + 2 + (t.takeWhile isXDigit).length - (offs + 2) = (t.takeWhile isXDigit).length := by
    omega
  have e3 : offs + 2 + (t.takeWhile isXDigit).length - offs = 2 + (t.takeWhile isXDigit).length := by
    omega
  rw [e2, e3, take_takeWhile]
  have hval : 0 < data.maxval ∨ data.fmt ≠ .asString → accHex (t.takeWhile isXDigit) 0 = hexValue (t.takeWhile isXDigit) :=
    fun hm => accHex_val (by have := hov hm; omega)
  generalize accHex (t.takeWhile isXDigit) 0 = val at *
  -- the specification, solved for `n`
  have hspec : ∀ n, hexnumber data.maxval (c0 :: c1 :: t) n ↔
      c0 = 48 ∧ c1 = 120 ∧ (∃ w r, t = t.takeWhile isXDigit ++ w :: r ∧ isSpace w = true) ∧
      n = 2 + (t.takeWhile isXDigit).length ∧
      (data.maxval > 0 → hexValue (t.takeWhile isXDigit) ≤ data.maxval) := by
    intro n
    constructor
    · rintro ⟨ds, w, r, e, hds, hw, hn, hm⟩
      simp only [List.cons_append, List.nil_append, List.cons.injEq] at e
      obtain ⟨rfl, rfl, rfl⟩ := e
      rw [takeWhile_stop hds (isSpace_not_x hw)]
      exact ⟨rfl, rfl, ⟨w, r, rfl, hw⟩, hn, hm⟩
    · rintro ⟨rfl, rfl, ⟨w, r, e, hw⟩, hn, hm⟩
      exact ⟨t.takeWhile isXDigit, w, r, by simp [← e], fun c hc => takeWhile_mem hc, hw, hn, hm⟩
  refine implements_of_chk (n0 := 2 + (t.takeWhile isXDigit).length)
    (fun n hn => ((hspec n).1 hn).2.2.2.1) ?_
  rw [hspec]
  have hlast : Chk (if data.fmt = .asString then
        (pure (2 + (t.takeWhile isXDigit).length,
          text want (c0 :: c1 :: t) (2 + (t.takeWhile isXDigit).length)) : PR)
      else pure (2 + (t.takeWhile isXDigit).length,
        if want = true then some (Json.int (toInt64 val)) else none))
      True (2 + (t.takeWhile isXDigit).length,
        if data.fmt = .asString then
          text want (c0 :: c1 :: t) (2 + (t.takeWhile isXDigit).length)
        else ifNamed want (.int (hexValue (((c0 :: c1 :: t).take
          (2 + (t.takeWhile isXDigit).length)).drop 2)))) := by
    have e5 : ((c0 :: c1 :: t).take (2 + (t.takeWhile isXDigit).length)).drop 2
        = t.takeWhile isXDigit := by
      rw [Nat.add_comm, List.take_succ_cons, List.take_succ_cons]
      simp [take_takeWhile]
    rw [e5]
    by_cases hf : data.fmt = .asString
    · simp [hf, Chk]
    · have hov' := hov (.inr hf)
      have e6 : toInt64 val = (hexValue (t.takeWhile isXDigit) : Int) := by
        rw [hval (.inr hf)]
        simp only [toInt64]
        rw [Nat.mod_eq_of_lt (by omega), if_pos hov']
      rw [e6]
      simp [hf, Chk, ifNamed]
  rcases takeWhile_split isXDigit t with hsp | ⟨w, r, hsp, hw⟩
  · -- digits up to the end of the message
    have hnul : rd t (t.takeWhile isXDigit).length = .ok 0 := by
      rw [← hsp]; exact rd_end t
    rw [hnul]
    simp only [R.ok_bind]
    constructor
    · rintro ⟨_, _, ⟨w, r, e, _⟩, _⟩
      have := congrArg List.length e
      rw [List.length_append] at this
      rw [← hsp] at this
      simp at this
    · intro _
      by_cases h0 : c0 = 48 <;> by_cases h1 : c1 = 120 <;> simp [h0, h1, isSpace, R.guard]
  · have hrw : rd t (t.takeWhile isXDigit).length = .ok w := by
      have : rd (t.takeWhile isXDigit ++ w :: r) (t.takeWhile isXDigit).length = .ok w := rd_append
      rwa [← hsp] at this
    rw [hrw]
    simp only [R.ok_bind]
    refine (Chk.bind (Chk.guard _) (Chk.bind (Chk.guard _) (Chk.bind (Chk.guard _)
      (Chk.bind (Chk.guard _) hlast)))).congr ?_
    have hne : ∀ P : Prop, (∃ w r, t = t.takeWhile isXDigit ++ w :: r ∧ isSpace w = true) ↔
        isSpace w = true := by
      intro _
      constructor
      · rintro ⟨w', r', e, hw'⟩
        have h2 := hsp.symm.trans e
        have h3 := List.append_cancel_left h2
        simp only [List.cons.injEq] at h3
        rw [h3.1]; exact hw'
      · intro h; exact ⟨w, r, hsp, h⟩
    rw [hne True]
    simp only [Bool.and_eq_true, decide_eq_true_eq, Bool.not_eq_true', Bool.and_eq_false_iff,
      decide_eq_false_iff_not, and_true]
    constructor
    · rintro ⟨a, b, c, d⟩
      exact ⟨a, b, c.2, trivial, fun hm => by rw [← hval (.inl hm)]; omega⟩
    · rintro ⟨a, b, c, _, d⟩
      refine ⟨a, b, ⟨by omega, c⟩, ?_⟩
      rcases Nat.eq_zero_or_pos data.maxval with h0 | h0
      · exact .inl (by omega)
      · right; rw [hval (.inl h0)]; have := d h0; omega

/-- C22 is violated for large numbers: `0x10000000000000005` passes a `maxval` of 10 and is
delivered as 5. -/
theorem C22_hexnumber_violated :
    hexValue (bs! "10000000000000005") > 10 ∧
    parseHexNumber (bs! "0x10000000000000005 ") 0 ⟨10, .asNumber⟩ true
      = .ok (19, some (.int 5)) := ⟨by decide, by rfl⟩

example : parseHexNumber (bs! "a 0x4Bf x") 2 ⟨0, .asNumber⟩ true
    = .ok (5, some (.int 0x4bf)) := by rfl
example : parseHexNumber (bs! "0x4Bf") 0 ⟨0, .asNumber⟩ true = .fail := by rfl

/-! ### C28 -/

private theorem litLoop_chk (t : Bytes) : ∀ lit j, (∀ c ∈ t, c ≠ 0) →
    ∃ k, litLoop t lit j = .ok (k, decide (lit <+: t)) ∧ (lit <+: t → k = j + lit.length) := by
  induction t with
  | nil =>
    intro lit j _
    refine ⟨j, ?_, ?_⟩
    · cases lit <;> simp [litLoop]
    · intro h; simp at h; simp [h]
  | cons c t ih =>
    intro lit j hz
    cases lit with
    | nil =>
      refine ⟨j, ?_, by simp⟩
      have := hz c (by simp)
      simp [litLoop, this]
    | cons l ls =>
      unfold litLoop
      by_cases hl : l = c
      · subst hl
        obtain ⟨k, h1, h2⟩ := ih ls (j + 1) (fun x hx => hz x (by simp [hx]))
        refine ⟨k, ?_, ?_⟩
        · simp [h1, List.cons_prefix_cons]
        · intro h
          have := h2 (List.cons_prefix_cons.1 h).2
          simp; omega
      · refine ⟨j, ?_, ?_⟩
        · simp [hl, List.cons_prefix_cons]
        · intro h; exact absurd (List.cons_prefix_cons.1 h).1 hl

/-- C28 literal.

Missing for the full property: messages containing NUL bytes, see `C28_literal_nul_violated`. -/
theorem C28_literal_partial (lit : Bytes) (want : Bool) (hz : ∀ c ∈ s, c ≠ 0) :
    Implements (parseLiteral s offs lit want) (literal lit (s.drop offs))
      (text want (s.drop offs)) := by
  unfold parseLiteral
  obtain ⟨k, h1, h2⟩ := litLoop_chk (s.drop offs) lit 0
    (fun c hc => hz c (List.mem_of_mem_drop hc))
  rw [h1]
  refine implements_of_chk (n0 := lit.length) (fun n hn => hn.2) ?_
  simp only [R.ok_bind, strRes_eq]
  by_cases hp : lit <+: s.drop offs
  · rw [h2 hp]
    simp [hp, Chk, literal]
  · simp [hp, Chk, literal]

/-- C28 is violated if the message continues with a NUL byte: the comparison runs past the end
of the literal. -/
theorem C28_literal_nul_violated :
    literal (bs! "ab") [97, 98, 0, 99] 2 ∧
    parseLiteral [97, 98, 0, 99] 0 (bs! "ab") true = .ub .oobRead :=
  ⟨⟨by decide, rfl⟩, by rfl⟩

example : parseLiteral (bs! "xabc") 1 (bs! "ab") true = .ok (2, some (.str (bs! "ab"))) := by rfl
example : parseLiteral (bs! "xa") 1 (bs! "ab") true = .fail := by rfl

/-! ### C26 -/

private theorem stringToInner_eq (fs : Bytes) : ∀ cs, fs ≠ [] →
    stringToInner cs fs = decide (fs <+: cs) := by
  induction fs with
  | nil => intro cs h; exact absurd rfl h
  | cons f fs ih =>
    intro cs _
    cases cs with
    | nil => simp [stringToInner]
    | cons c cs =>
      unfold stringToInner
      by_cases hc : c = f
      · subst hc
        by_cases hf : fs = []
        · subst hf; simp [List.cons_prefix_cons]
        · simp [hf, ih cs hf, List.cons_prefix_cons]
      · have : ¬ f = c := fun h => hc h.symm
        simp [hc, this, List.cons_prefix_cons]

private theorem stringToLoop_spec {f : Bytes} (hf : 2 ≤ f.length) (s : Bytes) :
    ∀ k i, i + k = s.length →
    (∃ j, stringToLoop s f k i = .ok (j, true) ∧ i < j ∧ f <+: s.drop j ∧
      ∀ m, i < m → m < j → ¬ f <+: s.drop m) ∨
    ((∃ j, stringToLoop s f k i = .ok (j, false)) ∧ ∀ m, i < m → ¬ f <+: s.drop m) := by
  obtain ⟨f0, f1, fs, rfl⟩ := len2 hf
  intro k
  induction k with
  | zero =>
    intro i hi
    refine .inr ⟨⟨i, rfl⟩, ?_⟩
    intro m hm hp
    rw [List.drop_of_length_le (by omega)] at hp
    simp at hp
  | succ k ih =>
    intro i hi
    have hcond : ∃ c, rd s (i + 1) = .ok c ∧ ((c = f0 ∧ stringToInner (s.drop (i + 1 + 1)) (f1 :: fs) = true) ↔
        (f0 :: f1 :: fs) <+: s.drop (i + 1)) := by
      rw [stringToInner_eq _ _ (by simp)]
      by_cases hlt : i + 1 < s.length
      · refine ⟨s[i + 1], rd_lt hlt, ?_⟩
        rw [List.drop_eq_getElem_cons hlt, List.cons_prefix_cons]
        simp [eq_comm]
      · have : i + 1 = s.length := by omega
        refine ⟨0, by rw [this]; exact rd_end s, ?_⟩
        rw [List.drop_of_length_le (by omega), List.drop_of_length_le (by omega)]
        simp
    obtain ⟨c, hrd, hc⟩ := hcond
    unfold stringToLoop
    rw [show (f0 :: f1 :: fs).headD 0 = f0 from rfl, show (f0 :: f1 :: fs).drop 1 = f1 :: fs from rfl]
    dsimp only
    rw [hrd]
    simp only [R.ok_bind]
    by_cases hm : (f0 :: f1 :: fs) <+: s.drop (i + 1)
    · left
      refine ⟨i + 1, ?_, by omega, hm, by intro m h1 h2; omega⟩
      have := hc.2 hm
      simp [this.1, this.2]
    · have hno : (decide (c = f0) && stringToInner (s.drop (i + 1 + 1)) (f1 :: fs)) = false := by
        rw [← Bool.not_eq_true, Bool.and_eq_true, decide_eq_true_eq]
        exact fun h => hm (hc.1 h)
      rw [hno]
      simp only [Bool.false_eq_true, if_false]
      rcases ih (i + 1) (by omega) with ⟨j, h1, h2, h3, h4⟩ | ⟨h1, h2⟩
      · refine .inl ⟨j, h1, by omega, h3, ?_⟩
        intro m hm1 hm2
        by_cases he : m = i + 1
        · rw [he]; exact hm
        · exact h4 m (by omega) hm2
      · refine .inr ⟨h1, ?_⟩
        intro m hm1
        by_cases he : m = i + 1
        · rw [he]; exact hm
        · exact h2 m (by omega)

/-- C26 string-to.

Missing for the full property: search strings of a single byte, see `C26_one_byte_violated`. -/
theorem C26_string_to_partial (h : offs ≤ s.length) {f : Bytes} (hf : 2 ≤ f.length)
    (want : Bool) :
    Implements (parseStringTo s offs f want) (stringTo f (s.drop offs))
      (text want (s.drop offs)) := by
  unfold parseStringTo
  have hsl := stringToLoop_spec hf s (s.length - offs) offs (by omega)
  rcases hsl with ⟨j, h1, h2, h3, h4⟩ | ⟨⟨j, h1⟩, h2⟩
  · rw [h1]
    have hj : j ≠ s.length := by
      rintro rfl
      simp only [List.drop_length, List.prefix_nil] at h3
      rw [h3] at hf; simp at hf
    have hjl : j ≤ s.length := by
      apply Decidable.byContradiction; intro hn
      rw [List.drop_of_length_le (by omega)] at h3
      simp only [List.prefix_nil] at h3
      rw [h3] at hf; simp at hf
    have hsp : stringTo f (s.drop offs) (j - offs) := by
      refine ⟨by omega, ?_, by simp; omega, ?_⟩
      · rw [List.drop_drop, show offs + (j - offs) = j by omega]; exact h3
      · intro m hm1 hm2
        rw [List.drop_drop]
        exact h4 (offs + m) (by omega) (by omega)
    refine implements_of_chk (n0 := j - offs) ?_ ?_
    · rintro n ⟨hn1, hn2, hn3, hn4⟩
      apply Decidable.byContradiction
      intro hne
      rcases Nat.lt_or_gt_of_ne hne with hlt | hgt
      · exact hsp.2.2.2 n hn1 hlt hn2
      · exact hn4 (j - offs) (by omega) hgt hsp.2.1
    · simp only [R.ok_bind, strRes_eq]
      have : (decide (j ≠ offs) && decide (j ≠ s.length) && true) = true := by simp; omega
      rw [this]
      simp [Chk, hsp]
  · rw [h1]
    constructor
    · rintro n ⟨hn1, hn2, _⟩
      rw [List.drop_drop] at hn2
      exact absurd hn2 (h2 _ (by omega))
    · intro _; simp

/-- C26 is violated for search strings of one byte: they are never found. -/
theorem C26_one_byte_violated (s : Bytes) (offs : Nat) (h : offs ≤ s.length) (x : UInt8)
    (want : Bool) : parseStringTo s offs [x] want = .fail := by
  have key : ∀ k i, i + k ≤ s.length → ∃ j, stringToLoop s [x] k i = .ok (j, false) := by
    intro k
    induction k with
    | zero => intro i _; exact ⟨i, rfl⟩
    | succ k ih =>
      intro i hi
      obtain ⟨j, hj⟩ := ih (i + 1) (by omega)
      refine ⟨j, ?_⟩
      unfold stringToLoop
      dsimp only
      rcases rd_defined (s := s) (i := i + 1) (by omega) with ⟨c, hc⟩ | hc
      · have : ∀ l, stringToInner l [] = false := by intro l; cases l <;> rfl
        rw [hc]; simp [this, hj]
      · unfold rd at hc; split at hc
        · simp at hc
        · split at hc <;> simp at hc
  obtain ⟨j, hj⟩ := key (s.length - offs) offs (by omega)
  unfold parseStringTo
  rw [hj]; simp

/-- the specification asks for a match, the hypothesis of the negative theorem is met -/
example : stringTo (bs! "b") (bs! "ab") 1 ∧ parseStringTo (bs! "ab") 0 (bs! "b") true = .fail := by
  refine ⟨⟨by decide, by decide, by decide, ?_⟩, by rfl⟩
  intro m h1 h2; omega
example : parseStringTo (bs! "a--b->c") 0 (bs! "->") true = .ok (4, some (.str (bs! "a--b"))) := by
  rfl

/-! ### C30 -/

private theorem quoted_iff (c : UInt8) (t : Bytes) (n : Nat) : quoted (c :: t) n ↔
    c = ch! '"' ∧ (∃ r, t = t.takeWhile (fun c => c != ch! '"') ++ ch! '"' :: r) ∧
    n = (t.takeWhile (fun c => c != ch! '"')).length + 2 := by
  constructor
  · rintro ⟨w, tl, e, hw, hn⟩
    simp only [List.cons_append, List.nil_append, List.append_assoc, List.cons.injEq] at e
    obtain ⟨rfl, rfl⟩ := e
    have : (w ++ ch! '"' :: tl).takeWhile (fun c => c != ch! '"') = w :=
      takeWhile_stop (fun c hc => by simp; rintro rfl; exact hw hc) (by simp)
    rw [this]
    exact ⟨rfl, ⟨tl, rfl⟩, hn⟩
  · rintro ⟨rfl, ⟨r, e⟩, hn⟩
    refine ⟨t.takeWhile (fun c => c != ch! '"'), r, by simp [← e], ?_, hn⟩
    intro hm
    have := takeWhile_mem hm
    simp at this

/-- the scan for the closing quote -/
private theorem close_iff (t : Bytes) (o : Nat) :
    (o + (t.takeWhile (fun c => c != ch! '"')).length < o + t.length) ↔
    ∃ r, t = t.takeWhile (fun c => c != ch! '"') ++ ch! '"' :: r := by
  constructor
  · intro h
    rcases takeWhile_split (fun c => c != ch! '"') t with hs | ⟨w, r, hs, hw⟩
    · rw [← hs] at h; omega
    · have : w = ch! '"' := by simpa using hw
      subst this; exact ⟨r, hs⟩
  · rintro ⟨r, e⟩
    have := congrArg List.length e
    simp only [List.length_append, List.length_cons] at this
    omega

/-- C30 quoted-string: what is accepted is as documented, but the value still contains the
quotes. -/
theorem C30_quoted_string_partial (h : offs ≤ s.length) (want : Bool) :
    Implements (parseQuotedString s offs want) (quoted (s.drop offs))
      (text want (s.drop offs)) := by
  unfold parseQuotedString
  have hg : guardChar s offs (ch! '"') = guardChar (s.drop offs) 0 (ch! '"') :=
    guardChar_drop (k := 0) h
  have hl : s.length = offs + (s.drop offs).length := by simp; omega
  rw [hg]
  dsimp only
  simp only [scan_eq, strRes_eq]
  rw [← List.drop_drop]
  rcases ht : s.drop offs with _ | ⟨c, t⟩
  · constructor
    · rintro n ⟨w, tl, e, _⟩; simp at e
    · intro _
      have : ¬ offs + 2 ≤ s.length := by rw [hl, ht]; simp
      simp [this]
  · rw [ht] at hl
    simp only [List.length_cons] at hl
    refine implements_of_chk (fun n hn => ((quoted_iff c t n).1 hn).2.2) ?_
    rw [quoted_iff]
    have e1 : List.drop 1 (c :: t) = t := rfl
    have e2 : ∀ k, offs + 1 + k + 1 - offs = k + 2 := by intro k; omega
    rw [e1, e2]
    refine (Chk.bind (Chk.guard _) (Chk.bind (Chk.char (c := c) rfl) (Chk.bind (Q := True)
      (Chk.guard _) ?_))).congr ?_
    · exact Chk.pure _
    simp only [decide_eq_true_eq, ← u8_eq, and_true]
    have := close_iff t (offs + 1)
    rw [← this, hl]
    constructor
    · rintro ⟨a, b, d⟩; exact ⟨b, by omega⟩
    · rintro ⟨b, d⟩; exact ⟨by omega, b, by omega⟩

/-- C30 is violated: the value of a quoted-string contains the quotes. -/
theorem C30_quotes_kept_violated :
    parseQuotedString (bs! "a \"b c\" d") 2 true = .ok (5, some (.str (bs! "\"b c\""))) := by rfl

/-- text of an op-quoted-string: without the quotes, if quoted -/
def opText (t : Bytes) (n : Nat) : Bytes :=
  if t.head? = some (ch! '"') then (t.drop 1).take (n - 2) else t.take n

/-- outcome of the op-quoted-string parser for any kind of field -/
private theorem opq (h : offs ≤ s.length) (want : Bool) (hz : ∀ c ∈ s, c ≠ 0) :
    (∀ n, (quoted (s.drop offs) n ∨ unquoted (s.drop offs) n) →
      parseOpQuotedString s offs want
        = if want then .ok (n, some (.str (opText (s.drop offs) n))) else .ub .nullDeref) ∧
    ((∀ n, ¬ (quoted (s.drop offs) n ∨ unquoted (s.drop offs) n)) →
      parseOpQuotedString s offs want = .fail) := by
  have hz' : ∀ c ∈ s.drop offs, c ≠ 0 := fun c hc => hz c (List.mem_of_mem_drop hc)
  have hl : s.length = offs + (s.drop offs).length := by simp; omega
  have hcs : ∀ k m, cstr (slice s (offs + k) m) = ((s.drop offs).drop k).take m := by
    intro k m
    unfold slice
    rw [← List.drop_drop]
    exact cstr_noNul (fun c hc => hz' c (List.mem_of_mem_drop (List.mem_of_mem_take hc)))
  have hcs0 : ∀ m, cstr (slice s offs m) = (s.drop offs).take m := fun m => hcs 0 m
  unfold parseOpQuotedString
  rw [rd_drop0 h]
  dsimp only
  simp only [scan_eq, newString, hcs, hcs0]
  rw [← List.drop_drop]
  rcases ht : s.drop offs with _ | ⟨c, t⟩
  · constructor
    · rintro n (⟨w, tl, e, _⟩ | ⟨_, h1, h2, _⟩)
      · simp at e
      · simp at h2; omega
    · intro _; simp [rd]
  · have e0 : rd (c :: t) 0 = .ok c := rfl
    rw [ht] at hl
    simp only [List.length_cons] at hl
    simp only [e0, R.ok_bind]
    by_cases hc : c = ch! '"'
    · -- quoted
      have hno : ∀ n, ¬ unquoted (c :: t) n := fun n hn => hn.1 (by simp [hc])
      simp only [hc, ne_eq, not_true, if_false]
      have e1 : List.drop 1 (ch! '"' :: t) = t := rfl
      have e2 : ∀ k, offs + 1 + k + 1 - offs = k + 2 := by intro k; omega
      rw [e1, e2]
      have hcl := close_iff t (offs + 1)
      have hlt : s.length = offs + 1 + t.length := by omega
      rw [← hlt] at hcl
      subst hc
      by_cases hr : ∃ r, t = t.takeWhile (fun c => c != ch! '"') ++ ch! '"' :: r
      · have hg := hcl.2 hr
        simp only [hg, decide_true, R.guard_true, R.ok_bind]
        constructor
        · rintro n (hq | hu)
          · have hq := (quoted_iff _ t n).1 hq
            rw [hq.2.2]
            simp [opText]
          · exact absurd hu (hno n)
        · intro hn
          exact absurd (.inl ((quoted_iff _ t _).2 ⟨rfl, hr, rfl⟩)) (hn _)
      · have hg : ¬ _ := fun h => hr (hcl.1 h)
        simp only [hg, decide_false, R.guard_false, R.fail_bind]
        constructor
        · rintro n (hq | hu)
          · exact absurd ((quoted_iff _ t n).1 hq).2.1 hr
          · exact absurd hu (hno n)
        · intro _; trivial
    · have hnq : ∀ n, ¬ quoted (c :: t) n := fun n hn => hc ((quoted_iff c t n).1 hn).1
      simp only [hc, ne_eq, not_false_eq_true, if_true]
      have e3 : ∀ k, offs + k - offs = k := by intro k; omega
      rw [e3]
      by_cases hs : c = 32
      · subst hs
        constructor
        · rintro n (hq | ⟨_, h1, h2, h3, h4⟩)
          · exact absurd hq (hnq n)
          · have := h3 32 (by cases n <;> simp_all)
            simp at this
        · intro _; simp
      · have hpos : 0 < ((c :: t).takeWhile (fun c => c != 32)).length := by simp [hs]
        have hg : ¬ (offs + ((c :: t).takeWhile (fun c => c != 32)).length = offs) := by omega
        simp only [hg, not_false_eq_true, decide_true, R.guard_true, R.ok_bind]
        constructor
        · rintro n (hq | ⟨_, h1, h2⟩)
          · exact absurd hq (hnq n)
          · have := Run.eq h2
            rw [this]
            simp [opText, hc]
        · intro hn
          exact absurd (.inr ⟨by simp [hc], hpos, takeWhile_run _ _⟩) (hn _)

/-- C30 op-quoted-string, for fields with a name. (Messages without NUL bytes.) -/
theorem C30_op_quoted_string_partial (h : offs ≤ s.length) (hz : ∀ c ∈ s, c ≠ 0) :
    Implements (parseOpQuotedString s offs true)
      (fun n => quoted (s.drop offs) n ∨ unquoted (s.drop offs) n)
      (fun n => some (.str (opText (s.drop offs) n))) :=
  ⟨fun n hn => by simpa using (opq h true hz).1 n hn, (opq h true hz).2⟩

/-- C30 is violated for fields without a name: whenever there is something to match, the parser
stores through a NULL pointer. -/
theorem C30_unnamed_violated (h : offs ≤ s.length) (hz : ∀ c ∈ s, c ≠ 0) {n : Nat}
    (hn : quoted (s.drop offs) n ∨ unquoted (s.drop offs) n) :
    parseOpQuotedString s offs false = .ub .nullDeref := by
  simpa using (opq h false hz).1 n hn

example : parseOpQuotedString (bs! "a \"b c\" d") 2 true = .ok (5, some (.str (bs! "b c"))) := by
  rfl
example : parseOpQuotedString (bs! "a b\"c d") 2 true = .ok (3, some (.str (bs! "b\"c"))) := by rfl
example : parseOpQuotedString (bs! "ab") 0 false = .ub .nullDeref := by rfl

end LN
