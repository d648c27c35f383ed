import Verif.Proofs.Dates
import Verif.Props.Examples
/-
C45, C46: timestamps.  `s` is the message, `offs` the position of the field, `want` = "the field has
a name".  `FewDigits`: no run of ten or more digits in the rest of the message (the code accumulates
in a 32 bit int and overflows otherwise, see `C45_overflow_violated`).
-/
set_option autoImplicit false
namespace LN
open Spec

variable {s : Bytes} {offs : Nat}

/-! ### C45 -/

/-- C45 date-rfc5424: exactly the timestamp syntax is accepted, and the text delivered.  Missing: the
numbers may be empty (`C45_empty_numbers_violated`), and messages with runs of ten digits. -/
theorem C45_rfc5424_partial (h : offs ≤ s.length) (hf : FewDigits (s.drop offs)) (want : Bool) :
    Implements (parseRFC5424Date s offs .asString want) (rfc5424 (s.drop offs)) (text want (s.drop offs)) := by
  constructor
  · rintro n ⟨x, hx, r, e, hr, rfl⟩
    unfold parseRFC5424Date
    rw [cursor_post h]
    simp only [R.ok_bind]
    rw [rfc5424Syntax_ok hf hx e hr]
    have hl : (s.drop offs).length - r.length = x.text.length := by rw [e]; simp
    simp only [R.ok_bind, hl, strRes_eq, if_true]
    cases want <;> simp [text]
  · intro hno
    unfold parseRFC5424Date
    rw [cursor_post h]
    simp only [R.ok_bind]
    rcases rfc5424Syntax_defined hf with ⟨⟨t, r⟩, he⟩ | he
    · obtain ⟨x, hx, e, hr, _⟩ := rfc5424Syntax_inv hf he
      exact absurd ⟨x, hx, r, e, hr, rfl⟩ (hno _)
    · rw [he]; rfl

/-- the format does not influence what is accepted -/
theorem C45_rfc5424_any_format (h : offs ≤ s.length) (hf : FewDigits (s.drop offs)) (fmt : Fmt) (want : Bool)
    (n : Nat) : (∃ v, parseRFC5424Date s offs fmt want = .ok (n, v)) → rfc5424 (s.drop offs) n := by
  rintro ⟨v, hv⟩
  unfold parseRFC5424Date at hv
  rw [cursor_post h] at hv
  simp only [R.ok_bind, R.bind_eq_ok] at hv
  obtain ⟨⟨t, r⟩, h1, h2⟩ := hv
  obtain ⟨x, hx, e, hr, _⟩ := rfc5424Syntax_inv hf h1
  refine ⟨x, hx, r, e, hr, ?_⟩
  have hl : (s.drop offs).length - r.length = x.text.length := by rw [e]; simp
  have : (s.drop offs).length - r.length = n := by
    by_cases hw : want
    · by_cases hs : fmt = .asString
      · simp [hw, hs, strRes] at h2; simpa using h2.1
      · simp [hw, hs, R.bind_eq_ok] at h2
        obtain ⟨_, _, _, _, h4, _⟩ := h2
        simpa using h4
    · simp [hw] at h2; simpa using h2.1
  omega

theorem C45_rfc3164_partial (env : Env) (h : offs ≤ s.length) (hf : FewDigits (s.drop offs)) (want : Bool) :
    Implements (parseRFC3164Date env s offs .asString want) (rfc3164 (s.drop offs)) (text want (s.drop offs)) := by
  constructor
  · rintro n ⟨x, mon, hx, r, e, hr, rfl⟩
    unfold parseRFC3164Date
    rw [cursor_post h]
    simp only [R.ok_bind]
    rw [rfc3164Syntax_ok hf hx e hr]
    have hl : (s.drop offs).length - r.length = x.text.length := by rw [e]; simp
    simp only [R.ok_bind, hl, strRes_eq, if_true]
    cases want <;> simp [text]
  · intro hno
    unfold parseRFC3164Date
    rw [cursor_post h]
    simp only [R.ok_bind]
    rcases rfc3164Syntax_defined hf with ⟨⟨t, r⟩, he⟩ | he
    · obtain ⟨x, mon, hx, e, hr, _⟩ := rfc3164Syntax_inv hf he
      exact absurd ⟨x, mon, hx, r, e, hr, rfl⟩ (hno _)
    · rw [he]; rfl

theorem few_of_length {p : Bytes} (h : p.length ≤ 9) : FewDigits p := by
  intro i
  have := (List.takeWhile_prefix (l := p.drop i) isDigit).length_le
  simp at this; omega

example : parseRFC5424Date (bs! "at 1985-04-12T19:20:50.52-04:00 x") 3 .asString true =
    .ok (28, some (.str (bs! "1985-04-12T19:20:50.52-04:00"))) := by rfl
example : parseRFC3164Date Ex.env (bs! "Oct 29 09:47:08 x") 0 .asString true =
    .ok (15, some (.str (bs! "Oct 29 09:47:08"))) := by rfl

/-- a run of digits is at most as long as the longest stretch of digits -/
def Ex.fewB : Nat → Bytes → Bool
  | n, [] => n ≤ 9
  | n, c :: cs => n ≤ 9 && Ex.fewB (if isDigit c then n + 1 else 0) cs
theorem Ex.few_of_fewB {p : Bytes} (h : Ex.fewB 0 p = true) : FewDigits p := by
  have gen : ∀ (p : Bytes) n, Ex.fewB n p = true → n + (p.takeWhile isDigit).length ≤ 9 ∧ FewDigits p := by
    intro p
    induction p with
    | nil => intro n h; simp [Ex.fewB] at h; exact ⟨by simpa using h, fun i => by simp⟩
    | cons c p ih =>
      intro n h
      simp [Ex.fewB] at h
      obtain ⟨h1, h2⟩ := h
      obtain ⟨h3, h4⟩ := ih _ h2
      refine ⟨?_, ?_⟩
      · by_cases hc : isDigit c = true
        · simp [hc] at h3 ⊢; omega
        · simp [hc]; omega
      · intro i
        cases i with
        | zero =>
          by_cases hc : isDigit c = true
          · simp [hc] at h3 ⊢; omega
          · simp [hc]
        | succ i => simpa using h4 i
  exact (gen p 0 h).2
example : FewDigits (bs! "1985-04-12T19:20:50.52-04:00 x") := Ex.few_of_fewB (by decide)

/-- C45 is violated: `0-1-1T::Z` is accepted as a timestamp, though hours, minutes and seconds are
missing. -/
theorem C45_empty_numbers_violated :
    parseRFC5424Date (bs! "-1-1T::Z") 0 .asString true = .ok (8, some (.str (bs! "-1-1T::Z"))) ∧
    parseRFC3164Date Ex.env (bs! "Jan 1 ::") 0 .asString true = .ok (8, some (.str (bs! "Jan 1 ::"))) := by
  exact ⟨rfl, rfl⟩

/-- C45 is violated: a long digit string at the position of the field overflows an int. -/
theorem C45_overflow_violated : parseRFC5424Date (bs! "99999999999") 0 .asString true = .ub .signedOverflow := by
  rfl

/-! ### C46 -/

theorem daysBefore_table : ∀ k : Fin 131, yearInSecs[k.val + 2]? =
    some ((daysBeforeYear k.val : Int) * 86400 - 1) := by decide +kernel

theorem leap_code : ∀ k : Fin 131, ((((1970 + k.val : Nat) : Int) % 100 ≠ 0 && ((1970 + k.val : Nat) : Int) % 4 = 0) ||
    ((1970 + k.val : Nat) : Int) = 2000) = leap (1970 + k.val) := by decide +kernel

theorem month_code : ∀ m : Fin 12, ∀ l : Bool,
    (if l && ((m.val + 1 : Nat) : Int) > 2 then monthInDays ((m.val + 1 : Nat) : Int) + 1
      else monthInDays ((m.val + 1 : Nat) : Int)) =
      ((daysBeforeMonth (if l then 4 else 1) m.val : Nat) : Int) := by decide +kernel

theorem daysBeforeMonth_congr {y y' : Nat} (h : leap y = leap y') (m : Nat) :
    daysBeforeMonth y m = daysBeforeMonth y' m := by
  induction m with
  | zero => rfl
  | succ m ih => simp [daysBeforeMonth, ih, daysInMonth, h]

/-- The code's table and arithmetic agree with the Gregorian calendar. -/
theorem syslogTime_eq {y mo d h mi sec oh om : Nat} (mode : UInt8) (hy : 1970 ≤ y ∧ y ≤ 2100)
    (hm : 1 ≤ mo ∧ mo ≤ 12) (hd : 1 ≤ d) :
    syslogTime2timeT y mo d h mi sec oh om mode =
      .ok ((secondsSince1970 y mo d h mi sec : Int) -
        (if mode = ch! '+' then (oh : Int) * 3600 + om * 60 else -((oh : Int) * 3600 + om * 60))) := by
  obtain ⟨k, rfl⟩ : ∃ k, y = 1970 + k := ⟨y - 1970, by omega⟩
  obtain ⟨m, rfl⟩ : ∃ m, mo = m + 1 := ⟨mo - 1, by omega⟩
  obtain ⟨d, rfl⟩ : ∃ d', d = d' + 1 := ⟨d - 1, by omega⟩
  have ht := daysBefore_table ⟨k, by omega⟩
  have hl := leap_code ⟨k, by omega⟩
  have hmc := month_code ⟨m, by omega⟩ (leap (1970 + k))
  simp only at ht hl hmc
  unfold syslogTime2timeT
  rw [if_neg (by simp; omega)]
  simp only [hl]
  rw [hmc]
  have e1 : ((((1970 + k : Nat) : Int) - 1967 - 1).toNat) = k + 2 := by omega
  rw [e1, ht]
  simp only
  have e2 : daysBeforeMonth (1970 + k) m = daysBeforeMonth (if leap (1970 + k) = true then 4 else 1) m := by
    apply daysBeforeMonth_congr
    by_cases hh : leap (1970 + k) = true
    · rw [if_pos hh, hh]; rfl
    · rw [if_neg hh]; rw [Bool.not_eq_true] at hh; rw [hh]; rfl
  have e3 : (1970 + k - 1970) = k := by omega
  rw [secondsSince1970, e3, Nat.add_sub_cancel, Nat.add_sub_cancel, e2]
  refine congrArg R.ok ?_
  generalize daysBeforeMonth (if leap (1970 + k) = true then 4 else 1) m = A
  generalize daysBeforeYear k = B
  split <;> omega

theorem mkDiv_eq : ∀ (k : Nat) (d : Nat), 10 ^ k * d ≤ 2147483647 → mkDiv k (d : Int) = .ok ((10 ^ k * d : Nat) : Int) := by
  intro k
  induction k with
  | zero => intro d _; simp [mkDiv]
  | succ k ih =>
    intro d h
    have e : 10 ^ (k + 1) * d = 10 ^ k * (d * 10) := by rw [Nat.pow_succ, Nat.mul_assoc, Nat.mul_comm 10 d]
    rw [e] at h ⊢
    have h1 : d * 10 ≤ 2147483647 := Nat.le_trans (Nat.le_mul_of_pos_left _ (Nat.pow_pos (by omega))) h
    have := ih (d * 10) h
    unfold mkDiv
    rw [if_neg (by unfold intMax; omega)]
    push_cast at this ⊢
    exact this

theorem tsValue_ms {f : Option Bytes} (ts : Int) (hl : ∀ g, f = some g → g.length ≤ 9) :
    tsValue .asTsUxMs ts ((f.map fun f => (decVal f : Int)).getD 0) ((f.map List.length).getD 0) =
      .ok (ts * 1000 + fracMs f) := by
  cases f with
  | none => simp [tsValue, fracMs]
  | some g =>
    have := hl g rfl
    simp only [tsValue, if_true, fracMs, Option.map_some, Option.getD_some]
    rcases Nat.lt_or_ge 3 g.length with h3 | h3
    · rw [if_neg (by omega), if_neg (by omega), if_pos h3]
      have hk : 10 ^ (g.length - 3) ≤ 10 ^ 6 := Nat.pow_le_pow_right (by omega) (by omega)
      have := mkDiv_eq (g.length - 3) 1 (by omega)
      simp only [Nat.mul_one, Int.ofNat_one] at this
      rw [this]
      simp only [R.ok_bind, R.pure_eq]
      congr 2
      have e : 10 ^ g.length = 1000 * 10 ^ (g.length - 3) := by
        rw [show (1000 : Nat) = 10 ^ 3 by rfl, ← Nat.pow_add]; congr 1; omega
      rw [e, Nat.mul_comm (decVal g) 1000, Nat.mul_div_mul_left _ _ (by omega)]
      exact (Int.natCast_ediv _ _).symm
    · obtain h | h | h | h : g.length = 0 ∨ g.length = 1 ∨ g.length = 2 ∨ g.length = 3 := by omega
      · have : g = [] := List.length_eq_zero_iff.1 h
        subst this; rfl
      · rw [if_pos h, h]; congr 2; omega
      · rw [if_neg (by omega), if_pos h, h]; congr 2; omega
      · rw [if_neg (by omega), if_neg (by omega), if_neg (by omega), h]; congr 2; omega

theorem few_frac {x : Stamp} {r : Bytes} (hx : x.Valid) (hf : FewDigits (x.text ++ r)) :
    ∀ g, x.frac = some g → g.length ≤ 9 := by
  intro g hg
  have e : x.text ++ r = x.year ++ ch! '-' :: (x.month ++ ch! '-' :: (x.day ++ ch! 'T' :: (x.hour ++ ch! ':' ::
    (x.minute ++ ch! ':' :: (x.second ++ (fracText x.frac ++ (zoneText x.zone ++ r))))))) := by
    simp [Stamp.text]
  rw [e] at hf
  have := hf.tail.tail1.tail.tail1.tail.tail1.tail.tail1.tail.tail1.tail
  rw [hg, fracText, List.cons_append] at this
  have h0 := this.tail1 0
  obtain ⟨c, r', e2, h1, _⟩ := zone_head x.zone hx.zone r
  rw [e2, List.drop_zero, takeWhile_stop (hx.frac g hg) h1] at h0
  exact h0

/-- C46: with format timestamp-unix the value is the UNIX time of the instant denoted. Missing: years
outside 1970-2100, for which the code delivers 0 (`C46_year_violated`). -/
theorem C46_unix_partial (h : offs ≤ s.length) (hf : FewDigits (s.drop offs)) {x : Stamp} {r : Bytes}
    (hx : x.Valid) (e : s.drop offs = x.text ++ r) (hr : r = [] ∨ r.head? = some (ch! ' '))
    (hy : 1970 ≤ decVal x.year ∧ decVal x.year ≤ 2100) :
    parseRFC5424Date s offs .asTsUx true = .ok (x.text.length, some (.int x.unix)) := by
  unfold parseRFC5424Date
  rw [cursor_post h]
  simp only [R.ok_bind]
  rw [rfc5424Syntax_ok hf hx e hr]
  have hl : (s.drop offs).length - r.length = x.text.length := by rw [e]; simp
  simp only [R.ok_bind, hl, if_true, reduceCtorEq, if_false]
  have key : syslogTime2timeT (tsOf x).year (tsOf x).month (tsOf x).day (tsOf x).hour (tsOf x).minute
      (tsOf x).second (tsOf x).offH (tsOf x).offM (tsOf x).offMode = .ok x.unix := by
    unfold Stamp.unix zoneOffset tsOf
    cases hz : x.zone with
    | none =>
      have := syslogTime_eq (h := decVal x.hour) (mi := decVal x.minute) (sec := decVal x.second) (oh := 0) (om := 0)
        (ch! '+') hy hx.monthR hx.dayR.1
      simpa using this
    | some z =>
      obtain ⟨sg, zh, zm⟩ := z
      exact syslogTime_eq (h := decVal x.hour) (mi := decVal x.minute) (sec := decVal x.second) (oh := decVal zh)
        (om := decVal zm) sg hy hx.monthR hx.dayR.1
  rw [key]
  rfl

/-- C46 with format timestamp-unix-ms: milliseconds, the fraction of a second truncated. -/
theorem C46_unix_ms_partial (h : offs ≤ s.length) (hf : FewDigits (s.drop offs)) {x : Stamp} {r : Bytes}
    (hx : x.Valid) (e : s.drop offs = x.text ++ r) (hr : r = [] ∨ r.head? = some (ch! ' '))
    (hy : 1970 ≤ decVal x.year ∧ decVal x.year ≤ 2100) :
    parseRFC5424Date s offs .asTsUxMs true = .ok (x.text.length, some (.int (x.unix * 1000 + fracMs x.frac))) := by
  unfold parseRFC5424Date
  rw [cursor_post h]
  simp only [R.ok_bind]
  rw [rfc5424Syntax_ok hf hx e hr]
  have hl : (s.drop offs).length - r.length = x.text.length := by rw [e]; simp
  simp only [R.ok_bind, hl, if_true, reduceCtorEq, if_false]
  have key : syslogTime2timeT (tsOf x).year (tsOf x).month (tsOf x).day (tsOf x).hour (tsOf x).minute
      (tsOf x).second (tsOf x).offH (tsOf x).offM (tsOf x).offMode = .ok x.unix := by
    unfold Stamp.unix zoneOffset tsOf
    cases hz : x.zone with
    | none =>
      have := syslogTime_eq (h := decVal x.hour) (mi := decVal x.minute) (sec := decVal x.second) (oh := 0) (om := 0)
        (ch! '+') hy hx.monthR hx.dayR.1
      simpa using this
    | some z =>
      obtain ⟨sg, zh, zm⟩ := z
      exact syslogTime_eq (h := decVal x.hour) (mi := decVal x.minute) (sec := decVal x.second) (oh := decVal zh)
        (om := decVal zm) sg hy hx.monthR hx.dayR.1
  rw [key]
  simp only [R.ok_bind]
  rw [e] at hf
  have := tsValue_ms (f := x.frac) x.unix (few_frac hx hf)
  rw [show (tsOf x).secfrac = (x.frac.map fun f => (decVal f : Int)).getD 0 from rfl,
    show (tsOf x).prec = (x.frac.map List.length).getD 0 from rfl, this]
  rfl

instance (d : Bytes) : Decidable (Digits d) := inferInstanceAs (Decidable (∀ c ∈ d, isDigit c = true))

/-- 1985-04-12T23:20:50.52Z, and the same instant in another time zone -/
def Ex.stamp : Stamp :=
  ⟨bs! "1985", bs! "04", bs! "12", bs! "19", bs! "20", bs! "50", some (bs! "52"), some (ch! '-', bs! "04", bs! "00")⟩
theorem Ex.stampValid : Ex.stamp.Valid where
  year := by decide
  month := by decide
  day := by decide
  hour := by decide
  minute := by decide
  second := by decide
  frac := by intro f hf; cases hf; decide
  zone := by intro sg h m e; cases e; decide
  monthR := by decide
  dayR := by decide
  hourR := by decide
  minuteR := by decide
  secondR := by decide
example : Ex.stamp.text = bs! "1985-04-12T19:20:50.52-04:00" ∧ Ex.stamp.unix = 482196050 ∧
    fracMs Ex.stamp.frac = 520 ∧ 1970 ≤ decVal Ex.stamp.year ∧ decVal Ex.stamp.year ≤ 2100 := by decide
example : parseRFC5424Date (bs! "1985-04-12T23:20:50.52Z") 0 .asTsUxMs true = .ok (23, some (.int 482196050520)) := by
  rfl

/-- C46 is violated for other years: 2101-01-01 is converted to 0. -/
theorem C46_year_violated :
    parseRFC5424Date (bs! "2101-01-01T00:00:00Z") 0 .asTsUx true = .ok (20, some (.int 0)) ∧
    secondsSince1970 2101 1 1 0 0 0 ≠ 0 := by
  exact ⟨by rfl, by decide +kernel⟩

/-- C46 is violated by a long fraction of a second: an int overflows. -/
theorem C46_fraction_violated :
    parseRFC5424Date (bs! "2001-01-01T00:00:00.0000000000000Z") 0 .asTsUxMs true = .ub .signedOverflow := by
  rfl

/-- date-rfc3164 with format timestamp-unix: the time in the current year (UTC) -/
theorem C46_rfc3164_partial (env : Env) {cur : Nat} (hcur : env.year = cur) (h : offs ≤ s.length)
    (hf : FewDigits (s.drop offs)) {x : Stamp3} {mon : Nat} {r : Bytes} (hx : x.Valid mon)
    (e : s.drop offs = x.text ++ r)
    (hr : x.colon = [] → ∀ c, r.head? = some c → isDigit c = false ∧ c ≠ ch! ':')
    (hy : 1970 ≤ cur ∧ cur ≤ 2100) :
    parseRFC3164Date env s offs .asTsUx true = .ok (x.text.length, some (.int
      (secondsSince1970 cur mon (decVal x.day) (decVal x.hour) (decVal x.minute) (decVal x.second)))) := by
  unfold parseRFC3164Date
  rw [cursor_post h]
  simp only [R.ok_bind]
  rw [rfc3164Syntax_ok hf hx e hr]
  have hl : (s.drop offs).length - r.length = x.text.length := by rw [e]; simp
  simp only [R.ok_bind, hl, if_true, reduceCtorEq, if_false, hcur]
  have hmon : 1 ≤ mon ∧ mon ≤ 12 := by
    refine ⟨hx.monthN.1, ?_⟩
    have := (List.getElem?_eq_some_iff.1 hx.monthN.2).1
    simp [monthNames] at this; omega
  have key := syslogTime_eq (h := decVal x.hour) (mi := decVal x.minute) (sec := decVal x.second) (oh := 0) (om := 0)
        (ch! '+') hy hmon hx.dayR.1
  simp only [ts3Of]
  have key' := key
  simp only [Int.ofNat_zero] at key'
  rw [show (syslogTime2timeT cur mon (decVal x.day) (decVal x.hour) (decVal x.minute) (decVal x.second) 0 0 (ch! '+'))
    = _ from key']
  simp

/-- C46 is violated by date-rfc3164 with a year in the message: it is read and ignored. -/
theorem C46_rfc3164_year_violated (env : Env) :
    parseRFC3164Date env (bs! "Jan 1 2001 00:00:00") 0 .asTsUx true =
      (parseRFC3164Date env (bs! "Jan 1 2002 00:00:00") 0 .asTsUx true) := by
  rfl

end LN
