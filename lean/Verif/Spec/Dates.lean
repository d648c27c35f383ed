import Verif.Spec.Fields
/-
Declarative specification of timestamps: their text, and the instant they denote in the proleptic
Gregorian calendar.  Nothing here refers to the parsers.
-/
set_option autoImplicit false
namespace LN.Spec
open LN

/-- only decimal digits -/
def Digits (d : Bytes) : Prop := ∀ c ∈ d, isDigit c = true

/-- the parts of an RFC5424 timestamp; `zone = none` is `Z` -/
structure Stamp where
  year : Bytes
  month : Bytes
  day : Bytes
  hour : Bytes
  minute : Bytes
  second : Bytes
  frac : Option Bytes
  zone : Option (UInt8 × Bytes × Bytes)

/-- text of the fraction of a second -/
def fracText : Option Bytes → Bytes
  | none => []
  | some f => ch! '.' :: f

/-- text of the time zone -/
def zoneText : Option (UInt8 × Bytes × Bytes) → Bytes
  | none => [ch! 'Z']
  | some (sg, h, m) => sg :: (h ++ ch! ':' :: m)

/-- `year-month-dayThour:minute:second[.frac](Z|+h:m|-h:m)` -/
def Stamp.text (x : Stamp) : Bytes :=
  x.year ++ ch! '-' :: (x.month ++ ch! '-' :: (x.day ++ ch! 'T' :: (x.hour ++ ch! ':' ::
    (x.minute ++ ch! ':' :: (x.second ++ (fracText x.frac ++ zoneText x.zone))))))

/-- all parts are (possibly empty) digit strings, with values in range -/
structure Stamp.Valid (x : Stamp) : Prop where
  year : Digits x.year
  month : Digits x.month
  day : Digits x.day
  hour : Digits x.hour
  minute : Digits x.minute
  second : Digits x.second
  frac : ∀ f, x.frac = some f → Digits f
  zone : ∀ sg h m, x.zone = some (sg, h, m) → (sg = ch! '+' ∨ sg = ch! '-') ∧ Digits h ∧ Digits m ∧
    decVal h ≤ 23 ∧ decVal m ≤ 59
  monthR : 1 ≤ decVal x.month ∧ decVal x.month ≤ 12
  dayR : 1 ≤ decVal x.day ∧ decVal x.day ≤ 31
  hourR : decVal x.hour ≤ 23
  minuteR : decVal x.minute ≤ 59
  secondR : decVal x.second ≤ 60

/-- C45 date-rfc5424: a timestamp followed by a space or the end of the message -/
def rfc5424 (t : Bytes) (n : Nat) : Prop :=
  ∃ x : Stamp, x.Valid ∧ ∃ r, t = x.text ++ r ∧ (r = [] ∨ r.head? = some (ch! ' ')) ∧
    n = x.text.length

/-! ### the calendar -/

/-- Gregorian leap years -/
def leap (y : Nat) : Bool := y % 4 = 0 && (y % 100 ≠ 0 || y % 400 = 0)
/-- days of a year -/
def daysInYear (y : Nat) : Nat := if leap y then 366 else 365
/-- days of a month (1 = January) -/
def daysInMonth (y m : Nat) : Nat :=
  if m = 2 then (if leap y then 29 else 28)
  else if m = 4 || m = 6 || m = 9 || m = 11 then 30 else 31
/-- days from 1970-01-01 to the first day of the year `1970 + k` -/
def daysBeforeYear : Nat → Nat
  | 0 => 0
  | k + 1 => daysBeforeYear k + daysInYear (1970 + k)
/-- days from the first day of the year to the first day of month `m + 1` -/
def daysBeforeMonth (y : Nat) : Nat → Nat
  | 0 => 0
  | m + 1 => daysBeforeMonth y m + daysInMonth y (m + 1)
/-- seconds from 1970-01-01T00:00:00 to the given date and time (for years from 1970 on) -/
def secondsSince1970 (y mo d h mi sec : Nat) : Nat :=
  (daysBeforeYear (y - 1970) + daysBeforeMonth y (mo - 1) + (d - 1)) * 86400 + h * 3600 + mi * 60 + sec

/-- seconds the time zone is ahead of UTC -/
def zoneOffset : Option (UInt8 × Bytes × Bytes) → Int
  | none => 0
  | some (sg, h, m) =>
    let o : Int := (decVal h : Int) * 3600 + (decVal m : Int) * 60
    if sg = ch! '+' then o else -o

/-- UNIX time of the timestamp -/
def Stamp.unix (x : Stamp) : Int :=
  (secondsSince1970 (decVal x.year) (decVal x.month) (decVal x.day) (decVal x.hour) (decVal x.minute)
    (decVal x.second) : Int) - zoneOffset x.zone

/-- milliseconds of a fraction of a second, truncated -/
def fracMs : Option Bytes → Int
  | none => 0
  | some f => ((decVal f * 1000 / 10 ^ f.length : Nat) : Int)

/-! ### RFC3164 -/

/-- the month names -/
def monthNames : List Bytes :=
  [bs! "jan", bs! "feb", bs! "mar", bs! "apr", bs! "may", bs! "jun", bs! "jul", bs! "aug", bs! "sep",
   bs! "oct", bs! "nov", bs! "dec"]

/-- lower case -/
def toLower (c : UInt8) : UInt8 := if isUpper c then c + 32 else c

/-- parts of an RFC3164 timestamp: month name, padding of the day, day, optional year, time, optional
trailing colon -/
structure Stamp3 where
  month : Bytes
  pad : Bytes
  day : Bytes
  year : Option Bytes
  hour : Bytes
  minute : Bytes
  second : Bytes
  colon : Bytes

/-- text of the optional year -/
def yearText : Option Bytes → Bytes
  | none => []
  | some y => y ++ [ch! ' ']

/-- `Mon [ ]day [year ]hour:minute:second[:]` -/
def Stamp3.text (x : Stamp3) : Bytes :=
  x.month ++ ch! ' ' :: (x.pad ++ (x.day ++ ch! ' ' :: (yearText x.year ++ (x.hour ++ ch! ':' ::
    (x.minute ++ ch! ':' :: (x.second ++ x.colon))))))

/-- month name in any case, all numbers digit strings with values in range -/
structure Stamp3.Valid (x : Stamp3) (mon : Nat) : Prop where
  monthN : 1 ≤ mon ∧ monthNames[mon - 1]? = some (x.month.map toLower)
  pad : x.pad = [] ∨ x.pad = [ch! ' ']
  day : Digits x.day
  year : ∀ y, x.year = some y → Digits y ∧ 1970 < decVal y ∧ decVal y < 2100
  hour : Digits x.hour
  minute : Digits x.minute
  second : Digits x.second
  colon : x.colon = [] ∨ x.colon = [ch! ':']
  dayR : 1 ≤ decVal x.day ∧ decVal x.day ≤ 31
  hourR : decVal x.hour ≤ 23
  minuteR : decVal x.minute ≤ 59
  secondR : decVal x.second ≤ 60

/-- C45 date-rfc3164: all digits of the seconds and a directly following colon are consumed -/
def rfc3164 (t : Bytes) (n : Nat) : Prop :=
  ∃ x : Stamp3, ∃ mon, x.Valid mon ∧ ∃ r, t = x.text ++ r ∧
    (x.colon = [] → ∀ c, r.head? = some c → isDigit c = false ∧ c ≠ ch! ':') ∧ n = x.text.length

end LN.Spec
