import Verif.Model.ParseMore
/-
Declarative specifications of the field types: what text a field accepts at the beginning of the
remaining message `t`, and how many bytes of it.  Nothing here refers to the parsers.
-/
namespace LN.Spec
open LN

/-- A field parser outcome `x` implements the specification: if `n` bytes are to be accepted it
succeeds with exactly these and the value `val n`, if nothing is to be accepted it reports
"no match". In particular it never does anything undefined. -/
def Implements (x : PR) (spec : Nat → Prop) (val : Nat → Option Json) : Prop :=
  (∀ n, spec n → x = .ok (n, val n)) ∧ ((∀ n, ¬ spec n) → x = .fail)

/-- the value of most fields: the text covered, if the field has a name -/
def text (want : Bool) (t : Bytes) (n : Nat) : Option Json :=
  if want then some (.str (t.take n)) else none

/-- a value delivered only if the field has a name -/
def ifNamed (want : Bool) (v : Json) : Option Json := if want then some v else none

/-- the first `n` bytes of `t` are the longest run of bytes satisfying `p` -/
def Run (p : UInt8 → Bool) (t : Bytes) (n : Nat) : Prop :=
  n ≤ t.length ∧ (∀ c ∈ t.take n, p c = true) ∧ (∀ c, t[n]? = some c → p c = false)

/-- `t` begins with one byte of each class of `pat`, in this order -/
def fits : List (UInt8 → Bool) → Bytes → Bool
  | [], _ => true
  | _ :: _, [] => false
  | p :: ps, c :: cs => p c && fits ps cs

/-- exactly this character -/
def is (x : UInt8) : UInt8 → Bool := fun c => c == x

/-- value of a string of decimal digits -/
def decVal (ds : Bytes) : Nat := ds.foldl (fun v c => v * 10 + (c.toNat - 48)) 0

/-- value of a string of hex digits -/
def hexValue (ds : Bytes) : Nat := ds.foldl (fun v c => v * 16 + hexVal c) 0

/-- value of the two decimal digits at position `k` -/
def num2 (t : Bytes) (k : Nat) : Nat := decVal ((t.drop k).take 2)

/-- C20 number: maximal non-empty run of digits, at most `maxval` if that is positive -/
def number (maxval : Int) (t : Bytes) (n : Nat) : Prop :=
  0 < n ∧ Run isDigit t n ∧ (maxval > 0 → (decVal (t.take n) : Int) ≤ maxval)

/-- C21: `[-]digits[.digits]`, both digit strings may be empty -/
def FloatText (w : Bytes) : Prop :=
  ∃ sgn a b, w = sgn ++ a ++ b ∧ (sgn = [] ∨ sgn = bs! "-") ∧ (∀ c ∈ a, isDigit c = true) ∧
    (b = [] ∨ ∃ d, b = ch! '.' :: d ∧ ∀ c ∈ d, isDigit c = true)

/-- C21 float: the longest non-empty such text -/
def float (t : Bytes) (n : Nat) : Prop :=
  0 < n ∧ n ≤ t.length ∧ FloatText (t.take n) ∧
    ∀ m, m ≤ t.length → FloatText (t.take m) → m ≤ n

/-- C22 hexnumber: `0x`, hex digits, then (not consumed) a whitespace character -/
def hexnumber (maxval : Nat) (t : Bytes) (n : Nat) : Prop :=
  ∃ ds w rest, t = bs! "0x" ++ ds ++ w :: rest ∧ (∀ c ∈ ds, isXDigit c = true) ∧
    isSpace w = true ∧ n = 2 + ds.length ∧ (maxval > 0 → hexValue ds ≤ maxval)

/-- C23 kernel-timestamp: `[` 5-12 digits `.` 6 digits `]` -/
def kernelTs (t : Bytes) (n : Nat) : Prop :=
  ∃ a b rest, t = bs! "[" ++ a ++ bs! "." ++ b ++ bs! "]" ++ rest ∧
    (∀ c ∈ a, isDigit c = true) ∧ 5 ≤ a.length ∧ a.length ≤ 12 ∧
    (∀ c ∈ b, isDigit c = true) ∧ b.length = 6 ∧ n = a.length + 9

/-- C24-C25: longest non-empty run -/
def runOf (p : UInt8 → Bool) (t : Bytes) (n : Nat) : Prop := 0 < n ∧ Run p t n

/-- C26 string-to: the shortest non-empty prefix followed by `f` -/
def stringTo (f t : Bytes) (n : Nat) : Prop :=
  0 < n ∧ f <+: t.drop n ∧ n ≤ t.length ∧ ∀ m, 0 < m → m < n → ¬ f <+: t.drop m

/-- C27 char-to: up to the first of the given characters, which must exist and not be the first
byte -/
def charTo (ts t : Bytes) (n : Nat) : Prop :=
  0 < n ∧ n < t.length ∧ Run (fun c => !ts.contains c) t n

/-- C27 char-sep: up to the first of the given characters or the end -/
def charSep (ts t : Bytes) (n : Nat) : Prop := Run (fun c => !ts.contains c) t n

/-- C28 literal -/
def literal (lit t : Bytes) (n : Nat) : Prop := lit <+: t ∧ n = lit.length

/-- C29 rest -/
def rest (t : Bytes) (n : Nat) : Prop := n = t.length

/-- C30 quoted-string: from a double quote to the next one -/
def quoted (t : Bytes) (n : Nat) : Prop :=
  ∃ w tl, t = bs! "\"" ++ w ++ bs! "\"" ++ tl ∧ ch! '"' ∉ w ∧ n = w.length + 2

/-- C30 op-quoted-string, when not quoted: non-empty run of non-blank bytes -/
def unquoted (t : Bytes) (n : Nat) : Prop :=
  t.head? ≠ some (ch! '"') ∧ runOf (fun c => c != ch! ' ') t n

/-- C31 date-iso: YYYY-MM-DD, month 01-12, day 01-31 -/
def isoDate (t : Bytes) (n : Nat) : Prop :=
  fits [isDigit, isDigit, isDigit, isDigit, is 45, isDigit, isDigit, is 45, isDigit, isDigit] t = true ∧
  1 ≤ num2 t 5 ∧ num2 t 5 ≤ 12 ∧ 1 ≤ num2 t 8 ∧ num2 t 8 ≤ 31 ∧ n = 10

/-- C32: hh:mm:ss with hh at most `maxH` -/
def timeOfDay (maxH : Nat) (t : Bytes) (n : Nat) : Prop :=
  fits [isDigit, isDigit, is 58, isDigit, isDigit, is 58, isDigit, isDigit] t = true ∧
  num2 t 0 ≤ maxH ∧ num2 t 3 ≤ 59 ∧ num2 t 6 ≤ 59 ∧ n = 8

/-- C33: `mm:ss` -/
def minSec (t : Bytes) : Prop :=
  fits [isDigit, isDigit, is 58, isDigit, isDigit] t = true ∧ num2 t 0 ≤ 59 ∧ num2 t 3 ≤ 59

/-- C33 duration: h:mm:ss or hh:mm:ss -/
def duration (t : Bytes) (n : Nat) : Prop :=
  (fits [isDigit, is 58] t = true ∧ minSec (t.drop 2) ∧ n = 7) ∨
  (fits [isDigit, isDigit, is 58] t = true ∧ minSec (t.drop 3) ∧ n = 8)

/-- a decimal octet: 1-3 digits, at most 255 -/
def Octet (w : Bytes) : Prop :=
  1 ≤ w.length ∧ w.length ≤ 3 ∧ (∀ c ∈ w, isDigit c = true) ∧ decVal w ≤ 255

/-- C34 ipv4: four octets joined by dots; the last takes up to three digits -/
def ipv4 (t : Bytes) (n : Nat) : Prop :=
  ∃ a b c d rest, t = a ++ bs! "." ++ b ++ bs! "." ++ c ++ bs! "." ++ d ++ rest ∧
    Octet a ∧ Octet b ∧ Octet c ∧ Octet d ∧
    (d.length = 3 ∨ ∀ x, rest.head? = some x → isDigit x = false) ∧
    n = a.length + b.length + c.length + d.length + 3

/-- C36 mac48 -/
def mac48 (t : Bytes) (n : Nat) : Prop :=
  (∃ sep, (sep = ch! ':' ∨ sep = ch! '-') ∧
    fits [isXDigit, isXDigit, is sep, isXDigit, isXDigit, is sep, isXDigit, isXDigit, is sep,
      isXDigit, isXDigit, is sep, isXDigit, isXDigit, is sep, isXDigit, isXDigit] t = true) ∧ n = 17

end LN.Spec
