import Verif.Spec.Fields
/-
Declarative specifications of the structured field types (iptables, LEA, name-value lists, JSON,
CEE, CEF).  Nothing here refers to the parsers.
-/
set_option autoImplicit false
namespace LN.Spec
open LN

/-- the texts, separated by the byte `x` -/
def sepBy (x : UInt8) : List Bytes → Bytes
  | [] => []
  | [a] => a
  | a :: b :: r => a ++ x :: sepBy x (b :: r)

/-- the object with the given members, entered one after the other (a name which occurs again
keeps its place and gets the new value) -/
def objOf (l : List (Bytes × Json)) : Json := .obj (l.foldl (fun o m => Obj.add o m.1 m.2) [])

/-! ### C41 v2-iptables -/

/-- one iptables field: `NAME=value` or the flag `NAME` -/
structure IptField where
  name : Bytes
  val : Option Bytes
  deriving DecidableEq, Repr

/-- names are non-empty upper case words, values contain no whitespace -/
def IptField.Valid (f : IptField) : Prop :=
  f.name ≠ [] ∧ (∀ c ∈ f.name, isUpper c = true) ∧ ∀ v, f.val = some v → ∀ c ∈ v, isSpace c = false

/-- how the field is written -/
def IptField.text (f : IptField) : Bytes :=
  f.name ++ (match f.val with | none => [] | some v => ch! '=' :: v)

/-- what it means: flags have the value null -/
def IptField.member (f : IptField) : Bytes × Json :=
  (f.name, match f.val with | none => .null | some v => .str v)

/-- `t` is a sequence of at least two fields separated by single spaces; one space may follow. -/
def iptables (t : Bytes) (fs : List IptField) : Prop :=
  2 ≤ fs.length ∧ (∀ f ∈ fs, f.Valid) ∧
    ∃ trail, (trail = [] ∨ trail = bs! " ") ∧ t = sepBy (ch! ' ') (fs.map IptField.text) ++ trail

/-! ### C43 checkpoint-lea -/

/-- a `name: value;` pair with the spaces before name and value -/
structure LeaPair where
  sp1 : Nat
  name : Bytes
  sp2 : Nat
  val : Bytes
  deriving DecidableEq, Repr

/-- `n` spaces -/
def spaces (n : Nat) : Bytes := List.replicate n (ch! ' ')

/-- how it is written -/
def LeaPair.text (p : LeaPair) : Bytes :=
  spaces p.sp1 ++ p.name ++ bs! ":" ++ spaces p.sp2 ++ p.val ++ bs! ";"

/-- The name extends to the first colon, does not begin with a space or the terminator; the value
extends to the first semicolon and does not begin with a space. -/
def LeaPair.Valid (term : UInt8) (p : LeaPair) : Prop :=
  ch! ':' ∉ p.name ∧ p.name.head? ≠ some (ch! ' ') ∧ (p.name ++ bs! ":").head? ≠ some term ∧
  ch! ';' ∉ p.val ∧ p.val.head? ≠ some (ch! ' ')

/-- what it means -/
def LeaPair.member (p : LeaPair) : Bytes × Json := (cstr p.name, .str (cstr p.val))

/-- The field covers the first `n` bytes of `t`: pairs, then spaces, then the end of the message
or (not covered) the terminator. A message consisting of spaces only is not accepted. -/
def lea (term : UInt8) (t : Bytes) (ps : List LeaPair) (n : Nat) : Prop :=
  (∀ p ∈ ps, p.Valid term) ∧ ∃ k tl,
    t = (ps.map LeaPair.text).flatten ++ spaces k ++ tl ∧
    n = t.length - tl.length ∧
    ((tl = [] ∧ (ps = [] → k = 0)) ∨ (tl.head? = some term ∧ term ≠ ch! ' '))

/-- the value of the field; without a pair there is none (not even an empty object) -/
def leaValue (want : Bool) (ps : List LeaPair) : Option Json :=
  if want ∧ ps ≠ [] then some (objOf (ps.map LeaPair.member)) else none

end LN.Spec

namespace LN.Spec
open LN

/-! ### C38 json, C39 cee-syslog -/

/-- the text begins with a JSON object or array; `tok` is what the JSON library makes of it -/
def json (tok : Bytes → Option (Json × Nat)) (t : Bytes) (v : Json) (n : Nat) : Prop :=
  (t.head? = some (ch! '{') ∨ t.head? = some (ch! '[')) ∧ tok t = some (v, n)

/-- `@cee:`, whitespace, a JSON object which extends to the end -/
def cee (tok : Bytes → Option (Json × Nat)) (t : Bytes) (v : Json) (n : Nat) : Prop :=
  ∃ ws js, t = bs! "@cee:" ++ ws ++ js ∧ (∀ c ∈ ws, isSpace c = true) ∧
    js.head? = some (ch! '{') ∧ tok js = some (v, js.length) ∧ n = t.length

end LN.Spec

namespace LN.Spec
open LN

/-! ### C40 name-value-list -/

/-- number of backslashes at the end of `u` -/
def trailingBs (u : Bytes) : Nat := (u.reverse.takeWhile (· == ch! '\\')).length

/-- a byte after `u` is escaped: it is preceded by an odd number of backslashes -/
def Escaped (u : Bytes) : Prop := trailingBs u % 2 = 1

/-- every byte of `v` in the class `p` is escaped -/
def AllEscaped (p : UInt8 → Bool) (v : Bytes) : Prop :=
  ∀ u c w, v = u ++ c :: w → p c = true → Escaped u

/-- is `c` a separator? without configured separator: whitespace -/
def nvSep (d : DataNameValue) (c : UInt8) : Bool := if d.sep = 0 then isSpace c else c == d.sep
/-- the assignment character, by default `=` -/
def nvAssign (d : DataNameValue) : UInt8 := if d.ass = 0 then ch! '=' else d.ass
/-- a name: non-empty; without configured assignment character only letters, digits and `._-`, with
one any bytes except it -/
def NvName (d : DataNameValue) (name : Bytes) : Prop :=
  name ≠ [] ∧ ∀ c ∈ name, if d.ass = 0 then (isAlnum c || c == ch! '.' || c == ch! '_' || c == ch! '-') = true
    else c ≠ d.ass

/-- `t` begins with the pair `name=val`, followed by `rest`. The value is quoted (and extends to the
first unescaped occurrence of the same quote) or extends to the first unescaped separator. -/
def NvPair (d : DataNameValue) (t name val rest : Bytes) : Prop :=
  NvName d name ∧
  ((∃ q, (q = ch! '"' ∨ q = ch! '\'') ∧ t = name ++ nvAssign d :: q :: val ++ q :: rest ∧
      AllEscaped (· == q) val ∧ ¬ Escaped val) ∨
   (t = name ++ nvAssign d :: val ++ rest ∧
      (val ++ rest).head? ≠ some (ch! '"') ∧ (val ++ rest).head? ≠ some (ch! '\'') ∧
      AllEscaped (nvSep d) val ∧
      (rest = [] ∨ (∃ c r, rest = c :: r ∧ nvSep d c = true) ∧ ¬ Escaped val)))

/-- `t` begins with this list of pairs, which takes `n` bytes including the separators after each
pair. The list ends where no pair begins, or after a (quoted) value which is not followed by a
separator. -/
inductive NvList (d : DataNameValue) : Bytes → List (Bytes × Bytes) → Nat → Prop
  | stop {t} : (∀ name val rest, ¬ NvPair d t name val rest) → NvList d t [] 0
  | last {t name val rest c r} : NvPair d t name val rest → rest = c :: r → nvSep d c = false →
      NvList d t [(name, val)] (t.length - rest.length)
  | more {t name val seps tl ps n} : NvPair d t name val (seps ++ tl) →
      (∀ c ∈ seps, nvSep d c = true) → (∀ c r, tl = c :: r → nvSep d c = false) →
      (seps = [] → tl = []) → NvList d tl ps n →
      NvList d t ((name, val) :: ps) (t.length - tl.length + n)

/-- what a pair means -/
def nvMember (p : Bytes × Bytes) : Bytes × Json := (cstr p.1, .str p.2)

end LN.Spec

namespace LN.Spec
open LN

/-! ### C42 cef -/

/-- CEF: in header fields backslash and pipe are escaped by a backslash -/
def cefEscHdr : Bytes → Bytes
  | [] => []
  | c :: cs => (if c = ch! '\\' ∨ c = ch! '|' then [ch! '\\', c] else [c]) ++ cefEscHdr cs

/-- CEF: in extension values equal sign and backslash (for some products, `slash`, also the slash) are escaped by a backslash, newline and
carriage return are written as `\n` and `\r` -/
def cefEscVal (slash : Bool) : Bytes → Bytes
  | [] => []
  | c :: cs => (if c = ch! '=' ∨ c = ch! '\\' ∨ (c = ch! '/' ∧ slash = true) then [ch! '\\', c]
      else if c = 10 then bs! "\\n" else if c = 13 then bs! "\\r" else [c]) ++ cefEscVal slash cs

/-- a CEF event -/
structure CefMsg where
  vendor : Bytes
  product : Bytes
  version : Bytes
  sigID : Bytes
  name : Bytes
  severity : Bytes
  exts : List (Bytes × Bytes)
  /-- whether slashes are escaped in the values of extensions -/
  slash : Bool := false
  deriving DecidableEq, Repr

/-- how it is written -/
def CefMsg.text (m : CefMsg) : Bytes :=
  bs! "CEF:0|" ++ cefEscHdr m.vendor ++ bs! "|" ++ cefEscHdr m.product ++ bs! "|" ++
    cefEscHdr m.version ++ bs! "|" ++ cefEscHdr m.sigID ++ bs! "|" ++ cefEscHdr m.name ++ bs! "|" ++
    cefEscHdr m.severity ++ bs! "|" ++
    sepBy (ch! ' ') (m.exts.map fun e => e.1 ++ ch! '=' :: cefEscVal m.slash e.2)

/-- Names of extensions are non-empty and alphanumeric (or `_`, `.`). No NUL anywhere. -/
def CefMsg.Valid (m : CefMsg) : Prop :=
  (∀ h ∈ [m.vendor, m.product, m.version, m.sigID, m.name, m.severity], (0 : UInt8) ∉ h) ∧
  ∀ e ∈ m.exts, e.1 ≠ [] ∧ (∀ c ∈ e.1, (isAlnum c || c == ch! '_' || c == ch! '.') = true) ∧
    (0 : UInt8) ∉ e.2

/-- what it means -/
def CefMsg.value (m : CefMsg) : Json :=
  .obj [(bs! "DeviceVendor", .str m.vendor), (bs! "DeviceProduct", .str m.product),
    (bs! "DeviceVersion", .str m.version), (bs! "SignatureID", .str m.sigID),
    (bs! "Name", .str m.name), (bs! "Severity", .str m.severity),
    (bs! "Extensions", objOf (m.exts.map fun e => (e.1, Json.str e.2)))]

end LN.Spec
