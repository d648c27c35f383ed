import Verif.Spec.Fields
import Verif.Spec.Struct
import Verif.Spec.Addr
import Verif.Spec.Dates
/-
Field descriptions: what a field type with given parameters accepts, stated on the JSON object which
describes the field.  Nothing here refers to the constructors, to the table of parsers or to the parsers.
-/
set_option autoImplicit false
namespace LN.Spec
open LN

/-- the field types there are (without `repeat` and `alternative`, which contain other fields) -/
inductive FType where
  | literal | dateRfc3164 | dateRfc5424 | number | float | hexnumber | kernelTs | whitespace | ipv4 | ipv6
  | word | alpha | rest | opQuoted | quoted | dateIso | time24 | time12 | duration | cisco | json | cee | mac48
  | cef | iptables | nameValue | lea | stringTo | charTo | charSep | string
  deriving DecidableEq

/-- their names in rule bases -/
def FType.name : FType → Bytes
  | .literal => bs! "literal" | .dateRfc3164 => bs! "date-rfc3164" | .dateRfc5424 => bs! "date-rfc5424"
  | .number => bs! "number" | .float => bs! "float" | .hexnumber => bs! "hexnumber"
  | .kernelTs => bs! "kernel-timestamp" | .whitespace => bs! "whitespace" | .ipv4 => bs! "ipv4" | .ipv6 => bs! "ipv6"
  | .word => bs! "word" | .alpha => bs! "alpha" | .rest => bs! "rest" | .opQuoted => bs! "op-quoted-string"
  | .quoted => bs! "quoted-string" | .dateIso => bs! "date-iso" | .time24 => bs! "time-24hr"
  | .time12 => bs! "time-12hr" | .duration => bs! "duration" | .cisco => bs! "cisco-interface-spec"
  | .json => bs! "json" | .cee => bs! "cee-syslog" | .mac48 => bs! "mac48" | .cef => bs! "cef"
  | .iptables => bs! "v2-iptables" | .nameValue => bs! "name-value-list" | .lea => bs! "checkpoint-lea"
  | .stringTo => bs! "string-to" | .charTo => bs! "char-to" | .charSep => bs! "char-sep" | .string => bs! "string"

/-- how specific a type is (small: tried first, other things being equal) -/
def FType.prio : FType → Nat
  | .literal | .whitespace | .ipv4 | .ipv6 | .cisco | .json | .cee | .cef | .iptables | .lea => 4
  | .dateRfc3164 | .dateRfc5424 | .dateIso | .time24 | .time12 | .nameValue => 8
  | .number | .float | .hexnumber | .kernelTs | .duration | .mac48 => 16
  | .word | .alpha | .stringTo | .charTo | .charSep | .string => 32
  | .opQuoted | .quoted => 64
  | .rest => 255

/-! ### Parameters -/

/-- a text parameter -/
def strP (o : Obj) (k : Bytes) : Option Bytes :=
  match Obj.get o k with
  | some (.str s) => some s
  | _ => none

/-- a number parameter, 0 if absent -/
def intP (o : Obj) (k : Bytes) : Int :=
  match Obj.get o k with
  | some (.int n) => n
  | _ => 0

/-- a one character parameter, `dflt` if absent -/
def charP (o : Obj) (k : Bytes) (dflt : UInt8) : UInt8 :=
  match strP o k with
  | some [c] => c
  | _ => dflt

/-- the parameter is absent or one of these texts -/
def OneOf (o : Obj) (k : Bytes) (l : List Bytes) : Prop :=
  Obj.get o k = none ∨ ∃ w ∈ l, Obj.get o k = some (.str w)

/-- the parameter is absent or a number from `lo` to `hi` -/
def IntOr (o : Obj) (k : Bytes) (lo hi : Int) : Prop :=
  Obj.get o k = none ∨ ∃ n, lo ≤ n ∧ n ≤ hi ∧ Obj.get o k = some (.int n)

/-- the parameter is absent or a text of one character -/
def CharOr (o : Obj) (k : Bytes) : Prop :=
  Obj.get o k = none ∨ ∃ c, c ≠ 0 ∧ Obj.get o k = some (.str [c])

/-- the parameter is a text without NUL -/
def TextP (o : Obj) (k : Bytes) (w : Bytes) : Prop := Obj.get o k = some (.str w) ∧ (0 : UInt8) ∉ w

/-! ### Parameters of `string` -/

/-- the bytes of a class -/
def classP (w : Bytes) (c : UInt8) : Bool :=
  if w = bs! "digit" then isDigit c
  else if w = bs! "hexdigit" then isXDigit c
  else if w = bs! "alpha" then isAlpha c
  else w = bs! "alnum" && isAlnum c

/-- a member of an element of the list of permitted characters: `"chars": "..."` or `"class": "..."` -/
inductive PermMember : Bytes × Json → (UInt8 → Bool) → Prop
  | chars (w : Bytes) (h : ∀ c ∈ w, c ≠ 0 ∧ c < 128) : PermMember (bs! "chars", .str w) (fun c => w.contains c)
  | cls (w : Bytes) (h : w ∈ [bs! "digit", bs! "hexdigit", bs! "alpha", bs! "alnum"]) :
      PermMember (bs! "class", .str w) (classP w)

/-- `ms` are members of elements of the list of permitted characters; `p` is what they permit together -/
inductive PermMembers : Obj → (UInt8 → Bool) → Prop
  | nil : PermMembers [] (fun _ => false)
  | cons {m ms p q} (h : PermMember m p) (hs : PermMembers ms q) : PermMembers (m :: ms) (fun c => p c || q c)

/-- `matching.permitted`: absent (everything), a text with the permitted characters, or a list of sets -/
inductive Permits (o : Obj) : (UInt8 → Bool) → Prop
  | all (h : Obj.get o (bs! "matching.permitted") = none) : Permits o (fun _ => true)
  | text (w : Bytes) (h : Obj.get o (bs! "matching.permitted") = some (.str w)) (ha : ∀ c ∈ w, c ≠ 0 ∧ c < 128) :
      Permits o (fun c => w.contains c)
  | list (l : List Obj) {p} (h : Obj.get o (bs! "matching.permitted") = some (.arr (l.map .obj)))
      (hp : PermMembers l.flatten p) : Permits o p

/-- the settings the parameters of a `string` field denote -/
structure StrConf (o : Obj) (d : DataString) : Prop where
  /-- names of parameters are written in lower case -/
  keys : ∀ k ∈ o.map (·.1), ∀ c ∈ k, isUpper c = false
  quoting : (Obj.get o (bs! "quoting.mode") = none ∧ d.quoteMode = .auto) ∨
    (Obj.get o (bs! "quoting.mode") = some (.str (bs! "auto")) ∧ d.quoteMode = .auto) ∨
    (Obj.get o (bs! "quoting.mode") = some (.str (bs! "none")) ∧ d.quoteMode = .none) ∨
    (Obj.get o (bs! "quoting.mode") = some (.str (bs! "required")) ∧ d.quoteMode = .reqd)
  /-- escapes are resolved only where quotes are recognised -/
  escape : OneOf o (bs! "quoting.escape.mode") [bs! "none", bs! "backslash", bs! "double", bs! "both"] ∧
    d.esc = if d.quoteMode = .none then .none
      else if strP o (bs! "quoting.escape.mode") = some (bs! "none") then .none
      else if strP o (bs! "quoting.escape.mode") = some (bs! "backslash") then .backslash
      else if strP o (bs! "quoting.escape.mode") = some (bs! "double") then .double
      else .both
  begin : CharOr o (bs! "quoting.char.begin") ∧ d.qb = charP o (bs! "quoting.char.begin") (ch! '"')
  end_ : CharOr o (bs! "quoting.char.end") ∧ d.qe = charP o (bs! "quoting.char.end") (ch! '"')
  perm : Permits o d.perm
  mode : OneOf o (bs! "matching.mode") [bs! "strict", bs! "lazy"] ∧
    d.lazy = decide (strP o (bs! "matching.mode") = some (bs! "lazy"))
  strip : d.strip = true

/-! ### Field types -/

/-- The parameters are as the type wants them. -/
def FType.ParamsOK (o : Obj) : FType → Prop
  | .literal => ∃ w, TextP o (bs! "text") w
  | .stringTo | .charTo | .charSep => ∃ w, TextP o (bs! "extradata") w
  | .dateRfc3164 | .dateRfc5424 =>
    OneOf o (bs! "format") [bs! "string", bs! "timestamp-unix", bs! "timestamp-unix-ms"]
  | .float => OneOf o (bs! "format") [bs! "string", bs! "number"]
  | .number | .hexnumber => OneOf o (bs! "format") [bs! "string", bs! "number"] ∧
      IntOr o (bs! "maxval") 0 9223372036854775807
  | .nameValue => CharOr o (bs! "extradata") ∧ CharOr o (bs! "separator") ∧ CharOr o (bs! "assignator")
  | .lea => CharOr o (bs! "terminator")
  | .string => ∃ d, StrConf o d
  | _ => True

/-- separator and assignator of a name-value-list: `separator` (or else `extradata`) and `assignator` -/
def nvConf (o : Obj) : DataNameValue :=
  { sep := charP o (bs! "separator") (charP o (bs! "extradata") 0), ass := charP o (bs! "assignator") 0 }

/-- a number, as number if `"format": "number"` was given, else its text -/
def numValue (o : Obj) (num : Json) (txt : Bytes) : Json :=
  if strP o (bs! "format") = some (bs! "number") then num else .str txt

/-- the value of a timestamp with text `txt` and UNIX time `sec` s + `ms` ms -/
def stampValue (o : Obj) (txt : Bytes) (sec ms : Int) : Json :=
  if strP o (bs! "format") = some (bs! "timestamp-unix") then .int sec
  else if strP o (bs! "format") = some (bs! "timestamp-unix-ms") then .int (sec * 1000 + ms)
  else .str txt

/-- A field of this type with parameters `o` accepts the first `n` bytes of the text `t`, with the value `v` (`none`:
no value). `env` provides the current year and the JSON library.
For `cee-syslog` this is what the field should do; the code differs (`C39_offset_violated`). For `cef`: events (of at least 17 bytes) as they are to be
written; what else the code takes for events is not described, `InScope` excludes it. `Spec.ipv6` is what the code
takes for an address; how this differs from RFC 4291 is told by C35. -/
def FType.Means (env : Env) (o : Obj) (t : Bytes) (n : Nat) (v : Option Json) : FType → Prop
  | .literal => ∃ w, TextP o (bs! "text") w ∧ Spec.literal w t n ∧ v = some (.str (t.take n))
  | .stringTo => ∃ w, TextP o (bs! "extradata") w ∧ Spec.stringTo w t n ∧ v = some (.str (t.take n))
  | .charTo => ∃ w, TextP o (bs! "extradata") w ∧ Spec.charTo w t n ∧ v = some (.str (t.take n))
  | .charSep => ∃ w, TextP o (bs! "extradata") w ∧ Spec.charSep w t n ∧ v = some (.str (t.take n))
  | .number => Spec.number (intP o (bs! "maxval")) t n ∧ v = some (numValue o (.int (decVal (t.take n))) (t.take n))
  | .hexnumber => Spec.hexnumber (intP o (bs! "maxval")).toNat t n ∧
      v = some (numValue o (.int (hexValue ((t.take n).drop 2))) (t.take n))
  | .float => Spec.float t n ∧ v = some (numValue o (.dbl (t.take n)) (t.take n))
  | .dateRfc5424 => ∃ x : Stamp, x.Valid ∧ ∃ r, t = x.text ++ r ∧ (r = [] ∨ r.head? = some (ch! ' ')) ∧
      n = x.text.length ∧ v = some (stampValue o x.text x.unix (fracMs x.frac))
  | .dateRfc3164 => ∃ x : Stamp3, ∃ mon, x.Valid mon ∧ ∃ r, t = x.text ++ r ∧
      (x.colon = [] → ∀ c, r.head? = some c → isDigit c = false ∧ c ≠ ch! ':') ∧ n = x.text.length ∧
      v = some (stampValue o x.text (secondsSince1970 env.year.toNat mon (decVal x.day) (decVal x.hour)
        (decVal x.minute) (decVal x.second)) 0)
  | .kernelTs => Spec.kernelTs t n ∧ v = some (.str (t.take n))
  | .whitespace => runOf isSpace t n ∧ v = some (.str (t.take n))
  | .ipv4 => Spec.ipv4 t n ∧ v = some (.str (t.take n))
  | .ipv6 => Spec.ipv6 t n ∧ v = some (.str (t.take n))
  | .word => runOf (fun c => c != ch! ' ') t n ∧ v = some (.str (t.take n))
  | .alpha => runOf isAlpha t n ∧ v = some (.str (t.take n))
  | .rest => n = t.length ∧ v = some (.str t)
  | .opQuoted => (∃ w tl, t = bs! "\"" ++ w ++ bs! "\"" ++ tl ∧ ch! '"' ∉ w ∧ n = w.length + 2 ∧ v = some (.str w)) ∨
      (unquoted t n ∧ v = some (.str (t.take n)))
  | .quoted => Spec.quoted t n ∧ v = some (.str (t.take n))
  | .dateIso => isoDate t n ∧ v = some (.str (t.take n))
  | .time24 => timeOfDay 23 t n ∧ v = some (.str (t.take n))
  | .time12 => timeOfDay 12 t n ∧ v = some (.str (t.take n))
  | .duration => Spec.duration t n ∧ v = some (.str (t.take n))
  | .cisco => ∃ c, Spec.cisco t c n ∧ v = some c.value
  | .json => ∃ j, Spec.json env.tok t j n ∧ v = some j
  | .cee => ∃ j, Spec.cee env.tok t j n ∧ v = some j
  | .mac48 => Spec.mac48 t n ∧ v = some (.str (t.take n))
  | .cef => ∃ m : CefMsg, m.Valid ∧ t = m.text ∧ 17 ≤ t.length ∧ n = t.length ∧ v = some m.value
  | .iptables => ∃ fs, Spec.iptables t fs ∧ n = t.length ∧ v = some (objOf (fs.map IptField.member))
  | .nameValue => ∃ ps, NvList (nvConf o) t ps n ∧ v = some (objOf (ps.map nvMember))
  | .lea => ∃ ps, Spec.lea (charP o (bs! "terminator") 0) t ps n ∧
      v = if ps = [] then none else some (objOf (ps.map LeaPair.member))
  | .string => ∃ d w, StrConf o d ∧ str d t w n ∧ v = some (.str w)

/-- the second address of a Cisco interface specification is separated from its port by a slash -/
def SlashBetween (s : Bytes) : Prop :=
  ∀ (k : Nat) (t ip port r : Bytes) (x : UInt8), s.drop k = bs! " (" ++ t → t = ip ++ x :: (port ++ bs! ")" ++ r) →
    ipv4 t ip.length → Port port → x = ch! '/'

/-- a UNIX timestamp is wanted -/
def WantsUnix (o : Obj) : Prop :=
  strP o (bs! "format") = some (bs! "timestamp-unix") ∨ strP o (bs! "format") = some (bs! "timestamp-unix-ms")

/-- What must be known, beyond `Tame`, about the message `s` (at byte `offs`) and the field for the code to do what it should:
where these fail, the `_violated` theorems of the types tell what happens. -/
def FType.InScope (env : Env) (o : Obj) (s : Bytes) (offs : Nat) (named : Bool) : FType → Prop
  | .cee => env.tok (bs! "{") = none ∧ (bs! "@cee:" <+: s.drop offs → offs = 0)
  | .cef => bs! "CEF:0|" <+: s.drop offs → ∃ m : CefMsg, m.Valid ∧ s.drop offs = m.text
  | .opQuoted => named = true
  | .stringTo => ∀ w, TextP o (bs! "extradata") w → 2 ≤ w.length
  | .hexnumber => ¬ (intP o (bs! "maxval") = 0 ∧ strP o (bs! "format") ≠ some (bs! "number")) →
      hexValue (((s.drop offs).drop 2).takeWhile isXDigit) < 9223372036854775808
  | .dateRfc5424 => WantsUnix o → ∀ (x : Stamp) (r : Bytes), x.Valid → s.drop offs = x.text ++ r →
      1970 ≤ decVal x.year ∧ decVal x.year ≤ 2100
  | .dateRfc3164 => WantsUnix o → 1970 ≤ env.year ∧ env.year ≤ 2100
  | .cisco => SlashBetween s
  | .json => (s.drop offs).head? ≠ some (ch! '[') ∧
      ((s.drop offs).head? = some (ch! ']') → env.tok (s.drop offs) = none)
  | .string => (∀ d, StrConf o d → StrBsl d → d.qe ≠ ch! '\\' ∧ ch! '\\' ∉ s.drop offs)
  | _ => True

/-- `o` describes a field of type `f`: no parameter is given twice, the parameters are as `f` wants them, the name (if any) is
a text without NUL, the priority (if any) has at most 24 bits. -/
structure Describes (f : FType) (o : Obj) : Prop where
  nodup : (o.map (·.1)).Nodup
  type : Obj.get o (bs! "type") = some (.str f.name)
  name : Obj.get o (bs! "name") = none ∨ ∃ w, TextP o (bs! "name") w
  prio : IntOr o (bs! "priority") (-8388608) 8388607
  params : f.ParamsOK o

/-- the name of the field; `-` means that it has none -/
def fieldName (o : Obj) : Option Bytes :=
  if strP o (bs! "name") = some (bs! "-") then none else strP o (bs! "name")

/-- the priority given to a field -/
def fieldPrio (o : Obj) : Int :=
  match Obj.get o (bs! "priority") with
  | some (.int n) => n
  | _ => 30000

end LN.Spec
