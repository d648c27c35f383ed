import Verif.Model.V1Parse
import Verif.Spec.Fields
import Verif.Spec.Struct
import Verif.Spec.Dates
import Verif.Spec.Addr
/- Specification of the field types of version 1 rulebases. -/
set_option autoImplicit false
namespace LN.Spec
open LN

/-- the field type is one of the simple ones: what it accepts is described by `v1Syntax` -/
def V1Simple : V1Fn → Bool
  | .number | .float | .hexnumber | .kernelTs | .whitespace | .ipv4 | .ipv6 | .word | .alpha | .opQuoted | .quoted | .dateIso | .time24 | .time12
  | .duration | .mac48 | .stringTo | .charTo | .charSep | .date3164 | .date5424 => true
  | _ => false

/-- how the types are called in rules (those without nested types) -/
def v1TypeNames : List (Bytes × V1Fn) :=
  [(bs! "number", .number), (bs! "float", .float), (bs! "hexnumber", .hexnumber), (bs! "kernel-timestamp", .kernelTs),
   (bs! "whitespace", .whitespace), (bs! "ipv4", .ipv4), (bs! "ipv6", .ipv6), (bs! "word", .word), (bs! "alpha", .alpha),
   (bs! "quoted-string", .quoted), (bs! "op-quoted-string", .opQuoted), (bs! "date-iso", .dateIso), (bs! "time-24hr", .time24),
   (bs! "time-12hr", .time12), (bs! "duration", .duration), (bs! "mac48", .mac48), (bs! "string-to", .stringTo), (bs! "char-to", .charTo),
   (bs! "char-sep", .charSep), (bs! "date-rfc3164", .date3164), (bs! "date-rfc5424", .date5424), (bs! "cisco-interface-spec", .cisco),
   (bs! "json", .json), (bs! "cee-syslog", .cee), (bs! "name-value-list", .nameValue), (bs! "cef", .cef), (bs! "checkpoint-lea", .lea),
   (bs! "v2-iptables", .v2iptables)]

/-- What a field of a simple type accepts: `n` bytes at the beginning of `t`. `x`: the extra data of the field (behind the second colon),
unescaped. Version 1 types have no other parameters. -/
def v1Syntax (x : Bytes) (k : V1Fn) (t : Bytes) (n : Nat) : Prop :=
  match k with
  | .number => runOf isDigit t n
  | .float => float t n
  | .hexnumber => hexnumber 0 t n
  | .kernelTs => kernelTs t n
  | .whitespace => runOf isSpace t n
  | .ipv4 => ipv4 t n
  | .ipv6 => ipv6 t n
  | .word => runOf (fun c => c != ch! ' ') t n
  | .alpha => runOf isAlpha t n
  | .quoted => quoted t n
  | .opQuoted => quoted t n ∨ unquoted t n
  | .dateIso => isoDate t n
  | .time24 => timeOfDay 23 t n
  | .time12 => timeOfDay 12 t n
  | .duration => duration t n
  | .mac48 => mac48 t n
  | .stringTo => stringTo x t n
  | .charTo => charTo (x.take 1) t n
  | .charSep => charSep (x.take 1) t n
  | .date3164 => rfc3164 t n
  | .date5424 => rfc5424 t n
  | _ => False

/-- What such a field delivers, if it covers `n` bytes of `t`: the text, for quoted strings without the quotes. -/
def v1Text (k : V1Fn) (t : Bytes) (n : Nat) : Bytes :=
  match k with
  | .quoted => (t.drop 1).take (n - 2)
  | .opQuoted => if t.head? = some (ch! '"') then (t.drop 1).take (n - 2) else t.take n
  | _ => t.take n

end LN.Spec

namespace LN

/-- The extra data the type needs exist; those of `string-to` have no NUL and at least two bytes, those of `char-to` and `char-sep` begin with an ASCII character. -/
def V1Conf (env : Env) (k : V1Fn) (raw : Option Bytes) : Prop :=
  match k with
  | .stringTo => ∃ r, raw = some r ∧ 2 ≤ (env.unescape r).length ∧ (0 : UInt8) ∉ env.unescape r
  | .charTo | .charSep => ∃ r c l, raw = some r ∧ env.unescape r = c :: l ∧ c < 128
  | _ => True

/-- dates: no ten digits in a row -/
def V1Digits (k : V1Fn) (s : Bytes) : Prop :=
  (k = .date3164 ∨ k = .date5424) → ∀ i, ((s.drop i).takeWhile isDigit).length ≤ 9

/-- Types whose parsers stay inside the message: all but the ones with a context of their own, and those which deliver a wrong length. -/
def V1InMsg : V1Fn → Bool
  | .cee | .cef | .lea | .tokenized | .recursive | .interpret | .suffixed => false
  | _ => true

/-- `name=value` pairs separated (and possibly followed) by white space: text, and pairs -/
inductive V1Nv : Bytes → List (Bytes × Bytes) → Prop
  | nil : V1Nv [] []
  | cons {name val sp t : Bytes} {l : List (Bytes × Bytes)} : name ≠ [] →
      (∀ c ∈ name, (isAlnum c || c == ch! '.' || c == ch! '_' || c == ch! '-') = true) →
      (∀ c ∈ val, isSpace c = false) → (∀ c ∈ sp, isSpace c = true) → (sp = [] → t = []) → (∀ c, t.head? = some c → isSpace c = false) →
      V1Nv t l → V1Nv (name ++ ch! '=' :: val ++ sp ++ t) ((name, val) :: l)

end LN

namespace LN

/-- Type and extra data of a field, as written in a rule: `type` or `type:extra`. -/
def v1Descr (ty : Bytes) : Option Bytes → Bytes
  | none => ty
  | some e => ty ++ ch! ':' :: e

/-- type names have no colon, no percent sign and no white space at the end; extra data have no percent sign -/
structure V1DescrOK (ty : Bytes) (e : Option Bytes) : Prop where
  colon : ch! ':' ∉ ty
  pct : ch! '%' ∉ ty
  trim : trimRight ty = ty
  extra : ∀ x, e = some x → ch! '%' ∉ x

/-- field names have at least a byte, no colon and no white space at the beginning -/
structure V1NameOK (nm : Bytes) : Prop where
  ne : nm ≠ []
  colon : ch! ':' ∉ nm
  space : ∀ c, nm.head? = some c → isSpace c = false

end LN
