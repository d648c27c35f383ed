import Verif.Model.V1Samp
import Verif.Spec.V1Fields
/- Specification of the field types of version 1 which apply other field types: interpret, suffixed, named_suffixed, tokenized. -/
set_option autoImplicit false
namespace LN
open Spec

/-- how interpretations are called in a rule -/
def interpNames : V1Interp → List Bytes
  | .int10 => [bs! "int", bs! "base10int"]
  | .int16 => [bs! "base16int"]
  | .float => [bs! "float"]
  | .bool => [bs! "bool"]

/-- elements, each but the last followed by the character -/
def joinBy (c : UInt8) : List Bytes → Bytes
  | [] => []
  | [x] => x
  | x :: l => x ++ c :: joinBy c l

/-- A field type, as written in a rule. -/
inductive V1Ty where
  /-- a simple type with its extra data -/
  | simple (ty : Bytes) (e : Option Bytes) (k : V1Fn)
  /-- `interpret:nm:inner` -/
  | interpret (nm : Bytes) (i : V1Interp) (inner : V1Ty)
  /-- `suffixed:rawD:rawS:inner` or `named_suffixed:vn:sn:rawD:rawS:inner`, where `rawD` and `rawS` are the delimiter and the suffixes, escaped -/
  | suffixed (names : Option (Bytes × Bytes)) (rawD rawS : Bytes) (sufs : List Bytes) (inner : V1Ty)
  /-- `tokenized:raw:inner`, where `raw` is the separator, escaped -/
  | tokenized (raw sep : Bytes) (inner : V1Ty)

namespace V1Ty

/-- name of the type -/
def ty : V1Ty → Bytes
  | simple t _ _ => t
  | interpret _ _ _ => bs! "interpret"
  | suffixed none _ _ _ _ => bs! "suffixed"
  | suffixed (some _) _ _ _ _ => bs! "named_suffixed"
  | tokenized _ _ _ => bs! "tokenized"

/-- extra data -/
def extra : V1Ty → Option Bytes
  | simple _ e _ => e
  | interpret nm _ inner => some (nm ++ ch! ':' :: v1Descr inner.ty inner.extra)
  | suffixed none d s _ inner => some (d ++ ch! ':' :: (s ++ ch! ':' :: v1Descr inner.ty inner.extra))
  | suffixed (some n) d s _ inner => some (n.1 ++ ch! ':' :: (n.2 ++ ch! ':' :: (d ++ ch! ':' :: (s ++ ch! ':' :: v1Descr inner.ty inner.extra))))
  | tokenized raw _ inner => some (raw ++ ch! ':' :: v1Descr inner.ty inner.extra)

/-- the text of the type in a rule -/
def descr (x : V1Ty) : Bytes := v1Descr x.ty x.extra

/-- the parser -/
def fn : V1Ty → V1Fn
  | simple _ _ k => k
  | interpret _ _ _ => .interpret
  | suffixed _ _ _ _ _ => .suffixed
  | tokenized _ _ _ => .tokenized

def isSimple : V1Ty → Bool
  | simple _ _ _ => true
  | _ => false

/-- an argument in front of a colon -/
def ArgOK (a : Bytes) : Prop := ch! ':' ∉ a ∧ ch! '%' ∉ a ∧ (0 : UInt8) ∉ a

/-- well-formed types -/
def OK (E : V1Env) : V1Ty → Prop
  | simple t e k => V1DescrOK t e ∧ (t, k) ∈ v1TypeNames ∧ V1Simple k = true ∧ V1Conf E.env k e ∧ (0 : UInt8) ∉ v1Descr t e
  | interpret nm i inner => inner.OK E ∧ inner.isSimple = true ∧ nm ∈ interpNames i
  | suffixed names rawD rawS sufs inner =>
    inner.OK E ∧ ArgOK rawD ∧ ArgOK rawS ∧ sufs ≠ [] ∧
    (∃ c : UInt8, c ≠ 0 ∧ E.env.unescape rawD = [c] ∧ E.env.unescape rawS = joinBy c sufs ∧ ∀ x ∈ sufs, x ≠ [] ∧ c ∉ x ∧ (0 : UInt8) ∉ x) ∧
    ∀ n, names = some n → ArgOK n.1 ∧ ArgOK n.2 ∧ n.1 ≠ n.2
  | tokenized raw sep inner =>
    inner.OK E ∧ ArgOK raw ∧ E.env.unescape raw = sep ∧ E.env.unescape sep = sep ∧ sep ≠ [] ∧ (0 : UInt8) ∉ sep

/-- a text, with the letters `A` to `Z` replaced by `a` to `z` -/
def foldCase (txt : Bytes) : Bytes := txt.map fun c => if 65 ≤ c ∧ c ≤ 90 then c + 32 else c

/-- what the text means as integer, floating point number or truth value -/
def meaning (E : V1Env) (i : V1Interp) (txt : Bytes) : Json :=
  match i with
  | .int10 => .int (strtol 10 txt)
  | .int16 => .int (strtol 16 txt)
  | .float => .dbl (E.toDbl (some (.str txt)))
  | .bool => .bool (!(foldCase txt == bs! "false" || foldCase txt == bs! "no"))

/-- Elements separated by `sep`: text, values, length. The list ends where no separator follows, or no element follows the separator; in the
latter case the separator does not belong to the list, unless the text ends with it. -/
inductive Toks (el : Bytes → Nat → Json → Prop) (sep : Bytes) : Bytes → List Json → Nat → Prop
  | last {t : Bytes} {n : Nat} {v : Json} : t ≠ [] → el t n v → ¬ sep <+: t.drop n → Toks el sep t [v] n
  | trail {t : Bytes} {n : Nat} {v : Json} : t ≠ [] → el t n v → t.drop n = sep → Toks el sep t [v] (n + sep.length)
  | noelt {t r : Bytes} {n : Nat} {v : Json} : t ≠ [] → el t n v → t.drop n = sep ++ r → r ≠ [] → (∀ m w, ¬ el r m w) → Toks el sep t [v] n
  | more {t r : Bytes} {n m : Nat} {v : Json} {l : List Json} : t ≠ [] → el t n v → t.drop n = sep ++ r → Toks el sep r l m →
      Toks el sep t (v :: l) (n + sep.length + m)

/-- The type accepts `n` bytes at the beginning of `t` and delivers `v`.

`interpret`: what the inner type accepts, interpreted. `suffixed`: what the inner type accepts, followed by a suffix; the first suffix of the list which fits counts.
Both match the empty text, and deliver it, where this is not the case. -/
def accepts (E : V1Env) : V1Ty → Bytes → Nat → Json → Prop
  | simple _ e k, t, n, v => v1Syntax (E.env.unescape (e.getD [])) k t n ∧ v = .str (v1Text k t n)
  | interpret _ i inner, t, n, v =>
    (t ≠ [] ∧ ∃ txt, accepts E inner t n (.str txt) ∧ v = meaning E i txt) ∨
    ((t = [] ∨ ∀ n v, ¬ accepts E inner t n v) ∧ n = 0 ∧ v = .str [])
  | suffixed names _ _ sufs inner, t, n, v =>
    (t ≠ [] ∧ ∃ m w pre x post, accepts E inner t m w ∧ sufs = pre ++ x :: post ∧ x <+: t.drop m ∧ (∀ y ∈ pre, ¬ y <+: t.drop m) ∧
      n = m + x.length ∧ v = .obj [((names.getD (bs! "value", bs! "suffix")).1, w), ((names.getD (bs! "value", bs! "suffix")).2, .str x)]) ∨
    ((t = [] ∨ ∀ m w, accepts E inner t m w → ∀ x ∈ sufs, ¬ x <+: t.drop m) ∧ n = 0 ∧ v = .str [])
  | tokenized _ sep inner, t, n, v =>
    (t = [] ∧ n = 0 ∧ v = .arr []) ∨ ∃ l, Toks (accepts E inner) sep t l n ∧ v = .arr l

/-- nesting depth -/
def depth : V1Ty → Nat
  | simple _ _ _ => 0
  | interpret _ _ inner => inner.depth + 1
  | suffixed _ _ _ _ inner => inner.depth + 1
  | tokenized _ _ inner => inner.depth + 1

/-- wherever the inner type of `suffixed` matches in the message, something follows -/
def Followed (E : V1Env) (s : Bytes) : V1Ty → Prop
  | simple _ _ _ => True
  | interpret _ _ inner => inner.Followed E s
  | suffixed _ _ _ _ inner => inner.Followed E s ∧ ∀ t, t <:+ s → t ≠ [] → ∀ n v, accepts E inner t n v → n < t.length
  | tokenized _ _ inner => inner.Followed E s

end V1Ty
end LN
