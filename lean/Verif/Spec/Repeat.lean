import Verif.Spec.Nested
import Verif.Spec.Safety
/-
What a rule with repeat fields (nested to any depth) means.  Nothing here refers to the parse graph or to the
search procedure: fields are read one after the other, a repetition reads element, separator, element, ... as long
as it can.
-/
set_option autoImplicit false
namespace LN

/-- A field of a rule: a plain field or a repetition, whose elements consist of the fields `elem` and whose separators consist of the fields `sep`;
`permit`: option.permitMismatchInParser. -/
inductive Fld where
  | plain (kind : PKind) (name : Option Bytes)
  | rep (name : Option Bytes) (elem sep : List Fld) (permit : Bool)

namespace Fld

/-- the name of the field; none if it is not to be stored -/
def name : Fld → Option Bytes
  | .plain _ nm => nm
  | .rep nm _ _ _ => nm

end Fld

/-- What is said about reading the message from byte `off` on. -/
inductive Reading where
  /-- the field takes the bytes from `off` to `off'` and yields `v` -/
  | takes (f : Fld) (off off' : Nat) (v : Option Json)
  /-- the field takes nothing: it does not match -/
  | refuses (f : Fld) (off : Nat)
  /-- the fields take the bytes from `off` to `off'`, one after the other; the named ones yield `vs` -/
  | all (fs : List Fld) (off : Nat) (vs : List (Option Bytes × Option Json)) (off' : Nat)
  /-- the fields do not match: one of them refuses what those before leave, at byte `at_` -/
  | stuck (fs : List Fld) (off : Nat) (at_ : Nat)
  /-- at least one element with the fields `elem`, separated by `sep`, up to `off'` -/
  | list (elem sep : List Fld) (permit : Bool) (off : Nat) (vs : List Json) (off' : Nat)
  /-- an element is missing: there is none at all, or none behind a separator -/
  | broken (elem sep : List Fld) (off : Nat)

/-- The rules of reading. -/
inductive Reads (env : Env) (s : Bytes) : Reading → Prop where
  /-- plain fields: what the parser of the field type says -/
  | plain {k : PKind} {nm : Option Bytes} {off len : Nat} {v : Option Json} (h : runParser env s off k nm.isSome = .ok (len, v)) :
      Reads env s (.takes (.plain k nm) off (off + len) v)
  | noPlain {k : PKind} {nm : Option Bytes} {off : Nat} (h : runParser env s off k nm.isSome = .fail) :
      Reads env s (.refuses (.plain k nm) off)
  /-- a repetition yields the list of its elements -/
  | rep {nm : Option Bytes} {el sep : List Fld} {permit : Bool} {off off' : Nat} {vs : List Json} (h : Reads env s (.list el sep permit off vs off')) :
      Reads env s (.takes (.rep nm el sep permit) off off' (if nm.isSome then some (.arr vs) else none))
  /-- with `permitMismatchInParser` there may be no element, and then there is no value -/
  | repNone {nm : Option Bytes} {el sep : List Fld} {off a : Nat} (h : Reads env s (.stuck el off a)) :
      Reads env s (.takes (.rep nm el sep true) off off none)
  /-- without, an element which is missing makes the repetition fail as a whole -/
  | noRep {nm : Option Bytes} {el sep : List Fld} {off : Nat} (h : Reads env s (.broken el sep off)) :
      Reads env s (.refuses (.rep nm el sep false) off)
  /-- sequences -/
  | nil {off : Nat} : Reads env s (.all [] off [] off)
  | cons {f : Fld} {fs : List Fld} {off mid off' : Nat} {v : Option Json} {vs : List (Option Bytes × Option Json)}
      (h : Reads env s (.takes f off mid v)) (t : Reads env s (.all fs mid vs off')) :
      Reads env s (.all (f :: fs) off ((f.name, v) :: vs) off')
  | here {f : Fld} {fs : List Fld} {off : Nat} (h : Reads env s (.refuses f off)) : Reads env s (.stuck (f :: fs) off off)
  | later {f : Fld} {fs : List Fld} {off mid a : Nat} {v : Option Json} (h : Reads env s (.takes f off mid v)) (t : Reads env s (.stuck fs mid a)) :
      Reads env s (.stuck (f :: fs) off a)
  /-- the last element: no separator follows -/
  | last {el sep : List Fld} {permit : Bool} {off e a : Nat} {vs : List (Option Bytes × Option Json)} (h : Reads env s (.all el off vs e))
      (t : Reads env s (.stuck sep e a)) : Reads env s (.list el sep permit off [elemValue (vs.foldr (fun x o => place o x.1 x.2) [])] e)
  /-- with `permitMismatchInParser`, a separator which no element follows is given back -/
  | giveBack {el sep : List Fld} {off e e' a : Nat} {vs us : List (Option Bytes × Option Json)} (h : Reads env s (.all el off vs e))
      (hs : Reads env s (.all sep e us e')) (t : Reads env s (.stuck el e' a)) :
      Reads env s (.list el sep true off [elemValue (vs.foldr (fun x o => place o x.1 x.2) [])] e)
  | more {el sep : List Fld} {permit : Bool} {off e e' off' : Nat} {vs us : List (Option Bytes × Option Json)} {xs : List Json}
      (h : Reads env s (.all el off vs e)) (hs : Reads env s (.all sep e us e')) (t : Reads env s (.list el sep permit e' xs off')) :
      Reads env s (.list el sep permit off (elemValue (vs.foldr (fun x o => place o x.1 x.2) []) :: xs) off')
  /-- no element at all -/
  | none_ {el sep : List Fld} {off a : Nat} (h : Reads env s (.stuck el off a)) : Reads env s (.broken el sep off)
  /-- one more element and separator, but then no element follows -/
  | after {el sep : List Fld} {off e e' : Nat} {vs us : List (Option Bytes × Option Json)}
      (h : Reads env s (.all el off vs e)) (hs : Reads env s (.all sep e us e')) (t : Reads env s (.broken el sep e')) : Reads env s (.broken el sep off)

mutual
/-- The field is configured, is not of type cee-syslog (whose length is wrong in the middle of a message, see `C47_cee_violated`) unless `@cee:` stands nowhere else than at the beginning, and an element with the separator behind it is never empty
(else the repetition may not end, see `C07_repeat_empty_violated`). -/
def Fld.Sane (env : Env) (s : Bytes) : Fld → Prop
  | .plain k nm => (k = .cee → CeeFirst s) ∧ Parser.Configured k nm.isSome
  | .rep _ el sep _ => Fld.SaneAll env s el ∧ Fld.SaneAll env s sep ∧
      ∀ (off e e' : Nat) (vs us : List (Option Bytes × Option Json)), Reads env s (.all el off vs e) → Reads env s (.all sep e us e') → off < e'
/-- so are all fields of the list -/
def Fld.SaneAll (env : Env) (s : Bytes) : List Fld → Prop
  | [] => True
  | f :: fs => Fld.Sane env s f ∧ Fld.SaneAll env s fs
end

end LN
