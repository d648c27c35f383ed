import Verif.Spec.Repeat
import Verif.Spec.Rules
/-
How a rule describes repeat fields: `{"type":"repeat", "name":..., "parser":[...], "while":[...], "option.permitMismatchInParser":true}`, where the members
may come in any order and the fields inside may be repeat fields again.
-/
set_option autoImplicit false
namespace LN

/-- the name of the option, in whatever case -/
def IsPermit (k : Bytes) : Prop := lower k = bs! "option.permitmismatchinparser"

/-- whether a value switches an option on: `true`, a number except 0, a text except the empty one (floating point numbers are not considered) -/
def flagOf : Json → Option Bool
  | .bool b => some b
  | .int n => some (decide (n ≠ 0))
  | .str s => some (decide (s ≠ []))
  | .dbl _ => none
  | _ => some false

/-- A list of fields is written as an array, or, if it is a single one, as that field itself. -/
inductive Listed : Json → List Json → Prop where
  | list (l : List Json) : Listed (.arr l) l
  | one (o : Obj) : Listed (.obj o) [.obj o]

mutual
/-- the description `c` denotes the field `f` -/
inductive FieldOf (env : Env) : Json → Fld → Prop where
  /-- plain fields, with understood parameters -/
  | plain {c : Json} {p : Parser} (h : confField env [] c = some p) (hlit : p.kind ≠ .literal none) : FieldOf env c (.plain p.kind p.name)
  /-- repeat: there must be elements and separators; the fields of separators have no names; a field named `.` must be the only one of the element -/
  | rep {o : Obj} {ce cs : Json} {es ss : List Json} {el sep : List Fld} {permit : Bool}
      (hty : ((Json.obj o).ptr (bs! "type")).bind (strOf env) = some (bs! "repeat"))
      (hpar : Obj.get o (bs! "parser") = some ce) (hwhile : Obj.get o (bs! "while") = some cs)
      (hce : Listed ce es) (hcs : Listed cs ss) (hel : FieldsOf env es el) (hsep : FieldsOf env ss sep)
      (he : el ≠ []) (hs : sep ≠ []) (hun : ∀ f ∈ sep, f.name = none)
      (hdot : es.length ≤ 1 ∨ ∀ x ∈ es, (x.ptr (bs! "name")).bind (strOf env) ≠ some (bs! "."))
      (hpermit : ∀ m ∈ o, IsPermit m.1 → flagOf m.2 = some permit) (hgiven : permit = true → ∃ m ∈ o, IsPermit m.1) :
      FieldOf env (.obj o) (.rep (confName env (.obj o)) el sep permit)
/-- one after the other -/
inductive FieldsOf (env : Env) : List Json → List Fld → Prop where
  | nil : FieldsOf env [] []
  | cons {c : Json} {f : Fld} {cs : List Json} {fs : List Fld} (h : FieldOf env c f) (t : FieldsOf env cs fs) : FieldsOf env (c :: cs) (f :: fs)
end

end LN
