import Verif.Spec.Rules
import Verif.Spec.Match
/-
Rules with fields of user-defined types: which messages they accept, and with which values.  Nothing here
refers to the graph or the search.
-/
set_option autoImplicit false
namespace LN

/-- the user-defined type (its name begins with `@`) of a field -/
def userType (env : Env) (conf : Json) : Option Bytes :=
  match conf with
  | .obj _ =>
    match (conf.ptr (bs! "type")).bind (strOf env) with
    | some ty => if ty.head? = some (ch! '@') then some ty else none
    | none => none
  | _ => none

/-- values of fields in an object: the last field comes first -/
def placeAll (o : Obj) (vs : List (Option Bytes × Option Json)) : Obj :=
  vs.foldr (fun x o => place o x.1 x.2) o

/-- The fields described by the list, one after the other, accept the message from byte `off` up to byte `off'`, with these names
and values: a plain field what its parser consumes; a field of a user-defined type what one of the (complete) definitions of the type
accepts, and its value is the object of the values of that definition.  With `slack` the field may end elsewhere than the definition. -/
inductive Derives (env : Env) (ds : List Def) (s : Bytes) (slack : Prop) :
    List Json → Nat → List (Option Bytes × Option Json) → Nat → Prop where
  | nil (off : Nat) : Derives env ds s slack [] off [] off
  | plain {c : Json} {p : Parser} {cs : List Json} {off len : Nat} {v : Option Json} {vs : List (Option Bytes × Option Json)} {off' : Nat}
      (hfield : confField env [] c = some p) (hrun : runParser env s off p.kind p.name.isSome = .ok (len, v))
      (htail : Derives env ds s slack cs (off + len) vs off') : Derives env ds s slack (c :: cs) off ((p.name, v) :: vs) off'
  | user {c : Json} {t : Bytes} {d : Def} {cs : List Json} {off e mid : Nat} {us vs : List (Option Bytes × Option Json)} {off' : Nat}
      (hfield : userType env c = some t) (hd : d ∈ ds) (hdt : d.type = some t) (hdc : d.rule.complete = true)
      (hdef : Derives env ds s slack d.rule.confs off us e) (hend : slack ∨ mid = e)
      (htail : Derives env ds s slack cs mid vs off') :
      Derives env ds s slack (c :: cs) off ((confName env c, some (.obj (placeAll [] us))) :: vs) off'

/-- The field could accept something at byte `off`, judging by the first plain field only. -/
inductive MayBegin (env : Env) (ds : List Def) (s : Bytes) : Json → Nat → Prop where
  | plain {c : Json} {p : Parser} {off : Nat} {x : Nat × Option Json} (hfield : confField env [] c = some p)
      (hrun : runParser env s off p.kind p.name.isSome = .ok x) : MayBegin env ds s c off
  | user {c c' : Json} {t : Bytes} {d : Def} {cs : List Json} {off : Nat} (hfield : userType env c = some t) (hd : d ∈ ds)
      (hdt : d.type = some t) (hc : d.rule.confs = c' :: cs) (h : MayBegin env ds s c' off) : MayBegin env ds s c off
  /-- a definition which accepts the empty text -/
  | userNil {c : Json} {t : Bytes} {d : Def} {off : Nat} (hfield : userType env c = some t) (hd : d ∈ ds)
      (hdt : d.type = some t) (hdc : d.rule.complete = true) (hc : d.rule.confs = []) : MayBegin env ds s c off

/-- The rules and definitions are unambiguous for the message: where two rules (or two definitions of a type) which began alike differ,
their next fields cannot both begin at the same byte; a definition which is complete is not continued by another one of the type;
and no definition of a type is empty. -/
structure Clear (env : Env) (ds : List Def) (s : Bytes) : Prop where
  branch : ∀ d ∈ ds, ∀ d' ∈ ds, d.type = d'.type → ∀ (x : List Json) (c c' : Json), x ++ [c] <+: d.rule.confs → x ++ [c'] <+: d'.rule.confs →
    c ≠ c' → ∀ off, MayBegin env ds s c off → MayBegin env ds s c' off → False
  stop : ∀ d ∈ ds, d.type ≠ none → d.rule.complete = true → ∀ d' ∈ ds, d'.type = d.type → ∀ c : Json,
    d.rule.confs ++ [c] <+: d'.rule.confs → ∀ off, ¬ MayBegin env ds s c off
  nonempty : ∀ d ∈ ds, d.type ≠ none → d.rule.complete = true → d.rule.confs ≠ []

/-- Every field is a plain field, or of a user-defined type of which there is a definition by then (which may be the same line). -/
def TypesKnown (env : Env) (ds : List Def) : Prop :=
  ∀ (i : Nat) (d : Def), ds[i]? = some d → ∀ c ∈ d.rule.confs, (∃ p, confField env [] c = some p) ∨
    ∃ t, userType env c = some t ∧ ∃ (j : Nat) (d' : Def), j ≤ i ∧ ds[j]? = some d' ∧ d'.type = some t

/-- the rule accepts the whole message, with these names and values of its fields -/
def Rule.Gives (env : Env) (ds : List Def) (s : Bytes) (slack : Prop) (r : Rule) (vs : List (Option Bytes × Option Json)) : Prop :=
  r.complete = true ∧ Derives env ds s slack r.confs 0 vs s.length

end LN
