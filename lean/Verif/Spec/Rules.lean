import Verif.Model.Build
/-
What a rule is, independently of the graph: a sequence of fields, each described by its
configuration; and which messages it accepts.
-/
set_option autoImplicit false
namespace LN

/-- The field a configuration denotes when it is a plain field (not `alternative`, not `repeat`) with
understood parameters; `types` are the user-defined types known (none: no such fields). -/
def confField (env : Env) (types : List (Bytes × NodeId)) (conf : Json) : Option Parser :=
  match conf with
  | .obj _ =>
    match (conf.ptr (bs! "type")).bind (strOf env) with
    | none => none
    | some ty =>
      let mk (k : PKind) (pp : Nat) : Parser :=
        { kind := k, node := 0, prio := prioOf (confPrio env conf) pp
          name := confName env conf, conf := conf }
      if ty.head? = some (ch! '@') then
        (types.findIdx? fun t => t.1 = ty).map fun i => mk (.custom i) 16
      else if ty = bs! "repeat" then none
      else
        match parserPrio ty with
        | none => none
        | some pp =>
          match construct env ty (confRest env conf) with
          | .ok k => some (mk k pp)
          | _ => none
  | _ => none

/-- The fields described by `confs`, one after the other, accept the message from byte `off` up to
byte `off'`. -/
inductive Accepts (env : Env) (s : Bytes) : List Json → Nat → Nat → Prop where
  | nil (off) : Accepts env s [] off off
  | cons {c p cs off len v off'}
      (hfield : confField env [] c = some p)
      (hacc : runParser env s off p.kind p.name.isSome = .ok (len, v))
      (htail : Accepts env s cs (off + len) off') :
      Accepts env s (c :: cs) off off'

/-- a `rule=` line as it reaches the graph -/
structure Rule where
  confs : List Json
  /-- the text of the line was understood up to its end -/
  complete : Bool := true
  tags : Option (List Bytes) := none
  file : Bytes := []
  line : Nat := 0

/-- a line of a rule base: a rule, or a definition of the given type -/
structure Def where
  type : Option Bytes := none
  rule : Rule

/-- all fields of the rule are plain fields -/
def Rule.Plain (env : Env) (r : Rule) : Prop := ∀ c ∈ r.confs, ∃ p, confField env [] c = some p

/-- the rule matches the message as a whole -/
def Rule.MatchesMsg (env : Env) (s : Bytes) (r : Rule) : Prop :=
  r.complete = true ∧ Accepts env s r.confs 0 s.length

/-- At no point do the sequences go on in more than 255 different ways. -/
def Narrow {α : Type} (l : List (List α)) : Prop :=
  ∀ (pre ts : List α), ts.Nodup → (∀ t ∈ ts, ∃ r ∈ l, pre ++ [t] <+: r) → ts.length ≤ 255

/-- the sequences of fields of the rules (`none`) or of the definitions of a type -/
def ofType (ds : List Def) (t : Option Bytes) : List (List Json) := (ds.filter fun d => d.type = t).map (·.rule.confs)

/-- At no point do the rules, or the definitions of a type, go on in more than 255 different ways. -/
def NarrowDefs (ds : List Def) : Prop := ∀ t, Narrow (ofType ds t)

end LN
