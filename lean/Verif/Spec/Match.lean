import Verif.Model.Pdag
/-
Declarative specification of matching a message against a rulebase graph.
A rulebase is a graph; a *rule* is a path of fields from the root to a terminal node.
Nothing here refers to the search procedure.
-/
namespace LN

/-- Parsers that look only at the message: everything except user-defined types and repeat. -/
def PKind.flat : PKind → Prop
  | .custom _ => False
  | .repeat_ _ => False
  | _ => True

/-- A rulebase whose fields are all plain parsers. -/
def Flat (ctx : Ctx) : Prop := ∀ n, ∀ p ∈ (ctx.node n).parsers, p.kind.flat

/-- One field of a rule applied to the message: its position among the alternatives of the
node, the field itself, the text it covers (from `start`, `len` bytes) and its value. -/
structure Step where
  idx : Nat
  field : Parser
  start : Nat
  len : Nat
  value : Option Json

/-- `Path n off tr m off'`: starting in node `n` at byte `off`, the fields of `tr`, applied
one after the other, each accept their part of the message, and lead to node `m` and
byte position `off'`. -/
inductive Path (env : Env) (ctx : Ctx) (s : Bytes) :
    NodeId → Nat → List Step → NodeId → Nat → Prop where
  | nil (n off) : Path env ctx s n off [] n off
  | cons {n off idx p len v tr m off'}
      (hidx : (ctx.node n).parsers[idx]? = some p)
      (hacc : runParser env s off p.kind p.name.isSome = .ok (len, v))
      (htail : Path env ctx s p.node (off + len) tr m off') :
      Path env ctx s n off (⟨idx, p, off, len, v⟩ :: tr) m off'

/-- The path is the application of a complete rule: it ends in a terminal node and (unless
a partial match is asked for) at the end of the message. -/
def Matches (env : Env) (ctx : Ctx) (s : Bytes) (part : Bool) (n : NodeId) (off : Nat)
    (tr : List Step) : Prop :=
  ∃ m off', Path env ctx s n off tr m off' ∧ (ctx.node m).isTerminal = true ∧
    (part = true ∨ off' = s.length)

/-- A compound value with the single member `..` stands for the value of that member. -/
def unwrapDotDot (v : Json) : Json :=
  match v with
  | .obj [(k, x)] => if k = bs! ".." then x else v
  | v => v

/-- How a field's value is placed in the result: unnamed fields leave no trace; the members of
an object extracted by a field named `.` are set in the result; everything else becomes a
member under the field's name (`null` if the parser produced no value). -/
def place (o : Obj) (name : Option Bytes) (value : Option Json) : Obj :=
  match name with
  | none => o
  | some nm =>
    if nm = bs! "." then
      match value with
      | some (.obj ms) => ms.foldl (fun o m => Obj.add o m.1 m.2) o
      | v => o ++ [(nm, v.getD .null)]
    else o ++ [(nm, unwrapDotDot (value.getD .null))]

/-- The fields of a rule are placed in the result starting with the last one. -/
def storeFields (json : Obj) (tr : List Step) : Obj :=
  tr.foldr (fun st o => place o st.field.name st.value) json

/-- The fields a rule extracts when no field uses the special names: last field first. -/
def extracted (tr : List Step) : Obj :=
  tr.reverse.filterMap fun st => st.field.name.map fun nm => (nm, st.value.getD .null)

/-- no special treatment of this field: its name is not `.` and its value is not a compound
with the single member `..` -/
def Step.Plain (st : Step) : Prop :=
  st.field.name ≠ some (bs! ".") ∧ ∀ x, st.value ≠ some (.obj [(bs! "..", x)])

/-- "`a` is tried before `b`" for two lists of alternatives: lexicographic; a rule that goes
on is tried before one that stops. -/
def TriedBefore : List Nat → List Nat → Prop
  | _, [] => True
  | [], _ :: _ => False
  | a :: as, b :: bs => a < b ∨ (a = b ∧ TriedBefore as bs)

/-- may a rule end in node `n` at position `off`? -/
def CanEnd (ctx : Ctx) (s : Bytes) (part : Bool) (n : NodeId) (off : Nat) : Bool :=
  (ctx.node n).isTerminal && (decide (off = s.length) || part)

/-- first node along a path (beginning with the start node) where a rule can end -/
def firstEnd (ctx : Ctx) (s : Bytes) (part : Bool) (n : NodeId) (off : Nat) :
    List Step → Option NodeId
  | [] => if CanEnd ctx s part n off then some n else none
  | st :: tr =>
    if CanEnd ctx s part n off then some n
    else firstEnd ctx s part st.field.node (st.start + st.len) tr

/-- text a field contributes to the mockup of a rule: literal text verbatim, everything else as
`%name:type%` with `-` for unnamed fields. -/
def mockField (p : Parser) : Bytes :=
  match p.kind with
  | .literal d => d.getD []
  | k => [ch! '%'] ++ (p.name.getD [ch! '-']) ++ [ch! ':'] ++ k.name ++ [ch! '%']

/-- mockup of a rule: the concatenation over its fields, in rule order -/
def mockup (tr : List Step) : Bytes := (tr.map fun st => mockField st.field).flatten

end LN
