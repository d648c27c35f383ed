import Verif.Spec.Match
import Verif.Spec.Safety
/-
Declarative specification of matching for arbitrary rulebases, including user-defined types and
repeat.  Nothing here refers to the search procedure.
-/
set_option autoImplicit false
namespace LN

/-- One field of a rule applied to the message, covering the bytes from `start` to `stop`. -/
structure NStep where
  idx : Nat
  field : Parser
  start : Nat
  stop : Nat
  value : Option Json

/-- the fields of a rule are placed in the result starting with the last one -/
def storeNested (json : Obj) (tr : List NStep) : Obj :=
  tr.foldr (fun st o => place o st.field.name st.value) json

/-- first node along a path (beginning with the start node) where a rule can end -/
def firstEndN (ctx : Ctx) (s : Bytes) (part : Bool) (n : NodeId) (off : Nat) : List NStep → Option NodeId
  | [] => if CanEnd ctx s part n off then some n else none
  | st :: tr =>
    if CanEnd ctx s part n off then some n else firstEndN ctx s part st.field.node st.stop tr

/-- mockup of a rule: the concatenation over its fields, in rule order -/
def mockupN (tr : List NStep) : Bytes := (tr.map fun st => mockField st.field).flatten

/-- the value of a repetition's element: the object of its fields, or the value of the field named
`.` if there is one -/
def elemValue (o : Obj) : Json :=
  match (o.reverse.find? fun m => m.1 = bs! ".") with
  | some m => m.2
  | none => .obj o

/-- What there is to derive: a sequence of fields leading from a node and position to another; a
field accepting a part of the message; a repetition (of elements given by node `a` and separators
given by node `w`) covering a part of the message. -/
inductive Judgement where
  | path (n : NodeId) (off : Nat) (tr : List NStep) (m : NodeId) (off' : Nat)
  | accepts (p : Parser) (off : Nat) (off' : Nat) (v : Option Json)
  | elems (a w : NodeId) (permit : Bool) (off : Nat) (vs : List Json) (off' : Nat)

/-- Derivability.  With `slack`, the end of the text covered by a user-defined type, by an element
or by a separator may differ from where its definition stopped matching; without, it is exactly
that. -/
inductive Holds (env : Env) (ctx : Ctx) (s : Bytes) (slack : Prop) : Judgement → Prop where
  | nil (n off) : Holds env ctx s slack (.path n off [] n off)
  | cons {n off idx p mid v tr m off'}
      (hidx : (ctx.node n).parsers[idx]? = some p)
      (hacc : Holds env ctx s slack (.accepts p off mid v))
      (htail : Holds env ctx s slack (.path p.node mid tr m off')) :
      Holds env ctx s slack (.path n off (⟨idx, p, off, mid, v⟩ :: tr) m off')
  /-- a plain field covers what its parser consumes -/
  | plain {p off len v} (hk : p.kind.flat)
      (hrun : runParser env s off p.kind p.name.isSome = .ok (len, v)) :
      Holds env ctx s slack (.accepts p off (off + len) v)
  /-- a field of user-defined type covers what one of the definitions matches, and yields the
  object of the fields extracted there -/
  | custom {p off i nm t tr m e off'} (hk : p.kind = .custom i) (ht : ctx.types[i]? = some (nm, t))
      (hpath : Holds env ctx s slack (.path t off tr m e)) (hterm : (ctx.node m).isTerminal = true)
      (hend : slack ∨ off' = e) :
      Holds env ctx s slack (.accepts p off off' (some (.obj (storeNested [] tr))))
  /-- a repeat field covers its elements and separators, and yields the array of the elements -/
  | rep {p off a w permit vs off'} (hk : p.kind = .repeat_ (some (a, w, permit)))
      (hel : Holds env ctx s slack (.elems a w permit off vs off')) :
      Holds env ctx s slack (.accepts p off off' (if p.name.isSome then some (.arr vs) else none))
  /-- with `permitMismatchInParser` it may also have no element (and then no value) -/
  | repNone {p off a w} (hk : p.kind = .repeat_ (some (a, w, true))) :
      Holds env ctx s slack (.accepts p off off none)
  /-- a single element -/
  | one {a w permit off tr m e off'}
      (hpath : Holds env ctx s slack (.path a off tr m e)) (hterm : (ctx.node m).isTerminal = true)
      (hend : slack ∨ off' = e) :
      Holds env ctx s slack (.elems a w permit off [elemValue (storeNested [] tr)] off')
  /-- an element, a separator, and more elements -/
  | more {a w permit off tr m e mid tr' m' e' mid' vs off'}
      (hpath : Holds env ctx s slack (.path a off tr m e)) (hterm : (ctx.node m).isTerminal = true)
      (hend : slack ∨ mid = e)
      (hsep : Holds env ctx s slack (.path w mid tr' m' e')) (hterm' : (ctx.node m').isTerminal = true)
      (hend' : slack ∨ mid' = e')
      (hel : Holds env ctx s slack (.elems a w permit mid' vs off')) :
      Holds env ctx s slack (.elems a w permit off (elemValue (storeNested [] tr) :: vs) off')

/-- A rule (from node `n`) applied to the message from `off` on: the exact reading. -/
def Holds.Rule (env : Env) (ctx : Ctx) (s : Bytes) (slack : Prop) (part : Bool) (n : NodeId) (off : Nat)
    (tr : List NStep) (m : NodeId) (off' : Nat) : Prop :=
  Holds env ctx s slack (.path n off tr m off') ∧ (ctx.node m).isTerminal = true ∧
    (part = true ∨ off' = s.length)

/-- Could the field accept something at this position, judging by its first plain field only? -/
inductive MayAccept (env : Env) (ctx : Ctx) (s : Bytes) : Parser → Nat → Prop where
  | plain {p off x} (hk : p.kind.flat) (hrun : runParser env s off p.kind p.name.isSome = .ok x) :
      MayAccept env ctx s p off
  | custom {p off i nm t q} (hk : p.kind = .custom i) (ht : ctx.types[i]? = some (nm, t))
      (hq : q ∈ (ctx.node t).parsers) (h : MayAccept env ctx s q off) : MayAccept env ctx s p off
  | rep {p off a w permit q} (hk : p.kind = .repeat_ (some (a, w, permit)))
      (hq : q ∈ (ctx.node a).parsers) (h : MayAccept env ctx s q off) : MayAccept env ctx s p off
  | repNone {p off a w} (hk : p.kind = .repeat_ (some (a, w, true))) : MayAccept env ctx s p off
  /-- definitions that match empty text -/
  | customNil {p off i nm t} (hk : p.kind = .custom i) (ht : ctx.types[i]? = some (nm, t))
      (h : (ctx.node t).isTerminal = true) : MayAccept env ctx s p off
  | repNil {p off a w permit} (hk : p.kind = .repeat_ (some (a, w, permit)))
      (h : (ctx.node a).isTerminal = true) : MayAccept env ctx s p off

/-- entry points of user-defined types and of the parts of repeats -/
inductive Entry (ctx : Ctx) : NodeId → Prop where
  | type {i : Nat} {nm : Bytes} {t : NodeId} (h : ctx.types[i]? = some (nm, t)) : Entry ctx t
  | elem {n p a w permit} (hp : p ∈ (ctx.node n).parsers) (hk : p.kind = .repeat_ (some (a, w, permit))) :
      Entry ctx a
  | sep {n p a w permit} (hp : p ∈ (ctx.node n).parsers) (hk : p.kind = .repeat_ (some (a, w, permit))) :
      Entry ctx w

/-- At every node and position of the message the next field decides which alternative is taken, a
definition of a type or repeat part which is complete cannot go on, and no such definition is
empty. -/
structure Decided (env : Env) (ctx : Ctx) (s : Bytes) : Prop where
  one : ∀ (n : NodeId) (off i j : Nat) (p q : Parser), (ctx.node n).parsers[i]? = some p → (ctx.node n).parsers[j]? = some q →
    MayAccept env ctx s p off → MayAccept env ctx s q off → i = j
  stop : ∀ e n off, Entry ctx e → Follows ctx e n → (ctx.node n).isTerminal = true →
    ∀ p ∈ (ctx.node n).parsers, ¬ MayAccept env ctx s p off
  nonempty : ∀ e, Entry ctx e → (ctx.node e).isTerminal = false

end LN
