import Verif.Spec.Doc
import Verif.Spec.RepeatConf
/-
Rule bases of version 2 with a rule with repeat fields: what the rule, as it is written, means for messages, and which event follows.
-/
set_option autoImplicit false
namespace LN
open Spec

/-- a part of a rule: a field as it is written, the object which describes it, what it denotes, and the (possibly empty) literal text behind it -/
structure PartR where
  written : Field
  conf : Json
  field : Fld
  after : Bytes

/-- what is written is the description, and this denotes the field -/
structure PartR.OK (env : Env) (p : PartR) : Prop where
  decl : Declares env p.written p.conf
  desc : FieldOf env p.conf p.field

/-- a rule; file and line it stands in -/
structure RuleR where
  tags : List Bytes
  lit : Bytes
  parts : List PartR
  file : Bytes
  line : Nat

namespace RuleR

/-- the text of the rule -/
def text (r : RuleR) : Bytes := ruleText r.lit (r.parts.map fun p => (p.written, p.after))

/-- each byte of literal text is a field of its own -/
def litFields (t : Bytes) : List Fld := t.map fun c => .plain (.literal (some [c])) none

/-- the fields of the rule -/
def fields (env : Env) (r : RuleR) : List Fld :=
  litFields (litMeaning env r.lit) ++ r.parts.flatMap fun p => p.field :: litFields (litMeaning env p.after)

/-- The event: the values of the fields, tags and annotations, the message (option 0x04), and where the rule stands (option 0x10). -/
def event (r : RuleR) (ls : List RLine) (opts : Nat) (vs : List (Option Bytes × Option Json)) (s : Bytes) (o : Obj) : Obj :=
  let o := placeValues o vs
  let o := if r.tags = [] then o
    else annotated ls r.tags (Obj.add o (bs! "event.tags") (.arr (r.tags.map Json.str)))
  let o := if opts.testBit 2 then Obj.add o (bs! "originalmsg") (.str s) else o
  if opts.testBit 4 then
    Obj.add o (bs! "metadata") (.obj [(bs! "rule", .obj [(bs! "location", Json.obj [(bs! "file", .str r.file), (bs! "line", .int r.line)])])])
  else o

end RuleR

/-- What normalising `s` with the rule yields. A match is reported if and only if the fields of the rule take the message as a whole, one after the other;
the event has the values they yield. Else the event is the message, and what is left of it: behind the last field if all fields take something, else from a
position not behind the one where a field does not match (the position goes back to where the literal text begins which does not match). -/
structure OutcomeR (env : Env) (ls : List RLine) (r : RuleR) (opts : Nat) (s : Bytes) (o : Obj) (ok : Bool) (json : Obj) : Prop where
  iff : ok = true ↔ ∃ vs, Reads env s (.all (r.fields env) 0 vs s.length)
  match_ : ∀ vs, Reads env s (.all (r.fields env) 0 vs s.length) → json = r.event ls opts vs s o
  nomatch_ : ok = false → ∃ i, i ≤ s.length ∧
    json = Obj.add (Obj.add o (bs! "originalmsg") (.str s)) (bs! "unparsed-data") (.str (s.drop i)) ∧
    (∀ vs e, Reads env s (.all (r.fields env) 0 vs e) → i = e) ∧ ∀ a, Reads env s (.stuck (r.fields env) 0 a) → i ≤ a

end LN
