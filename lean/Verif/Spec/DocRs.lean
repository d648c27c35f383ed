import Verif.Spec.DocR
/-
Rule bases of version 2 with several rules with repeat fields: what they mean for messages which tell the rules apart.
-/
set_option autoImplicit false
namespace LN
open Spec

mutual
/-- Can the field begin at byte `off`? A plain field can if it does not refuse what is there, a repetition if it need not have elements, or if the first field of its
elements can begin. -/
def Fld.Begins (env : Env) (s : Bytes) (off : Nat) : Fld → Prop
  | .plain k nm => ¬ Reads env s (.refuses (.plain k nm) off)
  | .rep _ el _ permit => permit = true ∨ Fld.BeginsAll env s off el
/-- can the fields begin: the first one can -/
def Fld.BeginsAll (env : Env) (s : Bytes) (off : Nat) : List Fld → Prop
  | [] => True
  | f :: _ => Fld.Begins env s off f
end

/-- unnamed literal text -/
def Fld.IsText (f : Fld) : Prop := ∃ t, f = .plain (.literal (some t)) none

/-- the place between the fields `a` and the fields `b` which follow is not inside of literal text -/
def NotInText (a b : List Fld) : Prop := b = [] ∨ (∃ f t, b = f :: t ∧ ¬ f.IsText) ∨ ∃ t f, a = t ++ [f] ∧ ¬ f.IsText

namespace RuleR

/-- each byte of literal text is a field of its own: its description, and the field -/
def litItems (t : Bytes) : List (Json × Fld) :=
  t.map fun c => (.obj [(bs! "type", .str (bs! "literal")), (bs! "text", .str [c])], .plain (.literal (some [c])) none)

/-- the descriptions of the fields of the rule, with the fields -/
def items (env : Env) (r : RuleR) : List (Json × Fld) :=
  litItems (litMeaning env r.lit) ++ r.parts.flatMap fun p => (p.conf, p.field) :: litItems (litMeaning env p.after)

end RuleR

/-- The message tells the rules apart: where two rules go on differently after the same fields, at most one of the two fields can begin, wherever in the message;
where a rule ends and another one goes on, the latter cannot go on at the end of the message. -/
structure TellsApart (env : Env) (s : Bytes) (rules : List RuleR) : Prop where
  branch : ∀ r ∈ rules, ∀ r' ∈ rules, ∀ (π : List (Json × Fld)) (x x' : Json × Fld) (t t' : List (Json × Fld)), r.items env = π ++ x :: t → r'.items env = π ++ x' :: t' →
    x ≠ x' → ∀ off, off ≤ s.length → ¬ (x.2.Begins env s off ∧ x'.2.Begins env s off)
  stop : ∀ r ∈ rules, ∀ r' ∈ rules, ∀ (x : Json × Fld) (t : List (Json × Fld)), r'.items env = r.items env ++ x :: t → ¬ x.2.Begins env s s.length

/-- What normalising `s` with the rules yields. A match is reported if and only if the fields of one of the rules take the message as a whole, one after the other;
the event is the one of that rule, with the values they yield. Else the event is the message, and what is left of it, from a position which the first fields of a rule lead to,
and behind which no other fields lead (not counting those which end inside of literal text). -/
structure OutcomeRs (env : Env) (ls : List RLine) (rules : List RuleR) (opts : Nat) (s : Bytes) (o : Obj) (ok : Bool) (json : Obj) : Prop where
  iff : ok = true ↔ ∃ r ∈ rules, ∃ vs, Reads env s (.all (r.fields env) 0 vs s.length)
  match_ : ∀ r ∈ rules, ∀ vs, Reads env s (.all (r.fields env) 0 vs s.length) → json = r.event ls opts vs s o
  nomatch_ : ok = false → ∃ i, i ≤ s.length ∧
    json = Obj.add (Obj.add o (bs! "originalmsg") (.str s)) (bs! "unparsed-data") (.str (s.drop i)) ∧
    (∀ r ∈ rules, ∀ a b, r.fields env = a ++ b → NotInText a b → ∀ vs e, Reads env s (.all a 0 vs e) → e ≤ i) ∧
    (i = 0 ∨ ∃ r ∈ rules, ∃ a b vs, r.fields env = a ++ b ∧ Reads env s (.all a 0 vs i))

end LN
