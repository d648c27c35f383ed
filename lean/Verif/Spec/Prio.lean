import Verif.Spec.Match
/-
Order of rules by priority, independent of the order in which a graph stores its alternatives.
-/
namespace LN

/-- Two rules are compared where they first use different fields: there the priority number of the
first one must not be larger. A rule that goes on comes before one that stops. -/
def PrioBefore : List Step → List Step → Prop
  | _, [] => True
  | [], _ :: _ => False
  | a :: as, b :: bs =>
    (a.field ≠ b.field ∧ a.field.prio ≤ b.field.prio) ∨ (a.field = b.field ∧ PrioBefore as bs)

end LN
