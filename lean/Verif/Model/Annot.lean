import Verif.Model.Pdag
/- Building the annotation set: annot.c:70-175. (Applying it: `annotate` in `Model/Pdag.lean`.) -/
namespace LN

/-- annot.c:159-178 `ln_addAnnotOp`: the new operation becomes the head of the list. -/
def addAnnotOp (a : Annot) (op : AnnotOp) : Annot := { a with ops := op :: a.ops }

/-- annot.c:97-113 `ln_combineAnnot`: re-adds every operation of `add` to `a`. -/
def combineAnnot (a add : Annot) : Annot := add.ops.foldl addAnnotOp a

/-- annot.c:116-131 `ln_addAnnotToSet` on the linked list (`aroot` first): combine with the first
annotation for the tag, else prepend. -/
def addAnnotToSet (as : List Annot) (a : Annot) : List Annot :=
  match findAnnot as a.tag with
  | none => a :: as
  | some _ => upd as
where
  /-- update the first element with that tag in place -/
  upd : List Annot → List Annot
    | [] => []
    | b :: tl => if b.tag = a.tag then combineAnnot b a :: tl else b :: upd tl

/-- the set after a sequence of `annotate=` lines -/
def annotSet (l : List Annot) : List Annot := l.foldl addAnnotToSet []

end LN
