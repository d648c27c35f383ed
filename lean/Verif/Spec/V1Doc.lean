import Verif.Spec.V1Nested
import Verif.Spec.V1
import Verif.Spec.Rulebase
/- How rule bases of version 1 are written, and what they mean. -/
set_option autoImplicit false
namespace LN

/-- a field of a rule, as written -/
inductive V1FieldT where
  /-- `%name:type%`, with a type as in C73 -/
  | ty (name : Bytes) (x : V1Ty)
  /-- `%name:rest%` -/
  | rest (name : Bytes)

namespace V1FieldT

/-- the text of a field -/
def text : V1FieldT → Bytes
  | ty nm x => bs! "%" ++ nm ++ bs! ":" ++ x.descr ++ bs! "%"
  | rest nm => bs! "%" ++ nm ++ bs! ":rest%"

/-- name of a field -/
def name : V1FieldT → Bytes
  | ty nm _ => nm
  | rest nm => nm

/-- well-formed fields; names start with neither white space nor a percent sign and have no NUL bytes -/
def OK (E : V1Env) : V1FieldT → Prop
  | ty nm x => V1NameOK nm ∧ nm.head? ≠ some (ch! '%') ∧ (0 : UInt8) ∉ nm ∧ x.OK E
  | rest nm => V1NameOK nm ∧ nm.head? ≠ some (ch! '%') ∧ (0 : UInt8) ∉ nm

end V1FieldT

/-- a rule: tags, literal text, fields each followed by (possibly empty) literal text -/
structure V1Rule where
  tags : List Bytes
  lit : Bytes
  parts : List (V1FieldT × Bytes)

namespace V1Rule

/-- the text of a rule -/
def text (r : V1Rule) : Bytes := escPct r.lit ++ r.parts.flatMap fun p => p.1.text ++ escPct p.2

/-- literals, with escapes resolved -/
def lits (E : V1Env) (r : V1Rule) : List Bytes := E.env.unescape r.lit :: r.parts.map fun p => E.env.unescape p.2

/-- The fields and the literals behind them make up the text `t`, with these values of the fields. `rest` takes all there is. -/
inductive Fits (E : V1Env) : Bytes → List (V1FieldT × Bytes) → List (Bytes × Json) → Prop
  | nil : Fits E [] [] []
  | ty {t t' nm l : Bytes} {x : V1Ty} {n : Nat} {v : Json} {ps : List (V1FieldT × Bytes)} {vs : List (Bytes × Json)} :
      x.accepts E t n v → t.drop n = E.env.unescape l ++ t' → Fits E t' ps vs → Fits E t ((.ty nm x, l) :: ps) ((nm, v) :: vs)
  | rest {t nm : Bytes} {l : Bytes} : E.env.unescape l = [] → Fits E t [(.rest nm, l)] [(nm, .str t)]

/-- The rule makes up the whole message, with these values of its fields. -/
def Matches (E : V1Env) (r : V1Rule) (s : Bytes) (vs : List (Bytes × Json)) : Prop :=
  ∃ t, s = E.env.unescape r.lit ++ t ∧ Fits E t r.parts vs

/-- the same, and no field starts at the end of the message -/
inductive FitsIn (E : V1Env) : Bytes → List (V1FieldT × Bytes) → List (Bytes × Json) → Prop
  | nil : FitsIn E [] [] []
  | ty {t t' nm l : Bytes} {x : V1Ty} {n : Nat} {v : Json} {ps : List (V1FieldT × Bytes)} {vs : List (Bytes × Json)} : t ≠ [] →
      x.accepts E t n v → t.drop n = E.env.unescape l ++ t' → FitsIn E t' ps vs → FitsIn E t ((.ty nm x, l) :: ps) ((nm, v) :: vs)
  | rest {t nm : Bytes} {l : Bytes} : t ≠ [] → E.env.unescape l = [] → FitsIn E t [(.rest nm, l)] [(nm, .str t)]

/-- the same, and no field starts at the end of the message -/
def MatchesIn (E : V1Env) (r : V1Rule) (s : Bytes) (vs : List (Bytes × Json)) : Prop :=
  ∃ t, s = E.env.unescape r.lit ++ t ∧ FitsIn E t r.parts vs

/-- two rules are the same but for tags -/
def Same (E : V1Env) (r q : V1Rule) : Prop :=
  E.env.unescape r.lit = E.env.unescape q.lit ∧
  r.parts.map (fun p => (p.1.text, E.env.unescape p.2)) = q.parts.map (fun p => (p.1.text, E.env.unescape p.2))

/-- Well-formed rules: the fields are well formed, the literals are shorter than 65536 bytes, `rest` is the last thing. -/
structure OK (E : V1Env) (r : V1Rule) : Prop where
  fields : ∀ p ∈ r.parts, p.1.OK E
  lits : ∀ l ∈ r.lits E, l.length < 65536
  restLast : ∀ a b nm l, r.parts = a ++ (.rest nm, l) :: b → E.env.unescape l = [] ∧ b = []

/-- no byte from 128 on in the literals -/
def Ascii (E : V1Env) (r : V1Rule) : Prop := ∀ l ∈ r.lits E, ∀ c ∈ l, c < 128

/-- the types in the rule -/
def types (r : V1Rule) : List V1Ty := r.parts.filterMap fun p => match p.1 with
  | .ty _ x => some x
  | .rest _ => none

end V1Rule

/-- the values of the fields in the event, those of later fields first; fields named `-` are left out -/
def v1Place (o : Obj) (vs : List (Bytes × Json)) : Obj :=
  vs.reverse.foldl (fun o x => if x.1 = bs! "-" then o else Obj.add o x.1 x.2) o

/-! ### Lines -/

/-- A line which can stand on its own in version 1: no newline, no open field description (unless it is a comment), at most 10239 bytes. -/
def V1LineOK (l : Bytes) : Prop :=
  (∀ c ∈ l, c ≠ ch! '\n') ∧ (isComment l = true ∨ (l.count (ch! '%') % 2 = 0 ∧ l.length < 10240))

/-- The line is written according to the rules. Lines of other kinds (such as `type` and `include`, which version 1 does not know) have no effect. -/
def RLine.OK1 : RLine → Prop
  | .skip t => skipped t = true
  | .prefix_ _ => True
  | .extend _ => True
  | .rule tags t => (∀ w ∈ tags, TagOK w) ∧ t ≠ []
  | .type name _ => True
  | .annotate tag ops => Word tag ∧ ∀ o ∈ ops, Blanks o.1 ∧ Word o.2.1 ∧ o.2.2 ≠ [] ∧ ∀ c ∈ o.2.2, c ≠ ch! '"'
  | .unknown kind _ => kind ∉ [bs! "prefix", bs! "extendprefix", bs! "rule", bs! "annotate"] ∧ ∀ c ∈ kind, c ≠ ch! '=' ∧ c ≠ ch! '#'

/-- no line extends a missing prefix -/
def ExtendOK : Option Bytes → List RLine → Prop
  | _, [] => True
  | pfx, l :: ls => (∀ t, l = .extend t → pfx ≠ none) ∧ ExtendOK (l.nextPrefix pfx) ls

/-- tags and texts of the rules, with the prefix in force -/
def docTexts : Option Bytes → List RLine → List (List Bytes × Bytes)
  | _, [] => []
  | pfx, l :: ls =>
    (match l with
      | .rule tags t => [(tags, pfx.getD [] ++ t)]
      | _ => []) ++ docTexts (l.nextPrefix pfx) ls

/-- the annotations -/
def docAnnots (as : List Annot) (ls : List RLine) : List Annot := (ls.flatMap RLine.annots).foldl addAnnotToSet as

/-- prefix in force after the lines -/
def docPrefix (pfx : Option Bytes) (ls : List RLine) : Option Bytes := ls.foldl RLine.nextPrefix pfx

end LN
