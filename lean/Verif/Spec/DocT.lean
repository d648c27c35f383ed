import Verif.Spec.Doc
/-
Rule bases of version 2 with user-defined types: what rules and definitions, as they are written, mean for messages, and which event
follows.  Nothing here refers to the graph, its construction or the search.
-/
set_option autoImplicit false
namespace LN
open Spec

/-- the type of a field: one of the built-in ones, or a user-defined one (whose name begins with `@`) -/
inductive TType where
  | plain (f : FType)
  | user (name : Bytes)
  deriving DecidableEq

/-- `o` describes a field of the user-defined type `nm`: no parameter is given twice; name and priority are as for all fields. -/
structure DescribesUser (nm : Bytes) (o : Obj) : Prop where
  nodup : (o.map (·.1)).Nodup
  type : Obj.get o (bs! "type") = some (.str nm)
  at_ : nm.head? = some (ch! '@')
  noNul : (0 : UInt8) ∉ nm
  name : Obj.get o (bs! "name") = none ∨ ∃ w, TextP o (bs! "name") w
  prio : IntOr o (bs! "priority") (-8388608) 8388607

/-- `o` describes a field of the type -/
def TType.Described : TType → Obj → Prop
  | .plain f, o => Describes f o
  | .user nm, o => DescribesUser nm o

/-- a field: as it is written, its type, and the object which describes it -/
structure FieldT where
  written : Field
  type : TType
  conf : Obj

/-- what is written describes a field of that type -/
structure FieldT.OK (env : Env) (f : FieldT) : Prop where
  decl : Declares env f.written (.obj f.conf)
  desc : f.type.Described f.conf

/-- a rule, or a definition of a type: tags, literal text, fields each followed by (possibly empty) literal text; file and line it stands in. It may break off with a text that
starts like the description of a field but is none, or of a field of an unknown type (with the messages about it; not of an unknown user-defined type). -/
structure RuleT where
  type : Option Bytes := none
  tags : List Bytes := []
  lit : Bytes
  parts : List (FieldT × Bytes)
  file : Bytes := bs! "--NO-FILE--"
  line : Nat
  breaks : Option (Bytes × List LoadErr) := none

/-- tokens: fields of rules, characters of literal text -/
abbrev RTok := TType × Obj

namespace RuleT

/-- the text of a rule -/
def text (r : RuleT) : Bytes := ruleText r.lit (r.parts.map fun p => (p.1.written, p.2)) ++ (r.breaks.map (·.1)).getD []

/-- the messages about the rule -/
def msgs (r : RuleT) : List LoadErr := (r.breaks.map (·.2)).getD []

/-- The fields are described as they should be; if the rule breaks off, then as said in `Breaks`. -/
structure OK (env : Env) (r : RuleT) : Prop where
  fields : ∀ p ∈ r.parts, p.1.OK env
  broken : ∀ x, r.breaks = some x → Breaks env x.1 x.2

/-- The fields and the literal texts behind them make up the text `t` up to where `rest` is left, with these names and values of the fields.
A field of a user-defined type is made up by one of the definitions of the type which do not break off, and has the object of the values of that as value. -/
inductive Fits (env : Env) (ds : List RuleT) : Bytes → List (FieldT × Bytes) → List (Option Bytes × Option Json) → Bytes → Prop
  | nil (t : Bytes) : Fits env ds t [] [] t
  | plain {t t' l rest : Bytes} {f : FieldT} {ty : FType} {n : Nat} {v : Option Json} {ps : List (FieldT × Bytes)}
      {vs : List (Option Bytes × Option Json)} : f.type = .plain ty → ty.Means env f.conf t n v → t.drop n = litMeaning env l ++ t' →
      Fits env ds t' ps vs rest → Fits env ds t ((f, l) :: ps) ((fieldName f.conf, v) :: vs) rest
  | user {t t1 t2 t' l rest : Bytes} {f : FieldT} {nm : Bytes} {d : RuleT} {us : List (Option Bytes × Option Json)} {ps : List (FieldT × Bytes)}
      {vs : List (Option Bytes × Option Json)} : f.type = .user nm → d ∈ ds → d.type = some nm → d.breaks = none →
      t = litMeaning env d.lit ++ t1 → Fits env ds t1 d.parts us t2 → t2 = litMeaning env l ++ t' →
      Fits env ds t' ps vs rest → Fits env ds t ((f, l) :: ps) ((fieldName f.conf, some (.obj (placeValues [] us))) :: vs) rest

/-- The rule does not break off and makes up the whole message, with these names and values of its fields. -/
def Matches (env : Env) (ds : List RuleT) (r : RuleT) (s : Bytes) (vs : List (Option Bytes × Option Json)) : Prop :=
  r.breaks = none ∧ ∃ t, s = litMeaning env r.lit ++ t ∧ Fits env ds t r.parts vs []

/-- a character of literal text is a field of type `literal` without name -/
def litTok (c : UInt8) : RTok := (.plain .literal, [(bs! "type", .str (bs! "literal")), (bs! "text", .str [c])])

/-- the rule as a sequence of fields -/
def toks (env : Env) (r : RuleT) : List RTok :=
  (litMeaning env r.lit).map litTok ++
    r.parts.flatMap fun p => (p.1.type, p.1.conf) :: (litMeaning env p.2).map litTok

/-- how a field is shown: literal text as it is, everything else as `%name:type%`, where all user-defined types are the same -/
def showField (f : TType) (o : Obj) : Bytes :=
  match f with
  | .plain f => RuleD.showField f o
  | .user _ => bs! "%" ++ (fieldName o).getD (bs! "-") ++ bs! ":USER-DEFINED%"

/-- how the rule is shown in the metadata -/
def mockup (env : Env) (r : RuleT) : Bytes :=
  litMeaning env r.lit ++ r.parts.flatMap fun p => showField p.1.type p.1.conf ++ litMeaning env p.2

/-- Rules show something, and so do literal fields. -/
def Shows (env : Env) (r : RuleT) : Prop :=
  (r.type = none → r.breaks = none → r.mockup env ≠ []) ∧ ∀ p ∈ r.parts, p.1.type = .plain .literal → ¬ TextP p.1.conf (bs! "text") []

/-- the fields of built-in types can be used on this message -/
def InScope (env : Env) (s : Bytes) (r : RuleT) : Prop :=
  ∀ p ∈ r.parts, ∀ ty, p.1.type = .plain ty → ∀ off, off ≤ s.length → ty.InScope env p.1.conf s off (fieldName p.1.conf).isSome

end RuleT

/-- The field can accept something at the beginning of `t`, judging by its first field of a built-in type only. -/
inductive Begins (env : Env) (ds : List RuleT) (t : Bytes) : RTok → Prop
  | plain {f : FType} {o : Obj} {n : Nat} {v : Option Json} : f.Means env o t n v → Begins env ds t (.plain f, o)
  | user {nm : Bytes} {o : Obj} {d : RuleT} {k : RTok} {ks : List RTok} : d ∈ ds → d.type = some nm → d.toks env = k :: ks →
      Begins env ds t k → Begins env ds t (.user nm, o)

/-- The rules and definitions are unambiguous for the message: where two rules (or two definitions of a type) which began alike differ, their next
fields do not both begin at the same place; and no definition of a type (which does not break off) is the beginning of another one whose next field can begin anywhere
in the message; and no definition of a type is empty. -/
structure Unambiguous (env : Env) (ds : List RuleT) (s : Bytes) : Prop where
  branch : ∀ d ∈ ds, ∀ d' ∈ ds, d.type = d'.type → ∀ (x : List RTok) (k k' : RTok), x ++ [k] <+: d.toks env → x ++ [k'] <+: d'.toks env →
    k ≠ k' → ∀ t, t <:+ s → Begins env ds t k → Begins env ds t k' → False
  stop : ∀ d ∈ ds, d.type ≠ none → d.breaks = none → ∀ d' ∈ ds, d'.type = d.type → ∀ k : RTok, d.toks env ++ [k] <+: d'.toks env →
    ∀ t, t <:+ s → ¬ Begins env ds t k
  nonempty : ∀ d ∈ ds, d.type ≠ none → d.breaks = none → d.toks env ≠ []

/-- Types are defined before they are used. -/
def Defined (ds : List RuleT) : Prop :=
  ∀ (i : Nat) (d : RuleT), ds[i]? = some d → ∀ p ∈ d.parts, ∀ nm, p.1.type = .user nm →
    ∃ (j : Nat) (d' : RuleT), j < i ∧ ds[j]? = some d' ∧ d'.type = some nm

/-- No type occurs in its own definitions, nor in those of the types which occur there, and so on: types can be numbered such that only types
with smaller numbers occur in the definitions of a type. -/
def Layered (ds : List RuleT) : Prop :=
  ∃ rank : Bytes → Nat, ∀ d ∈ ds, ∀ t, d.type = some t → ∀ p ∈ d.parts, ∀ nm, p.1.type = .user nm → rank nm < rank t

/-- types (if definitions of one), tags, texts (of rules: with the prefix in force), files and line numbers of the rules and definitions
of a rule base -/
def docDefs : Option Bytes → List Loc → List (Option Bytes × List Bytes × Bytes × Bytes × Nat)
  | _, [] => []
  | pfx, l :: ls =>
    (match l.what with
      | .rule tags t => [(none, tags, pfx.getD [] ++ t, l.file, l.line)]
      | .type nm t => [(some nm, [], t, l.file, l.line)]
      | _ => []) ++ docDefs (l.what.nextPrefix pfx) ls

/-- The event: the values of the fields (of rule `r`), the tags (of rule `q`) and annotations, the message (option 0x04), the text of the
rule (`r`, followed by `extra`; option 0x08) and where it stands (`q`, option 0x10). -/
def docEventT (env : Env) (ls : List RLine) (opts : Nat) (r q : RuleT) (extra : Bytes) (vs : List (Option Bytes × Option Json)) (s : Bytes)
    (o : Obj) : Obj :=
  let o := placeValues o vs
  let o := if q.tags = [] then o
    else annotated ls q.tags (Obj.add o (bs! "event.tags") (.arr (q.tags.map Json.str)))
  let o := if opts.testBit 2 then Obj.add o (bs! "originalmsg") (.str s) else o
  let m : Obj := (if opts.testBit 3 then [(bs! "mockup", .str (r.mockup env ++ extra))] else []) ++
    (if opts.testBit 4 then [(bs! "location", Json.obj [(bs! "file", .str q.file), (bs! "line", .int q.line)])] else [])
  if m = [] then o else Obj.add o (bs! "metadata") (.obj [(bs! "rule", .obj m)])

/-! How far a message is understood if no rule matches. -/

/-- The fields make up the message from position `i` to position `j`. -/
inductive ReadsToksT (env : Env) (ds : List RuleT) (s : Bytes) : List RTok → Nat → Nat → Prop
  | nil (i : Nat) : ReadsToksT env ds s [] i i
  | plain {f : FType} {o : Obj} {ts : List RTok} {i n j : Nat} {v : Option Json} :
      f.Means env o (s.drop i) n v → ReadsToksT env ds s ts (i + n) j → ReadsToksT env ds s ((.plain f, o) :: ts) i j
  | user {nm : Bytes} {o : Obj} {ts : List RTok} {i k j : Nat} {d : RuleT} {t : Bytes} {us : List (Option Bytes × Option Json)} :
      d ∈ ds → d.type = some nm → d.breaks = none → s.drop i = litMeaning env d.lit ++ t → RuleT.Fits env ds t d.parts us (s.drop k) → k ≤ s.length →
      ReadsToksT env ds s ts k j → ReadsToksT env ds s ((.user nm, o) :: ts) i j

/-- literal text: a literal without name -/
def IsTextT (t : RTok) : Prop := t.1 = .plain .literal ∧ fieldName t.2 = none

/-- the beginning `pre` of rules stops in the middle of a text: its last field and the one behind it are literal text, and no rule
ends or goes on with anything else at this point -/
structure MidTextT (env : Env) (ds : List RuleT) (pre : List RTok) : Prop where
  last : ∃ t, pre.getLast? = some t ∧ IsTextT t
  inside : ∀ r ∈ ds, r.type = none → r.breaks = none → r.toks env ≠ pre
  next : ∃ a, IsTextT a ∧ (∃ r ∈ ds, r.type = none ∧ pre ++ [a] <+: r.toks env) ∧
    ∀ r ∈ ds, r.type = none → ∀ t, pre ++ [t] <+: r.toks env → t = a

/-- some beginning of the rules, not stopping in the middle of a text, makes up the message up to position `i` -/
def ReadsToT (env : Env) (ds : List RuleT) (s : Bytes) (i : Nat) : Prop :=
  ∃ pre, (pre = [] ∨ ∃ r ∈ ds, r.type = none ∧ pre <+: r.toks env) ∧ ¬ MidTextT env ds pre ∧ ReadsToksT env ds s pre 0 i

/-- the last such position -/
def ReadsFurthestT (env : Env) (ds : List RuleT) (s : Bytes) (i : Nat) : Prop :=
  ReadsToT env ds s i ∧ ∀ j, ReadsToT env ds s j → j ≤ i

/-- What normalising the message `s` with the rules and definitions yields: `ok` says whether a match is reported, `json` is the event.
A match is reported if and only if one of the rules makes up the message. Then all rules which do so are beginnings of one of them (such as one which
goes on with a field which can be empty), fields and metadata are those of the longest of these, tags, annotations and location those of the shortest, in
its last occurrence. If fields of user-defined types occur the text of the rule can have something behind it (see C13). If no rule matches
the event is the message, and what is left of it behind the last position up to which fields of the rules make it up (where a text that
rules have in common counts as a whole, and so does a field of a user-defined type). -/
structure DocOutcomeT (env : Env) (ls : List RLine) (ds : List RuleT) (opts : Nat) (s : Bytes) (o : Obj) (ok : Bool) (json : Obj) : Prop where
  iff : ok = true ↔ ∃ r ∈ ds, r.type = none ∧ ∃ vs, r.Matches env ds s vs
  match_ : ok = true → ∃ (r q : RuleT) (j : Nat) (vs : List (Option Bytes × Option Json)) (extra : Bytes), r ∈ ds ∧ r.type = none ∧
    ds[j]? = some q ∧ q.type = none ∧ r.Matches env ds s vs ∧ (∃ us, q.Matches env ds s us) ∧
    (∀ r' ∈ ds, r'.type = none → (∃ us, r'.Matches env ds s us) → q.toks env <+: r'.toks env ∧ r'.toks env <+: r.toks env) ∧
    (∀ k q', j < k → ds[k]? = some q' → q'.type = none → q'.breaks = none → q'.toks env ≠ q.toks env) ∧
    json = docEventT env ls opts r q extra vs s o
  nomatch_ : ok = false → ∃ i, i ≤ s.length ∧ ReadsFurthestT env ds s i ∧
    json = Obj.add (Obj.add o (bs! "originalmsg") (.str s)) (bs! "unparsed-data") (.str (s.drop i))

end LN
