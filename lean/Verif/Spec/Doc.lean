import Verif.Spec.Rulebase
import Verif.Spec.Include
import Verif.Spec.V1Doc
import Verif.Spec.FieldConf
import Verif.Spec.Match
/-
Rule bases of version 2: what rules, as they are written, mean for messages, and which event follows.
Nothing here refers to the graph, its construction or the search.
-/
set_option autoImplicit false
namespace LN
open Spec

/-- a field of a rule: as it is written, its type, and the object which describes it -/
structure FieldD where
  written : Field
  type : FType
  conf : Obj

/-- what is written describes a field of that type -/
structure FieldD.OK (env : Env) (f : FieldD) : Prop where
  decl : Declares env f.written (.obj f.conf)
  desc : Describes f.type f.conf

/-- not the name of a type of fields: neither of a built-in one nor of a user-defined one (which start with `@`) -/
structure NoType (ty : Bytes) : Prop where
  plain : ∀ f : FType, f.name ≠ ty
  repeat_ : ty ≠ bs! "repeat"
  alternative : ty ≠ bs! "alternative"
  user : ty.head? ≠ some (ch! '@')
  noNul : (0 : UInt8) ∉ ty

/-- Texts with which rules break off, and the messages of the loader about them: descriptions of fields which are not well formed (whatever follows), and well formed ones of fields
of unknown types (behind which there may be literal text and other fields). In the second case `ln_newParser` (pdag.c:230) reports the type; only messages of samp.c are looked at here. -/
inductive Breaks (env : Env) : Bytes → List LoadErr → Prop
  | malformed {t : Bytes} {errs : List LoadErr} (h : Malformed env t errs) : Breaks env t errs
  | unknown {f : Field} {o : Obj} {ty : Bytes} (lit : Bytes) (parts : List (Field × Json × Bytes)) (hf : Declares env f (.obj o))
      (ht : Obj.get o (bs! "type") = some (.str ty)) (hn : NoType ty) (hp : ∀ p ∈ parts, Declares env p.1 p.2.1) :
      Breaks env (f.text ++ ruleText lit (parts.map fun p => (p.1, p.2.2))) []

/-- A rule: tags, literal text, fields each followed by (possibly empty) literal text; file and line it stands in. The rule may break off with a text that starts
like the description of a field but is none, or of a field of an unknown type (with the messages about it). -/
structure RuleD where
  tags : List Bytes
  lit : Bytes
  parts : List (FieldD × Bytes)
  file : Bytes := bs! "--NO-FILE--"
  line : Nat
  breaks : Option (Bytes × List LoadErr) := none

namespace RuleD

/-- the text of a rule -/
def text (r : RuleD) : Bytes := ruleText r.lit (r.parts.map fun p => (p.1.written, p.2)) ++ (r.breaks.map (·.1)).getD []

/-- the messages about the rule -/
def msgs (r : RuleD) : List LoadErr := (r.breaks.map (·.2)).getD []

/-- The fields are described as they should be; if the rule breaks off, then as said above. -/
structure OK (env : Env) (r : RuleD) : Prop where
  fields : ∀ p ∈ r.parts, p.1.OK env
  broken : ∀ x, r.breaks = some x → Breaks env x.1 x.2

/-- The fields and the literal texts behind them make up the text `t`, with these names and values of the fields. -/
inductive Fits (env : Env) : Bytes → List (FieldD × Bytes) → List (Option Bytes × Option Json) → Prop
  | nil : Fits env [] [] []
  | cons {t t' l : Bytes} {f : FieldD} {n : Nat} {v : Option Json} {ps : List (FieldD × Bytes)}
      {vs : List (Option Bytes × Option Json)} : f.type.Means env f.conf t n v → t.drop n = litMeaning env l ++ t' →
      Fits env t' ps vs → Fits env t ((f, l) :: ps) ((fieldName f.conf, v) :: vs)

/-- The rule does not break off and makes up the whole message, with these names and values of its fields. -/
def Matches (env : Env) (r : RuleD) (s : Bytes) (vs : List (Option Bytes × Option Json)) : Prop :=
  r.breaks = none ∧ ∃ t, s = litMeaning env r.lit ++ t ∧ Fits env t r.parts vs

/-- a character of literal text is a field of type `literal` without name -/
def litTok (c : UInt8) : FType × Obj := (.literal, [(bs! "type", .str (bs! "literal")), (bs! "text", .str [c])])

/-- the rule as a sequence of fields -/
def toks (env : Env) (r : RuleD) : List (FType × Obj) :=
  (litMeaning env r.lit).map litTok ++
    r.parts.flatMap fun p => (p.1.type, p.1.conf) :: (litMeaning env p.2).map litTok

/-- One sequence of fields comes before another: where they first differ the priority given to the field decides, then how
specific its type is; one which goes on comes before one which stops. (Of equal priorities either may come first.) -/
def Before : List (FType × Obj) → List (FType × Obj) → Prop
  | _, [] => True
  | [], _ :: _ => False
  | a :: as, b :: bs =>
    (a ≠ b ∧ (fieldPrio a.2 < fieldPrio b.2 ∨ (fieldPrio a.2 = fieldPrio b.2 ∧ a.1.prio ≤ b.1.prio))) ∨
    (a = b ∧ Before as bs)

/-- how a field is shown: literal text as it is, everything else as `%name:type%` -/
def showField (f : FType) (o : Obj) : Bytes :=
  if f = .literal then (strP o (bs! "text")).getD []
  else bs! "%" ++ (fieldName o).getD (bs! "-") ++ bs! ":" ++ f.name ++ bs! "%"

/-- how the rule is shown in the metadata -/
def mockup (env : Env) (r : RuleD) : Bytes :=
  litMeaning env r.lit ++ r.parts.flatMap fun p => showField p.1.type p.1.conf ++ litMeaning env p.2

/-- The rule shows something (unless it breaks off), and so do its literal fields. -/
def Shows (env : Env) (r : RuleD) : Prop :=
  (r.breaks = none → r.mockup env ≠ []) ∧ ∀ p ∈ r.parts, p.1.type = .literal → ¬ TextP p.1.conf (bs! "text") []

end RuleD

/-- tags, texts (with the prefix in force), files and line numbers of the rules of a rule base -/
def docRules : Option Bytes → List Loc → List (List Bytes × Bytes × Bytes × Nat)
  | _, [] => []
  | pfx, l :: ls =>
    (match l.what with
      | .rule tags t => [(tags, pfx.getD [] ++ t, l.file, l.line)]
      | _ => []) ++ docRules (l.what.nextPrefix pfx) ls

/-- the line is a rule or the definition of a type -/
def RLine.isDef : RLine → Bool
  | .rule _ _ => true
  | .type _ _ => true
  | _ => false

/-- the messages about the rule base: unknown kinds of lines, and those about the rules and definitions (`msgs`, in the order in which they stand) -/
def docMsgs : List RLine → List (List LoadErr) → List LoadErr
  | [], _ => []
  | .unknown k _ :: ls, msgs => .invalidRecord k :: docMsgs ls msgs
  | .rule _ _ :: ls, m :: msgs => m ++ docMsgs ls msgs
  | .type _ _ :: ls, m :: msgs => m ++ docMsgs ls msgs
  | _ :: ls, msgs => docMsgs ls msgs

mutual
/-- the messages about an item, where `msgs` are those about the rules and definitions in it and behind -/
def Item.msgs : Item → List (List LoadErr) → List LoadErr
  | .line l _, msgs => docMsgs [l] msgs
  | .last l, msgs => docMsgs [l] msgs
  | .include_ _ is, msgs => itemsMsgs is msgs
  | .open_ _, _ => [.runaway]
/-- The messages about a rule base with included files: unknown kinds of lines, field descriptions which do not end, and those about the rules and definitions
(`msgs`), in the order in which they stand. -/
def itemsMsgs : List Item → List (List LoadErr) → List LoadErr
  | [], _ => []
  | i :: is, msgs => i.msgs msgs ++ itemsMsgs is (msgs.drop ((i.lines [] 0).countP fun l => l.what.isDef))
end

/-- values of fields in the event: the last field comes first -/
def placeValues (o : Obj) (vs : List (Option Bytes × Option Json)) : Obj :=
  vs.foldr (fun x o => place o x.1 x.2) o

/-- Names and values which annotations set for a tag, in the order in which they are set: those of the first `annotate=` line for
the tag from last to first; those of later lines before, as written. (So where a name occurs more than once, what is written first
in the first line it occurs in stays, if that is the first line for the tag; otherwise what is written last in that line.) -/
def tagOps (ls : List RLine) (tag : Bytes) : List (Bytes × Bytes) :=
  (ls.foldl (fun acc l => match l with
    | .annotate t ops =>
      if t = tag then
        some (match acc with
          | none => (ops.map (·.2)).reverse
          | some prev => ops.map (·.2) ++ prev)
      else acc
    | _ => acc) none).getD []

/-- what annotations add to an event with these tags: those for the last tag first -/
def annotated (ls : List RLine) (tags : List Bytes) (o : Obj) : Obj :=
  tags.reverse.foldl (fun o t => (tagOps ls t).foldl (fun o nv => Obj.add o nv.1 (.str nv.2)) o) o

/-- The event: the values of the fields (of rule `r`), the tags (of rule `q`) and annotations, the message (option 0x04), the text of the
rule (`r`, option 0x08) and where it stands (`q`, option 0x10). -/
def docEvent (env : Env) (ls : List RLine) (opts : Nat) (r q : RuleD) (vs : List (Option Bytes × Option Json)) (s : Bytes) (o : Obj) : Obj :=
  let o := placeValues o vs
  let o := if q.tags = [] then o
    else annotated ls q.tags (Obj.add o (bs! "event.tags") (.arr (q.tags.map Json.str)))
  let o := if opts.testBit 2 then Obj.add o (bs! "originalmsg") (.str s) else o
  let m : Obj := (if opts.testBit 3 then [(bs! "mockup", .str (r.mockup env))] else []) ++
    (if opts.testBit 4 then [(bs! "location", Json.obj [(bs! "file", .str q.file), (bs! "line", .int q.line)])] else [])
  if m = [] then o else Obj.add o (bs! "metadata") (.obj [(bs! "rule", .obj m)])

/-! How far a message is understood if no rule matches. -/

/-- the fields make up the message from position `i` to position `j` -/
inductive ReadsToks (env : Env) (s : Bytes) : List (FType × Obj) → Nat → Nat → Prop
  | nil (i : Nat) : ReadsToks env s [] i i
  | cons {f : FType} {o : Obj} {ts : List (FType × Obj)} {i n j : Nat} {v : Option Json} :
      f.Means env o (s.drop i) n v → ReadsToks env s ts (i + n) j → ReadsToks env s ((f, o) :: ts) i j

/-- literal text: a literal without name -/
def IsText (t : FType × Obj) : Prop := t.1 = .literal ∧ fieldName t.2 = none

/-- the beginning `pre` of rules stops in the middle of a text: its last field and the one behind it are literal text, and no rule
ends (without breaking off) or goes on with anything else at this point -/
structure MidText (env : Env) (rules : List RuleD) (pre : List (FType × Obj)) : Prop where
  last : ∃ t, pre.getLast? = some t ∧ IsText t
  inside : ∀ r ∈ rules, r.breaks = none → r.toks env ≠ pre
  next : ∃ a, IsText a ∧ (∃ r ∈ rules, pre ++ [a] <+: r.toks env) ∧ ∀ r ∈ rules, ∀ t, pre ++ [t] <+: r.toks env → t = a

/-- some beginning of the rules, not stopping in the middle of a text, makes up the message up to position `i` -/
def ReadsTo (env : Env) (rules : List RuleD) (s : Bytes) (i : Nat) : Prop :=
  ∃ pre, (pre = [] ∨ ∃ r ∈ rules, pre <+: r.toks env) ∧ ¬ MidText env rules pre ∧ ReadsToks env s pre 0 i

/-- the last such position -/
def ReadsFurthest (env : Env) (rules : List RuleD) (s : Bytes) (i : Nat) : Prop :=
  ReadsTo env rules s i ∧ ∀ j, ReadsTo env rules s j → j ≤ i

/-- What normalising the message `s` with the rules yields: `ok` says whether a match is reported, `json` is the event.
A match is reported if and only if one of the rules makes up the message. Then fields and metadata are those of a rule which does, and if
priorities are no larger than 4194303 this is a first one in the order `Before`; tags, annotations and location are those of the
shortest rule which makes up the message and which this rule begins with (usually itself), in its last occurrence. If no rule
matches the event is the message, and what is left of it behind the last position up to which the rules make it up (where a text that
rules have in common counts as a whole). -/
structure DocOutcome (env : Env) (ls : List RLine) (rules : List RuleD) (opts : Nat) (s : Bytes) (o : Obj) (ok : Bool) (json : Obj) : Prop where
  iff : ok = true ↔ ∃ r ∈ rules, ∃ vs, r.Matches env s vs
  match_ : ok = true → ∃ (r q : RuleD) (j : Nat) (vs : List (Option Bytes × Option Json)), r ∈ rules ∧ rules[j]? = some q ∧
    r.Matches env s vs ∧ (∃ us, q.Matches env s us) ∧ q.toks env <+: r.toks env ∧
    (∀ q' ∈ rules, (∃ us, q'.Matches env s us) → q'.toks env <+: r.toks env → q.toks env <+: q'.toks env) ∧
    (∀ k q', j < k → rules[k]? = some q' → q'.breaks = none → q'.toks env ≠ q.toks env) ∧
    json = docEvent env ls opts r q vs s o ∧
    ((∀ r' ∈ rules, ∀ p ∈ r'.parts, -4194304 ≤ fieldPrio p.1.conf ∧ fieldPrio p.1.conf ≤ 4194303) →
      ∀ r' ∈ rules, (∃ us, r'.Matches env s us) → RuleD.Before (r.toks env) (r'.toks env))
  nomatch_ : ok = false → ∃ i, i ≤ s.length ∧ ReadsFurthest env rules s i ∧
    json = Obj.add (Obj.add o (bs! "originalmsg") (.str s)) (bs! "unparsed-data") (.str (s.drop i))

end LN
