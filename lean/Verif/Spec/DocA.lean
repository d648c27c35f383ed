import Mathlib.Data.List.Forall2
import Verif.Spec.Doc
/-
Rule bases of version 2 with `alternative`: what rules, as they are written, mean for messages, and which event follows.
Nothing here refers to the graph, its construction or the search.
-/
set_option autoImplicit false
namespace LN
open Spec

/-- a part of a rule: as it is written, the object which describes it, and the fields it offers (one, unless it is an `alternative`) -/
structure PartA where
  written : Field
  conf : Obj
  choices : List (FType × Obj)

/-- The object describes an alternative between these fields: `{"type":"alternative", "parser":[ … ]}`. -/
structure DescribesAlt (o : Obj) (cs : List (FType × Obj)) : Prop where
  type : Obj.get o (bs! "type") = some (.str (bs! "alternative"))
  parser : Obj.get o (bs! "parser") = some (.arr (cs.map fun c => .obj c.2))
  some_ : cs ≠ []
  each : ∀ c ∈ cs, Describes c.1 c.2

/-- what is written describes a field, or an alternative between fields -/
structure PartA.OK (env : Env) (p : PartA) : Prop where
  decl : Declares env p.written (.obj p.conf)
  desc : (∃ f, p.choices = [(f, p.conf)] ∧ Describes f p.conf) ∨ DescribesAlt p.conf p.choices

/-- a rule: tags, literal text, parts each followed by (possibly empty) literal text; file and line it stands in; it may break off as said in `Breaks` -/
structure RuleA where
  tags : List Bytes
  lit : Bytes
  parts : List (PartA × Bytes)
  file : Bytes := bs! "--NO-FILE--"
  line : Nat
  breaks : Option (Bytes × List LoadErr) := none

namespace RuleA

/-- the text of a rule -/
def text (r : RuleA) : Bytes := ruleText r.lit (r.parts.map fun p => (p.1.written, p.2)) ++ (r.breaks.map (·.1)).getD []

/-- the messages about the rule -/
def msgs (r : RuleA) : List LoadErr := (r.breaks.map (·.2)).getD []

/-- The parts are described as they should be; if the rule breaks off, then as said in `Breaks`. -/
structure OK (env : Env) (r : RuleA) : Prop where
  parts : ∀ p ∈ r.parts, p.1.OK env
  broken : ∀ x, r.breaks = some x → Breaks env x.1 x.2

/-- `d` is the rule `r` with one of the fields taken from each alternative -/
structure Takes (r : RuleA) (d : RuleD) : Prop where
  tags : d.tags = r.tags
  lit : d.lit = r.lit
  file : d.file = r.file
  line : d.line = r.line
  breaks : d.breaks = r.breaks
  parts : List.Forall₂ (fun p q => q.1.written = p.1.written ∧ (q.1.type, q.1.conf) ∈ p.1.choices ∧ q.2 = p.2) r.parts d.parts

/-- the fields offered by the rule at each of its places (a character of literal text is a field) -/
def offers (env : Env) (r : RuleA) : List (List (FType × Obj)) :=
  (litMeaning env r.lit).map (fun c => [RuleD.litTok c]) ++
    r.parts.flatMap fun p => p.1.choices :: (litMeaning env p.2).map fun c => [RuleD.litTok c]

end RuleA

/-- `d` is one of the rules, with one of the fields taken from each alternative -/
def TakenFrom (rules : List RuleA) (d : RuleD) : Prop := ∃ r ∈ rules, r.Takes d

/-- Alternatives of different rules keep apart: where rules offer the same up to a place, and there offer a field in common, they offer the same there. -/
def KeepApart (env : Env) (rules : List RuleA) : Prop :=
  ∀ r ∈ rules, ∀ r' ∈ rules, ∀ (pre : List (List (FType × Obj))) (I J : List (FType × Obj)), pre ++ [I] <+: r.offers env → pre ++ [J] <+: r'.offers env →
    (∃ t, t ∈ I ∧ t ∈ J) → I = J

/-- Nowhere is there a choice of more than 255 different fields: behind a beginning of rules, these offer no more. -/
def NarrowA (env : Env) (rules : List RuleA) : Prop :=
  ∀ (pre : List (List (FType × Obj))) (ts : List (FType × Obj)), ts.Nodup → (∀ t ∈ ts, ∃ r ∈ rules, ∃ I, t ∈ I ∧ pre ++ [I] <+: r.offers env) → ts.length ≤ 255

/-- a beginning of the rules -/
def BeginsA (env : Env) (rules : List RuleA) (pre : List (FType × Obj)) : Prop := pre = [] ∨ ∃ d, TakenFrom rules d ∧ pre <+: d.toks env

/-- the beginning `pre` of rules goes on with literal text only: no rule ends there or goes on with anything else than the character `a` -/
structure OnlyText (env : Env) (rules : List RuleA) (pre : List (FType × Obj)) : Prop where
  inside : ∀ d, TakenFrom rules d → d.breaks = none → d.toks env ≠ pre
  next : ∃ a, IsText a ∧ (∃ d, TakenFrom rules d ∧ pre ++ [a] <+: d.toks env) ∧ ∀ d, TakenFrom rules d → ∀ t, pre ++ [t] <+: d.toks env → t = a

/-- What normalising the message `s` with the rules yields: `ok` says whether a match is reported, `json` is the event. A match is reported if and only if one
of the rules makes up the message, with some choice of fields from its alternatives. Then fields and metadata are those of such a choice, and if priorities are no
larger than 4194303 this is a first one in the order `Before`; tags, annotations and location are those of the shortest which makes up the message and which
it begins with (usually itself), in the last rule which it can be taken from. If no rule matches the event is the message, and what is left of it behind a position
up to which a beginning of the rules makes it up, and which is not before any such position behind which there is not only literal text. -/
structure AltOutcome (env : Env) (ls : List RLine) (rules : List RuleA) (opts : Nat) (s : Bytes) (o : Obj) (ok : Bool) (json : Obj) : Prop where
  iff : ok = true ↔ ∃ d, TakenFrom rules d ∧ ∃ vs, d.Matches env s vs
  match_ : ok = true → ∃ (r q : RuleD) (Q : RuleA) (j : Nat) (vs : List (Option Bytes × Option Json)), TakenFrom rules r ∧ rules[j]? = some Q ∧ Q.Takes q ∧
    r.Matches env s vs ∧ (∃ us, q.Matches env s us) ∧ q.toks env <+: r.toks env ∧
    (∀ q', TakenFrom rules q' → (∃ us, q'.Matches env s us) → q'.toks env <+: r.toks env → q.toks env <+: q'.toks env) ∧
    (∀ k Q', j < k → rules[k]? = some Q' → Q'.breaks = none → ∀ q', Q'.Takes q' → q'.toks env ≠ q.toks env) ∧
    json = docEvent env ls opts r q vs s o ∧
    ((∀ r' ∈ rules, ∀ p ∈ r'.parts, ∀ c ∈ p.1.choices, -4194304 ≤ fieldPrio c.2 ∧ fieldPrio c.2 ≤ 4194303) →
      ∀ r', TakenFrom rules r' → (∃ us, r'.Matches env s us) → RuleD.Before (r.toks env) (r'.toks env))
  nomatch_ : ok = false → ∃ i, i ≤ s.length ∧ (∃ pre, BeginsA env rules pre ∧ ReadsToks env s pre 0 i) ∧
    (∀ pre j, BeginsA env rules pre → ¬ OnlyText env rules pre → ReadsToks env s pre 0 j → j ≤ i) ∧
    json = Obj.add (Obj.add o (bs! "originalmsg") (.str s)) (bs! "unparsed-data") (.str (s.drop i))

end LN
