import Verif.Model.Report
import Verif.Spec.Ops
/-
What the statistics of a rulebase and the DOT files are to say, independent of how the graph is walked.
-/
set_option autoImplicit false
namespace LN

/-- the fields that can follow at a node -/
def Bld.fieldsAt (b : Bld) (n : NodeId) : List Parser := ((b.heap n).getD {}).parsers

/-- the node `m` can be reached from `n` along fields; `fs` gives the fields of each node -/
inductive LeadsTo (fs : NodeId → List Parser) : NodeId → NodeId → Prop where
  | refl (n : NodeId) : LeadsTo fs n n
  | step {n : NodeId} {p : Parser} {m : NodeId} (hp : p ∈ fs n) (t : LeadsTo fs p.node m) : LeadsTo fs n m

/-- there is a way from `n` along `k` nodes (counting `n` and the last one) -/
inductive Way (fs : NodeId → List Parser) : NodeId → Nat → Prop where
  | one (n : NodeId) : Way fs n 1
  | step {n : NodeId} {p : Parser} {k : Nat} (hp : p ∈ fs n) (t : Way fs p.node k) : Way fs n (k + 1)

/-- `L` lists the nodes that can be reached from `n`, each once -/
structure NodesOf (fs : NodeId → List Parser) (n : NodeId) (L : List NodeId) : Prop where
  nodup : L.Nodup
  mem : ∀ m, m ∈ L ↔ LeadsTo fs n m

/-- no two fields of a node reachable from `n` lead to a common node -/
def TreeAt (fs : NodeId → List Parser) (n : NodeId) : Prop :=
  ∀ m, LeadsTo fs n m → (fs m).Pairwise fun p q => ∀ k, LeadsTo fs p.node k → ¬ LeadsTo fs q.node k

/-- the statistics `s` are those of the nodes `L` of graph `b` -/
structure StatsOf (b : Bld) (L : List NodeId) (s : PdagStats) : Prop where
  /-- number of nodes -/
  nodes : s.nodes = L.length
  /-- number of nodes at which a rule ends -/
  term : s.term = L.countP fun n => ((b.heap n).getD {}).isTerminal
  /-- number of fields at all nodes together -/
  parsers : s.parsers = (L.map fun n => (b.fieldsAt n).length).sum
  /-- the largest number of fields at a node -/
  maxN_le : ∀ n ∈ L, (b.fieldsAt n).length ≤ s.maxN
  maxN_mem : L ≠ [] → ∃ n ∈ L, (b.fieldsAt n).length = s.maxN
  /-- number of nodes with a given number of fields, up to 99 -/
  cnt : ∀ i, s.cnt i = if i < 100 then L.countP fun n => (b.fieldsAt n).length = i else 0
  /-- number of fields of a built-in type -/
  prs : ∀ t, s.prs t = (L.flatMap b.fieldsAt).countP fun p => !p.kind.isCustom && p.kind.name = t

/-- one statement of a DOT file: a node or an edge -/
inductive Ev where
  | node (n : NodeId)
  | edge (n : NodeId) (p : Parser)

/-- the statements concerning one node: itself and its edges -/
def evsAt (fs : NodeId → List Parser) (n : NodeId) : List Ev := .node n :: (fs n).map (.edge n)

end LN
namespace LN

/-- a number in decimal -/
def decText (n : Nat) : Bytes := (Nat.toDigits 10 n).map fun c => UInt8.ofNat c.toNat

/-- right-aligned in a column of width `w` -/
def rightAl (w : Nat) (s : Bytes) : Bytes := List.replicate (w - s.length) 32 ++ s

/-- a text without quotes and backslashes (and up to its first NUL) -/
def plainText (l : Bytes) : Bytes := (cstr l).filter fun c => !(c = ch! '"' || c = ch! '\\')

/-- the label of an edge in the DOT file: the type and, for a literal, its text without quotes and backslashes -/
def edgeLabel : PKind → Bytes
  | .literal d => bs! "literal:" ++ plainText (d.getD [])
  | k => k.name ++ bs! ":"

/-- the label of an edge in the DOT file with usage counts: the text of a literal, or the type -/
def usageLabel : PKind → Bytes
  | .literal d => plainText (d.getD [])
  | k => k.name

/-- a node of a DOT file; bold if nothing follows; `ptr` is the text of its address -/
def nodeStmt (ptr : NodeId → Bytes) (b : Bld) (n : NodeId) (label : Bytes) : Bytes :=
  bs! "l" ++ ptr n ++ bs! " [ label=\"" ++ label ++ bs! "\"" ++
    (if b.fieldsAt n = [] then bs! " style=\"bold\"" else []) ++ bs! "]\n"

/-- an edge of a DOT file -/
def edgeStmt (ptr : NodeId → Bytes) (n m : NodeId) (label : Bytes) : Bytes :=
  bs! "l" ++ ptr n ++ bs! " -> l" ++ ptr m ++ bs! " [label=\"" ++ label ++ bs! "\" style=\"dotted\"]\n"

/-- text of a statement in the DOT file; the label of a node is the number of references to it -/
def dotStmt (ptr : NodeId → Bytes) (b : Bld) : Ev → Bytes
  | .node n => nodeStmt ptr b n (decText ((b.heap n).getD {}).refcnt)
  | .edge n p => edgeStmt ptr n p.node (edgeLabel p.kind)

/-- text of a statement in the DOT file with usage counts -/
def usageStmt (ptr : NodeId → Bytes) (used : NodeId → Stats) (b : Bld) : Ev → Bytes
  | .node n => nodeStmt ptr b n (decText (used n).called ++ bs! ":" ++ decText (used n).backtracked)
  | .edge n p => edgeStmt ptr n p.node (usageLabel p.kind)

/-- the fields leading to nodes that have been used -/
def Bld.usedFields (b : Bld) (used : NodeId → Stats) (n : NodeId) : List Parser :=
  (b.fieldsAt n).filter fun p => decide ((used p.node).called > 0)

/-- the literals found from `n` have a text (no malformed literal) -/
def LitsOK (b : Bld) (n : NodeId) : Prop := ∀ m, LeadsTo b.fieldsAt n m → ∀ p ∈ b.fieldsAt m, ∀ d, p.kind = .literal d → d.isSome = true

/-- the text a field contributes to the name of the nodes behind it: a literal stands for itself, other fields are written as in a rule -/
def fieldText (p : Parser) : Bytes :=
  match p.kind, p.name with
  | .literal d, none => cstr (d.getD [])
  | .literal d, some f => bs! "%" ++ f ++ bs! ":literal:" ++ cstr (d.getD []) ++ bs! "%"
  | k, f => bs! "%" ++ f.getD (bs! "-") ++ bs! ":" ++ k.name ++ bs! "%"

/-- a way from `n` to `m`, and the text of the fields on it -/
inductive Spells (fs : NodeId → List Parser) : NodeId → Bytes → NodeId → Prop where
  | nil (n : NodeId) : Spells fs n [] n
  | cons {n : NodeId} {p : Parser} {t : Bytes} {m : NodeId} (hp : p ∈ fs n) (h : Spells fs p.node t m) :
      Spells fs n (fieldText p ++ t) m

end LN
namespace LN

/-- a line of the usage report -/
def usageLine (used : NodeId → Stats) (ids : Ids) (n : NodeId) : Bytes :=
  decText (used n).called ++ bs! ", " ++ decText (used n).backtracked ++ bs! ", " ++ (ids n).getD [] ++ bs! "\n"

/-- the documented field types in the order of the report -/
def typeNames : List Bytes := [
  bs! "literal", bs! "repeat", bs! "date-rfc3164", bs! "date-rfc5424", bs! "number", bs! "float", bs! "hexnumber",
  bs! "kernel-timestamp", bs! "whitespace", bs! "ipv4", bs! "ipv6", bs! "word", bs! "alpha", bs! "rest",
  bs! "op-quoted-string", bs! "quoted-string", bs! "date-iso", bs! "time-24hr", bs! "time-12hr", bs! "duration",
  bs! "cisco-interface-spec", bs! "json", bs! "cee-syslog", bs! "mac48", bs! "cef", bs! "v2-iptables",
  bs! "name-value-list", bs! "checkpoint-lea", bs! "string-to", bs! "char-to", bs! "char-sep", bs! "string"]

/-- the statistics as text: totals, then a line for each type that occurs, then a line for each number of fields that occurs -/
def countsText (s : PdagStats) (longest : Nat) : Bytes :=
  bs! "nodes.............: " ++ rightAl 4 (decText s.nodes) ++
  bs! "\nterminal nodes....: " ++ rightAl 4 (decText s.term) ++
  bs! "\nparsers entries...: " ++ rightAl 4 (decText s.parsers) ++
  bs! "\nlongest path......: " ++ rightAl 4 (decText longest) ++
  bs! "\nParser Type Counts:\n" ++
  typeNames.flatMap (fun t => if s.prs t = 0 then [] else bs! "\t" ++ rightAl 20 t ++ bs! ": " ++ decText (s.prs t) ++ bs! "\n") ++
  bs! "Parsers per Node:\n\tmax:\t" ++ rightAl 4 (decText s.maxN) ++ bs! "\n" ++
  (List.range 100).flatMap (fun i => if s.cnt i = 0 then [] else bs! "\t" ++ decText i ++ bs! ":\t" ++ rightAl 4 (decText (s.cnt i)) ++ bs! "\n")

/-- the report on one graph: statistics, length of the longest path and, if asked for, the usage report -/
def partText (x : PdagStats × Nat × Option Bytes) : Bytes := countsText x.1 x.2.1 ++
  match x.2.2 with
  | none => []
  | some t => bs! "Usage Statistics:\n-----------------\ncalled, backtracked, rule\n" ++ t

/-- the report on all graphs; `rep` gives the statistics, the length of the longest path and the usage report (none: not asked for) for the graph starting at a node -/
def reportText (b : Bld) (rep : NodeId → PdagStats × Nat × Option Bytes) : Bytes :=
  bs! "User-Defined Types\n==================\nnumber types: " ++ decText b.types.length ++ bs! "\n" ++
  (b.types.flatMap fun t => bs! "type: " ++ t.1 ++ bs! "\n") ++
  (b.types.flatMap fun t => bs! "\ntype PDAG: " ++ t.1 ++ bs! "\n----------\n" ++ partText (rep t.2)) ++
  (bs! "\nMain PDAG\n=========\n" ++ partText (rep b.root))

/-- the usage report lists exactly the nodes that have been used and are found along such nodes -/
structure UsageOf (b : Bld) (used : NodeId → Stats) (ids : Ids) (n : NodeId) (t : Bytes) : Prop where
  ex : ∃ L : List NodeId, t = L.flatMap (usageLine used ids) ∧
    (∀ m, m ∈ L ↔ LeadsTo (b.usedFields used) n m ∧ (used m).called > 0) ∧
    (TreeAt b.fieldsAt n → L.Nodup)

/-- the value `v` occurs in a JSON value -/
inductive Occurs (v : Json) : Json → Prop where
  | refl : Occurs v v
  | inArr {c : Json} {l : List Json} (hm : c ∈ l) (h : Occurs v c) : Occurs v (.arr l)
  | inObj {k : Bytes} {c : Json} {o : Obj} (hm : (k, c) ∈ o) (h : Occurs v c) : Occurs v (.obj o)

/-- the field description contains no field of type `alternative` -/
def NoAlt (env : Env) (conf : Json) : Prop := ∀ v, Occurs v conf → (v.ptr (bs! "type")).bind (strOf env) ≠ some (bs! "alternative")

/-- a rule or type definition without `alternative` -/
def BOp.NoAlt (env : Env) : BOp → Prop
  | .rule confs .. => ∀ c ∈ confs, LN.NoAlt env c
  | .typeDef _ confs .. => ∀ c ∈ confs, LN.NoAlt env c
  | .optimize => True

end LN
