import Verif.Model.Build
/-
What the library reports about a loaded rulebase: statistics (pdag.c:537-685), command files for the DOT tools
(pdag.c:1083-1195), the names of nodes used there (pdag.c:419-510) and the work flag `visited` (pdag.c:173-190).
Not modelled: the part compiled with ADVANCED_STATS only, and the report for version 1 rulebases, which goes to the debug callback.
Counters of type `int` are numbers without bound.
-/
set_option autoImplicit false
namespace LN

/-- the flags `visited` of all nodes (pdag.h:113) -/
abbrev Flags := NodeId → Bool

def Flags.set (v : Flags) (n : NodeId) (x : Bool) : Flags := fun m => if m = n then x else v m

/-- pdag.c:173-183 `ln_pdagComponentClearVisited` -/
def clearF : (fuel : Nat) → Bld → Flags → NodeId → R Flags
  | 0, _, _, _ => .oof
  | fuel + 1, b, v, n => (b.load n).bind fun nd =>
      nd.parsers.foldlM (fun v p => clearF fuel b v p.node) (v.set n false)

/-- pdag.c:184-190 `ln_pdagClearVisited` -/
def clearVisited (b : Bld) (v : Flags) : R Flags :=
  (b.types.map (·.2) ++ [b.root]).foldlM (clearF (b.next + 1) b) v

/-- decimal text of a number, `%d`, `%u` -/
def natText (n : Nat) : Bytes := (Nat.toDigits 10 n).map fun c => UInt8.ofNat c.toNat

/-- `%4d`, `%20s`: filled with blanks on the left -/
def padL (w : Nat) (s : Bytes) : Bytes := List.replicate (w - s.length) (ch! ' ') ++ s

/-- pdag.c:537-547 `struct pdag_stats`; the parser types are named instead of numbered -/
structure PdagStats where
  nodes : Nat := 0
  term : Nat := 0
  parsers : Nat := 0
  maxN : Nat := 0
  ge100 : Nat := 0
  cnt : Nat → Nat := fun _ => 0
  prs : Bytes → Nat := fun _ => 0

/-- a user-defined type, PRS_CUSTOM_TYPE -/
def PKind.isCustom : PKind → Bool
  | .custom _ => true
  | _ => false

/-- pdag.c:558-567 -/
def PdagStats.countNode (s : PdagStats) (nd : Node) : PdagStats where
  nodes := s.nodes + 1
  term := if nd.isTerminal then s.term + 1 else s.term
  parsers := s.parsers + nd.parsers.length
  maxN := if nd.parsers.length > s.maxN then nd.parsers.length else s.maxN
  ge100 := if nd.parsers.length ≥ 100 then s.ge100 + 1 else s.ge100
  cnt := if nd.parsers.length ≥ 100 then s.cnt
    else fun i => if i = nd.parsers.length then s.cnt i + 1 else s.cnt i
  prs := s.prs

/-- pdag.c:571-572 -/
def PdagStats.countParser (s : PdagStats) (p : Parser) : PdagStats :=
  if p.kind.isCustom then s
  else { s with prs := fun t => if t = p.kind.name then s.prs t + 1 else s.prs t }

/-- pdag.c:549-578 `ln_pdagStatsRec`; the result is flags, statistics and the length of the path -/
def statsF : (fuel : Nat) → Bld → NodeId → Flags → PdagStats → R (Flags × PdagStats × Nat)
  | 0, _, _, _, _ => .oof
  | fuel + 1, b, n, v, s => (b.load n).bind fun nd =>
      if v n then .ok (v, s, 0)
      else (nd.parsers.foldlM (fun (a : Flags × PdagStats × Nat) p =>
          (statsF fuel b p.node a.1 (a.2.1.countParser p)).bind fun r =>
            .ok (r.1, r.2.1, if r.2.2 > a.2.2 then r.2.2 else a.2.2))
          (v.set n true, s.countNode nd, 0)).bind fun a => .ok (a.1, a.2.1, a.2.2 + 1)

/-- pdag.c:71-104: the names in `parser_lookup_table` -/
def parserNames : List Bytes := [
  bs! "literal", bs! "repeat", bs! "date-rfc3164", bs! "date-rfc5424", bs! "number", bs! "float", bs! "hexnumber",
  bs! "kernel-timestamp", bs! "whitespace", bs! "ipv4", bs! "ipv6", bs! "word", bs! "alpha", bs! "rest",
  bs! "op-quoted-string", bs! "quoted-string", bs! "date-iso", bs! "time-24hr", bs! "time-12hr", bs! "duration",
  bs! "cisco-interface-spec", bs! "json", bs! "cee-syslog", bs! "mac48", bs! "cef", bs! "v2-iptables",
  bs! "name-value-list", bs! "checkpoint-lea", bs! "string-to", bs! "char-to", bs! "char-sep", bs! "string"]

/-- pdag.c:615-636: the text printed for one graph -/
def statsText (s : PdagStats) (longest : Nat) : Bytes :=
  bs! "nodes.............: " ++ padL 4 (natText s.nodes) ++
  bs! "\nterminal nodes....: " ++ padL 4 (natText s.term) ++
  bs! "\nparsers entries...: " ++ padL 4 (natText s.parsers) ++
  bs! "\nlongest path......: " ++ padL 4 (natText longest) ++
  bs! "\nParser Type Counts:\n" ++
  parserNames.flatMap (fun t => if s.prs t = 0 then [] else
    bs! "\t" ++ padL 20 t ++ bs! ": " ++ natText (s.prs t) ++ bs! "\n") ++
  bs! "Parsers per Node:\n\tmax:\t" ++ padL 4 (natText s.maxN) ++ bs! "\n" ++
  (List.range 100).flatMap (fun i => if s.cnt i = 0 then [] else
    bs! "\t" ++ natText i ++ bs! ":\t" ++ padL 4 (natText (s.cnt i)) ++ bs! "\n")

/-- names of nodes, `rb_id`; none = NULL -/
abbrev Ids := NodeId → Option Bytes

def Ids.set (v : Ids) (n : NodeId) (x : Option Bytes) : Ids := fun m => if m = n then x else v m

/-- pdag.c:581-601 `ln_pdagStatsExtended`: a line per node used, again for every way leading to it. (`indent` is filled and not used.) -/
def extF : (fuel : Nat) → Bld → (NodeId → Stats) → Ids → NodeId → R Bytes
  | 0, _, _, _, _ => .oof
  | fuel + 1, b, used, ids, n => (b.load n).bind fun nd =>
      (if (used n).called > 0 then
        match ids n with
        | none => R.ub .nullDeref
        | some id => .ok (natText (used n).called ++ bs! ", " ++ natText (used n).backtracked ++ bs! ", " ++ id ++ bs! "\n")
       else .ok []).bind fun line =>
      nd.parsers.foldlM (fun (out : Bytes) (p : Parser) => (b.load p.node).bind fun _ =>
        if (used p.node).called > 0 then (extF fuel b used ids p.node).bind fun t => .ok (out ++ t) else .ok out) line

/-- pdag.c:603-647 `ln_pdagStats`; the flags are not cleared before (line 612 is a comment) -/
def pdagStats (b : Bld) (ext : Bool) (used : NodeId → Stats) (ids : Ids) (n : NodeId) (v : Flags) : R (Flags × Bytes) :=
  (statsF (b.next + 1) b n v {}).bind fun r =>
    let out := statsText r.2.1 r.2.2
    if ext then (clearF (b.next + 1) b r.1 n).bind fun v => (extF (b.next + 1) b used ids n).bind fun t =>
      .ok (v, out ++ bs! "Usage Statistics:\n-----------------\ncalled, backtracked, rule\n" ++ t)
    else .ok (r.1, out)

/-- pdag.c:665-669: the heading of the report -/
def reportHead (b : Bld) : Bytes :=
  bs! "User-Defined Types\n==================\nnumber types: " ++ natText b.types.length ++ bs! "\n" ++
    b.types.flatMap fun t => bs! "type: " ++ t.1 ++ bs! "\n"

/-- pdag.c:672-674: the heading of the part about a type -/
def typeHead (name : Bytes) : Bytes := bs! "\ntype PDAG: " ++ name ++ bs! "\n----------\n"

/-- pdag.c:678-680: the heading of the part about the main graph -/
def mainHead : Bytes := bs! "\nMain PDAG\n=========\n"

/-- pdag.c:656-685 `ln_fullPdagStats` for version 2 rulebases -/
def fullStats (b : Bld) (ext : Bool) (used : NodeId → Stats) (ids : Ids) (v : Flags) : R (Flags × Bytes) :=
  (b.types.foldlM (fun (a : Flags × Bytes) t =>
    (pdagStats b ext used ids t.2 a.1).bind fun r => .ok (r.1, a.2 ++ (typeHead t.1 ++ r.2)))
    (v, reportHead b)).bind fun a =>
  (pdagStats b ext used ids b.root a.1).bind fun r => .ok (r.1, a.2 ++ (mainHead ++ r.2))

/-! ### DOT -/

/-- pdag.c:1122-1130, 1172-1177: the text of a literal without quotes and backslashes -/
def dotLit (l : Bytes) : Bytes := (cstr l).filter fun c => c != ch! '\\' && c != ch! '"'

/-- pdag.c:1120-1130: label of an edge -/
def dotLabel : PKind → R Bytes
  | .literal none => .ub .nullDeref
  | .literal (some l) => .ok (bs! "literal:" ++ dotLit l)
  | k => .ok (k.name ++ bs! ":")

/-- pdag.c:1083-1089 `dotAddPtr`: `ptr` is the text of an address -/
def dotPtr (ptr : NodeId → Bytes) (n : NodeId) : Bytes := bs! "l" ++ ptr n

/-- pdag.c:1101-1111 -/
def dotNode (ptr : NodeId → Bytes) (n : NodeId) (nd : Node) : Bytes :=
  dotPtr ptr n ++ bs! " [ label=\"" ++ natText nd.refcnt ++ bs! "\"" ++
    (if nd.parsers.isEmpty then bs! " style=\"bold\"" else []) ++ bs! "]\n"

/-- pdag.c:1117-1132 -/
def dotEdge (ptr : NodeId → Bytes) (n m : NodeId) (label : Bytes) : Bytes :=
  dotPtr ptr n ++ bs! " -> " ++ dotPtr ptr m ++ bs! " [label=\"" ++ label ++ bs! "\" style=\"dotted\"]\n"

/-- pdag.c:1093-1135 `ln_genDotPDAGGraphRec` -/
def dotF (ptr : NodeId → Bytes) : (fuel : Nat) → Bld → NodeId → Flags × Bytes → R (Flags × Bytes)
  | 0, _, _, _ => .oof
  | fuel + 1, b, n, (v, out) => (b.load n).bind fun nd =>
      if v n then .ok (v, out)
      else nd.parsers.foldlM (fun (a : Flags × Bytes) p => (dotLabel p.kind).bind fun l =>
          dotF ptr fuel b p.node (a.1, a.2 ++ dotEdge ptr n p.node l))
          (v.set n true, out ++ dotNode ptr n nd)

/-- pdag.c:1138-1145 `ln_genDotPDAGGraph` -/
def genDot (ptr : NodeId → Bytes) (b : Bld) (n : NodeId) (v : Flags) : R (Flags × Bytes) :=
  (clearVisited b v).bind fun v =>
  (dotF ptr (b.next + 1) b n (v, bs! "digraph pdag {\n")).bind fun r => .ok (r.1, r.2 ++ bs! "}\n")

/-- pdag.c:1157-1163 -/
def sdotNode (ptr : NodeId → Bytes) (n : NodeId) (nd : Node) (u : Stats) : Bytes :=
  dotPtr ptr n ++ bs! " [ label=\"" ++ natText u.called ++ bs! ":" ++ natText u.backtracked ++ bs! "\"" ++
    (if nd.parsers.isEmpty then bs! " style=\"bold\"" else []) ++ bs! "]\n"

/-- pdag.c:1171-1179: label of an edge -/
def sdotLabel : PKind → R Bytes
  | .literal none => .ub .nullDeref
  | .literal (some l) => .ok (dotLit l)
  | k => .ok k.name

/-- pdag.c:1150-1182 `ln_genStatsDotPDAGGraphRec` -/
def sdotF (ptr : NodeId → Bytes) (used : NodeId → Stats) : (fuel : Nat) → Bld → NodeId → Flags × Bytes → R (Flags × Bytes)
  | 0, _, _, _ => .oof
  | fuel + 1, b, n, (v, out) => (b.load n).bind fun nd =>
      if v n then .ok (v, out)
      else nd.parsers.foldlM (fun (a : Flags × Bytes) p => (b.load p.node).bind fun _ =>
          if (used p.node).called = 0 then .ok a
          else (sdotLabel p.kind).bind fun l =>
            sdotF ptr used fuel b p.node (a.1, a.2 ++ dotEdge ptr n p.node l))
          (v.set n true, out ++ sdotNode ptr n nd (used n))

/-- pdag.c:1185-1199 `ln_genStatsDotPDAGGraph`, `ln_fullPDagStatsDOT` -/
def genStatsDot (ptr : NodeId → Bytes) (used : NodeId → Stats) (b : Bld) (v : Flags) : R (Flags × Bytes) :=
  (clearVisited b v).bind fun v =>
  (sdotF ptr used (b.next + 1) b b.root (v, bs! "digraph pdag {\n")).bind fun r => .ok (r.1, r.2 ++ bs! "}\n")

/-! ### Names of nodes -/

/-- pdag.c:419-429 `deleteComponentID` -/
def deleteIdF : (fuel : Nat) → Bld → Ids → NodeId → R Ids
  | 0, _, _, _ => .oof
  | fuel + 1, b, ids, n => (b.load n).bind fun nd =>
      nd.parsers.foldlM (fun ids p => deleteIdF fuel b ids p.node) (ids.set n none)

/-- length of the longest common prefix (pdag.c:448-451); the text after `new` ends with NUL, which is different from every
byte of `curr` -/
def sameLen : Bytes → Bytes → Nat
  | a :: l, c :: r => if a = c then sameLen l r + 1 else 0
  | _, _ => 0

/-- pdag.c:444-454: the text made of the old name and the new one -/
def fixedId (curr new : Bytes) : Bytes :=
  let i := sameLen curr new
  let i := if 1 ≤ i ∧ curr[i - 1]? = some (ch! '%') then i - 1 else i
  curr.take i ++ bs! "[" ++ curr.drop i ++ bs! "|" ++ new.drop i ++ bs! "]"

/-- pdag.c:479-501: what a field adds to the name. (`ln_DataForDisplayLiteral` yields the text of the literal.) -/
def fieldId (p : Parser) : R Bytes :=
  match p.kind, p.name with
  | .literal none, _ => .ub .nullDeref
  | .literal (some l), none => .ok (cstr l)
  | .literal (some l), some f => .ok (bs! "%" ++ f ++ bs! ":literal:" ++ cstr l ++ bs! "%")
  | k, f => .ok (bs! "%" ++ f.getD (bs! "-") ++ bs! ":" ++ k.name ++ bs! "%")

/-- pdag.c:460-507 `ln_pdagComponentSetIDs` with pdag.c:442-459 `fixComponentID` -/
def setIdF : (fuel : Nat) → Bld → Ids → NodeId → Bytes → R Ids
  | 0, _, _, _, _ => .oof
  | fuel + 1, b, ids, n, pre => (b.load n).bind fun nd =>
      (match ids n with
       | none => R.ok (ids.set n (some pre), pre)
       | some curr => (deleteIdF fuel.succ b ids n).bind fun ids =>
           .ok (ids.set n (some (fixedId curr pre)), fixedId curr pre)).bind fun r =>
      nd.parsers.foldlM (fun ids p => (fieldId p).bind fun t => setIdF fuel b ids p.node (r.2 ++ t)) r.1

/-- pdag.c:520-528: the names given by `ln_pdagOptimize`. (There, each graph gets its names right after it has been optimised, and graphs
have no nodes in common; the model takes the graphs after all have been optimised.) -/
def setIds (b : Bld) (ids : Ids) : R Ids :=
  (b.types.map (·.2) ++ [b.root]).foldlM (fun ids n => setIdF (b.next + 1) b ids n []) ids

end LN
