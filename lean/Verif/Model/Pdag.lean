import Verif.Model.ParseMore
/-
The parse DAG and the matching engine: pdag.h, pdag.c:1203-1718, parser.c:3215-3295 (repeat),
annot.c.
-/
namespace LN

/-- address of a `struct ln_pdag` -/
abbrev NodeId := Nat

/-- `prsid` together with `parser_data` of a parser instance (pdag.h:96-105, lookup table
pdag.c:70-104).  `none` models `parser_data == NULL`, left behind when the constructor
failed (its return value is ignored, pdag.c:266). -/
inductive PKind where
  | literal (d : Option Bytes)
  | repeat_ (d : Option (NodeId × NodeId × Bool))
  | dateRfc3164 (fmt : Fmt)
  | dateRfc5424 (fmt : Fmt)
  | number (d : DataNumber)
  | float (fmt : Fmt)
  | hexnumber (d : DataHexNumber)
  | kernelTs | whitespace | ipv4 | ipv6 | word | alpha | rest
  | opQuoted | quoted | dateIso | time24 | time12 | duration | cisco
  | json | cee | mac48 | cef | iptables
  | nameValue (d : Option DataNameValue)
  | lea (term : UInt8)
  | stringTo (d : Option Bytes)
  | charTo (d : Option Bytes)
  | charSep (d : Option Bytes)
  | string (d : Option DataString)
  | custom (idx : Nat)

/-- pdag.c:106-116 `parserName`. -/
def PKind.name : PKind → Bytes
  | .literal _ => bs! "literal"
  | .repeat_ _ => bs! "repeat"
  | .dateRfc3164 _ => bs! "date-rfc3164"
  | .dateRfc5424 _ => bs! "date-rfc5424"
  | .number _ => bs! "number"
  | .float _ => bs! "float"
  | .hexnumber _ => bs! "hexnumber"
  | .kernelTs => bs! "kernel-timestamp"
  | .whitespace => bs! "whitespace"
  | .ipv4 => bs! "ipv4"
  | .ipv6 => bs! "ipv6"
  | .word => bs! "word"
  | .alpha => bs! "alpha"
  | .rest => bs! "rest"
  | .opQuoted => bs! "op-quoted-string"
  | .quoted => bs! "quoted-string"
  | .dateIso => bs! "date-iso"
  | .time24 => bs! "time-24hr"
  | .time12 => bs! "time-12hr"
  | .duration => bs! "duration"
  | .cisco => bs! "cisco-interface-spec"
  | .json => bs! "json"
  | .cee => bs! "cee-syslog"
  | .mac48 => bs! "mac48"
  | .cef => bs! "cef"
  | .iptables => bs! "v2-iptables"
  | .nameValue _ => bs! "name-value-list"
  | .lea _ => bs! "checkpoint-lea"
  | .stringTo _ => bs! "string-to"
  | .charTo _ => bs! "char-to"
  | .charSep _ => bs! "char-sep"
  | .string _ => bs! "string"
  | .custom _ => bs! "USER-DEFINED"

/-- pdag.h:93-105 `struct ln_parser_s`. `conf` is kept as JSON value; the code compares its
serialisation (assumed injective). -/
structure Parser where
  kind : PKind
  node : NodeId
  prio : Int
  name : Option Bytes
  conf : Json

/-- pdag.h:121-142 `struct ln_pdag` without the statistics (see `Npb.stats`) and the
work fields `visited`, `rb_id`. -/
structure Node where
  parsers : List Parser := []
  isTerminal : Bool := false
  tags : Option (List Bytes) := none
  refcnt : Nat := 1
  rbFile : Option Bytes := none
  rbLine : Nat := 0

/-- usage statistics of a node (pdag.h:131-135). -/
structure Stats where
  called : Nat := 0
  backtracked : Nat := 0
  deriving DecidableEq

/-- annot.h: an operation of an annotation. -/
structure AnnotOp where
  add : Bool              -- ln_annot_ADD / ln_annot_RM
  name : Option Bytes     -- NULL possible
  value : Option Bytes    -- NULL possible
  deriving DecidableEq

/-- annot.h: annotation of a tag, operations in list order (`oproot` first). -/
structure Annot where
  tag : Bytes
  ops : List AnnotOp
  deriving DecidableEq

/-- the part of the context (lognorm.h:57-85) the matching engine uses. -/
structure Ctx where
  node : NodeId → Node
  root : NodeId
  types : List (Bytes × NodeId) := []
  opts : Nat := 0
  annots : List Annot := []

/-- `ctx->opts & bit` -/
def Ctx.has (c : Ctx) (bit : Nat) : Bool := (c.opts &&& bit) != 0

/-- mutable part of the normalisation parameter block (pdag.h:166-178) and the statistics
counters of the nodes, which live in the nodes in C. `rule` is the reversed mockup. -/
structure Npb where
  parsedTo : Nat := 0
  rule : Bytes := []
  stats : NodeId → Stats := fun _ => {}

/-- Result of `ln_normalizeRec`: return code (true = 0), updated `npb`, the in/out `json`
(none = NULL pointer) and `*endNode`. -/
structure NRes where
  matched : Bool
  st : Npb
  json : Option Obj
  endNode : Option NodeId

/-- Type of `ln_normalizeRec` for open recursion: npb, dag, offs, bPartialMatch, json. -/
abbrev Rec := Npb → NodeId → Nat → Bool → Option Obj → R NRes

/-- `parser_data` must not be NULL -/
def needData {α : Type} (d : Option α) (f : α → PR) : PR :=
  match d with
  | some a => f a
  | none => .ub .nullDeref

/-- Dispatch through the lookup table (pdag.c:1445-1448) for all parsers which work on
the message alone. -/
def runParser (env : Env) (s : Bytes) (offs : Nat) (k : PKind) (want : Bool) : PR :=
  match k with
  | .literal d => needData d fun l => parseLiteral s offs l want
  | .dateRfc3164 f => parseRFC3164Date env s offs f want
  | .dateRfc5424 f => parseRFC5424Date s offs f want
  | .number d => parseNumber s offs (some d) want
  | .float f => parseFloat s offs f want
  | .hexnumber d => parseHexNumber s offs d want
  | .kernelTs => parseKernelTimestamp s offs want
  | .whitespace => parseWhitespace s offs want
  | .ipv4 => parseIPv4 s offs want
  | .ipv6 => parseIPv6 s offs want
  | .word => parseWord s offs want
  | .alpha => parseAlpha s offs want
  | .rest => parseRest s offs want
  | .opQuoted => parseOpQuotedString s offs want
  | .quoted => parseQuotedString s offs want
  | .dateIso => parseISODate s offs want
  | .time24 => parseTime24hr s offs want
  | .time12 => parseTime12hr s offs want
  | .duration => parseDuration s offs want
  | .cisco => parseCisco s offs want
  | .json => parseJSON env s offs want
  | .cee => parseCEESyslog env s offs want
  | .mac48 => parseMAC48 s offs want
  | .cef => parseCEF s offs want
  | .iptables => parseIPTables s offs want
  | .nameValue d => needData d fun d => parseNameValue s offs d want
  | .lea t => parseCheckpointLEA s offs t want
  | .stringTo d => needData d fun f => parseStringTo s offs f want
  | .charTo d => needData d fun f => parseCharTo s offs f want
  | .charSep d => needData d fun f => parseCharSep s offs f want
  | .string d => needData d fun d => parseString s offs d want
  -- handled by `tryParser`
  | .repeat_ _ => .fail
  | .custom _ => .fail

/-- `json_object_object_add(json, ..)` on a possibly NULL object -/
def addMember (json : Option Obj) (k : Bytes) (v : Json) (isNew : Bool) : R (Option Obj) :=
  match json with
  | none => .ub .nullDeref
  | some o => .ok (some (if isNew then Obj.addNew o k v else Obj.add o k v))

/-- pdag.c:1337-1343: merge all members of an object value. -/
def mergeMembers (json : Option Obj) : Obj → R (Option Obj)
  | [] => .ok json
  | (k, v) :: tl => (addMember json k v false).bind fun j => mergeMembers j tl

/-- pdag.c:1322-1390 `fixJSON`. `value` none = NULL. -/
def fixJSON (json : Option Obj) (name : Option Bytes) (value : Option Json) : R (Option Obj) :=
  match name with
  | none => .ok json
  | some nm =>
    if nm = bs! "." then
      match value with
      | some (.obj ms) => mergeMembers json ms
      | v => addMember json nm (v.getD .null) true
    else
      match value with
      | some (.obj [(k, v)]) =>
        if k = bs! ".." then addMember json nm v true
        else addMember json nm (.obj [(k, v)]) true
      | v => addMember json nm (v.getD .null) true

/-- pdag.c:1474-1483 `add_str_reversed`, on the reversed mockup string. -/
def addStrReversed (rule str : Bytes) : Bytes := rule ++ str.reverse

/-- pdag.c:1492-1516 `add_rule_to_mockup`. -/
def addRuleToMockup (rule : Bytes) (p : Parser) : Bytes :=
  match p.kind with
  | .literal d => addStrReversed rule (d.getD [])
  | k =>
    let rule := rule ++ [ch! '%']
    let rule := addStrReversed rule k.name
    let rule := rule ++ [ch! ':']
    let rule := match p.name with
      | none => rule ++ [ch! '-']
      | some nm => addStrReversed rule nm
    rule ++ [ch! '%']

/-- parser.c:3255-3266: the value of a member named "." (the last one) replaces the element. -/
def repeatElem (o : Obj) : Json :=
  o.foldl (fun acc m => if m.1 = bs! "." then m.2 else acc) (.obj o)

/-- parser.c:3223-3286: the loop of `ln_v2_parseRepeat`. Returns the new `npb` and, on
success, the end offset and the value. -/
def repeatLoop (rec : Rec) (pnode wnode : NodeId) (permit : Bool) (save : Nat) :
    (fuel : Nat) → Npb → (strtoffs lastGood : Nat) → Option (List Json) →
    R (Npb × Option (Nat × Option Json))
  | 0, _, _, _, _ => .oof
  | fuel + 1, st, so, good, arr => do
    let r ← rec st pnode so true (some [])
    if !r.matched then
      if permit then
        pure ({ r.st with parsedTo := save }, some (good, arr.map Json.arr))
      else pure (r.st, none)
    else
      let so := r.st.parsedTo
      let arr := arr.getD [] ++ [repeatElem (r.json.getD [])]
      let w ← rec { r.st with parsedTo := 0 } wnode so true none
      if w.matched then
        repeatLoop rec pnode wnode permit save fuel w.st w.st.parsedTo so (some arr)
      else
        pure ({ w.st with parsedTo := save }, some (so, some (.arr arr)))

/-- pdag.c:1395-1470 `tryParser`. The result is the offset behind the parsed text
(`i + *pParsed`) and the value. For a user-defined type that offset is
`*offs + (npb->parsedTo - *offs)`, i.e. `npb->parsedTo` (line 1438; size_t arithmetic). -/
def tryParser (env : Env) (ctx : Ctx) (s : Bytes) (rec : Rec) (fuel : Nat)
    (st : Npb) (offs : Nat) (p : Parser) : R (Npb × Option (Nat × Option Json)) :=
  match p.kind with
  | .custom idx =>
    match ctx.types[idx]? with
    | none => .ub .oobRead
    | some (_, tnode) => do
      let r ← rec st tnode offs true (some [])
      let st' := { r.st with parsedTo := st.parsedTo }
      if r.matched then pure (st', some (r.st.parsedTo, some (.obj (r.json.getD []))))
      else pure (st', none)
  | .repeat_ d =>
    match d with
    | none => .ub .nullDeref
    | some (pn, wn, permit) => do
      let (st', res) ← repeatLoop rec pn wn permit st.parsedTo fuel st offs offs none
      let st' := { st' with parsedTo := st.parsedTo }
      pure (st', res.map fun (o, v) => (o, if p.name.isSome then v else none))
  | k => do
    let r ← (runParser env s offs k p.name.isSome).attempt
    pure (st, r.map fun (n, v) => (offs + n, v))

/-- `++dag->stats.backtracked` -/
def Npb.bumpBack (st : Npb) (n : NodeId) : Npb :=
  { st with stats := fun m => if m = n then
      { st.stats m with backtracked := (st.stats m).backtracked + 1 } else st.stats m }

/-- `++dag->stats.called` -/
def Npb.bumpCalled (st : Npb) (n : NodeId) : Npb :=
  { st with stats := fun m => if m = n then
      { st.stats m with called := (st.stats m).called + 1 } else st.stats m }

/-- `if(parsedTo > npb->parsedTo) npb->parsedTo = parsedTo;` -/
def Npb.raise (st : Npb) (pt : Nat) : Npb := { st with parsedTo := max st.parsedTo pt }

/-- pdag.c:1559-1604: the loop over the parsers of a node; `pt` = local `parsedTo`. -/
def tryLoop (env : Env) (ctx : Ctx) (s : Bytes) (rec : Rec) (fuel : Nat)
    (dag : NodeId) (offs : Nat) (part : Bool) :
    List Parser → Npb → (pt : Nat) → Option Obj → R NRes
  | [], st, _, json => .ok ⟨false, st, json, none⟩
  | p :: ps, st, pt, json => do
    let (st, res) ← tryParser env ctx s rec fuel st offs p
    match res with
    | none => tryLoop env ctx s rec fuel dag offs part ps (st.raise pt) pt json
    | some (newOffs, val) =>
      let pt := newOffs
      let sub ← rec st p.node newOffs part json
      if sub.matched then
        let json ← fixJSON sub.json p.name val
        let st := sub.st
        let st := if ctx.has 0x08 then { st with rule := addRuleToMockup st.rule p } else st
        pure ⟨true, st.raise pt, json, sub.endNode⟩
      else
        tryLoop env ctx s rec fuel dag offs part ps ((sub.st.bumpBack dag).raise pt) pt sub.json

/-- pdag.c:1533-1620 `ln_normalizeRec`, one level. -/
def normStep (env : Env) (ctx : Ctx) (s : Bytes) (rec : Rec) (fuel : Nat) : Rec :=
  fun st dag offs part json => do
    let nd := ctx.node dag
    let r ← tryLoop env ctx s rec fuel dag offs part nd.parsers (st.bumpCalled dag)
      st.parsedTo json
    if nd.isTerminal && (offs = s.length || part) then
      pure { r with matched := true, endNode := some dag }
    else pure r

/-- `ln_normalizeRec` with recursion depth (and repeat iterations) bounded by `fuel`;
`oof` means the bound was hit. -/
def normRec (env : Env) (ctx : Ctx) (s : Bytes) : (fuel : Nat) → Rec
  | 0 => fun _ _ _ _ _ => .oof
  | n + 1 => normStep env ctx s (normRec env ctx s n) n

/-! ### Annotations -/

/-- annot.c:70-86 `ln_findAnnot`. -/
def findAnnot (as : List Annot) (tag : Bytes) : Option Annot :=
  match as with
  | [] => none
  | a :: tl => if a.tag = tag then some a else findAnnot tl tag

/-- annot.c:194-206: apply the operations; removal is not implemented by the code. -/
def applyOps : List AnnotOp → Obj → R Obj
  | [], o => .ok o
  | op :: ops, o =>
    if op.add then
      match op.value, op.name with
      | some v, some n => applyOps ops (Obj.add o (cstr n) (newString v))
      | _, _ => .ub .nullDeref
    else applyOps ops o

/-- annot.c:181-209 `ln_annotateEventWithTag`. -/
def annotateTag (as : List Annot) (tag : Bytes) (o : Obj) : R Obj :=
  match findAnnot as tag with
  | none => .ok o
  | some a => applyOps a.ops o

/-- annot.c:212-239 `ln_annotate`: last tag first. -/
def annotate (as : List Annot) (o : Obj) (tags : List Bytes) : R Obj :=
  tags.reverse.foldl (fun acc t => acc.bind fun o => annotateTag as t o) (.ok o)

/-! ### ln_normalize -/

/-- pdag.c:1218-1231 `strrev`: on an empty string the index wraps around and memory
before the string is swapped. -/
def strrev (s : Bytes) : R Bytes := if s = [] then .ub .oobRead else .ok s.reverse

/-- pdag.c:1246-1262: the mockup member (none = not requested). -/
def metaMockup (ctx : Ctx) (rule : Bytes) : R (Option Obj) :=
  if ctx.has 0x08 then (strrev rule).bind fun c => .ok (some [(bs! "mockup", newString c)])
  else .ok none

/-- pdag.c:1264-1279: the location member, added to the object of the previous step. -/
def metaLocation (ctx : Ctx) (endNode : NodeId) (mr : Option Obj) : R (Option Obj) :=
  if ctx.has 0x10 then
    match (ctx.node endNode).rbFile with
    | none => .ub .nullDeref
    | some f => .ok (some (Obj.add (mr.getD []) (bs! "location")
        (.obj [(bs! "file", newString f), (bs! "line", .int (ctx.node endNode).rbLine)])))
  else .ok mr

/-- pdag.c:1236-1293 `addRuleMetadata` (ADVANCED_STATS off). -/
def addRuleMetadata (ctx : Ctx) (rule : Bytes) (endNode : NodeId) (o : Obj) : R Obj :=
  (metaMockup ctx rule).bind fun mr => (metaLocation ctx endNode mr).bind fun mr =>
    match mr with
    | none => .ok o
    | some m => .ok (Obj.add o (bs! "metadata") (.obj [(bs! "rule", .obj m)]))

/-- pdag.c:1301-1318 `addUnparsedField`. -/
def addUnparsedField (s : Bytes) (offs : Nat) (o : Obj) : R Obj :=
  let o := Obj.add o (bs! "originalmsg") (.str s)
  if s.length < offs then .ub .oobRead
  else .ok (Obj.add o (bs! "unparsed-data") (newString (s.drop offs)))

/-- Result of `ln_normalize`: return code 0 or not, the json, and the new statistics. -/
structure Res where
  ok : Bool
  json : Obj
  stats : NodeId → Stats

/-- pdag.c:1671-1676: tags and annotations of the rule. -/
def addTags (ctx : Ctx) (e : NodeId) (o : Obj) : R Obj :=
  match (ctx.node e).tags with
  | none => .ok o
  | some ts => annotate ctx.annots (Obj.add o (bs! "event.tags") (.arr (ts.map Json.str))) ts

/-- pdag.c:1670-1681: finishing a matched event. -/
def finishMatch (ctx : Ctx) (s : Bytes) (rule : Bytes) (e : NodeId) (o : Obj) : R Obj :=
  (addTags ctx e o).bind fun o =>
    addRuleMetadata ctx rule e
      (if ctx.has 0x04 then Obj.add o (bs! "originalmsg") (.str s) else o)

/-- pdag.c:1621-1717 `ln_normalize` for a v2 context; `json0` = the object passed in
(empty if `*json_p == NULL`), `stats` = the counters before the call. -/
def normalize (env : Env) (fuel : Nat) (ctx : Ctx) (stats : NodeId → Stats) (s : Bytes)
    (json0 : Obj) : R Res := do
  let r ← normRec env ctx s fuel { stats := stats } ctx.root 0 false (some json0)
  let o := r.json.getD []
  match r.matched, r.endNode with
  | true, some e =>
    if (ctx.node e).isTerminal then do
      let o ← finishMatch ctx s r.st.rule e o
      pure ⟨true, o, r.st.stats⟩
    else do
      -- unreachable: `r == 0` without a terminal end node leaves the return code 0
      let o ← addUnparsedField s r.st.parsedTo o
      pure ⟨true, o, r.st.stats⟩
  | true, none => .ub .nullDeref
  | false, _ => do
    let o ← addUnparsedField s r.st.parsedTo o
    pure ⟨false, o, r.st.stats⟩

end LN
