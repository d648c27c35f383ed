import Verif.Model.Ctor
/-
Building, optimising and deleting the parse graph: pdag.c:133-171 (types), 190-334 (parsers,
nodes, deletion), 336-534 (optimiser), 808-1000 (adding parsers), parser.c:3179-3210 and 3296-3351
(sub-graphs of `repeat`), liblognorm.c:60-139 (context).

Nodes live in a heap indexed by allocation number; address 0 is the NULL pointer, freed nodes are
`none`. Every access to a freed node is `UB.useAfterFree`, to NULL `UB.nullDeref`.
Allocation never fails in the model.
-/
namespace LN

/-- The parts of the context (lognorm.h:57-85) that building uses: node memory, user-defined
types and the root of the graph. `wrapped` is no program state: it records that the 8-bit counter
`nparsers` of some node overflowed. -/
structure Bld where
  heap : NodeId → Option Node := fun _ => none
  next : NodeId := 1
  types : List (Bytes × NodeId) := []
  root : NodeId := 0
  wrapped : Bool := false

namespace Bld

/-- read a node -/
def load (b : Bld) (n : NodeId) : R Node :=
  match b.heap n with
  | some nd => .ok nd
  | none => if n = 0 then .ub .nullDeref else .ub .useAfterFree

/-- write a node (which the caller has read before) -/
def store (b : Bld) (n : NodeId) (nd : Node) : Bld :=
  { b with heap := fun m => if m = n then some nd else b.heap m }

/-- `free(pdag)` -/
def free (b : Bld) (n : NodeId) : Bld :=
  { b with heap := fun m => if m = n then none else b.heap m }

/-- pdag.c:281-294 `ln_newPDAG`: reference count 1, nothing else. -/
def newPDAG (b : Bld) : Bld × NodeId :=
  ({ b with next := b.next + 1, heap := fun m => if m = b.next then some {} else b.heap m }, b.next)

end Bld

/-- the nodes the data of a parser refers to: the two sub-graphs of `repeat` -/
def PKind.refs : PKind → List NodeId
  | .repeat_ (some (a, w, _)) => [a, w]
  | _ => []

/-- the nodes a parser instance refers to: its successor and those of its data -/
def Parser.refs (p : Parser) : List NodeId := p.node :: p.kind.refs

/-- pdag.c:296-334 `ln_pdagDelete`, `pdagDeletePrs` and the destructor of `repeat`
(parser.c:3343-3351), with `fuel` bounding the recursion depth. The C code frees the node after
the loop over its parsers; the model does so before and continues with a copy, so that a
recursive call reaching the node again is seen as use after free. Names, configuration text and
the data of parsers other than `repeat` are not part of the heap. -/
def deleteF : (fuel : Nat) → Bld → NodeId → R Bld
  | 0, _, _ => .oof
  | fuel + 1, b, n =>
    if n = 0 then .ok b
    else (b.load n).bind fun nd =>
      if nd.refcnt > 1 then .ok (b.store n { nd with refcnt := nd.refcnt - 1 })
      else (nd.parsers.flatMap Parser.refs).foldlM (deleteF fuel) (b.free n)

/-- `ln_pdagDelete`; the depth is bounded by the number of nodes as edges lead to younger nodes -/
def pdagDelete (b : Bld) (n : NodeId) : R Bld := deleteF (b.next + 1) b n

/-- deleting what the data of a parser refers to (parser.c:3343-3351), when the parser itself has
no successor node: `pdagDeletePrs` with `prs->node == NULL` -/
def deleteData (b : Bld) (k : PKind) : R Bld := k.refs.foldlM pdagDelete b

/-- pdag.c:137-171 `ln_pdagFindType` without `bAdd`: index in the table. -/
def findType (b : Bld) (name : Bytes) : Option Nat :=
  b.types.findIdx? fun t => t.1 = name

/-- pdag.c:137-171 `ln_pdagFindType` with `bAdd`: the graph of that type, created if necessary. -/
def findTypeAdd (b : Bld) (name : Bytes) : Bld × NodeId :=
  match b.types.find? fun t => t.1 = name with
  | some t => (b, t.2)
  | none =>
    let (b, n) := b.newPDAG
    ({ b with types := b.types ++ [(name, n)] }, n)

/-- wrap around of a 32 bit `int` -/
def wrap32 (x : Int) : Int := (x + 2147483648) % 4294967296 - 2147483648

/-- pdag.c:258: `((assignedPrio << 8) & 0xffffff00) | (parserPrio & 0xff)` -/
def prioOf (assigned : Int) (parser : Nat) : Int := wrap32 (assigned * 256) + (parser % 256 : Nat)

/-- Type of `ln_pdagAddParserInternal` for open recursion: state, dag, mode (true =
alternative), configuration, nextnode (0 = NULL); the result is none for an error return, else
the new values of `*pdag` and `*nextnode`. -/
abbrev AddRec := Bld → NodeId → Bool → Json → NodeId → R (Bld × Option (NodeId × NodeId))

/-- parser.c:3179-3210 `chkNoDupeDotInParserDefs`. -/
def chkNoDupeDot (env : Env) (j : Json) : Bool :=
  match j with
  | .arr l => !(decide (l.length > 1) &&
      l.any fun p => ((p.ptr (bs! "name")).bind (strOf env)) = some (bs! "."))
  | _ => true

/-- data of `repeat` under construction: none = NULL -/
structure RepeatData where
  parser : Option NodeId := none
  while_ : Option NodeId := none
  permit : Bool := false
  /-- loop left by `goto done` -/
  stop : Bool := false

/-- parser.c:3314-3319 / 3321-3325: build one sub-graph: new root node, add the parsers, mark the end
node. The second component is false if adding failed. -/
def subGraph (rec : AddRec) (b : Bld) (v : Json) : R (Bld × NodeId × Bool) :=
  let (b, n) := b.newPDAG
  (rec b n false v 0).bind fun (b, res) =>
    match res with
    | none => .ok (b, n, false)
    | some (e, _) => (b.load e).bind fun nd => .ok (b.store e { nd with isTerminal := true }, n, true)

/-- parser.c:3308-3333: one member of the configuration. Keys of a JSON object are unique; a second
`parser` or `while` is ignored by the model. -/
def repeatParam (env : Env) (rec : AddRec) (s : Bld × RepeatData) (k : Bytes) (v : Json) :
    R (Bld × RepeatData) :=
  let (b, d) := s
  if d.stop then .ok s
  else if k = bs! "parser" then
    if d.parser.isSome then .ok s
    else if !chkNoDupeDot env v then .ok (b, { d with stop := true })
    else (subGraph rec b v).bind fun (b, n, ok) => .ok (b, { d with parser := some n, stop := !ok })
  else if k = bs! "while" then
    if d.while_.isSome then .ok s
    else (subGraph rec b v).bind fun (b, n, ok) => .ok (b, { d with while_ := some n, stop := !ok })
  else if lower k = bs! "option.permitmismatchinparser" then
    .ok (b, { d with permit := boolOf env v })
  else .ok s

/-- parser.c:3296-3342 `ln_constructRepeat`. -/
def ctorRepeat (env : Env) (rec : AddRec) (b : Bld) (o : Obj) : R (Bld × PKind) :=
  (foldMembers (repeatParam env rec) o (b, {})).bind fun (b, d) =>
    match d.parser, d.while_ with
    | some p, some w => .ok (b, .repeat_ (some (p, w, d.permit)))
    | some p, none => (pdagDelete b p).bind fun b => .ok (b, .repeat_ none)
    | none, some w => (pdagDelete b w).bind fun b => .ok (b, .repeat_ none)
    | none, none => .ok (b, .repeat_ none)

/-- pdag.c:230-235: the field name; absent or "-" means unnamed -/
def confName (env : Env) (conf : Json) : Option Bytes :=
  match (conf.ptr (bs! "name")).bind (strOf env) with
  | none => none
  | some n => if n = bs! "-" then none else some n

/-- pdag.c:237-240 -/
def confPrio (env : Env) (conf : Json) : Int :=
  match conf.ptr (bs! "priority") with
  | none => 30000
  | some j => intOf env j

/-- pdag.c:246-249: the members handed to the constructor -/
def confRest (env : Env) (conf : Json) : Obj :=
  conf.members.filter fun m => m.1 ≠ bs! "type" && m.1 ≠ bs! "priority" &&
    !((confName env conf).isSome && m.1 = bs! "name")

/-- pdag.c:196-278 `ln_newParser`; the successor node is still NULL. none = error. -/
def newParser (env : Env) (rec : AddRec) (b : Bld) (conf : Json) : R (Bld × Option Parser) :=
  match (conf.ptr (bs! "type")).bind (strOf env) with
  | none => .ok (b, none)
  | some ty =>
    let mk (b : Bld) (k : PKind) (pp : Nat) : R (Bld × Option Parser) :=
      .ok (b, some { kind := k, node := 0, prio := prioOf (confPrio env conf) pp
                     name := confName env conf, conf := conf })
    if ty.head? = some (ch! '@') then
      match findType b ty with
      | none => .ok (b, none)
      | some i => mk b (.custom i) 16
    else
      match parserPrio ty with
      | none => .ok (b, none)
      | some pp =>
        if ty = bs! "repeat" then
          (ctorRepeat env rec b (confRest env conf)).bind fun (b, k) => mk b k pp
        else (construct env ty (confRest env conf)).bind fun k => mk b k pp

/-- `nparsers++` on an 8 bit counter: the 256th entry makes it 0. -/
def addEntry (nd : Node) (p : Parser) : Node :=
  let ps := nd.parsers ++ [p]
  { nd with parsers := if ps.length = 256 then [] else ps }

/-- pdag.c:808-887 `ln_pdagAddParserInstance`; none = error, else the new `*nextnode`. Comparing
the serialised configurations (which include the type) is modelled by comparing the JSON
values. -/
def addInstance (env : Env) (rec : AddRec) (b : Bld) (conf : Json) (dag next : NodeId) :
    R (Bld × Option NodeId) :=
  (newParser env rec b conf).bind fun (b, p) =>
    match p with
    | none => .ok (b, none)
    | some p => (b.load dag).bind fun nd =>
      match nd.parsers.find? fun q => q.conf = p.conf with
      | some q => (deleteData b p.kind).bind fun b => .ok (b, some q.node)
      | none =>
        (if next = 0 then .ok b.newPDAG
         else (b.load next).bind fun nx =>
           .ok (b.store next { nx with refcnt := nx.refcnt + 1 }, next)).bind fun (b, next) =>
        (b.load dag).bind fun nd =>
          .ok ({ b.store dag (addEntry nd { p with node := next }) with
                 wrapped := b.wrapped || decide (nd.parsers.length + 1 = 256) }, some next)

/-- pdag.c:899-942 `ln_pdagAddParsers`, the loop; `alt` = PRS_ADD_MODE_ALTERNATIVE. Result:
`*pdag` and `*p_nextnode`; `pn` = the current value of `*p_nextnode`. -/
def addParsersLoop (env : Env) (rec : AddRec) (alt : Bool) :
    List Json → Bld → (dag next pn : NodeId) → R (Bld × Option (NodeId × NodeId))
  | [], b, dag, next, pn => .ok (b, some (if alt then next else dag, pn))
  | c :: cs, b, dag, next, pn =>
    (match c with
      | .arr _ => (rec b dag alt c next).bind fun (b, r) => .ok (b, r.map Prod.snd)
      | _ => addInstance env rec b c dag next).bind fun (b, r) =>
    match r with
    | none => .ok (b, none)
    | some next =>
      if alt then addParsersLoop env rec alt cs b dag next pn
      else addParsersLoop env rec alt cs b next 0 next

/-- pdag.c:944-988 `ln_pdagAddParserInternal`, one level. In the array case the local copy of
`*pdag` which the recursive call moves is `nextnode` afterwards (line 928 overwrites line
923), so only `nextnode` matters there. -/
def addStep (env : Env) (rec : AddRec) : AddRec := fun b dag alt conf next =>
  match conf with
  | .obj _ =>
    match (conf.ptr (bs! "type")).bind (strOf env) with
    | none => .ub .nullDeref
    | some ty =>
      if ty = bs! "alternative" then
        match conf.ptr (bs! "parser") with
        | some (.arr l) =>
          -- `*nextnode` is not written in this mode
          (addParsersLoop env rec true l b dag next next).bind fun (b, r) => .ok (b, r)
        | _ => .ok (b, none)
      else (addInstance env rec b conf dag next).bind fun (b, r) =>
        .ok (b, r.map fun nx => (if alt then dag else nx, nx))
  | .arr l => addParsersLoop env rec false l b dag next next
  | _ => .ok (b, none)

/-- recursion depth bounded by `fuel` -/
def addF (env : Env) : (fuel : Nat) → AddRec
  | 0 => fun _ _ _ _ _ => .oof
  | n + 1 => addStep env (addF env n)

mutual
/-- nesting depth of a JSON value: bounds the recursion of `ln_pdagAddParserInternal` -/
def Json.depth : Json → Nat
  | .arr l => Json.depthArr l + 1
  | .obj o => Json.depthObj o + 1
  | _ => 1
def Json.depthArr : List Json → Nat
  | [] => 0
  | a :: as => max (Json.depth a) (Json.depthArr as)
def Json.depthObj : List (Bytes × Json) → Nat
  | [] => 0
  | (_, a) :: as => max (Json.depth a) (Json.depthObj as)
end

/-- pdag.c:990-1000 `ln_pdagAddParser`: new `*pdag`, none = error. -/
def addParser (env : Env) (b : Bld) (dag : NodeId) (conf : Json) : R (Bld × Option NodeId) :=
  (addF env conf.depth b dag false conf 0).bind fun (b, r) => .ok (b, r.map (·.1))

/-- samp.c:363-373, the part of `addSampToTree` that works on the graph: the parsers of a rule are
added one after the other, `dag` moving along; none = error (what was added stays). -/
def addSeq (env : Env) : List Json → Bld → NodeId → R (Bld × Option NodeId)
  | [], b, dag => .ok (b, some dag)
  | c :: cs, b, dag => (addParser env b dag c).bind fun (b, r) =>
    match r with
    | none => .ok (b, none)
    | some dag => addSeq env cs b dag

/-- samp.c:350-385 `addSampToTree`; `confs` are the parsers the rule text denotes, `complete` = the
text was understood up to its end (see Model/Samp.lean). The caller ignores the return
code. The old tags of the node are overwritten. -/
def addSamp (env : Env) (b : Bld) (dag : NodeId) (confs : List Json) (complete : Bool)
    (tags : Option (List Bytes)) (file : Bytes) (line : Nat) : R Bld :=
  (addSeq env confs b dag).bind fun (b, r) =>
    match r with
    | none => .ok b
    | some e =>
      if complete then (b.load e).bind fun nd =>
        .ok (b.store e { nd with isTerminal := true, tags := tags, rbFile := some file
                                 rbLine := line })
      else .ok b

/-! ### Optimiser -/

/-- the kind of a compacted literal (parser.c:1493-1506 `ln_combineData_Literal`); NULL data crashes -/
def combineLiteral (d d' : Option Bytes) : R PKind :=
  match d, d' with
  | some l, some l' => .ok (.literal (some (l ++ l')))
  | _, _ => .ub .nullDeref

/-- pdag.c:352-362: the condition of `optLitPathCompact`; some = compact, with the two literals
and the node behind the second one. The conditions are evaluated left to right. -/
def compactable (b : Bld) (p : Parser) : R (Option (Option Bytes × Option Bytes × NodeId)) :=
  match p.kind, p.name with
  | .literal d, none => (b.load p.node).bind fun v =>
    if v.isTerminal || v.refcnt != 1 then .ok none
    else match v.parsers with
      | [c] => match c.kind, c.name with
        | .literal d', none => (b.load c.node).bind fun w =>
          if w.refcnt = 1 then .ok (some (d, d', c.node)) else .ok none
        | _, _ => .ok none
      | _ => .ok none
  | _, _ => .ok none

/-- replace entry `i` of the parser table of node `n` -/
def setParser (b : Bld) (n : NodeId) (i : Nat) (p : Parser) : R Bld :=
  (b.load n).bind fun nd => .ok (b.store n { nd with parsers := nd.parsers.set i p })

/-- pdag.c:345-375 `optLitPathCompact`, the loop, for entry `i` of node `n` (`prs` points there):
take over the literal and the successor of the child, clear the child's successor and delete the
node between. -/
def compactLoop (n : NodeId) (i : Nat) : (fuel : Nat) → Bld → R Bld
  | 0, _ => .oof
  | fuel + 1, b => (b.load n).bind fun nd =>
    match nd.parsers[i]? with
    | none => .ok b
    | some p => (compactable b p).bind fun r =>
      match r with
      | none => .ok b
      | some (d, d', w) => (combineLiteral d d').bind fun k =>
        (setParser b n i { p with kind := k, node := w }).bind fun b =>
        (b.load p.node).bind fun v =>
        (pdagDelete (b.store p.node { v with parsers := v.parsers.map fun c => { c with node := 0 } })
          p.node).bind fun b => compactLoop n i fuel b

/-- `qsort` with `qsort_parserCmp` (pdag.c:378-384): some permutation of the array, ordered by
priority whenever the comparison function does not overflow (the subtraction of the priorities
fits an `int`). The C standard says nothing about the order of equal elements. -/
structure Sorter where
  sort : List Parser → List Parser
  perm : ∀ l, (sort l).Perm l
  sorted : ∀ l, (∀ p ∈ l, ∀ q ∈ l, p.prio - q.prio ≤ 2147483647 ∧ -2147483648 ≤ p.prio - q.prio) →
    (sort l).Pairwise fun p q => p.prio ≤ q.prio

/-- pdag.c:401-414: the loop over the parsers of node `n`, `i` = index, `k` entries to go. The entry is
modified in place. Literals whose data is NULL crash when the literal text is displayed (line 409
in debug mode, always in `ln_pdagComponentSetIDs`, line 490). -/
def optLoop (rec : Bld → NodeId → R Bld) (n : NodeId) : (k i : Nat) → Bld → R Bld
  | 0, _, b => .ok b
  | k + 1, i, b => (b.load n).bind fun nd =>
    match nd.parsers[i]? with
    | none => .ok b
    | some p =>
      if p.kind matches .literal none then .ub .nullDeref
      else (compactLoop n i (b.next + 1) b).bind fun b => (b.load n).bind fun nd =>
        match nd.parsers[i]? with
        | none => .ok b
        | some p => (rec b p.node).bind fun b => optLoop rec n k (i + 1) b

/-- pdag.c:386-417 `ln_pdagComponentOptimize`: sort, then compact and recurse. Sub-graphs of
`repeat` are not visited. -/
def optimizeF (srt : Sorter) : (fuel : Nat) → Bld → NodeId → R Bld
  | 0, _, _ => .oof
  | fuel + 1, b, n => (b.load n).bind fun nd =>
    let nd := if nd.parsers.length > 1 then { nd with parsers := srt.sort nd.parsers } else nd
    optLoop (optimizeF srt fuel) n nd.parsers.length 0 (b.store n nd)

/-- `ln_pdagComponentOptimize` with sufficient depth -/
def optimizeNode (srt : Sorter) (b : Bld) (n : NodeId) : R Bld := optimizeF srt (b.next + 1) b n

/-- pdag.c:520-528: all types, then the main graph. (`ln_pdagComponentSetIDs`, which assigns display names, is modelled as far
as it crashes, see `optLoop`.) -/
def optimizeAll (srt : Sorter) (b : Bld) : R Bld :=
  ((b.types.map (·.2)).foldlM (optimizeNode srt) b).bind fun b => optimizeNode srt b b.root

/-- pdag.c:999-1038 `ln_displayPDAGComponent`: the walk through the graph, which is done whether or not anything is printed. A `repeat`
without data crashes (line 1029). Output is not modelled. (Its sister `ln_displayPDAGComponentAlternative`, pdag.c:1041-1055, walks through a part of the
same nodes and looks at nothing else.) -/
def displayF : (fuel : Nat) → Bld → NodeId → R Unit
  | 0, _, _ => .oof
  | fuel + 1, b, n => (b.load n).bind fun nd => nd.parsers.foldlM (fun _ p =>
      if p.kind matches .repeat_ none then .ub .nullDeref
      else (p.kind.refs ++ [p.node]).foldlM (fun _ m => displayF fuel b m) ()) ()

/-- pdag.c:1062-1076 `ln_displayPDAG`: all types, then the main graph -/
def displayAll (b : Bld) : R Unit := (b.types.map (·.2) ++ [b.root]).foldlM (fun _ n => displayF (b.next + 1) b n) ()

/-- pdag.c:466-508 `ln_pdagComponentSetIDs`, which gives names to the nodes, as far as it can crash: the text of a literal is needed (lines 487, 494).
The names, and how they are changed when a node is reached again (which does not influence the walk), are `setIdF` in Model/Report.lean. -/
def nameF : (fuel : Nat) → Bld → NodeId → R Unit
  | 0, _, _ => .oof
  | fuel + 1, b, n => (b.load n).bind fun nd => nd.parsers.foldlM (fun _ p =>
      if p.kind matches .literal none then .ub .nullDeref else nameF fuel b p.node) ()

/-- pdag.c:523, 529: the names for all graphs (there, for each graph right after it has been optimised) -/
def nameAll (b : Bld) : R Unit := (b.types.map (·.2) ++ [b.root]).foldlM (fun _ n => nameF (b.next + 1) b n) ()

/-- pdag.c:515-534 `ln_pdagOptimize` -/
def pdagOptimize (srt : Sorter) (b : Bld) : R Bld :=
  (optimizeAll srt b).bind fun b => (nameAll b).bind fun _ => (displayAll b).bind fun _ => .ok b

/-! ### Context -/

/-- liblognorm.c:60-94 `ln_initCtx` -/
def initBld : Bld :=
  let (b, n) := ({} : Bld).newPDAG
  { b with root := n }

/-- liblognorm.c:103-131 `ln_exitCtx`: delete main graph and types. -/
def exitBld (b : Bld) : R Bld :=
  (b.root :: b.types.map (·.2)).foldlM pdagDelete b

/-- the matching engine's view of the graph -/
def Bld.toCtx (b : Bld) (opts : Nat) (annots : List Annot) : Ctx where
  node n := (b.heap n).getD {}
  root := b.root
  types := b.types
  opts := opts
  annots := annots

end LN
