import Verif.Model.Pdag
/-
The version 1 engine: v1_ptree.c (tree of literals and fields, its construction and the normaliser).

The tree is a value: in C each node has exactly one owner (`parentptr`), and the functions change it in place; here they
return the changed tree, and what is done with the node returned by `ln_buildPTree` is a continuation.
The parsers of v1_parser.c are a parameter (`V1Run`). Compiled with NDEBUG, as the library is by default.
Not modelled: statistics counters, running out of memory, messages and trees larger than an `int`.
-/
set_option autoImplicit false
namespace LN

/-- the parser functions of v1_parser.c, but `ln_parseRest` -/
inductive V1Fn where
  | date3164 | date5424 | number | float | hexnumber | kernelTs | whitespace | ipv4 | ipv6 | word | alpha | opQuoted | quoted | dateIso
  | time24 | time12 | duration | cisco | json | cee | mac48 | nameValue | cef | lea | v2iptables | stringTo | charTo | charSep | tokenized
  | recursive | interpret | suffixed
  deriving DecidableEq, Repr

/-- which function `ln_fieldList_t.parser` points to; `iptables`: `isIPTables` is set -/
inductive V1Prs where
  | iptables
  | rest
  /-- one of the other parsers -/
  | fn (f : V1Fn)
  deriving DecidableEq, Repr

/-- Contexts of a version 1 rulebase. What is in a context made for a field depends on nothing but the text it is made of
(v1_parser.c:1155-1169 `generate_context_with_field_as_prefix`, 977-1000 `child_recursive_parse_ctx_constructor`), so that this text
stands for it. -/
inductive V1CtxId where
  /-- the one the user has made -/
  | root
  /-- made for a field of this description -/
  | gen (descr : Bytes)
  /-- made for a `descent` field, from this file -/
  | file (name : Bytes)
  deriving DecidableEq, Repr

/-- v1_parser.c:1416-1422 -/
inductive V1Interp where
  | int10 | int16 | float | bool
  deriving DecidableEq, Repr

/-- `parser_data` -/
inductive V1Data where
  /-- v1_parser.c:886-890 `struct recursive_parser_data_s` -/
  | recursive (ctx : V1CtxId) (remaining : Bytes)
  /-- v1_parser.c:1029-1035 `struct tokenized_parser_data_s`; `ctx` none = NULL -/
  | tokenized (tok : Bytes) (ctx : Option V1CtxId) (useDefault : Bool) (remaining : Bytes)
  /-- v1_parser.c:1424-1427 `struct interpret_parser_data_s` -/
  | interpret (ctx : V1CtxId) (ty : V1Interp)
  /-- v1_parser.c:1575-1583 `struct suffixed_parser_data_s` -/
  | suffixed (ctx : V1CtxId) (sufs : List Bytes) (valueName suffixName : Bytes)
  deriving DecidableEq, Repr

/-- v1_ptree.h:54-65 `struct ln_fieldList_s` -/
structure V1Field where
  name : Bytes
  prs : V1Prs
  /-- `raw_data`; none = NULL -/
  raw : Option Bytes := none
  /-- `parser_data` (what the constructor made of the descriptor); none = NULL -/
  pdata : Option V1Data := none
  deriving DecidableEq

/-- v1_ptree.h:70-96 `struct ln_ptree`: common prefix, terminal flag, tags, list of fields, table of subtrees -/
inductive PTree where
  | node (pfx : Bytes) (terminal : Bool) (tags : Option (List Bytes)) (fields : List (V1Field × PTree)) (subs : List (UInt8 × PTree))

namespace PTree
def pfx : PTree → Bytes | .node p _ _ _ _ => p
def terminal : PTree → Bool | .node _ b _ _ _ => b
def tags : PTree → Option (List Bytes) | .node _ _ t _ _ => t
def fields : PTree → List (V1Field × PTree) | .node _ _ _ f _ => f
def subs : PTree → List (UInt8 × PTree) | .node _ _ _ _ s => s

/-- v1_ptree.c:58-70 `ln_newPTree` -/
def empty : PTree := .node [] false none [] []
end PTree

/-- `tree->subtree[c]` -/
def subGet (l : List (UInt8 × PTree)) (c : UInt8) : Option PTree :=
  match l with
  | [] => none
  | (d, t) :: l => if d = c then some t else subGet l c

/-- `tree->subtree[c] = t` -/
def subSet (l : List (UInt8 × PTree)) (c : UInt8) (t : PTree) : List (UInt8 × PTree) :=
  match l with
  | [] => [(c, t)]
  | (d, t') :: l => if d = c then (d, t) :: l else (d, t') :: subSet l c t

/-- replace the prefix -/
def PTree.withPfx (t : PTree) (p : Bytes) : PTree := .node p t.terminal t.tags t.fields t.subs
/-- change the table of subtrees -/
def PTree.withSub (t : PTree) (c : UInt8) (t' : PTree) : PTree := .node t.pfx t.terminal t.tags t.fields (subSet t.subs c t')

/-- v1_ptree.c:120-140 `setPrefix`: the length is an `unsigned short`; so many bytes are copied from the *beginning* of
the buffer `buf`, whatever `offs` -/
def storePfx (buf : Bytes) (offs : Nat) : Bytes := buf.take ((buf.length - offs) % 65536)

/-- v1_ptree.c:148-164 `isLeaf`, 173-177 `isTrueLeaf` -/
def PTree.isTrueLeaf (t : PTree) : Bool := t.pfx.isEmpty && t.fields.isEmpty && t.subs.isEmpty && !t.terminal

/-- v1_ptree.c:180-220 `ln_addPTree`, with `k` done to the node returned -/
def addPTree (t : PTree) (str : Bytes) (offs : Nat) (k : PTree → PTree) : PTree :=
  if t.isTrueLeaf then k (t.withPfx (storePfx str offs))
  else
    match str[offs]? with
    | none => t
    | some c => t.withSub c (k (.node (storePfx (str.drop (offs + 1)) 0) false none [] []))

/-- v1_ptree.c:234-287 `splitTree`: a new node with the first `offs` bytes of the prefix is put in front -/
def splitTree (t : PTree) (offs : Nat) : PTree :=
  match t.pfx[offs]? with
  | none => t
  | some c => .node (t.pfx.take offs) false none [] [(c, t.withPfx (t.pfx.drop (offs + 1)))]

/-- number of equal bytes at the beginning -/
def commonLen : Bytes → Bytes → Nat
  | a :: s, b :: p => if a = b then commonLen s p + 1 else 0
  | _, _ => 0

/-- v1_ptree.c:290-356 `ln_buildPTree`, with `k` done to the node returned. `n` bounds the depth of recursion;
each level uses up a byte of `str`. -/
def buildPTreeN (str : Bytes) (k : PTree → PTree) : (n : Nat) → PTree → (offs : Nat) → PTree
  | 0, t, _ => t
  | n + 1, t, offs =>
    let m := commonLen (str.drop offs) t.pfx
    let i := offs + m
    if i = str.length then
      if m = t.pfx.length then k t
      else k (splitTree t m)
    else if m < t.pfx.length then addPTree (splitTree t m) str i k
    else
      match str[i]? with
      | none => t
      | some c =>
        match subGet t.subs c with
        | none => addPTree t str i k
        | some t' => t.withSub c (buildPTreeN str k n t' (i + 1))

/-- v1_ptree.c:290-356 `ln_buildPTree(tree, str, 0)` -/
def buildPTree (t : PTree) (str : Bytes) (k : PTree → PTree) : PTree := buildPTreeN str k (str.length + 1) t 0

/-- v1_ptree.c:377-388: when is a field merged with one which is there already? `parser_data` is not compared. -/
def V1Field.same (a b : V1Field) : Bool := a.name == b.name && a.prs == b.prs && a.raw == b.raw

/-- v1_ptree.c:359-403 `ln_addFDescrToPTree`, with `k` done to the subtree -/
def addFieldTo (l : List (V1Field × PTree)) (f : V1Field) (k : PTree → PTree) : List (V1Field × PTree) :=
  match l with
  | [] => [(f, k .empty)]
  | (g, t) :: l => if g.same f then (g, k t) :: l else (g, t) :: addFieldTo l f k

/-- v1_ptree.c:359-403 `ln_addFDescrToPTree` -/
def addFDescr (t : PTree) (f : V1Field) (k : PTree → PTree) : PTree :=
  .node t.pfx t.terminal t.tags (addFieldTo t.fields f k) t.subs

/-- a sample: literal, then fields each followed by a literal -/
structure V1Sample where
  lit : Bytes
  rest : List (V1Field × Bytes) := []
  tags : Option (List Bytes) := none
  /-- false: a malformed field follows; v1_samp.c:378 gives up there -/
  complete : Bool := true
  deriving DecidableEq

/-- v1_samp.c:370-403 `addSampToTree`, the loop -/
def addSegs (fin : PTree → PTree) : List (V1Field × Bytes) → Bytes → PTree → PTree
  | [], lit, t => buildPTree t lit fin
  | (f, l) :: rest, lit, t => buildPTree t lit fun t => addFDescr t f (addSegs fin rest l)

/-- v1_samp.c:396-397: mark the end -/
def markTerminal (tags : Option (List Bytes)) (t : PTree) : PTree := .node t.pfx true tags t.fields t.subs

/-- v1_samp.c:370-403 `addSampToTree` -/
def addSample (t : PTree) (x : V1Sample) : PTree :=
  addSegs (if x.complete then markTerminal x.tags else id) x.rest x.lit t

/-- all samples of a rulebase, in order -/
def loadV1 (xs : List V1Sample) : PTree := xs.foldl addSample .empty

/-! ### normalising -/

/-- a parser of v1_parser.c: number of bytes consumed, and `*value`; `fail`: it does not match -/
def V1Run := V1Field → Bytes → Nat → R (Nat × Option Json)

/-- what `*endNode` points to, and the json object -/
structure V1St where
  /-- none = NULL; terminal flag and tags of the node -/
  en : Option (Bool × Option (List Bytes)) := none
  json : Obj

/-- one name of the iptables parser, its value and what follows -/
def iptPair (s : Bytes) : Bytes × Bytes × Bytes :=
  let s := s.dropWhile isSpace
  let name := s.takeWhile fun c => !isSpace c && c != ch! '='
  match s.drop name.length with
  | c :: s' =>
    if c = ch! '=' then (name, s'.takeWhile (fun c => !isSpace c), s'.dropWhile (fun c => !isSpace c))
    else (name, bs! "[*PRESENT*]", c :: s')
  | [] => (name, bs! "[*PRESENT*]", [])

/-- v1_ptree.c:590-623, loop of `ln_iptablesParser`; each round uses up a byte -/
def iptLoop : Nat → Bytes → Obj → Obj
  | 0, _, o => o
  | n + 1, s, o =>
    if s = [] then o
    else
      let p := iptPair s
      iptLoop n p.2.2 (Obj.add o (cstr p.1) (.str (cstr p.2.1)))

/-- v1_ptree.c:746-762, 823-839: store the value of a field, unless it is called `-`; the name
is used as C string (`ln_es_str2cstr`) -/
def v1Store (f : V1Field) (s : Bytes) (i len : Nat) (v : Option Json) (o : Obj) : Obj :=
  if f.name = bs! "-" then o else Obj.add o (cstr f.name) (v.getD (newString (slice s i len)))

/-- `left == 0 && (*endNode)->flags.isTerminal` -/
def v1Hit (left : Int) (st : V1St) : R Bool :=
  if left = 0 then
    match st.en with
    | none => .ub .nullDeref
    | some e => .ok e.1
  else .ok false

/-- result of the loop over the fields -/
inductive V1Loop where
  /-- a field and what follows it matched -/
  | hit (st : V1St)
  /-- none did: `r`, `restMotifNode`, `i` -/
  | miss (r : Int) (rest : Option (V1Field × PTree)) (i : Nat) (st : V1St)

/-- conversion to `size_t` -/
def sizeT (n : Nat) : Nat := n % 2 ^ 64

/-- v1_ptree.c:700-782, loop over the fields; `rec` = `ln_v1_normalizeRec` -/
def v1Fields (run : V1Run) (s : Bytes) (rec : PTree → Nat → V1St → R (Int × V1St)) (offs : Nat) :
    List (V1Field × PTree) → Int → Option (V1Field × PTree) → Nat → V1St → R V1Loop
  | [], r, rest, i, st => .ok (.miss r rest i st)
  | (f, t) :: l, r, rest, _, st =>
    match f.prs with
    | .iptables =>
      if offs = s.length then v1Fields run s rec offs l r rest offs st
      else
        (rec t s.length { st with json := iptLoop s.length (s.drop offs) st.json }).bind fun (left, st) =>
        (v1Hit left st).bind fun h =>
          if h then .ok (.hit st) else v1Fields run s rec offs l (if left < r then left else r) rest s.length st
    | .rest => v1Fields run s rec offs l r (some (f, t)) offs st
    | .fn _ =>
      match run f s offs with
      | .fail => v1Fields run s rec offs l r rest offs st
      | .ub k => .ub k
      | .oof => .oof
      | .ok (len, v) =>
        (rec t (sizeT (offs + len)) st).bind fun (left, st) =>
        (v1Hit left st).bind fun h =>
          if h then .ok (.hit { st with json := v1Store f s offs len v st.json })
          else v1Fields run s rec offs l (if 0 < left ∧ left < r then left else r) rest offs st

/-- v1_ptree.c:683-690: how many bytes of the message are equal to the prefix. The message consists of `char`, which is signed
(on most platforms, and here), the prefix of `unsigned char`: bytes from 128 on are never equal. -/
def cmpLen : Bytes → Bytes → Nat
  | a :: s, b :: p => if a = b ∧ a < 128 then cmpLen s p + 1 else 0
  | _, _ => 0

/-- v1_ptree.c:796-804: the subtree of the next character -/
def v1Lit (rec : PTree → Nat → V1St → R (Int × V1St)) (sub : Option PTree) (offs : Nat) (r : Int) (st : V1St) : R (Int × V1St) :=
  match sub with
  | none => .ok (r, st)
  | some t' => (rec t' (offs + 1) st).bind fun (left, st) => .ok (if left < r then left else r, st)

/-- v1_ptree.c:812-843: `rest`, if there is such a field -/
def v1Rest (s : Bytes) (rec : PTree → Nat → V1St → R (Int × V1St)) (rest : Option (V1Field × PTree)) (i : Nat) (r : Int) (st : V1St) :
    R (Int × V1St) :=
  match rest with
  | none => .ok (r, st)
  | some (f, t') => (rec t' s.length st).bind fun (_, st) => .ok (0, { st with json := v1Store f s i (s.length - i) none st.json })

/-- v1_ptree.c:784-843: when no field matched -/
def v1After (s : Bytes) (rec : PTree → Nat → V1St → R (Int × V1St)) (t : PTree) (offs : Nat) : V1Loop → R (Int × V1St)
  | .hit st => .ok (0, st)
  | .miss r rest i st =>
    match s[offs]? with
    | none => .ok (0, { st with en := some (t.terminal, t.tags) })
    | some c =>
      (v1Lit rec (subGet t.subs c) offs r st).bind fun (r, st) =>
      (v1Hit r st).bind fun h => if h then .ok (0, st) else v1Rest s rec rest i r st

/-- v1_ptree.c:650-850 `ln_v1_normalizeRec`: return value and state. `fuel` bounds the depth (the depth of the tree suffices). -/
def v1Rec (run : V1Run) (s : Bytes) : (fuel : Nat) → PTree → Nat → V1St → R (Int × V1St)
  | 0, _, _, _ => .oof
  | fuel + 1, t, offs, st =>
    -- 668-673
    if s.length ≤ offs then .ok (-(t.pfx.length : Int), { st with en := some (t.terminal, t.tags) })
    else
      -- 680-697: the prefix
      let m := cmpLen (s.drop offs) t.pfx
      if m < t.pfx.length then
        if offs + m < s.length then .ok ((s.length : Int) - offs - m, st)
        else .ok ((m : Int) - t.pfx.length, st)
      else
        (v1Fields run s (v1Rec run s fuel) (offs + m) t.fields ((s.length : Int) - (offs + m : Nat)) none (offs + m) st).bind
          (v1After s (v1Rec run s fuel) t (offs + m))

/-- v1_ptree.c:532-555 `addUnparsedField`: works on a copy of the message up to the first NUL -/
def v1Unparsed (s : Bytes) (offs : Int) (o : Obj) : R Obj :=
  let z := cstr s
  let o := Obj.add o (bs! "originalmsg") (.str z)
  if offs < 0 ∨ (z.length : Int) < offs then .ub .oobRead
  else .ok (Obj.add o (bs! "unparsed-data") (.str (z.drop offs.toNat)))

/-- what `ln_v1_normalize` delivers; the return code is 0 in any case -/
structure V1Res where
  matched : Bool
  json : Obj
  deriving DecidableEq

/-- v1_ptree.c:853-896 `ln_v1_normalize` -/
def v1Normalize (run : V1Run) (annots : List Annot) (fuel : Nat) (t : PTree) (s : Bytes) (json0 : Obj) : R V1Res :=
  (v1Rec run s fuel t 0 { json := json0 }).bind fun (left, st) =>
  (v1Hit left st).bind fun h =>
    if h then
      match st.en with
      | some (_, some ts) =>
        (annotate annots (Obj.add st.json (bs! "event.tags") (.arr (ts.map Json.str))) ts).bind fun o => .ok ⟨true, o⟩
      | _ => .ok ⟨true, st.json⟩
    else
      (v1Unparsed s (if left < 0 then s.length else s.length - left) st.json).bind fun o => .ok ⟨false, o⟩

end LN
