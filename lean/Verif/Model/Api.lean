import Verif.Model.Samp
import Verif.Model.V1Samp
/-
The API layer: liblognorm.c:38-190 and the message functions of lognorm.c:50-137.

A program holds handles (pointers). What a handle points to is a live context, some other object
whose first word is `magic`, or memory which has been freed.

Simplifications: one call runs to its end before the next one starts (callbacks do not call the API);
the number of trace messages sent to the debug callback and the number of error messages of the version 1 loader are
parameters (`World`), since these statements are not modelled; if a file is not found although `LIBLOGNORM_RULEBASES` names a directory,
the second message (samp.c:1116) is not counted; `ln_initCtx` never runs out of memory.
-/
set_option autoImplicit false
namespace LN

/-- lognorm.h:39 `LN_ObjID_CTX` -/
def objIdCtx : UInt32 := 0xFEFE0001
/-- lognorm.h:38 `LN_ObjID_None`: the same value -/
def objIdNone : UInt32 := 0xFEFE0001

/-- a registered callback: function (none = NULL) and cookie -/
structure CbReg where
  cb : Option Nat := none
  cookie : Nat := 0
  deriving DecidableEq

/-- lognorm.h:46-78 `struct ln_ctx_s` -/
structure CtxCell where
  dbg : CbReg := {}
  err : CbReg := {}
  opts : UInt32 := 0
  debug : Bool := false
  ld : LoadSt := {}
  /-- `ptree`: the samples of a version 1 rulebase in the tree -/
  tree : List V1Sample := []
  stats : NodeId → Stats := fun _ => {}

/-- what a handle points to -/
inductive Cell where
  /-- nothing was ever there -/
  | none
  /-- a context -/
  | live (c : CtxCell)
  /-- an object of another kind, with this first word -/
  | other (magic : UInt32)
  /-- a context which was deleted; `b` is what remains of its graph -/
  | freed (b : Bld)

/-- one message handed to a callback -/
structure Delivery where
  /-- error message (true) or debug message -/
  isErr : Bool
  cb : Nat
  cookie : Nat
  deriving DecidableEq

/-- what the caller of the API sees -/
structure Reply where
  /-- return code; 0 = success. -1 = rejected, 1 = another failure -/
  rc : Int := 0
  /-- `*json_p` after `ln_normalize` -/
  json : Option Obj := Option.none
  out : List Delivery := []
  deriving DecidableEq

/-- calls which take a context -/
inductive ApiOp where
  /-- `ln_setCtxOpts` -/
  | setOpts (o : UInt32)
  /-- `ln_enableDebug` -/
  | enableDebug (i : Nat)
  /-- `ln_setDebugCB` -/
  | setDebugCB (r : CbReg)
  /-- `ln_setErrMsgCB` -/
  | setErrMsgCB (r : CbReg)
  /-- `ln_loadSamples` -/
  | loadSamples (file : Bytes)
  /-- `ln_loadSamplesFromString` -/
  | loadString (text : Bytes)
  /-- `ln_normalize` -/
  | normalize (msg : Bytes) (json0 : Obj)
  /-- `ln_exitCtx` -/
  | exit
  deriving DecidableEq

/-- the environment of the library -/
structure World where
  env : Env
  srt : Sorter
  /-- what `fopen` finds under a name -/
  disk : Bytes → Option Bytes
  /-- the environment variable `LIBLOGNORM_RULEBASES` -/
  rulebases : Option Bytes
  fuel : Nat
  /-- `V1Env.toDbl`, `V1Env.truth` -/
  toDbl : Option Json → Bytes
  truth : Option Json → Bool
  /-- number of error messages while the version 1 loader reads a text -/
  v1errs : V1Load → Bytes → Nat
  /-- number of trace messages during this call -/
  traces : CtxCell → ApiOp → Nat

/-- samp.c:1106-1108: name of a file in the rulebase directory. `rb_lib[strlen(rb_lib)-1]` of an empty value is the `=` in front of it. -/
def expandName (dir name : Bytes) : Bytes := if dir.getLast? = some (ch! '/') then dir ++ name else dir ++ ch! '/' :: name

/-- samp.c:1087-1124 `tryOpenRBFile` -/
def World.fs (w : World) (name : Bytes) : Option Bytes :=
  match w.disk name with
  | some c => some c
  | none =>
    match w.rulebases with
    | none => none
    | some dir => if name.head? = some (ch! '/') then none else w.disk (expandName dir name)

/-- what the version 1 engine uses; the files of `descent` fields are opened by `ln_v1_loadSamples` (v1_parser.c:984), that is under the name given -/
def World.v1Env (w : World) : V1Env := { env := w.env, toDbl := w.toDbl, truth := w.truth, files := w.disk }

/-- the rules in a context: those of version 2, and the tree of version 1 -/
abbrev CtxRules := LoadSt × List V1Sample

/-- samp.c:1073-1085 `doOldCruft` with v1_liblognorm.c:73-107 `ln_v1_loadSamples`: a new tree replaces the one which is there; prefix and annotations
(`rulePrefix`, `pas`) are those of the context; the file is opened once more, under the name given. The flag is the return code 0. -/
def oldCruft (w : World) (ld : LoadSt) (name : Bytes) : R (CtxRules × Bool) :=
  match w.disk name with
  | none => .ok ((ld.err .open_, []), false)
  | some text =>
    let st : V1Load := { annots := ld.annots, rulePrefix := ld.rulePrefix }
    (v1LoadText w.v1Env .root w.fuel st text).bind fun L =>
      .ok (({ ld with annots := L.annots, rulePrefix := L.rulePrefix, errs := ld.errs ++ List.replicate (w.v1errs st text) .v1 }, L.xs), true)

/-- liblognorm.c:158-173 `ln_loadSamples`, samp.c:1126-1168 `ln_sampLoad`; `LN.loadSamples` ends in version 1 exactly if the file is of version 1 and acceptable -/
def ctxLoad (w : World) (r : CtxRules) (name : Bytes) : R (CtxRules × Bool) :=
  (LN.loadSamples w.env w.srt w.fs w.fuel r.1 name).bind fun (ld, ok) =>
    if ok ∧ ld.version = 1 then oldCruft w ld name else .ok ((ld, r.2), ok)

/-- lognorm.c:57-82 `ln_dbgprintf` -/
def dbgPrintf (c : CtxCell) : List Delivery :=
  match c.dbg.cb with
  | none => []
  | some f => [⟨false, f, c.dbg.cookie⟩]

/-- lognorm.c:92-137 `ln_errprintf` (133: the cookie is that of the debug callback) -/
def errPrintf (c : CtxCell) : List Delivery :=
  match c.err.cb with
  | none => []
  | some f => ⟨true, f, c.dbg.cookie⟩ :: dbgPrintf c

/-- what is delivered while `errs` is grown to `errs'`, with `n` trace messages -/
def deliver (c : CtxCell) (errs errs' : List LoadErr) (n : Nat) : List Delivery :=
  (errs'.drop errs.length).flatMap (fun _ => errPrintf c) ++ (List.replicate n (dbgPrintf c)).flatten

/-- 38-42 `CHECK_CTX`: does the function check its handle? `ln_setCtxOpts` (98-100), `ln_enableDebug`
(lognorm.c:139-143) and `ln_normalize` (pdag.c:1622) don't. -/
def ApiOp.checks : ApiOp → Bool
  | .setOpts _ => false
  | .enableDebug _ => false
  | .normalize _ _ => false
  | _ => true

/-- a call for a live context -/
def ApiOp.onCtx (w : World) (c : CtxCell) (op : ApiOp) : R (Cell × Reply) :=
  let tr := w.traces c op
  match op with
  -- liblognorm.c:98-100
  | .setOpts o => .ok (.live { c with opts := c.opts ||| o }, {})
  -- lognorm.c:139-143
  | .enableDebug i => .ok (.live { c with debug := i % 2 = 1 }, {})
  -- liblognorm.c:133-143
  | .setDebugCB r => .ok (.live { c with dbg := r }, {})
  -- liblognorm.c:146-156
  | .setErrMsgCB r => .ok (.live { c with err := r }, {})
  -- liblognorm.c:158-173
  | .loadSamples f => (ctxLoad w (c.ld, c.tree) f).bind fun (r, ok) =>
      .ok (.live { c with ld := r.1, tree := r.2 }, { rc := if ok then 0 else 1, out := deliver c c.ld.errs r.1.errs tr })
  -- liblognorm.c:175-190
  | .loadString s => (loadSamplesFromString w.env w.srt w.fs w.fuel c.ld s).bind fun (ld, ok) =>
      .ok (.live { c with ld := ld }, { rc := if ok then 0 else 1, out := deliver c c.ld.errs ld.errs tr })
  -- pdag.c:1622-1717; version 1: v1_ptree.c:853-896, which returns 0 in any case
  | .normalize msg json0 =>
    if c.ld.version = 1 then
      (v1NormN w.v1Env { xs := c.tree, annots := c.ld.annots, rulePrefix := c.ld.rulePrefix } w.fuel .root msg json0).bind fun r =>
        .ok (.live c, { rc := 0, json := some r.json, out := deliver c [] [] tr })
    else
      (LN.normalize w.env w.fuel (c.ld.b.toCtx c.opts.toNat c.ld.annots) c.stats msg json0).bind fun r =>
        .ok (.live { c with stats := r.stats }, { rc := if r.ok then 0 else 1, json := some r.json, out := deliver c [] [] tr })
  -- liblognorm.c:103-130; 110 sends a debug message
  | .exit => (exitBld c.ld.b).bind fun b => .ok (.freed b, { out := deliver c [] [] (tr + 1) })

/-- a call. An object which is not a context is told apart by its first word only, and only where the function checks
it; reading a freed or wild handle is undefined behaviour. -/
def ApiOp.onCell (w : World) (op : ApiOp) : Cell → R (Cell × Reply)
  | .live c => op.onCtx w c
  | .other m => if op.checks ∧ m ≠ objIdCtx then .ok (.other m, { rc := -1 }) else .ub .oobRead
  | .freed _ => .ub .useAfterFree
  | .none => .ub .nullDeref

/-- all objects of the program -/
structure Api where
  cells : Nat → Cell
  /-- the next handle which is given out -/
  next : Nat

/-- a call of the API -/
inductive ApiCall where
  /-- `ln_initCtx` -/
  | init
  | on (h : Nat) (op : ApiOp)

/-- replace an object -/
def Api.set (a : Api) (h : Nat) (c : Cell) : Api := { a with cells := fun k => if k = h then c else a.cells k }

/-- liblognorm.c:60-95 `ln_initCtx`; other calls -/
def ApiCall.run (w : World) (a : Api) : ApiCall → R (Api × Reply)
  | .init => .ok ({ (a.set a.next (.live {})) with next := a.next + 1 }, {})
  | .on h op => (op.onCell w (a.cells h)).bind fun (c, r) => .ok (a.set h c, r)

/-- a history of calls, with all replies -/
def runApi (w : World) : Api → List ApiCall → R (Api × List Reply)
  | a, [] => .ok (a, [])
  | a, c :: cs => (c.run w a).bind fun (a, r) => (runApi w a cs).bind fun (a, rs) => .ok (a, r :: rs)

/-! ### texts of messages -/

/-- `snprintf` into a buffer of `size` bytes: contents as a C string, and the return value -/
def snprintfTo (size : Nat) (full : Bytes) : Bytes × Nat := (full.take (size - 1), full.length)

/-- lognorm.c:65-77, 104-116: `vsnprintf` into the buffer of 8192 bytes; a text which does not fit is cut and marked -/
def fmtBuf (full : Bytes) : Bytes × Nat :=
  let (buf, len) := snprintfTo 8192 full
  if len ≥ 8192 then (buf.take (8192 - 5) ++ bs! "...\n", 8192 - 1) else (buf, len)

/-- the text and the length handed to the debug callback -/
def dbgText (full : Bytes) : Bytes × Nat := fmtBuf full

/-- lognorm.c:117-133: text and length handed to the error callback. `eno`: description of the
error code, if there is one (at most 1023 bytes); `loc`: file name and line number, rendered -/
def errText (full : Bytes) (eno : Option Bytes) (loc : Option (Bytes × Bytes)) : Bytes × Nat :=
  let p := fmtBuf full
  let p := match eno with
    | none => p
    | some e => snprintfTo 9216 (p.1 ++ bs! ": " ++ e)
  match loc with
  | none => p
  | some (f, l) => snprintfTo 9216 (bs! "rulebase file " ++ f ++ bs! "[" ++ l ++ bs! "]: " ++ p.1)

end LN
