import Verif.Model.Pdag
import Verif.Model.Enc
/-
The command line tool: lognormalizer.c:95-270 (reading lines, the main loop, output). The command line and `main` are in ToolMain. Not modelled:
what `-v` sends to stderr, and running out of memory.
-/
set_option autoImplicit false
namespace LN

/-- lognormalizer.c:185-198, the loop of `read_line`: the bytes up to and with the first newline (or all), and what
follows -/
def readChunk : Bytes → Bytes × Bytes
  | [] => ([], [])
  | c :: s => if c = ch! '\n' then ([c], s) else (c :: (readChunk s).1, (readChunk s).2)

/-- lognormalizer.c:200-204: the last byte is overwritten by NUL, and so is a `\r` before it -/
def chomp (chunk : Bytes) : Bytes :=
  let l := chunk.dropLast
  if l.getLast? = some (ch! '\r') then l.dropLast else l

/-- lognormalizer.c:178-206 `read_line`: none = NULL -/
def toolReadLine (inp : Bytes) : Option (Bytes × Bytes) :=
  match inp with
  | [] => none
  | _ => let r := readChunk inp; some (chomp r.1, r.2)

/-- all lines delivered by `read_line` until it returns NULL; each call consumes a byte, so that `n` = length of
the input suffices -/
def toolLinesN : Nat → Bytes → List Bytes
  | 0, _ => []
  | n + 1, inp =>
    match toolReadLine inp with
    | none => []
    | some (l, rest) => l :: toolLinesN n rest

/-- the lines the tool sees -/
def toolLines (inp : Bytes) : List Bytes := toolLinesN inp.length inp

/-- `-e` -/
inductive OutFmt where
  | json | syslog | xml | csv | raw
  deriving DecidableEq

/-- lognormalizer.c:56-70, options of the tool -/
structure ToolOpts where
  /-- `-t` -/
  tag : Option Bytes := none
  /-- no `-P` -/
  outParsed : Bool := true
  /-- no `-p` -/
  outUnparsed : Bool := true
  /-- `-L` -/
  lineNbr : Bool := false
  /-- `-T` -/
  flatTags : Bool := false
  fmt : OutFmt := .json
  /-- `-E` -/
  encFmt : Option Bytes := none
  /-- number of `-v` -/
  verbose : Nat := 0

/-- lognormalizer.c:142-166 `eventHasTag`, the loop from the last element to the first (`l` is reversed).
`json_object_get_string` of a JSON null is NULL, which `strcmp` does not accept. -/
def hasTagLoop (env : Env) (tag : Bytes) : List Json → R Bool
  | [] => .ok false
  | .null :: _ => .ub .nullDeref
  | .str s :: l => if tag = cstr s then .ok true else hasTagLoop env tag l
  | j :: l => if tag = cstr (env.ser j) then .ok true else hasTagLoop env tag l

/-- lognormalizer.c:142-166 `eventHasTag` -/
def eventHasTag (env : Env) (o : Obj) (tag : Option Bytes) : R Bool :=
  match tag with
  | none => .ok true
  | some t =>
    match Obj.get o (bs! "event.tags") with
    | some (.arr l) => hasTagLoop env t l.reverse
    | _ => .ok false

/-- `json_object_object_del` -/
def Obj.del (o : Obj) (k : Bytes) : Obj := o.filter fun m => m.1 != k

/-- lognormalizer.c:95-139 `outputEvent`, what is printed to stdout. `line` is a C string. The texts of the
encoders contain no NUL bytes, so that `es_str2cstr` keeps them as they are (simplification). -/
def outputEvent (env : Env) (o : ToolOpts) (json : Obj) (line : Bytes) : R Bytes :=
  match o.fmt with
  | .raw => .ok (line ++ bs! "\n")
  | .json =>
    let json := if o.flatTags then json else json.del (bs! "event.tags")
    .ok (env.ser (.obj json) ++ bs! "\n")
  | .syslog => (fmtRFC5424 env json).bind fun r => .ok (r.2 ++ bs! "\n")
  | .xml => (fmtXML env json).bind fun r => .ok (r.2 ++ bs! "\n")
  | .csv =>
    match o.encFmt with
    -- `str` and `cstr` stay NULL
    | none => .ub .nullDeref
    | some _ => .ok ((fmtCSV env json o.encFmt).2 ++ bs! "\n")

/-- how a record is counted: `numParsed`, `numUnparsed`, `numWrongTag` -/
inductive RecKind where
  | parsed | unparsed | wrongTag
  deriving DecidableEq

/-- what happens to one line; `st` is the state of the engine (usage counters) -/
structure ToolRec (σ : Type) where
  kind : RecKind
  /-- text printed to stdout; none = nothing -/
  out : Option Bytes
  st : σ

/-- lognormalizer.c:168-177 `amendLineNbr` -/
def amendLineNbr (o : ToolOpts) (json : Obj) (n : Nat) : Obj :=
  if o.lineNbr then Obj.add json (bs! "lognormalizer.line_nbr") (.int n) else json

/-- lognormalizer.c:161-163: with `-v -v` a missing tag is reported, to stdout -/
def missingTag (o : ToolOpts) : Option Bytes :=
  if o.verbose > 1 then some (bs! "Mandatory tag '" ++ o.tag.getD [] ++ bs! "' has not been found\n") else none

/-- lognormalizer.c:228-257, body of the loop of `normalize`; `n` = number of the line; `norm` is `ln_normalize` -/
def toolRecord {σ : Type} (env : Env) (o : ToolOpts) (norm : σ → Bytes → R (Obj × σ)) (st : σ) (n : Nat) (line : Bytes) : R (ToolRec σ) :=
  let msg := cstr line
  (norm st msg).bind fun res =>
  (eventHasTag env res.1 o.tag).bind fun has =>
    if has then
      match Obj.get res.1 (bs! "unparsed-data") with
      | none =>
        if o.outParsed then (outputEvent env o res.1 msg).bind fun t => .ok ⟨.parsed, some t, res.2⟩
        else .ok ⟨.parsed, none, res.2⟩
      | some _ =>
        let json := amendLineNbr o res.1 n
        if o.outUnparsed then (outputEvent env o json msg).bind fun t => .ok ⟨.unparsed, some t, res.2⟩
        else .ok ⟨.unparsed, none, res.2⟩
    else .ok ⟨.wrongTag, missingTag o, res.2⟩

/-- lognormalizer.c:217-222: counters -/
structure ToolRes where
  numParsed : Nat := 0
  numUnparsed : Nat := 0
  numWrongTag : Nat := 0
  out : Bytes := []

/-- lognormalizer.c:228-258, the loop; `n` = lines read before -/
def toolLoop {σ : Type} (env : Env) (o : ToolOpts) (norm : σ → Bytes → R (Obj × σ)) : σ → Nat → ToolRes → List Bytes → R (ToolRes × σ)
  | st, _, acc, [] => .ok (acc, st)
  | st, n, acc, l :: ls =>
    (toolRecord env o norm st (n + 1) l).bind fun r =>
      toolLoop env o norm r.st (n + 1)
        { numParsed := acc.numParsed + if r.kind = .parsed then 1 else 0
          numUnparsed := acc.numUnparsed + if r.kind = .unparsed then 1 else 0
          numWrongTag := acc.numWrongTag + if r.kind = .wrongTag then 1 else 0
          out := acc.out ++ r.out.getD [] } ls

/-- pdag.c:1622-1717 `ln_normalize` as the tool calls it, for rulebases of version 2: the result starts from nothing, the return code is ignored -/
def normV2 (env : Env) (fuel : Nat) (ctx : Ctx) (stats : NodeId → Stats) (msg : Bytes) : R (Obj × (NodeId → Stats)) :=
  (normalize env fuel ctx stats msg []).bind fun res => .ok (res.json, res.stats)

/-- lognormalizer.c:211-258 `normalize` on the input stream -/
def tool (env : Env) (o : ToolOpts) (fuel : Nat) (ctx : Ctx) (inp : Bytes) : R ToolRes :=
  (toolLoop env o (normV2 env fuel ctx) (fun _ => {}) 0 {} (toolLines inp)).bind fun r => .ok r.1

end LN
