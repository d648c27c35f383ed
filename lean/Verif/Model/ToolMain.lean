import Verif.Model.Tool
import Verif.Model.Api
import Verif.Model.Report
/-
The command line of the tool and its `main`: lognormalizer.c:211-265 (end of `normalize`), 271-283, 285-310, 342-530. `getopt` is that of the GNU C
library without `POSIXLY_CORRECT` (options and operands may be mixed). Not modelled: the messages sent to stderr, except those at the end of a run; streams for
`-d`, `-s`, `-S` and `-x` which refer to the same file; running out of memory.
-/
set_option autoImplicit false
namespace LN

/-- lognormalizer.c:361, the option string `d:s:S:e:r:R:E:vVpPt:To:hHULx:`: is the letter an option, and does it take an argument? -/
def optArg (c : UInt8) : Option Bool :=
  if c ∈ bs! "dsSerREtox" then some true else if c ∈ bs! "vVpPThHUL" then some false else none

/-- `getopt` within one argument, behind the `-`: the options (`?` for an unknown letter), and the option which waits for its argument -/
def scanArg : Bytes → List (UInt8 × Bytes) × Option UInt8
  | [] => ([], none)
  | c :: cs =>
    match optArg c with
    | none => ((ch! '?', []) :: (scanArg cs).1, (scanArg cs).2)
    | some false => ((c, []) :: (scanArg cs).1, (scanArg cs).2)
    | some true => if cs = [] then ([], some c) else ([(c, cs)], none)

/-- lognormalizer.c:361, the sequence of results of `getopt` until it returns -1; `pend` is the option which waits for its argument -/
def getopts : (pend : Option UInt8) → List Bytes → List (UInt8 × Bytes)
  | none, [] => []
  | some _, [] => [(ch! '?', [])]
  | some c, a :: as => (c, a) :: getopts none as
  | none, a :: as =>
    if a = bs! "--" then [] else
    if a.head? = some (ch! '-') ∧ a ≠ bs! "-" then (scanArg a.tail).1 ++ getopts (scanArg a.tail).2 as
    else getopts none as

/-- an open output stream; none = stdout -/
abbrev Dest := Option Bytes

/-- lognormalizer.c:53-70 and 345-351, the variables set by options -/
structure Cmd where
  o : ToolOpts := {}
  /-- `ctx->opts` -/
  ctxOpts : UInt32 := 0
  repository : Option Bytes := none
  /-- `usedRB` -/
  used : Int := 0
  /-- `fpDOT`, `fpStats`, `fpStatsDOT`; none = NULL -/
  dot : Option Dest := none
  stats : Option Dest := none
  statsDot : Option Dest := none
  /-- `extendedStats` -/
  ext : Bool := false
  /-- `outputSummaryLine` -/
  summary : Bool := false
  /-- `outputNbrUnparsed` -/
  nbrUnparsed : Bool := false
  /-- files opened for writing (and emptied by that), in order -/
  opened : List Bytes := []

/-- lognormalizer.c:366-376, 378-388, 395-404: an argument `std` stands for stdout, anything else is a file to be created. The error is the end of the program. -/
def openDest (canWrite : Bytes → Bool) (std arg : Bytes) (c : Cmd) : Except Cmd (Cmd × Dest) :=
  if arg = std then .ok (c, none) else
  if canWrite arg then .ok ({ c with opened := c.opened ++ [arg] }, some arg) else .error c

/-- lognormalizer.c:294-310 `handle_generic_option`; liblognorm.h:142-147 `LN_CTXOPT_...` -/
def genericOpt (name : Bytes) : Option UInt32 :=
  if name = bs! "allowRegex" then some 1
  else if name = bs! "addExecPath" then some 2
  else if name = bs! "addOriginalMsg" then some 4
  else if name = bs! "addRule" then some 8
  else if name = bs! "addRuleLocation" then some 16
  else none

/-- lognormalizer.c:430-441; another argument changes nothing -/
def fmtOpt (name : Bytes) (f : OutFmt) : OutFmt :=
  if name = bs! "json" then .json
  else if name = bs! "xml" then .xml
  else if name = bs! "cee-syslog" then .syslog
  else if name = bs! "csv" then .csv
  else if name = bs! "raw" then .raw
  else f

/-- lognormalizer.c:362-476, the body of the loop over the options. The error is the end of the program, with exit code 1. -/
def optStep (canWrite : Bytes → Bool) (c : Cmd) (opt : UInt8 × Bytes) : Except Cmd Cmd :=
  let arg := opt.2
  if opt.1 = ch! 'V' then .error c
  else if opt.1 = ch! 'd' then (openDest canWrite [] arg c).bind fun r => .ok { r.1 with dot := some r.2 }
  else if opt.1 = ch! 'x' then (openDest canWrite [] arg c).bind fun r => .ok { r.1 with statsDot := some r.2 }
  else if opt.1 = ch! 'S' then (openDest canWrite (bs! "-") arg { c with ext := true }).bind fun r => .ok { r.1 with stats := some r.2 }
  else if opt.1 = ch! 's' then (openDest canWrite (bs! "-") arg c).bind fun r => .ok { r.1 with stats := some r.2 }
  else if opt.1 = ch! 'v' then .ok { c with o := { c.o with verbose := c.o.verbose + 1 } }
  else if opt.1 = ch! 'E' then .ok { c with o := { c.o with encFmt := some arg } }
  else if opt.1 = ch! 'p' then .ok { c with o := { c.o with outParsed := true, outUnparsed := false } }
  else if opt.1 = ch! 'P' then .ok { c with o := { c.o with outParsed := false, outUnparsed := true } }
  else if opt.1 = ch! 'H' then .ok { c with summary := true }
  else if opt.1 = ch! 'U' then .ok { c with nbrUnparsed := true }
  else if opt.1 = ch! 'L' then .ok { c with o := { c.o with lineNbr := true } }
  else if opt.1 = ch! 'T' then .ok { c with o := { c.o with flatTags := true } }
  else if opt.1 = ch! 'e' then .ok { c with o := { c.o with fmt := fmtOpt arg c.o.fmt } }
  else if opt.1 = ch! 'r' then
    if c.used = 2 then .ok { c with used := -1 } else .ok { c with repository := some arg, used := 1 }
  else if opt.1 = ch! 'R' then
    if c.used = 1 then .ok { c with used := -1 } else .ok { c with repository := some arg, used := 2 }
  else if opt.1 = ch! 't' then .ok { c with o := { c.o with tag := some arg } }
  else if opt.1 = ch! 'o' then
    match genericOpt arg with
    | some b => .ok { c with ctxOpts := c.ctxOpts ||| b }
    | none => .error c
  else .error c

/-- lognormalizer.c:361-477, the loop over the options -/
def cmdLine (canWrite : Bytes → Bool) (argv : List Bytes) : Except Cmd Cmd :=
  (getopts none argv).foldlM (optStep canWrite) {}

/-- the outcome of a run: exit code, stdout, the files written, and the lines sent to stderr by lognormalizer.c:259-266 -/
structure MainRes where
  code : Nat := 0
  out : Bytes := []
  files : List (Bytes × Bytes) := []
  err : Bytes := []
  deriving DecidableEq

/-- an early end -/
def Cmd.quit (c : Cmd) : MainRes := { code := 1, files := c.opened.map fun f => (f, []) }

/-- write to a stream -/
def MainRes.write (m : MainRes) (d : Option Dest) (text : Bytes) : MainRes :=
  match d with
  | none => m
  | some none => { m with out := m.out ++ text }
  | some (some f) => { m with files := m.files.map fun p => if p.1 = f then (f, p.2 ++ text) else p }

/-- lognormalizer.c:259-266, end of `normalize` -/
def tailText (c : Cmd) (t : ToolRes) : Bytes :=
  (if c.nbrUnparsed ∧ t.numUnparsed > 0 then natText t.numUnparsed ++ bs! " unparsable entries\n" else []) ++
  (if t.numWrongTag > 0 then natText t.numWrongTag ++ bs! " entries with wrong tag dropped\n" else []) ++
  (if c.summary then natText (t.numParsed + t.numUnparsed) ++ bs! " records processed, " ++ natText t.numParsed ++ bs! " parsed, " ++
    natText t.numUnparsed ++ bs! " unparsed\n" else [])

/-- `fopen(name, "w")`: opening files for writing has emptied them -/
def World.emptied (w : World) (names : List Bytes) : World := { w with disk := fun n => if n ∈ names then some [] else w.disk n }

/-- lognormalizer.c:497-507, loading the rulebase; files opened for writing (361-404) are empty by now -/
def Cmd.load (w : World) (c : Cmd) (rb : Bytes) : R (CtxRules × Bool) :=
  let w := w.emptied c.opened
  if c.used = 1 then ctxLoad w ({}, []) rb
  else (loadSamplesFromString w.env w.srt w.fs w.fuel {} rb).bind fun r => .ok ((r.1, []), r.2)

/-- lognormalizer.c:515-528 with pdag.c:656-685 `ln_fullPdagStats` and 1195-1199 `ln_fullPDagStatsDOT`: the run proper (`normalize`), then the reports. For a rulebase of
version 1 the engine is that of version 1, whose `ln_fullPTreeStats` (v1_ptree.c:905-910) writes nothing to the file, and the graph is empty. -/
def Cmd.run (w : World) (ptr : NodeId → Bytes) (c : Cmd) (r : CtxRules) (inp : Bytes) : R MainRes :=
  let w := w.emptied c.opened
  let ld := r.1
  let m : MainRes := { files := c.opened.map fun f => (f, []) }
  if ld.version = 1 then
    (toolLoop w.env c.o (fun (u : Unit) msg =>
      (v1NormN w.v1Env { xs := r.2, annots := ld.annots, rulePrefix := ld.rulePrefix } w.fuel .root msg []).bind fun x => .ok (x.json, u)) () 0 {} (toolLines inp)).bind fun t =>
    (if c.statsDot = none then R.ok [] else (genStatsDot ptr (fun _ => {}) ld.b (fun _ => false)).bind fun x => .ok x.2).bind fun dot =>
      .ok { (({ m with out := t.1.out } : MainRes).write c.statsDot dot) with err := tailText c t.1 }
  else
    (toolLoop w.env c.o (normV2 w.env w.fuel (ld.b.toCtx c.ctxOpts.toNat ld.annots)) (fun _ => {}) 0 {} (toolLines inp)).bind fun t =>
    (if c.stats = none then R.ok ((fun _ => false), []) else
      (setIds ld.b (fun _ => none)).bind fun ids => fullStats ld.b c.ext t.2 ids (fun _ => false)).bind fun st =>
    (if c.statsDot = none then R.ok [] else (genStatsDot ptr t.2 ld.b st.1).bind fun x => .ok x.2).bind fun dot =>
      .ok { ((({ m with out := t.1.out } : MainRes).write c.stats st.2).write c.statsDot dot) with err := tailText c t.1 }

/-- lognormalizer.c:342-530 `main`; `argv` without the name of the program, `ptr` shows addresses as `%p` does -/
def toolMain (w : World) (canWrite : Bytes → Bool) (ptr : NodeId → Bytes) (argv : List Bytes) (inp : Bytes) : R MainRes :=
  match cmdLine canWrite argv with
  | .error c => .ok c.quit
  | .ok c =>
    match c.repository with
    | none => .ok c.quit
    | some rb =>
      if c.used = -1 then .ok c.quit else
      (c.load w rb).bind fun (r, ok) =>
        if !ok then .ok c.quit else
        (match c.dot with
         -- 512-516; 275-283 `genDOT`
         | some d => (genDot ptr r.1.b r.1.b.root (fun _ => false)).bind fun x => R.ok (c.quit.write (some d) x.2)
         | none => c.run w ptr r inp).bind fun m =>
        (exitBld r.1.b).bind fun _ => .ok m

end LN
