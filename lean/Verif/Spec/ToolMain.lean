import Verif.Model.ToolMain
import Verif.Spec.Tool
import Verif.Spec.Doc
import Verif.Spec.Safety
/- Specification of the command line of the tool, after its usage text and the conventions for command lines. -/
set_option autoImplicit false
namespace LN
open Spec

/-- an option as given: its letter, and its argument -/
abbrev Opt := UInt8 × Bytes

/-- options without argument -/
def isFlag (c : UInt8) : Prop := c ∈ bs! "vVpPThHUL"
/-- options with an argument -/
def takesArg (c : UInt8) : Prop := c ∈ bs! "dsSerREtox"

instance (c : UInt8) : Decidable (isFlag c) := by unfold isFlag; infer_instance
instance (c : UInt8) : Decidable (takesArg c) := by unfold takesArg; infer_instance

/-- the command line spells these options: flags may be grouped, an option with an argument ends its group, the argument is attached or follows as an argument of its own,
operands may be anywhere, and `--` ends the options -/
inductive OptsOf : List Bytes → List Opt → Prop where
  | nil : OptsOf [] []
  | stop (rest : List Bytes) : OptsOf (bs! "--" :: rest) []
  | operand (a : Bytes) {rest : List Bytes} {os : List Opt} (h : a.head? ≠ some (ch! '-') ∨ a = bs! "-") (hr : OptsOf rest os) : OptsOf (a :: rest) os
  | flags (fs : Bytes) {rest : List Bytes} {os : List Opt} (hn : fs ≠ []) (h : ∀ f ∈ fs, isFlag f) (hr : OptsOf rest os) :
      OptsOf ((ch! '-' :: fs) :: rest) (fs.map (fun f => (f, [])) ++ os)
  | attached (fs : Bytes) (c : UInt8) (arg : Bytes) {rest : List Bytes} {os : List Opt} (h : ∀ f ∈ fs, isFlag f) (hc : takesArg c) (ha : arg ≠ [])
      (hr : OptsOf rest os) : OptsOf ((ch! '-' :: fs ++ c :: arg) :: rest) (fs.map (fun f => (f, [])) ++ (c, arg) :: os)
  | separate (fs : Bytes) (c : UInt8) (arg : Bytes) {rest : List Bytes} {os : List Opt} (h : ∀ f ∈ fs, isFlag f) (hc : takesArg c)
      (hr : OptsOf rest os) : OptsOf ((ch! '-' :: fs ++ [c]) :: arg :: rest) (fs.map (fun f => (f, [])) ++ (c, arg) :: os)

/-- is the option given? -/
def given (c : UInt8) (os : List Opt) : Bool := os.any fun o => o.1 = c

/-- the argument of the option; if it is given several times, the last one counts -/
def lastArg (c : UInt8) (os : List Opt) : Option Bytes := ((os.filter fun o => o.1 = c).getLast?).map (·.2)

/-- the last one of the options `-p` and `-P` -/
def lastSelect (os : List Opt) : Option UInt8 := ((os.filter fun o => o.1 = ch! 'p' ∨ o.1 = ch! 'P').getLast?).map (·.1)

/-- output formats -/
def fmtNamed (name : Bytes) : Option OutFmt :=
  [(bs! "json", OutFmt.json), (bs! "xml", .xml), (bs! "csv", .csv), (bs! "cee-syslog", .syslog), (bs! "raw", .raw)].lookup name

/-- the options of a run, after the usage text -/
def settings (os : List Opt) : ToolOpts where
  tag := lastArg (ch! 't') os
  outParsed := lastSelect os ≠ some (ch! 'P')
  outUnparsed := lastSelect os ≠ some (ch! 'p')
  lineNbr := given (ch! 'L') os
  flatTags := given (ch! 'T') os
  fmt := (((os.filter fun o => o.1 = ch! 'e').filterMap fun o => fmtNamed o.2).getLast?).getD .json
  encFmt := lastArg (ch! 'E') os
  verbose := (os.filter fun o => o.1 = ch! 'v').length

/-- the bits of `-o` options (liblognorm.h) -/
def bitNamed (name : Bytes) : Option UInt32 :=
  [(bs! "allowRegex", (0x01 : UInt32)), (bs! "addExecPath", 0x02), (bs! "addOriginalMsg", 0x04), (bs! "addRule", 0x08), (bs! "addRuleLocation", 0x10)].lookup name

/-- a bit of the context's options is set if one of the `-o` options names it -/
def HasBits (os : List Opt) (opts : UInt32) : Prop :=
  ∀ i : Nat, opts.toNat.testBit i = true ↔ ∃ (name : Bytes) (b : UInt32), (ch! 'o', name) ∈ os ∧ bitNamed name = some b ∧ b.toNat.testBit i = true

/-- the files named by options for output -/
def outFiles (os : List Opt) : List Bytes :=
  os.filterMap fun o =>
    if (o.1 = ch! 'd' ∨ o.1 = ch! 'x') ∧ o.2 ≠ [] ∨ (o.1 = ch! 's' ∨ o.1 = ch! 'S') ∧ o.2 ≠ bs! "-" then some o.2 else none

/-- where a report goes: decided by the last one of the options for it; `std` is the argument which stands for stdout -/
def destOf (std : Bytes) (letters : List UInt8) (os : List Opt) : Option Dest :=
  ((os.filter fun o => o.1 ∈ letters).getLast?).map fun o => if o.2 = std then none else some o.2

/-- nothing in the options makes the tool stop: no `-V` and `-h`, each `-o` names an option, and each file for output can be written -/
structure Accepted (canWrite : Bytes → Bool) (os : List Opt) : Prop where
  noVersion : given (ch! 'V') os = false
  noHelp : given (ch! 'h') os = false
  named : ∀ name, (ch! 'o', name) ∈ os → (bitNamed name).isSome
  files : ∀ f ∈ outFiles os, canWrite f = true

/-- where the rules come from -/
inductive RuleSrc where
  | file (name : Bytes) | text (t : Bytes)
  deriving DecidableEq

/-- one of `-r` and `-R` is given, perhaps several times (the last one counts), the other one is not -/
def RulesFrom (os : List Opt) : RuleSrc → Prop
  | .file f => lastArg (ch! 'r') os = some f ∧ given (ch! 'R') os = false
  | .text t => lastArg (ch! 'R') os = some t ∧ given (ch! 'r') os = false

/-- the lines at the end of a run: `-U` the number of unparsed messages, if there are any; the number of messages without the tag of `-t`, if there are any; `-H` a summary -/
def endLines (os : List Opt) (t : ToolRes) : Bytes :=
  let n (k : Nat) : Bytes := (Nat.repr k).toList.map fun c => UInt8.ofNat c.toNat
  (if given (ch! 'U') os ∧ t.numUnparsed ≠ 0 then n t.numUnparsed ++ bs! " unparsable entries\n" else []) ++
  (if t.numWrongTag ≠ 0 then n t.numWrongTag ++ bs! " entries with wrong tag dropped\n" else []) ++
  (if given (ch! 'H') os then n (t.numParsed + t.numUnparsed) ++ bs! " records processed, " ++ n t.numParsed ++ bs! " parsed, " ++ n t.numUnparsed ++ bs! " unparsed\n" else [])

/-- loading the rules into a new context -/
def loadFrom (w : World) : RuleSrc → R (CtxRules × Bool)
  | .file f => ctxLoad w ({}, []) f
  | .text t => (loadSamplesFromString w.env w.srt w.fs w.fuel {} t).bind fun r => .ok ((r.1, []), r.2)

/-- is the event to be considered, after `-t`? -/
def tagOk (tag : Option Bytes) (event : Obj) : Bool :=
  match tag with
  | none => true
  | some t => hasTag event t

/-- the output for the message in line `n`: is it selected by `-t`, `-p` and `-P`, and with `-L` the number is added if no rule matched; with `-v -v` it is told if
the tag of `-t` is missing -/
def lineOutput (env : Env) (o : ToolOpts) (n : Nat) (msg : Bytes) (matched : Bool) (event : Obj) : Bytes :=
  if tagOk o.tag event then
    if (if matched then o.outParsed else o.outUnparsed) then
      printed env o (if o.lineNbr && !matched then Obj.add event (bs! "lognormalizer.line_nbr") (.int n) else event) msg
    else []
  else tagComplaint o

/-- the name of a field does not get in the way of the tool -/
def QuietName (nm : Option Bytes) : Prop := nm ≠ some (bs! ".") ∧ nm ≠ some (bs! "event.tags") ∧ nm ≠ some (bs! "unparsed-data")

instance (nm : Option Bytes) : Decidable (QuietName nm) := by unfold QuietName; infer_instance

/-- no annotation sets `event.tags` or `unparsed-data` -/
def QuietAnnots (ls : List RLine) : Prop :=
  ∀ l ∈ ls, ∀ tag ops, l = .annotate tag ops → ∀ o ∈ ops, o.2.1 ≠ bs! "event.tags" ∧ o.2.1 ≠ bs! "unparsed-data"

/-- names of fields and annotations do not get in the way of the tool: no field is called `.`, `event.tags` or `unparsed-data`, and no annotation sets
`event.tags` or `unparsed-data` -/
structure QuietNames (ls : List RLine) (rules : List RuleD) : Prop where
  fields : ∀ r ∈ rules, ∀ p ∈ r.parts, QuietName (fieldName p.1.conf)
  annots : QuietAnnots ls

/-- if `event.tags` is there it is a list of strings -/
def TagList (o : Obj) : Prop :=
  ∀ j, Obj.get o (bs! "event.tags") = some j → ∃ l, j = .arr l ∧ ∀ x ∈ l, ∃ s, x = .str s ∧ ∀ c ∈ s, c ≠ 0

/-- with `-e csv` a list of names must be given (`-E`) -/
def Printable (o : ToolOpts) : Prop := o.fmt = .csv → o.encFmt ≠ none

/-- messages which the rules are about: not too long a number in them etc. (see C06 and C75) -/
def InScopeAll (env : Env) (rules : List RuleD) (s : Bytes) : Prop :=
  Tame s ∧ ∀ r ∈ rules, ∀ p ∈ r.parts, ∀ off, off ≤ s.length → p.1.type.InScope env p.1.conf s off (fieldName p.1.conf).isSome

end LN
