import Verif.Model.Tool
/- Specification for the command line tool. -/
set_option autoImplicit false
namespace LN

/-- a stream of lines: each with its terminator -/
def joinLines (ls : List (Bytes × Bytes)) : Bytes := ls.flatMap fun p => p.1 ++ p.2

/-- line terminators -/
def IsEol (e : Bytes) : Prop := e = bs! "\n" ∨ e = bs! "\r\n"

/-- is this message matched by a rule? (on its own, with a fresh context) -/
def isMatched (env : Env) (fuel : Nat) (ctx : Ctx) (msg : Bytes) : Bool :=
  match normalize env fuel ctx (fun _ => {}) msg [] with
  | .ok r => r.ok
  | _ => false

/-- the event delivered for the message -/
def eventOf (env : Env) (fuel : Nat) (ctx : Ctx) (msg : Bytes) : Obj :=
  match normalize env fuel ctx (fun _ => {}) msg [] with
  | .ok r => r.json
  | _ => []

/-- the event has this tag -/
def hasTag (o : Obj) (t : Bytes) : Bool :=
  match Obj.get o (bs! "event.tags") with
  | some (.arr l) => decide (.str t ∈ l)
  | _ => false

/-- the member `event.tags`, if it is a list, is a list of strings -/
def PlainTags (o : Obj) : Prop :=
  ∀ l, Obj.get o (bs! "event.tags") = some (.arr l) → ∀ j ∈ l, ∃ s, j = .str s ∧ ∀ c ∈ s, c ≠ 0

/-- no field of an event of a matched message gets in the way of the tool: none is called `unparsed-data`, and `event.tags`
is a list of strings -/
def Ordinary (env : Env) (fuel : Nat) (ctx : Ctx) (msg : Bytes) : Prop :=
  PlainTags (eventOf env fuel ctx msg) ∧
  (isMatched env fuel ctx msg = true → Obj.get (eventOf env fuel ctx msg) (bs! "unparsed-data") = none)

/-- `-t`: is the message to be considered? -/
def tagWanted (env : Env) (o : ToolOpts) (fuel : Nat) (ctx : Ctx) (msg : Bytes) : Bool :=
  match o.tag with
  | none => true
  | some t => hasTag (eventOf env fuel ctx msg) t

/-- `-t`, `-p`, `-P`: is the message to be printed? -/
def wanted (env : Env) (o : ToolOpts) (fuel : Nat) (ctx : Ctx) (msg : Bytes) : Bool :=
  tagWanted env o fuel ctx msg && if isMatched env fuel ctx msg then o.outParsed else o.outUnparsed

/-- the event the tool shows for the message in line `n`: with `-L`, the number of the line is added if no rule matches -/
def shownEvent (env : Env) (o : ToolOpts) (fuel : Nat) (ctx : Ctx) (n : Nat) (msg : Bytes) : Obj :=
  if o.lineNbr && !isMatched env fuel ctx msg then Obj.add (eventOf env fuel ctx msg) (bs! "lognormalizer.line_nbr") (.int n)
  else eventOf env fuel ctx msg

/-- what is printed for an event and its message: `-e raw` the message; `-e json` the event, without its tags unless `-T` is given; otherwise
what the encoders (C56 to C58) make of it -/
def printed (env : Env) (o : ToolOpts) (ev : Obj) (msg : Bytes) : Bytes :=
  (match o.fmt with
    | .raw => msg
    | .json => env.ser (.obj (if o.flatTags then ev else ev.filter fun m => m.1 ≠ bs! "event.tags"))
    | .syslog => match fmtRFC5424 env ev with | .ok r => r.2 | _ => []
    | .xml => match fmtXML env ev with | .ok r => r.2 | _ => []
    | .csv => (fmtCSV env ev o.encFmt).2) ++ bs! "\n"

/-- with `-v` at least twice the tool tells on stdout that an event lacks the tag of `-t` -/
def tagComplaint (o : ToolOpts) : Bytes :=
  if o.verbose ≥ 2 then bs! "Mandatory tag '" ++ o.tag.getD [] ++ bs! "' has not been found\n" else []

/-- the output for the message in line `n` -/
def lineShown (env : Env) (o : ToolOpts) (fuel : Nat) (ctx : Ctx) (n : Nat) (msg : Bytes) : Bytes :=
  if tagWanted env o fuel ctx msg then
    if wanted env o fuel ctx msg then printed env o (shownEvent env o fuel ctx n msg) msg else []
  else tagComplaint o

end LN
