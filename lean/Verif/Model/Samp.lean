import Verif.Model.Build
import Verif.Model.Annot
/-
Loading rule bases: samp.c:51-1190 and liblognorm.c:157-190. Text is processed as lists of bytes:
where the C code keeps a buffer and an offset the model keeps the bytes from that offset on. The
line buffer of `ln_sampRead` is NUL terminated; the rule text handed to `addSampToTree` is a libestr
string, which is not, so that reading at its length is undefined.

Not modelled: memory exhaustion, debug output, the text of error messages (each call of
`ln_errprintf` in samp.c is a constructor of `LoadErr`; the messages of pdag.c are left out), rule bases
in version 1 format (only that they are not entered into the graph).
-/
set_option autoImplicit false
namespace LN

/-- the calls of `ln_errprintf` in samp.c -/
inductive LoadErr where
  /-- 954 "invalid record type detected" -/
  | invalidRecord (kind : Bytes)
  /-- 76, 80, 92, 119: errors in a field description -/
  | fieldDescr
  /-- 129, 240 "invalid json" -/
  | json
  /-- 569, 646 "actual message sample part is missing" -/
  | noSample
  /-- 595, 602 about type names -/
  | typeName
  /-- 752 "invalid annotate operation" -/
  | annotOp
  /-- 1025 "line has 'rule=' at begin of line ..." -/
  | runaway
  /-- 1083 "line is too long" -/
  | tooLong
  /-- 1141, 1146: file cannot be opened -/
  | open_
  /-- 1171, 1176: version of the file -/
  | version
  /-- one of the messages of the version 1 loader -/
  | v1
  deriving DecidableEq, Repr

/-! ### Rule texts -/

/-- samp.c:262-278 `newLiteralParserJSONConf`. -/
def litConf1 (c : UInt8) : Json :=
  .obj [(bs! "type", .str (bs! "literal")), (bs! "text", .str [c])]

/-- samp.c:316-326, the loop of `parseLiteral`: the literal text (with `%%` replaced) and the rest, which is
empty or starts with the `%` of a field. -/
def litSplit : Bytes → Bytes × Bytes
  | [] => ([], [])
  | [c] => if c = ch! '%' then ([], []) else ([c], [])
  | c :: d :: t =>
    if c = ch! '%' then
      if d = ch! '%' then
        let (l, r) := litSplit t
        (ch! '%' :: l, r)
      else ([], c :: d :: t)
    else
      let (l, r) := litSplit (d :: t)
      (c :: l, r)

/-- libestr `es_str2cstr(s, NULL)`: NUL bytes are left out -/
def noNul (s : Bytes) : Bytes := s.filter (· != 0)

/-- libestr `es_str2cstr(s, " ")`: NUL bytes become blanks -/
def nulToBlank (s : Bytes) : Bytes := s.map fun c => if c = 0 then 32 else c

/-- samp.c:328-344: a parser for each byte of the unescaped literal -/
def litConfs (env : Env) (raw : Bytes) : List Json := (noNul (env.unescape raw)).map litConf1

/-- result of reading a field description -/
inductive FieldRes where
  | ok (conf : Json) (rest : Bytes) (errs : List LoadErr)
  | stop (errs : List LoadErr)
  | ub (k : UB)

/-- lognorm.h:35 -/
def maxFieldName : Nat := 1024
/-- lognorm.h:36 -/
def maxTypeName : Nat := 1024

/-- `while(j >= i && isspace(buf[j])) --j;` on the text between -/
def trimRight (s : Bytes) : Bytes := (s.reverse.dropWhile isSpace).reverse

/-- samp.c:155-178: the parser configuration of a legacy field description -/
def legacyConf (env : Env) (name ftype : Bytes) (edata : Option Bytes) (json : Option Json) : Json :=
  let o : Obj := [(bs! "name", .str (cstr name)), (bs! "type", .str (noNul ftype))]
  let o := match edata with
    | none => o
    | some e => Obj.add o (bs! "extradata") (.str (nulToBlank (env.unescape e)))
  match json with
  | some (.obj l) => .obj (l.foldl (fun o m => Obj.add o m.1 m.2) o)
  | _ => .obj o

/-- samp.c:136-153 and 180: the end of a legacy field description: `r` starts behind type and JSON
parameters. -/
def legacyTail (env : Env) (name ftype : Bytes) (json : Option Json) (errs : List LoadErr) (r : Bytes) : FieldRes :=
  match r with
  | [] => .ub .oobRead
  | c :: t =>
    if c = ch! '%' then .ok (legacyConf env name ftype none json) t errs
    else
      let e := t.takeWhile (· != ch! '%')
      .ok (legacyConf env name ftype (some e) json) ((t.dropWhile (· != ch! '%')).drop 1) errs

/-- samp.c:51-191 `ln_parseLegacyFieldDescr`, from the first byte of the name on. -/
def legacyField (env : Env) (s : Bytes) : FieldRes :=
  let name := s.takeWhile (· != ch! ':')
  if name.length ≥ maxFieldName - 1 then .stop [.fieldDescr]
  else if name.length = s.length then .stop [.fieldDescr]
  else if name = [] then .stop []
  else
    let s := s.drop (name.length + 1)
    let isType : UInt8 → Bool := fun c => c != ch! ':' && c != ch! '{' && c != ch! '%'
    let ftype := trimRight (s.takeWhile isType)
    match s.dropWhile isType with
    | [] => .stop [.fieldDescr]
    | c :: t =>
      if c = ch! '{' then
        match env.tok (c :: t) with
        | some (j, n) => legacyTail env name ftype (some j) [] ((c :: t).drop n)
        | none => legacyTail env name ftype none [.json] ((c :: t).drop (env.tokErr (c :: t)))
      else legacyTail env name ftype none [] (c :: t)

/-- samp.c:214-254 `addFieldDescr` without the call of `ln_pdagAddParser`; `s` starts behind the `%`. -/
def fieldDescr (env : Env) (s : Bytes) : FieldRes :=
  let s := s.dropWhile isSpace
  match s with
  | [] => .ub .oobRead
  | c :: _ =>
    if c = ch! '{' ∨ c = ch! '[' then
      match env.tok s with
      | none => .stop [.json]
      | some (j, n) =>
        match s.drop n with
        | [] => .stop [.json]
        | d :: t => if d = ch! '%' then .ok j t [] else .stop [.json]
    else legacyField env s

/-- how reading a rule text ends -/
inductive RuleEnd where
  | complete
  | stopped
  | ub (k : UB)
  deriving DecidableEq, Repr

/-- a rule text: its parsers, how it ends, the error messages -/
structure RuleText where
  confs : List Json
  fin : RuleEnd
  errs : List LoadErr := []

/-- samp.c:378-391, the loop of `addSampToTree`: the parsers the text denotes. (The calls of
`parseLiteral` at the end of the text have no effect.) -/
def lexRuleF (env : Env) : (fuel : Nat) → Bytes → RuleText
  | 0, _ => ⟨[], .complete, []⟩
  | fuel + 1, s =>
    let (raw, rest) := litSplit s
    let lits := litConfs env raw
    match rest with
    | [] => ⟨lits, .complete, []⟩
    | _ :: t =>
      match fieldDescr env t with
      | .ub k => ⟨lits, .ub k, []⟩
      | .stop errs => ⟨lits, .stopped, errs⟩
      | .ok c t errs =>
        let r := lexRuleF env fuel t
        ⟨lits ++ c :: r.confs, r.fin, errs ++ r.errs⟩

/-- the parsers a rule text denotes; each round of the loop consumes a byte at least -/
def lexRule (env : Env) (s : Bytes) : RuleText := lexRuleF env (s.length + 1) s

/-! ### Loader state -/

/-- the parts of the context loading works with (lognorm.h:57-85) -/
structure LoadSt where
  b : Bld := initBld
  annots : List Annot := []
  /-- `rulePrefix`; none = NULL -/
  rulePrefix : Option Bytes := none
  /-- `conf_file`; none = NULL -/
  file : Option Bytes := none
  /-- `conf_ln_nbr` -/
  line : Nat := 0
  /-- `include_level` -/
  level : Nat := 0
  version : Nat := 0
  /-- messages handed to the error callback so far -/
  errs : List LoadErr := []

/-- `ln_errprintf` -/
def LoadSt.err (st : LoadSt) (e : LoadErr) : LoadSt := { st with errs := st.errs ++ [e] }

/-- samp.c:366-401 `addSampToTree`. Simplification: if a parser cannot be added, the
C code stops there; the model still records the messages about the rest of the text. -/
def addSampText (env : Env) (st : LoadSt) (dag : NodeId) (text : Bytes) (tags : Option (List Bytes)) : R LoadSt :=
  let r := lexRule env text
  let errs := st.errs ++ r.errs
  match r.fin with
  | .complete => (addSamp env st.b dag r.confs true tags (st.file.getD []) st.line).bind fun b =>
      .ok { st with b := b, errs := errs }
  | .stopped => (addSamp env st.b dag r.confs false tags (st.file.getD []) st.line).bind fun b =>
      .ok { st with b := b, errs := errs }
  | .ub k => (addSeq env r.confs st.b dag).bind fun (b, res) =>
      match res with
      | none => .ok { st with b := b, errs := errs }
      | some _ => .ub k

/-- samp.c:414-431 `getLineType`: the word up to the first `=` and the text behind; the word is empty exactly
if the return code is -1. -/
def lineType (buf : Bytes) : Bytes × Bytes :=
  (buf.takeWhile (· != ch! '='), (buf.dropWhile (· != ch! '=')).drop 1)

/-- samp.c:510-544 `processTags`: the loop. `cur` = `str` (none = NULL). -/
def tagLoop : Bytes → Option Bytes → List Bytes → R (List Bytes × Bytes)
  | [], _, _ => .fail
  | c :: t, cur, acc =>
    if c = ch! ':' then
      match cur with
      | none => .ok (acc, t)
      | some w => .ok (acc ++ [noNul w], t)
    else if c = ch! ',' then
      match cur with
      | none => .ub .nullDeref
      | some w => tagLoop t none (acc ++ [noNul w])
    else tagLoop t (some (cur.getD [] ++ [c])) acc

/-- the tag bucket is NULL without tags -/
def tagBucket (l : List Bytes) : Option (List Bytes) := if l = [] then none else some l

/-- samp.c:556-583 `processRule`; `s` starts behind `rule=`. The return code does not matter to the
caller. -/
def processRule (env : Env) (st : LoadSt) (s : Bytes) : R LoadSt :=
  match tagLoop s none [] with
  | .fail => .ok st
  | .ub k => .ub k
  | .oof => .oof
  | .ok (tags, t) =>
    if t = [] then .ok (st.err .noSample)
    else addSampText env st st.b.root (st.rulePrefix.getD [] ++ t) (tagBucket tags)

/-- samp.c:586-617 `getTypeName`: name and the text behind the colon; an error message or not. -/
def typeName (s : Bytes) : Option (Bytes × Bytes) × Option LoadErr :=
  if s.head? ≠ some (ch! '@') then (none, some .typeName)
  else
    let name := (s.takeWhile (· != ch! ':')).take (maxTypeName - 1)
    if name.any isSpace then (none, some .typeName)
    else match s.drop name.length with
      | c :: t => if c = ch! ':' then (some (cstr name, t), none) else (none, none)
      | [] => (none, none)

/-- samp.c:629-660 `processType`; `s` starts behind `type=`. -/
def processType (env : Env) (st : LoadSt) (s : Bytes) : R LoadSt :=
  match typeName s with
  | (none, none) => .ok st
  | (none, some e) => .ok (st.err e)
  | (some (name, t), _) =>
    if t = [] then .ok (st.err .noSample)
    else
      let (b, n) := findTypeAdd st.b name
      addSampText env { st with b := b } n t none

/-- samp.c:674-693 `getFieldName`: the name (none = NULL) and the rest. -/
def getFieldName (s : Bytes) : Option Bytes × Bytes :=
  let p : UInt8 → Bool := fun c => isAlnum c || c == ch! '_' || c == ch! '.'
  let n := s.takeWhile p
  (if n = [] then none else some n, s.dropWhile p)

/-- result of `getAnnotationOp` -/
inductive AOpRes where
  /-- return code 0; the operation (if any) and the text from `*offs` on -/
  | ok (op : Option AnnotOp) (rest : Bytes)
  /-- return code -1, with the error message (if any) -/
  | fail (e : Option LoadErr)
  deriving DecidableEq

/-- samp.c:734-785 `getAnnotationOp`; `s` is the text from `*offs` on. In the case that only white space
is left `*offs` is not updated. -/
def getAnnotationOp (s : Bytes) : AOpRes :=
  match s.dropWhile isSpace with
  | [] => .ok none s
  | c :: t =>
    if c = ch! '#' then .ok none []
    else if c ≠ ch! '+' then .fail (some .annotOp)
    else if t = [] then .fail none
    else
      let (name, t) := getFieldName t
      match t with
      | [] => .fail none
      | d :: t =>
        if d ≠ ch! '=' then .fail none
        else match t.dropWhile isSpace with
          | [] => .fail none
          | q :: t =>
            if q ≠ ch! '"' then .fail none
            else
              let v := t.takeWhile (· != ch! '"')
              AOpRes.ok (some { add := true, name := name, value := if v = [] then none else some v })
                ((t.dropWhile (· != ch! '"')).drop 1)

/-- samp.c:817-819, the loop of `processAnnotate`; `fuel` bounds the number of rounds. -/
def annotLoop : (fuel : Nat) → Annot → Bytes → R (Option Annot × Option LoadErr)
  | fuel, a, s =>
    if s = [] then .ok (some a, none)
    else match fuel with
      | 0 => .oof
      | fuel + 1 =>
        match getAnnotationOp s with
        | .fail e => .ok (none, e)
        | .ok none t => annotLoop fuel a t
        | .ok (some op) t => annotLoop fuel (addAnnotOp a op) t

/-- samp.c:797-824 `processAnnotate`; `s` starts behind `annotate=`. -/
def processAnnotate (fuel : Nat) (st : LoadSt) (s : Bytes) : R LoadSt :=
  let (tag, t) := getFieldName s
  match t.dropWhile isSpace, tag with
  | c :: t, some tag =>
    if c ≠ ch! ':' then .ok st
    else (annotLoop fuel { tag := tag, ops := [] } t).bind fun (a, e) =>
      let st := match e with
        | none => st
        | some e => st.err e
      match a with
      | none => .ok st
      | some a => .ok { st with annots := addAnnotToSet st.annots a }
  | _, _ => .ok st

/-- the load function for include files: state and file name; the flag is the return code 0 -/
abbrev IncludeRec := LoadSt → Bytes → R (LoadSt × Bool)

/-- samp.c:837-862 `processInclude`: the file name ends at the first white space; for an empty name the
trim loop starts at index -1. -/
def processInclude (inc : IncludeRec) (st : LoadSt) (s : Bytes) : R (LoadSt × Bool) :=
  match cstr s with
  | [] => .ub .oobRead
  | c :: t => (inc st (c :: t.takeWhile fun c => !isSpace c)).bind fun (st', ok) =>
      .ok ({ st' with file := st.file, line := st.line }, ok)

/-- samp.c:872-918 `ln_processSamp`; the flag is the return code 0. -/
def processSamp (env : Env) (inc : IncludeRec) (fuel : Nat) (st : LoadSt) (buf : Bytes) : R (LoadSt × Bool) :=
  let (kind, t) := lineType buf
  if kind = [] then .ok (st, true)
  else if kind = bs! "prefix" then .ok ({ st with rulePrefix := some t }, true)
  else if kind = bs! "extendprefix" then
    match st.rulePrefix with
    | none => if t = [] then .ok (st, true) else .ub .nullDeref
    | some p => .ok ({ st with rulePrefix := some (p ++ t) }, true)
  else if kind = bs! "rule" then (processRule env st t).bind fun st => .ok (st, true)
  else if kind = bs! "type" then (processType env st t).bind fun st => .ok (st, true)
  else if kind = bs! "annotate" then (processAnnotate fuel st t).bind fun st => .ok (st, true)
  else if kind = bs! "include" then processInclude inc st t
  else .ok (st.err (.invalidRecord (noNul kind)), true)

/-! ### Reading lines -/

/-- where the text comes from -/
inductive Src where
  | file
  | string
  deriving DecidableEq, Repr

/-- samp.c:924-935 `ln_sampReadChar` returns EOF for this byte: plain `char` is signed, so byte 255
of a string reads as -1; a NUL ends the string. -/
def Src.isEof (src : Src) (c : UInt8) : Bool :=
  match src with
  | .file => false
  | .string => c == 255 || c == 0

/-- what is left after an EOF byte: the NUL at the end of a string is not consumed -/
def Src.afterEof (src : Src) (c : UInt8) (t : Bytes) : Bytes :=
  if c = 0 ∧ src = .string then c :: t else t

/-- samp.c:956-1003 `ln_sampChkRunawayRule` on the text ahead: none = no; some = yes, with the message (if any).
`comment` = inside of a comment line. -/
def runaway : (comment : Bool) → Bytes → Option (Option LoadErr)
  | _, [] => none
  | true, c :: t => runaway (c != ch! '\n') t
  | false, c :: t =>
    if c = ch! '\n' then runaway false t
    else if c = ch! '#' then runaway true t
    else if (c :: t).length < 5 then some none
    else if (c :: t).take 5 = bs! "rule=" then some (some .runaway)
    else none

/-- what `ln_sampRead` finds -/
structure LineRes where
  /-- the line to process, none if there is none -/
  buf : Option Bytes
  /-- the input not yet consumed -/
  rest : Bytes
  eof : Bool
  /-- `conf_ln_nbr` -/
  line : Nat
  errs : List LoadErr := []

/-- samp.c:1027 -/
def maxLine : Nat := 65536

/-- samp.c:1024-1060, the loop of `ln_sampRead`; `acc` = `buf[0..i)`, `inP` = `inParser`, `comment` = inside of
`ln_sampSkipCommentLine` (samp.c:939-947). -/
def readLine (src : Src) : Bytes → (line : Nat) → (acc : Bytes) → (inP comment : Bool) → List LoadErr → LineRes
  | [], line, acc, _, comment, errs =>
    if comment then ⟨none, [], true, line + 1, errs⟩
    else ⟨if acc = [] then none else some acc, [], true, line, errs⟩
  | c :: t, line, acc, inP, comment, errs =>
    if src.isEof c then
      if comment then
        if c = 0 then ⟨none, c :: t, true, line + 1, errs⟩
        else readLine src t (line + 1) acc inP false errs
      else ⟨if acc = [] then none else some acc, src.afterEof c t, true, line, errs⟩
    else if comment then
      if c = ch! '\n' then readLine src t (line + 1) acc inP false errs
      else readLine src t line acc inP true errs
    else if c = ch! '\n' then
      match (if inP && src = .file then runaway false t else none) with
      | some e => readLine src t (line + 1) [] false false (errs ++ e.toList)
      | none =>
        if !inP && acc != [] then ⟨some acc, t, false, line + 1, errs⟩
        else readLine src t (line + 1) acc inP false errs
    else if c = ch! '#' ∧ acc = [] then readLine src t line acc inP true errs
    else
      let inP := if c = ch! '%' then !inP else inP
      if acc.length + 1 ≥ maxLine then ⟨none, t, false, line, errs ++ [.tooLong]⟩
      else readLine src t line (acc ++ [c]) inP false errs

/-- samp.c:1061-1072: the rest of `ln_sampRead`: process the line found, if any. -/
def afterLine (env : Env) (inc : IncludeRec) (fuel : Nat) (st : LoadSt) (r : LineRes) : R (LoadSt × Bool) :=
  let st := { st with line := r.line, errs := st.errs ++ r.errs }
  match r.buf with
  | none => .ok (st, true)
  | some buf => processSamp env inc fuel st buf

/-- `ln_sampRead` until end of file, the loops of samp.c:1157-1159 and 1183-1185; each round
consumes input, so that `rounds` > length of the input suffices. The flag is the return code 0. -/
def readAll (env : Env) (inc : IncludeRec) (fuel : Nat) (src : Src) :
    (rounds : Nat) → LoadSt → Bytes → R (LoadSt × Bool)
  | 0, _, _ => .oof
  | rounds + 1, st, inp =>
    let r := readLine src inp st.line [] false false []
    (afterLine env inc fuel st r).bind fun x =>
      if !x.2 then .ok (x.1, false)
      else if r.eof then .ok (x.1, true)
      else readAll env inc fuel src rounds x.1 r.rest

/-- `if(ctx->include_level == 1) ln_pdagOptimize(ctx);` (samp.c:1164, 1187) -/
def optimizeTop (srt : Sorter) (st : LoadSt) : R LoadSt :=
  if st.level = 1 then (pdagOptimize srt st.b).bind fun b => .ok { st with b := b }
  else .ok st

/-- first line of a version 2 file, samp.c:1087 -/
def versionLine : Bytes := bs! "version=2\n"

/-- samp.c:1144-1168 `ln_sampLoad` without opening the file: `content` none = not found. A file in version 1 format
does not change the graph. The flag is the return code 0. -/
def sampLoad (env : Env) (srt : Sorter) (inc : IncludeRec) (fuel : Nat) (st : LoadSt) (content : Option Bytes) :
    R (LoadSt × Bool) :=
  match content with
  | none => .ok (st.err .open_, false)
  | some [] => .ok (st.err .version, false)
  | some c =>
    let v := if versionLine.isPrefixOf c then 2 else 1
    if st.version ≠ 0 ∧ v ≠ st.version then .ok (st.err .version, false)
    else if v = 1 then .ok ({ st with version := 1 }, true)
    else
      let inp := c.drop versionLine.length
      (readAll env inc fuel .file (inp.length + 1) { st with version := 2, line := st.line + 1 } inp).bind fun (st, ok) =>
        if !ok then .ok (st, false)
        else (optimizeTop srt st).bind fun st => .ok (st, true)

/-- liblognorm.c:157-172 `ln_loadSamples`; `fs` = the files (`tryOpenRBFile`, samp.c:1113-1150); `fuel` bounds the depth of
includes and the rounds of the annotation loop. -/
def loadSamples (env : Env) (srt : Sorter) (fs : Bytes → Option Bytes) : (fuel : Nat) → IncludeRec
  | 0, _, _ => .oof
  | fuel + 1, st, name =>
    (sampLoad env srt (loadSamples env srt fs fuel) fuel
      { st with file := some name, line := 0, level := st.level + 1 } (fs name)).bind fun (st, ok) =>
    .ok ({ st with level := st.level - 1, file := none }, ok)

/-- samp.c:1172-1190 `ln_sampLoadFromString` -/
def sampLoadFromString (env : Env) (srt : Sorter) (inc : IncludeRec) (fuel : Nat) (st : LoadSt) (s : Bytes) :
    R (LoadSt × Bool) :=
  (readAll env inc fuel .string (s.length + 1) { st with version := 2 } s).bind fun (st, ok) =>
    if !ok then .ok (st, false)
    else (optimizeTop srt st).bind fun st => .ok (st, true)

/-- liblognorm.c:174-190 `ln_loadSamplesFromString`. -/
def loadSamplesFromString (env : Env) (srt : Sorter) (fs : Bytes → Option Bytes) (fuel : Nat) (st : LoadSt) (s : Bytes) :
    R (LoadSt × Bool) :=
  (sampLoadFromString env srt (loadSamples env srt fs fuel) fuel
    { st with file := some (bs! "--NO-FILE--"), line := 0, level := st.level + 1 } s).bind fun (st, ok) =>
  .ok ({ st with level := st.level - 1, file := none }, ok)

end LN
