import Verif.Model.V1Parse
/-
Rulebases of version 1: v1_samp.c, v1_liblognorm.c, and the constructors of v1_parser.c. As in Model/Samp the bytes
from an offset on stand for buffer and offset.

Contexts made for fields are represented by the text they are made of (`V1CtxId`), and are loaded where they are used. Hence not
modelled: a file which descends into itself (in C it is opened again and again until no more files can be opened). Also not
modelled: running out of memory, debug output, error messages.
-/
set_option autoImplicit false
namespace LN

/-! ### Field descriptions -/

/-- which `constructor_fn` -/
inductive V1Cons where
  | none | tokenized | recursive | descent | interpret | suffixed | namedSuffixed
  deriving DecidableEq, Repr

/-- v1_samp.c:158-277: the types; `regex` needs FEATURE_REGEXP, which is off by default -/
def v1Types : List (Bytes × V1Prs × V1Cons) :=
  [(bs! "date-rfc3164", .fn .date3164, .none), (bs! "date-rfc5424", .fn .date5424, .none), (bs! "number", .fn .number, .none),
   (bs! "float", .fn .float, .none), (bs! "hexnumber", .fn .hexnumber, .none), (bs! "kernel-timestamp", .fn .kernelTs, .none),
   (bs! "whitespace", .fn .whitespace, .none), (bs! "ipv4", .fn .ipv4, .none), (bs! "ipv6", .fn .ipv6, .none),
   (bs! "word", .fn .word, .none), (bs! "alpha", .fn .alpha, .none), (bs! "rest", .rest, .none),
   (bs! "op-quoted-string", .fn .opQuoted, .none), (bs! "quoted-string", .fn .quoted, .none), (bs! "date-iso", .fn .dateIso, .none),
   (bs! "time-24hr", .fn .time24, .none), (bs! "time-12hr", .fn .time12, .none), (bs! "duration", .fn .duration, .none),
   (bs! "cisco-interface-spec", .fn .cisco, .none), (bs! "json", .fn .json, .none), (bs! "cee-syslog", .fn .cee, .none),
   (bs! "mac48", .fn .mac48, .none), (bs! "name-value-list", .fn .nameValue, .none), (bs! "cef", .fn .cef, .none),
   (bs! "checkpoint-lea", .fn .lea, .none), (bs! "v2-iptables", .fn .v2iptables, .none), (bs! "iptables", .iptables, .none),
   (bs! "string-to", .fn .stringTo, .none), (bs! "char-to", .fn .charTo, .none), (bs! "char-sep", .fn .charSep, .none),
   (bs! "tokenized", .fn .tokenized, .tokenized), (bs! "recursive", .fn .recursive, .recursive), (bs! "descent", .fn .recursive, .descent),
   (bs! "interpret", .fn .interpret, .interpret), (bs! "suffixed", .fn .suffixed, .suffixed),
   (bs! "named_suffixed", .fn .suffixed, .namedSuffixed)]

/-- v1_samp.c:158-277 -/
def v1Type (ty : Bytes) : Option (V1Prs × V1Cons) := (v1Types.find? fun p => p.1 == ty).map Prod.snd

/-- v1_samp.c:97-155 and 279-300, `ln_v1_parseFieldDescr` but for the type table and the constructor: name, type, extra data (`raw_data`, none = NULL) and
the rest; `s` starts behind the `%`. If there is no colon, line 131 reads the byte behind the text; whatever it is, the description is
found to be malformed (the model does not count this as undefined behaviour). Nothing requires the closing `%` behind extra data. -/
def v1Split (s : Bytes) : Option (Bytes × Bytes × Option Bytes × Bytes) :=
  let s := s.dropWhile isSpace
  let name := s.takeWhile (· != ch! ':')
  if name = [] then none
  else match s.drop name.length with
    | [] => none
    | _ :: t =>
      let isType : UInt8 → Bool := fun c => c != ch! ':' && c != ch! '%'
      let ty := trimRight (t.takeWhile isType)
      match t.dropWhile isType with
      | [] => none
      | c :: t =>
        if c = ch! '%' then some (name, ty, none, t)
        else some (name, ty, some (t.takeWhile (· != ch! '%')), (t.dropWhile (· != ch! '%')).drop 1)

/-! ### Constructors -/

/-- split at the first `n` colons -/
def pconsSplit : Nat → Bytes → List Bytes
  | 0, s => [s]
  | n + 1, s =>
    match s.dropWhile (· != ch! ':') with
    | [] => [s]
    | _ :: t => s.takeWhile (· != ch! ':') :: pconsSplit n t

/-- v1_parser.c:133-161 `pcons_args` with `expected_argc` = `n + 1` -/
def pconsArgs (n : Nat) (raw : Option Bytes) : List Bytes :=
  match raw with
  | none => []
  | some r => pconsSplit n (noNul r)

/-- v1_parser.c:173-185 `pcons_unescape_arg` -/
def unescArg (env : Env) (a : Bytes) : Bytes := noNul (env.unescape a)

/-- v1_parser.c:886 `DEFAULT_REMAINING_FIELD_NAME` -/
def tailName : Bytes := bs! "tail"

/-- v1_parser.c:926-1002 `recursive_parser_data_constructor` and `descent_parser_data_constructor`; `self` = the context the field is in -/
def v1RecData (E : V1Env) (self : V1CtxId) (cons : V1Cons) (raw : Option Bytes) : Option V1Data :=
  match cons with
  | .recursive => some (.recursive self ((pconsArgs 0 raw)[0]?.getD tailName))
  | .descent =>
    let args := pconsArgs 1 raw
    match args[0]? with
    | none => none
    | some a =>
      let file := unescArg E.env a
      match E.files file with
      | none => none
      | some _ => some (.recursive (.file file) (args[1]?.getD tailName))
  | _ => none

/-- v1_parser.c:1172-1194 `parse_tokenized_content_field`: parser, constructor and extra data of the field -/
def v1Content (d : Bytes) : Option (V1Prs × V1Cons × Option Bytes) :=
  match v1Split (bs! "default:" ++ d ++ [ch! '%']) with
  | some (_, ty, raw, rest) =>
    if rest ≠ [] then none else (v1Type ty).map fun p => (p.1, p.2, raw)
  | none => none

/-- v1_parser.c:1196-1259 `tokenized_parser_data_constructor` -/
def v1TokData (E : V1Env) (self : V1CtxId) (raw : Option Bytes) : Option V1Data :=
  match pconsArgs 1 raw with
  | [a, d] =>
    let tok := E.env.unescape (unescArg E.env a)
    match v1Content d with
    | none => none
    | some (prs, cons, raw) =>
      if prs = .fn .recursive then
        match v1RecData E self cons raw with
        | some (.recursive c rem) => some (.tokenized tok (some c) false rem)
        | _ => some (.tokenized tok none false tailName)
      else some (.tokenized tok (some (.gen d)) true tailName)
  | _ => none

/-- v1_parser.c:1518-1529 -/
def v1InterpOf (ty : Bytes) : Option V1Interp :=
  if ty = bs! "int" ∨ ty = bs! "base10int" then some .int10
  else if ty = bs! "base16int" then some .int16
  else if ty = bs! "float" then some .float
  else if ty = bs! "bool" then some .bool
  else none

/-- v1_parser.c:1508-1563 `interpret_parser_data_constructor` -/
def v1InterpData (raw : Option Bytes) : Option V1Data :=
  match pconsArgs 1 raw with
  | [ty, d] => (v1InterpOf ty).map fun i => .interpret (.gen d) i
  | _ => none

/-- all tokens of `strtok_r` -/
def strtok (delim : Bytes) : Bytes → (cur : Bytes) → List Bytes
  | [], cur => if cur = [] then [] else [cur]
  | c :: s, cur =>
    if c ∈ delim then
      if cur = [] then strtok delim s [] else cur :: strtok delim s []
    else strtok delim s (cur ++ [c])

/-- v1_parser.c:1637-1730 `_suffixed_parser_data_constructor` -/
def v1SufData (env : Env) (vn sn : Bytes) (raw : Option Bytes) : Option V1Data :=
  match pconsArgs 2 raw with
  | [a, b, d] =>
    let sufs := strtok (unescArg env a) (unescArg env b) []
    if sufs = [] then none else some (.suffixed (.gen d) sufs vn sn)
  | _ => none

/-- v1_parser.c:1736-1775 `named_suffixed_parser_data_constructor` -/
def v1NamedSufData (env : Env) (raw : Option Bytes) : Option V1Data :=
  match pconsArgs 2 raw with
  | [vn, sn, r] => v1SufData env vn sn (some r)
  | _ => none

/-- v1_samp.c:303 `constructor_fn(node, ctx)` -/
def v1Data (E : V1Env) (self : V1CtxId) (cons : V1Cons) (raw : Option Bytes) : Option V1Data :=
  match cons with
  | .none => none
  | .tokenized => v1TokData E self raw
  | .recursive => v1RecData E self .recursive raw
  | .descent => v1RecData E self .descent raw
  | .interpret => v1InterpData raw
  | .suffixed => v1SufData E.env (bs! "value") (bs! "suffix") raw
  | .namedSuffixed => v1NamedSufData E.env raw

/-! ### Rules -/

/-- v1_samp.c:97-316 `ln_v1_parseFieldDescr`; `s` starts behind the `%`; the field and the rest, none: malformed -/
def v1FieldDescr (E : V1Env) (self : V1CtxId) (s : Bytes) : Option (V1Field × Bytes) :=
  match v1Split s with
  | none => none
  | some (name, ty, raw, rest) =>
    match v1Type ty with
    | none => none
    | some (prs, cons) => some (⟨name, prs, raw, v1Data E self cons raw⟩, rest)

/-- v1_samp.c:382-393, the loop of `addSampToTree`: literal, fields each followed by a literal, and whether the text is well formed. (The
empty literal at the end of line 389 is the one for the empty rest.) -/
def v1LexF (E : V1Env) (self : V1CtxId) : (fuel : Nat) → Bytes → Bytes × List (V1Field × Bytes) × Bool
  | 0, _ => ([], [], false)
  | fuel + 1, s =>
    let (raw, rest) := litSplit s
    match rest with
    | [] => (E.env.unescape raw, [], true)
    | _ :: t =>
      match v1FieldDescr E self t with
      | none => (E.env.unescape raw, [], false)
      | some (f, t) =>
        let (l, r, b) := v1LexF E self fuel t
        (E.env.unescape raw, (f, l) :: r, b)

/-- the sample a rule text denotes; each field takes up a byte at least -/
def v1Lex (E : V1Env) (self : V1CtxId) (tags : Option (List Bytes)) (s : Bytes) : V1Sample :=
  let (l, r, b) := v1LexF E self (s.length + 1) s
  ⟨l, r, tags, b⟩

/-- a context of version 1: samples in the tree, annotations, `rulePrefix` (none = NULL) -/
structure V1Load where
  xs : List V1Sample := []
  annots : List Annot := []
  rulePrefix : Option Bytes := none
  deriving DecidableEq

/-- v1_samp.c:568-597 `processRule`; `s` starts behind `rule=` -/
def v1ProcessRule (E : V1Env) (self : V1CtxId) (st : V1Load) (s : Bytes) : R V1Load :=
  match tagLoop s none [] with
  | .fail => .ok st
  | .ub k => .ub k
  | .oof => .oof
  | .ok (tags, t) =>
    if t = [] then .ok st
    else .ok { st with xs := st.xs ++ [v1Lex E self (tagBucket tags) (st.rulePrefix.getD [] ++ t)] }

/-- v1_samp.c:667-724 `getAnnotationOp`: as in version 2, without comments -/
def v1AnnotationOp (s : Bytes) : AOpRes :=
  if (s.dropWhile isSpace).head? = some (ch! '#') then .fail none else getAnnotationOp s

/-- v1_samp.c:755-757, the loop of `processAnnotate`; `fuel` bounds the number of rounds -/
def v1AnnotLoop : (fuel : Nat) → Annot → Bytes → R (Option Annot)
  | fuel, a, s =>
    if s = [] then .ok (some a)
    else match fuel with
      | 0 => .oof
      | fuel + 1 =>
        match v1AnnotationOp s with
        | .fail _ => .ok none
        | .ok none t => v1AnnotLoop fuel a t
        | .ok (some op) t => v1AnnotLoop fuel (addAnnotOp a op) t

/-- v1_samp.c:736-763 `processAnnotate` -/
def v1ProcessAnnotate (fuel : Nat) (st : V1Load) (s : Bytes) : R V1Load :=
  let (tag, t) := getFieldName s
  match t.dropWhile isSpace, tag with
  | c :: t, some tag =>
    if c ≠ ch! ':' then .ok st
    else (v1AnnotLoop fuel { tag := tag, ops := [] } t).bind fun a =>
      match a with
      | none => .ok st
      | some a => .ok { st with annots := addAnnotToSet st.annots a }
  | _, _ => .ok st

/-- v1_samp.c:765-800 `ln_v1_processSamp` -/
def v1ProcessSamp (E : V1Env) (self : V1CtxId) (fuel : Nat) (st : V1Load) (buf : Bytes) : R V1Load :=
  let (kind, t) := lineType buf
  if kind = bs! "prefix" then .ok { st with rulePrefix := some t }
  else if kind = bs! "extendprefix" then
    match st.rulePrefix with
    | none => if t = [] then .ok st else .ub .nullDeref
    | some p => .ok { st with rulePrefix := some (p ++ t) }
  else if kind = bs! "rule" then v1ProcessRule E self st t
  else if kind = bs! "annotate" then v1ProcessAnnotate fuel st t
  else .ok st

/-- what `ln_v1_sampRead` finds: the line to process (none: there is none), the rest of the input, end of file -/
structure V1Line where
  buf : Option Bytes
  rest : Bytes
  eof : Bool
  deriving DecidableEq

/-- v1_samp.c:807 -/
def v1MaxLine : Nat := 10240

/-- v1_samp.c:803-853 `ln_v1_sampRead` without processing the line; `acc` = `buf[0..i)`, `inP` = `inParser`, `comment`: inside of
`ln_sampSkipCommentLine` (samp.c:939-947) -/
def v1ReadLine : Bytes → (acc : Bytes) → (inP comment : Bool) → V1Line
  | [], acc, _, _ => ⟨if acc = [] then none else some acc, [], true⟩
  | c :: t, acc, inP, comment =>
    if comment then v1ReadLine t acc inP (c != ch! '\n')
    else if c = ch! '\n' then
      if inP && (runaway false t).isSome then v1ReadLine t [] false false
      else if !inP && acc != [] then ⟨some acc, t, false⟩
      else v1ReadLine t acc inP false
    else if c = ch! '#' ∧ acc = [] then v1ReadLine t acc inP true
    else if acc.length + 1 ≥ v1MaxLine then ⟨none, t, false⟩
    else v1ReadLine t (acc ++ [c]) (if c = ch! '%' then !inP else inP) false

/-- v1_liblognorm.c:93-97: read until end of file; each round consumes input, so that `rounds` > length of the input suffices -/
def v1ReadAll (E : V1Env) (self : V1CtxId) (fuel : Nat) : (rounds : Nat) → V1Load → Bytes → R V1Load
  | 0, _, _ => .oof
  | rounds + 1, st, inp =>
    let r := v1ReadLine inp [] false false
    ((match r.buf with
      | none => .ok st
      | some buf => v1ProcessSamp E self fuel st buf) : R V1Load).bind fun st =>
      if r.eof then .ok st else v1ReadAll E self fuel rounds st r.rest

/-- v1_liblognorm.c:73-107 `ln_v1_loadSamples`, for the content of the file -/
def v1LoadText (E : V1Env) (self : V1CtxId) (fuel : Nat) (st : V1Load) (text : Bytes) : R V1Load :=
  v1ReadAll E self fuel (text.length + 1) st text

/-! ### Contexts, and normalising -/

/-- v1_parser.c:1125-1153 `load_generated_parser_samples`: the line -/
def v1GenLine (d suffix : Bytes) : Bytes := bs! "rule=:%default:" ++ d ++ [ch! '%'] ++ suffix

/-- v1_parser.c:1155-1169 `generate_context_with_field_as_prefix` -/
def v1GenLoad (E : V1Env) (d : Bytes) : R V1Load :=
  (v1ProcessSamp E (.gen d) 0 {} (v1GenLine d (bs! "%tail:rest%"))).bind fun st => v1ProcessSamp E (.gen d) 0 st (v1GenLine d [])

/-- the contents of a context; `root`: those of the one the user made -/
def v1CtxLoad (E : V1Env) (root : V1Load) (fuel : Nat) : V1CtxId → R V1Load
  | .root => .ok root
  | .gen d => v1GenLoad E d
  | .file n =>
    match E.files n with
    | none => .fail
    | some text => v1LoadText E (.file n) fuel {} text

/-- the parsers, as the engine calls them -/
def v1RunOf (E : V1Env) (norm : V1Norm) (fuel : Nat) : V1Run := fun f s off =>
  match f.prs with
  | .fn k => v1Parser E norm fuel k f s off
  | _ => .fail

/-- `ln_normalize` on a context of version 1 (liblognorm.c:207-216, v1_ptree.c:853-896); `fuel` bounds the nesting of contexts, the depth of the trees and
the number of tokens -/
def v1NormN (E : V1Env) (root : V1Load) : (fuel : Nat) → V1CtxId → Bytes → Obj → R V1Res
  | 0, _, _, _ => .oof
  | fuel + 1, c, s, o =>
    (v1CtxLoad E root fuel c).bind fun L =>
    v1Normalize (v1RunOf E (fun c s o => (v1NormN E root fuel c s o).bind fun r => .ok r.json) fuel) L.annots fuel (loadV1 L.xs) s o

end LN
