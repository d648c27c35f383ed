import Verif.Model.Pdag
/-
Constructors of the field parsers: from the JSON configuration of a field to its `parser_data`
(parser.c, the `PARSER_Construct` blocks), and the lookup table pdag.c:70-131.
-/
namespace LN

/-- `json_object_get_string` as a C string (none = NULL, for JSON null). -/
def strOf (env : Env) : Json → Option Bytes
  | .null => none
  | .str s => some (cstr s)
  | j => some (cstr (env.ser j))

/-- a C string function applied to `json_object_get_string(..)` crashes on NULL -/
def needStr (env : Env) (j : Json) : R Bytes :=
  match strOf env j with
  | some s => .ok s
  | none => .ub .nullDeref

/-- `json_object_get_int64` -/
def int64Of (env : Env) : Json → Int
  | .null => 0
  | .int n => n
  | .bool b => if b then 1 else 0
  | .arr _ => 0
  | .obj _ => 0
  | j => env.toInt j

/-- `json_object_get_int`: clamped to `int`. -/
def intOf (env : Env) (j : Json) : Int :=
  let n := int64Of env j
  if n > 2147483647 then 2147483647 else if n < -2147483648 then -2147483648 else n

/-- `json_object_get_boolean` -/
def boolOf (env : Env) : Json → Bool
  | .bool b => b
  | .int n => n != 0
  | .str s => !s.isEmpty
  | .dbl r => env.toInt (.dbl r) != 0
  | _ => false

/-- ASCII lower case, as used by `strcasecmp` -/
def lower (s : Bytes) : Bytes := s.map fun c => if isUpper c then c + 32 else c

/-- `json_object_object_get_ex` on any JSON value: (found, pointer); JSON null is the NULL
pointer. -/
def Json.member (j : Json) (k : Bytes) : Option Json :=
  match j with
  | .obj o => Obj.get o k
  | _ => none

/-- the pointer `json_object_object_get_ex` stores: NULL (`none`) if absent or JSON null -/
def Json.ptr (j : Json) (k : Bytes) : Option Json :=
  match j.member k with
  | some .null => none
  | r => r

/-- the members of an object (iteration over a non-object finds nothing) -/
def Json.members : Json → Obj
  | .obj o => o
  | _ => []

/-- left fold with effects over the members -/
def foldMembers {α : Type} (f : α → Bytes → Json → R α) : Obj → α → R α
  | [], d => .ok d
  | (k, v) :: tl, d => (f d k v).bind (foldMembers f tl)

/-- parser.c:467-471 (and the copies at 756-760, 859-863, 965-969, 1069-1073): a parameter that
is not understood; only `name` is looked at further. -/
def otherParam {α : Type} (env : Env) (d : α) (k : Bytes) (v : Json) : R α :=
  if k = bs! "name" then (needStr env v).bind fun _ => .ok d else .ok d

/-- parser.c:442-480 / 731-768 `format` of the date parsers. -/
def ctorDate (env : Env) (o : Obj) : R Fmt :=
  foldMembers (fun d k v =>
    if k = bs! "format" then (needStr env v).bind fun f =>
      if f = bs! "timestamp-unix" then .ok .asTsUx
      else if f = bs! "timestamp-unix-ms" then .ok .asTsUxMs
      else if f = bs! "string" then .ok .asString else .ok d
    else otherParam env d k v) o .asString

/-- `format` of number, float and hexnumber (parser.c:849-858, 955-964, 1059-1068). -/
def numFmt (env : Env) (d : Fmt) (v : Json) : R Fmt :=
  (needStr env v).bind fun f =>
    if f = bs! "number" then .ok .asNumber
    else if f = bs! "string" then .ok .asString else .ok d

/-- parser.c:829-871 -/
def ctorNumber (env : Env) (o : Obj) : R DataNumber :=
  foldMembers (fun d k v =>
    if k = bs! "maxval" then .ok { d with maxval := int64Of env v }
    else if k = bs! "format" then (numFmt env d.fmt v).bind fun f => .ok { d with fmt := f }
    else otherParam env d k v) o {}

/-- parser.c:942-977 -/
def ctorFloat (env : Env) (o : Obj) : R Fmt :=
  foldMembers (fun d k v =>
    if k = bs! "format" then numFmt env d v else otherParam env d k v) o .asString

/-- parser.c:1039-1081; `maxval` is a `uint64_t`. -/
def ctorHexNumber (env : Env) (o : Obj) : R DataHexNumber :=
  foldMembers (fun d k v =>
    if k = bs! "maxval" then .ok { d with maxval := (int64Of env v % 18446744073709551616).toNat }
    else if k = bs! "format" then (numFmt env d.fmt v).bind fun f => .ok { d with fmt := f }
    else otherParam env d k v) o {}

/-- parser.c:1267-1286, 1376-1396, 1548-1567 (`key` = "extradata") and 1461-1480 (`key` = "text"):
a mandatory string parameter; `none` = `parser_data` stays NULL. -/
def ctorStr (env : Env) (key : Bytes) (o : Obj) : R (Option Bytes) :=
  match Obj.get o key with
  | none => .ok none
  | some v => (needStr env v).bind fun s => .ok (some s)

/-- parser.c:2647-2685: a one character parameter; `json_object_get_string_len` is 0 for values
which are not strings. `none` = error. -/
def oneChar (o : Obj) (key : Bytes) (dflt : UInt8) : Option UInt8 :=
  match Obj.get o key with
  | none => some dflt
  | some (.str [c]) => some c
  | some _ => none

/-- parser.c:2639-2691 -/
def ctorNameValue (o : Obj) : Option DataNameValue := do
  let sep ← oneChar o (bs! "extradata") 0
  let sep ← oneChar o (bs! "separator") sep
  let ass ← oneChar o (bs! "assignator") 0
  pure { sep := sep, ass := ass }

/-- parser.c:3143-3172. A terminator which is not one character long aborts the loop, but the data
is used all the same (flag in the accumulator = loop left). -/
def ctorLEA (env : Env) (o : Obj) : R UInt8 :=
  (foldMembers (fun (d : UInt8 × Bool) k v =>
    if d.2 then .ok d
    else if k = bs! "terminator" then (needStr env v).bind fun s =>
      match s with
      | [c] => .ok (c, false)
      | _ => .ok (d.1, true)
    else .ok d) o (0, false)).bind fun d => .ok d.1

/-- parser.c:3389-3397 (3380): set the permitted flag for all bytes of a C string; the index is
`(unsigned) c` for a signed `char`, i.e. far out of bounds for bytes above 127. -/
def addPermitted (perm : UInt8 → Bool) (s : Bytes) : R (UInt8 → Bool) :=
  if s.any (· ≥ 128) then .ub .bufferOverflow
  else .ok fun c => perm c || s.contains c

/-- parser.c:3426-3446: one member of an element of the array form of `matching.permitted` -/
def permElem (env : Env) (perm : UInt8 → Bool) (k : Bytes) (v : Json) : R (UInt8 → Bool) :=
  if lower k = bs! "chars" then
    match strOf env v with
    | none => .ok perm
    | some s => addPermitted perm s
  else if lower k = bs! "class" then
    (needStr env v).bind fun c =>
      let c := lower c
      if c = bs! "digit" then .ok fun x => perm x || isDigit x
      else if c = bs! "hexdigit" then .ok fun x => perm x || isXDigit x
      else if c = bs! "alpha" then .ok fun x => perm x || isAlpha x
      else if c = bs! "alnum" then .ok fun x => perm x || isAlnum x
      else .ok perm
  else .ok perm

/-- parser.c:3415-3450 `stringAddPermittedCharsViaArray`. -/
def permArr (env : Env) : List Json → (UInt8 → Bool) → R (UInt8 → Bool)
  | [], perm => .ok perm
  | e :: tl, perm => (foldMembers (permElem env) e.members perm).bind (permArr env tl)

/-- parser.c:3632-3643 `matching.permitted` -/
def ctorPermitted (env : Env) : Json → R (UInt8 → Bool)
  | .str s => addPermitted (fun _ => false) (cstr s)
  | .arr l => permArr env l (fun _ => false)
  | _ => .ok fun _ => false

/-- a one character string (parser.c:3613-3619) -/
def one : Bytes → Option UInt8
  | [c] => some c
  | _ => none

/-- parser.c:3585-3661: one parameter; `none` = error, data is discarded. -/
def stringParam (env : Env) (d : DataString) (k : Bytes) (v : Json) : R (Option DataString) :=
  let k := lower k
  if k = bs! "quoting.mode" then (needStr env v).bind fun o =>
    let o := lower o
    if o = bs! "auto" then .ok (some { d with quoteMode := .auto })
    else if o = bs! "none" then .ok (some { d with quoteMode := .none })
    else if o = bs! "required" then .ok (some { d with quoteMode := .reqd })
    else .ok none
  else if k = bs! "quoting.escape.mode" then (needStr env v).bind fun o =>
    let o := lower o
    if o = bs! "none" then .ok (some { d with esc := .none })
    else if o = bs! "backslash" then .ok (some { d with esc := .backslash })
    else if o = bs! "double" then .ok (some { d with esc := .double })
    else if o = bs! "both" then .ok (some { d with esc := .both })
    else .ok none
  else if k = bs! "quoting.char.begin" then (needStr env v).bind fun o =>
    .ok ((one o).map fun c => { d with qb := c })
  else if k = bs! "quoting.char.end" then (needStr env v).bind fun o =>
    .ok ((one o).map fun c => { d with qe := c })
  else if k = bs! "matching.permitted" then (ctorPermitted env v).bind fun p =>
    .ok (some { d with perm := p })
  else if k = bs! "matching.mode" then (needStr env v).bind fun o =>
    let o := lower o
    if o = bs! "strict" then .ok (some { d with lazy := false })
    else if o = bs! "lazy" then .ok (some { d with lazy := true })
    else .ok none
  else .ok (some d)

/-- parser.c:3573-3676 -/
def ctorString (env : Env) (o : Obj) : R (Option DataString) :=
  (foldMembers (fun (d : Option DataString) k v =>
    match d with
    | none => .ok none
    | some d => stringParam env d k v) o (some {})).bind fun d =>
    .ok (d.map fun d => if d.quoteMode = .none then { d with esc := .none } else d)

/-- pdag.c:70-104: the names of the parsers with their priority, in table order. -/
def parserTable : List (Bytes × Nat) :=
  [(bs! "literal", 4), (bs! "repeat", 4), (bs! "date-rfc3164", 8), (bs! "date-rfc5424", 8),
   (bs! "number", 16), (bs! "float", 16), (bs! "hexnumber", 16), (bs! "kernel-timestamp", 16),
   (bs! "whitespace", 4), (bs! "ipv4", 4), (bs! "ipv6", 4), (bs! "word", 32), (bs! "alpha", 32),
   (bs! "rest", 255), (bs! "op-quoted-string", 64), (bs! "quoted-string", 64),
   (bs! "date-iso", 8), (bs! "time-24hr", 8), (bs! "time-12hr", 8), (bs! "duration", 16),
   (bs! "cisco-interface-spec", 4), (bs! "json", 4), (bs! "cee-syslog", 4), (bs! "mac48", 16),
   (bs! "cef", 4), (bs! "v2-iptables", 4), (bs! "name-value-list", 8),
   (bs! "checkpoint-lea", 4), (bs! "string-to", 32), (bs! "char-to", 32), (bs! "char-sep", 32),
   (bs! "string", 32)]

/-- pdag.c:118-131 `ln_parserName2ID`, giving the priority of that entry; none = PRS_INVALID. -/
def parserPrio (name : Bytes) : Option Nat :=
  (parserTable.find? fun e => e.1 = name).map (·.2)

/-- pdag.c:264-268: construct `parser_data` of a parser other than `repeat` (which is handled by
`ctorRepeat`); `ty` is a name of the table. -/
def construct (env : Env) (ty : Bytes) (o : Obj) : R PKind :=
  if ty = bs! "literal" then (ctorStr env (bs! "text") o).bind fun d => .ok (.literal d)
  else if ty = bs! "date-rfc3164" then (ctorDate env o).bind fun f => .ok (.dateRfc3164 f)
  else if ty = bs! "date-rfc5424" then (ctorDate env o).bind fun f => .ok (.dateRfc5424 f)
  else if ty = bs! "number" then (ctorNumber env o).bind fun d => .ok (.number d)
  else if ty = bs! "float" then (ctorFloat env o).bind fun f => .ok (.float f)
  else if ty = bs! "hexnumber" then (ctorHexNumber env o).bind fun d => .ok (.hexnumber d)
  else if ty = bs! "kernel-timestamp" then .ok .kernelTs
  else if ty = bs! "whitespace" then .ok .whitespace
  else if ty = bs! "ipv4" then .ok .ipv4
  else if ty = bs! "ipv6" then .ok .ipv6
  else if ty = bs! "word" then .ok .word
  else if ty = bs! "alpha" then .ok .alpha
  else if ty = bs! "rest" then .ok .rest
  else if ty = bs! "op-quoted-string" then .ok .opQuoted
  else if ty = bs! "quoted-string" then .ok .quoted
  else if ty = bs! "date-iso" then .ok .dateIso
  else if ty = bs! "time-24hr" then .ok .time24
  else if ty = bs! "time-12hr" then .ok .time12
  else if ty = bs! "duration" then .ok .duration
  else if ty = bs! "cisco-interface-spec" then .ok .cisco
  else if ty = bs! "json" then .ok .json
  else if ty = bs! "cee-syslog" then .ok .cee
  else if ty = bs! "mac48" then .ok .mac48
  else if ty = bs! "cef" then .ok .cef
  else if ty = bs! "v2-iptables" then .ok .iptables
  else if ty = bs! "name-value-list" then .ok (.nameValue (ctorNameValue o))
  else if ty = bs! "checkpoint-lea" then (ctorLEA env o).bind fun t => .ok (.lea t)
  else if ty = bs! "string-to" then (ctorStr env (bs! "extradata") o).bind fun d => .ok (.stringTo d)
  else if ty = bs! "char-to" then (ctorStr env (bs! "extradata") o).bind fun d => .ok (.charTo d)
  else if ty = bs! "char-sep" then (ctorStr env (bs! "extradata") o).bind fun d => .ok (.charSep d)
  else (ctorString env o).bind fun d => .ok (.string d)

end LN
