import Verif.Model.V1
import Verif.Model.Samp
import Verif.Model.Tool
/-
The parsers of the version 1 engine: v1_parser.c. Many of them have the same text as their version 2 counterparts in parser.c, but
deliver no value (the engine then stores the matched text); for these the model of the latter is used (with `want := false`). The engine always
passes a `value` pointer.
Not modelled: `regex` (FEATURE_REGEXP is off by default), running out of memory, messages larger than an `int`.
-/
set_option autoImplicit false
namespace LN

/-- what the version 1 engine uses besides `Env` -/
structure V1Env where
  env : Env
  /-- `json_object_new_double(json_object_get_double(v))`; none = NULL -/
  toDbl : Option Json → Bytes := fun _ => bs! "0.0"
  /-- `json_object_get_boolean` of what is not a string; none = NULL -/
  truth : Option Json → Bool := fun _ => false
  /-- the files, for `descent` -/
  files : Bytes → Option Bytes := fun _ => none

/-! ### parsers which differ from those of version 2 -/

/-- v1_parser.c:524-543 `ln_parseNumber` -/
def v1Number (s : Bytes) (offs : Nat) : PR :=
  let i := scan isDigit s offs
  if i = offs then .fail else .ok (i - offs, none)

/-- v1_parser.c:735-777 `ln_parseStringTo`. `i == strLen || c[i] != toFind[0]` is equivalent to `chkstr == 0`.
Simplification: NUL bytes in the extra data count as undefined behaviour in any case (`toFind` is shorter than `k` says). -/
def v1StringTo (env : Env) (raw : Option Bytes) (s : Bytes) (offs : Nat) : PR :=
  match raw with
  | none => .ub .nullDeref
  | some r =>
    let f := env.unescape r
    if (0 : UInt8) ∈ f then .ub .oobRead
    else if f = [] ∧ (0 : UInt8) ∈ s.drop (offs + 1) then .ub .oobRead
    else parseStringTo s offs f false

/-- v1_parser.c:829, 866: the terminator, as list; the message consists of (signed) `char`, the terminator is an `unsigned char`, so that bytes
from 128 on are never equal to it -/
def v1Term (env : Env) (raw : Option Bytes) : R Bytes :=
  match raw with
  | none => .ub .nullDeref
  | some r =>
    match env.unescape r with
    | [] => .ub .uninitRead
    | t :: _ => .ok (if t < 128 then [t] else [])

/-- v1_parser.c:819-846 `ln_parseCharTo` -/
def v1CharTo (env : Env) (raw : Option Bytes) (s : Bytes) (offs : Nat) : PR :=
  (v1Term env raw).bind fun ts => parseCharTo s offs ts false

/-- v1_parser.c:856-877 `ln_parseCharSeparated` -/
def v1CharSep (env : Env) (raw : Option Bytes) (s : Bytes) (offs : Nat) : PR :=
  (v1Term env raw).bind fun ts => parseCharSep s offs ts false

/-- v1_parser.c:1877-1910 `ln_parseQuotedString`: the value is the text without quotes -/
def v1Quoted (s : Bytes) (offs : Nat) : PR :=
  (parseQuotedString s offs false).bind fun (n, _) => .ok (n, some (newString (slice s (offs + 1) (n - 2))))

/-- v1_parser.c:2029-2053: second ip/port -/
def v1CiscoSecond (s : Bytes) (i : Nat) : R (Option ((Nat × Nat × Nat × Nat) × Nat)) := do
  if i + 5 < s.length && atP (· = ch! ' ') s i && atP (· = ch! '(') s (i + 1) then
    let iTmp := i + 2
    let ip2 ← R.attempt (parseIPv4 s iTmp false)
    match ip2 with
    | none => pure none
    | some (lenIP2, _) =>
      let idxPort2 := iTmp + lenIP2 + 1
      let p2 ← R.attempt (v1Number s idxPort2)
      match p2 with
      | none => pure none
      | some (lenPort2, _) =>
        let j := idxPort2 + lenPort2
        if atP (· = ch! ')') s j then pure (some ((iTmp, lenIP2, idxPort2, lenPort2), j + 1))
        else pure none
  else pure none

/-- v1_parser.c:1978-2113 `ln_parseCiscoInterfaceSpec`; no value if the message ends with the port (line 2026) -/
def v1Cisco (s : Bytes) (offs : Nat) : PR := do
  let c ← rd s offs
  R.guard (!(c = ch! ':' || isSpace c))
  let (ifc, idxIP, lenIP, i) ← ciscoHead s offs
  R.guard (i ≠ s.length)
  guardChar s i (ch! '/')
  let idxPort := i + 1
  let (lenPort, _) ← v1Number s idxPort
  let i := idxPort + lenPort
  if i = s.length then pure (i - offs, none)
  else
    let sec ← v1CiscoSecond s i
    let i := match sec with | some (_, j) => j | none => i
    let usr := ciscoUser s i
    let i := match usr with | some (_, j) => j | none => i
    let v : Obj :=
      (match ifc with
       | some (a, n) => [(bs! "interface", Json.str (slice s a n))] | none => []) ++
      [(bs! "ip", Json.str (slice s idxIP lenIP)), (bs! "port", Json.str (slice s idxPort lenPort))] ++
      (match sec with
       | some ((a, n, b, m), _) =>
         [(bs! "ip2", Json.str (slice s a n)), (bs! "port2", Json.str (slice s b m))] | none => []) ++
      (match usr with
       | some ((a, n), _) => [(bs! "user", Json.str (slice s a n))] | none => [])
    pure (i - offs, some (.obj v))

/-- v1_parser.c:2620-2660 `parseNameValue`: new offset, name, value -/
def v1NameValue1 (s : Bytes) (offs : Nat) : R (Nat × Bytes × Bytes) := do
  let i := scan isValidNameChar s offs
  R.guard (i ≠ offs)
  guardChar s i (ch! '=')
  let j := scan (fun c => !isSpace c) s (i + 1)
  pure (j, slice s offs (i - offs), slice s (i + 1) (j - (i + 1)))

/-- v1_parser.c:2736-2740, 2752-2756: the loop; both stages run the same loop -/
def v1NvLoop (s : Bytes) : (fuel : Nat) → Nat → Obj → R (Nat × Obj)
  | 0, _, _ => .oof
  | fuel + 1, i, o =>
    if i < s.length then
      (v1NameValue1 s i).bind fun (j, n, v) => v1NvLoop s fuel (scan isSpace s j) (Obj.add o n (.str v))
    else .ok (i, o)

/-- v1_parser.c:2732-2762 `ln_parseNameValue` -/
def v1NameValue (s : Bytes) (offs : Nat) : PR :=
  (v1NvLoop s (s.length - offs + 1) offs []).bind fun (i, o) => .ok (i - offs, some (.obj o))

/-- v1_parser.c:2836-2865: as `cefValLoop`, without the escape sequence for a slash -/
def v1CefValLoop : Bytes → (i lw : Nat) → (hadSP inEsc : Bool) → R (Nat × Nat)
  | [], i, lw, _, _ => .ok (i, lw)
  | c :: cs, i, lw, hadSP, inEsc =>
    if inEsc then
      if c ≠ ch! '=' && c ≠ ch! '\\' && c ≠ ch! 'r' && c ≠ ch! 'n' then .fail
      else v1CefValLoop cs (i + 1) lw hadSP false
    else if c = ch! '=' then .ok (i, lw)
    else if c = ch! '\\' then v1CefValLoop cs (i + 1) lw hadSP true
    else if c = ch! ' ' then v1CefValLoop cs (i + 1) lw true false
    else if hadSP then v1CefValLoop cs (i + 1) i false false
    else v1CefValLoop cs (i + 1) lw hadSP false

/-- v1_parser.c:2823-2876 `cefParseExtensionValue` -/
def v1CefExtValue (s : Bytes) (i : Nat) : R Nat := do
  let (j, lw) ← v1CefValLoop (s.drop i) i 0 false false
  if j < s.length then pure (if lw = 0 then j else lw - 1) else pure j

/-- v1_parser.c:2945-2963: copy of the value with escapes removed -/
def v1CefUnescape : Bytes → Nat → R Bytes
  | _, 0 => .ok []
  | [], _ + 1 => .ub .oobRead
  | c :: cs, n + 1 =>
    if c = ch! '\\' then
      match cs with
      | [] => .ub .uninitRead
      | e :: cs' =>
        let b : R UInt8 :=
          if e = ch! '=' then .ok (ch! '=')
          else if e = ch! 'n' then .ok 10
          else if e = ch! 'r' then .ok 13
          else if e = ch! '\\' then .ok (ch! '\\')
          else .ub .uninitRead
        b.bind fun b => (v1CefUnescape cs' (n - 1)).bind fun r => .ok (b :: r)
    else (v1CefUnescape cs n).bind fun r => .ok (c :: r)

/-- v1_parser.c:2908-2980 `cefParseExtensions`; with `want` = `jroot != NULL` -/
def v1CefExts (s : Bytes) (want : Bool) : (fuel : Nat) → Nat → Obj → R Obj
  | 0, _, _ => .oof
  | fuel + 1, i, o =>
    if i < s.length then do
      let i := scan (· == ch! ' ') s i
      let iName := i
      let i ← cefName s i
      R.guard (i + 1 < s.length)
      guardChar s i (ch! '=')
      let name := slice s iName (i - iName)
      let iValue := i + 1
      let i ← v1CefExtValue s iValue
      let lenValue := i - iValue
      let o ← if want then do
          let v ← v1CefUnescape (s.drop iValue) lenValue
          pure (Obj.add o name (newString v))
        else pure o
      v1CefExts s want fuel (i + 1) o
    else .ok o

/-- `a - b` in `size_t` -/
def sizeSub (a b : Nat) : Nat := sizeT (a + 2 ^ 64 - sizeT b)

/-- v1_parser.c:3034-3116 `ln_parseCEF`: line 3063 skips a byte behind the header, and line 3079 computes `*offs - i`, where `i` is where
the extensions begin -/
def v1CEF (s : Bytes) (offs : Nat) : PR := do
  R.guard (offs + 17 ≤ s.length)
  guardChar s offs (ch! 'C')
  guardChar s (offs + 1) (ch! 'E')
  guardChar s (offs + 2) (ch! 'F')
  guardChar s (offs + 3) (ch! ':')
  guardChar s (offs + 4) (ch! '0')
  guardChar s (offs + 5) (ch! '|')
  let (i, vendor) ← cefHdr s (offs + 6)
  let (i, product) ← cefHdr s i
  let (i, version) ← cefHdr s i
  let (i, sigID) ← cefHdr s i
  let (i, name) ← cefHdr s i
  let (i, severity) ← cefHdr s i
  let i := i + 1
  let _ ← v1CefExts s false (s.length - i + 1) i []
  let ext ← v1CefExts s true (s.length - i + 1) i []
  pure (sizeSub offs i, some (.obj
    [(bs! "DeviceVendor", newString vendor), (bs! "DeviceProduct", newString product),
     (bs! "DeviceVersion", newString version), (bs! "SignatureID", newString sigID),
     (bs! "Name", newString name), (bs! "Severity", newString severity),
     (bs! "Extensions", .obj ext)]))

/-- v1_parser.c:3133-3179: the loop of `ln_parseCheckpointLEA`; `o` = `*value` (none = NULL) -/
def v1LeaLoop (s : Bytes) : (fuel : Nat) → (i found : Nat) → Option Obj → R (Nat × Option Obj)
  | 0, _, _, _ => .oof
  | fuel + 1, i, found, o =>
    if i < s.length then
      let i := scan (· == ch! ' ') s i
      if i = s.length then
        if found = 0 then .fail else .ok (i, o)
      else
        let iName := i
        let i := scan (fun c => c != ch! ':') s i
        if i + 1 ≥ s.length then .fail
        else
          let name := slice s iName (i - iName)
          let i := scan (· == ch! ' ') s (i + 1)
          let iValue := i
          let i := scan (fun c => c != ch! ';') s i
          if i + 1 > s.length then .fail
          else
            let v := slice s iValue (i - iValue)
            v1LeaLoop s fuel (i + 1) (found + 1) (some (Obj.add (o.getD []) (cstr name) (newString v)))
    else .ok (i, o)

/-- v1_parser.c:3124-3192 `ln_parseCheckpointLEA`; line 3182 computes `*offs - i` -/
def v1LEA (s : Bytes) (offs : Nat) : PR :=
  (v1LeaLoop s (s.length - offs + 1) offs 0 none).bind fun (i, o) => .ok (sizeSub offs i, o.map Json.obj)

/-! ### parsers which use a context of their own -/

/-- `json_object_get_string_len`; none = NULL -/
def strLenOf : Option Json → Nat
  | some (.str s) => s.length
  | _ => 0

/-- `ln_normalize` on a context, for message and event -/
abbrev V1Norm := V1CtxId → Bytes → Obj → R Obj

/-- v1_parser.c:892-923 `ln_parseRecursive` -/
def v1Recursive (norm : V1Norm) (d : Option V1Data) (s : Bytes) (offs : Nat) : PR :=
  match d with
  | some (.recursive ctx rem) =>
    (norm ctx (s.drop offs) []).bind fun o =>
    match o.get (bs! "unparsed-data") with
    | some _ => .ok (0, none)
    | none =>
      match o.get rem with
      | some u => .ok (sizeSub (s.length - offs) (strLenOf (some u)), some (.obj (o.del rem)))
      | none => .ok (s.length - offs, some (.obj o))
  | _ => .ok (0, none)

/-- v1_parser.c:1059-1105, the loop of `ln_parseTokenized`: `remaining_len` at the end, and the matches. `left` = the text which
remains, `o` = `json_p`. (The matches are references to `json_p`: what is deleted from it afterwards is not in them.) `fuel` bounds the number of rounds. -/
def v1TokLoop (norm : V1Norm) (tok : Bytes) (ctx : Option V1CtxId) (useDefault : Bool) (rem : Bytes) :
    (fuel : Nat) → (left : Bytes) → Obj → List Json → R (Nat × List Json)
  | 0, _, _, _ => .oof
  | fuel + 1, left, o, ms =>
    if left = [] then .ok (0, ms)
    else
      match ctx with
      | none => .ub .nullDeref
      | some c =>
        (norm c left (if useDefault then o else [])).bind fun o =>
        let found : Bool := if useDefault then (o.get (bs! "default")).isSome else (o.get (bs! "unparsed-data")).isNone
        let elt : Obj → Json := fun o' => if useDefault then (o.get (bs! "default")).getD .null else .obj o'
        if found then
          match o.get rem with
          | none => .ok (0, ms ++ [elt o])
          | some (.str r) =>
            if r = [] then .ok (0, ms ++ [elt o])
            else
              let o' := o.del rem
              if tok <+: r then
                v1TokLoop norm tok ctx useDefault rem fuel (r.drop tok.length) (if useDefault then o'.del (bs! "default") else o') (ms ++ [elt o'])
              else .ok (r.length, ms ++ [elt o'])
          | some _ => .ok (0, ms ++ [elt o])
        else if ms = [] then .fail
        else .ok (left.length + tok.length, ms)

/-- v1_parser.c:1039-1117 `ln_parseTokenized` -/
def v1Tokenized (norm : V1Norm) (fuel : Nat) (d : Option V1Data) (s : Bytes) (offs : Nat) : PR :=
  match d with
  | some (.tokenized tok ctx useDefault rem) =>
    (v1TokLoop norm tok ctx useDefault rem fuel (s.drop offs) [] []).bind fun (n, ms) =>
      .ok (sizeSub (s.length - offs) n, some (.arr ms))
  | _ => .fail

/-- digits of `strtol` in this base, and their value -/
def strtolDigits (base : Nat) (s : Bytes) : Nat :=
  (s.takeWhile fun c => if base = 16 then isXDigit c else isDigit c).foldl (fun v c => v * base + hexVal c) 0

/-- `strtol(s, NULL, base)` with base 10 or 16: white space, sign, `0x`, digits; clamped -/
def strtol (base : Nat) (s : Bytes) : Int :=
  let s := s.dropWhile isSpace
  let (neg, s) : Bool × Bytes := match s with
    | c :: t => if c = ch! '-' then (true, t) else if c = ch! '+' then (false, t) else (false, s)
    | [] => (false, [])
  let s := match s with
    | a :: b :: c :: t => if base = 16 ∧ a = ch! '0' ∧ (b = ch! 'x' ∨ b = ch! 'X') ∧ isXDigit c = true then c :: t else s
    | _ => s
  let v : Int := if neg then -(strtolDigits base s : Int) else strtolDigits base s
  if v > 9223372036854775807 then 9223372036854775807 else if v < -9223372036854775808 then -9223372036854775808 else v

/-- `tolower` -/
def lowerC (c : UInt8) : UInt8 := if isUpper c then c + 32 else c

/-- v1_parser.c:1429-1473 `reinterpret_value` (and the functions it calls), as seen after `json_object_put(parsed_raw)`; none = NULL.
An integer is returned as it is, without a reference of its own (line 1433). -/
def v1Reinterpret (E : V1Env) (ty : V1Interp) (v : Option Json) : R (Option Json) :=
  match ty with
  | .int10 | .int16 =>
    match v with
    | some (.str s) => .ok (some (.int (strtol (if ty = .int16 then 16 else 10) (cstr s))))
    | some (.int _) => .ub .useAfterFree
    | _ => .ok none
  | .float => .ok (some (.dbl (E.toDbl v)))
  | .bool =>
    match v with
    | some (.str s) => .ok (some (.bool (!((cstr s).map lowerC == bs! "false" || (cstr s).map lowerC == bs! "no"))))
    | v => .ok (some (.bool (E.truth v)))

/-- v1_parser.c:1475-1506 `ln_parseInterpret` -/
def v1InterpretP (E : V1Env) (norm : V1Norm) (d : Option V1Data) (s : Bytes) (offs : Nat) : PR :=
  match d with
  | some (.interpret ctx ty) =>
    (norm ctx (s.drop offs) []).bind fun o =>
    match o.get (bs! "unparsed-data") with
    | some _ => .ok (0, none)
    | none =>
      (v1Reinterpret E ty (o.get (bs! "default"))).bind fun v =>
        .ok (sizeSub (s.length - offs) (strLenOf (o.get (bs! "tail"))), v)
  | _ => .ok (0, none)

/-- v1_parser.c:1613-1626: the first of the suffixes the text begins with -/
def v1FindSuffix (frag : Bytes) : List Bytes → Option Bytes
  | [] => none
  | x :: l => if x <+: frag then some x else v1FindSuffix frag l

/-- v1_parser.c:1585-1635 `ln_parseSuffixed`. If nothing follows the value, `unparsed_frag` is NULL (line 1612). -/
def v1Suffixed (norm : V1Norm) (d : Option V1Data) (s : Bytes) (offs : Nat) : PR :=
  match d with
  | some (.suffixed ctx sufs vn sn) =>
    (norm ctx (s.drop offs) []).bind fun o =>
    match o.get (bs! "unparsed-data") with
    | some _ => .ok (0, none)
    | none =>
      match o.get (bs! "tail") with
      | some (.str frag) =>
        match v1FindSuffix (cstr frag) sufs with
        | none => .ok (0, none)
        | some x => .ok (sizeT (sizeSub (s.length - offs) frag.length + x.length),
            some (.obj (Obj.add [(vn, (o.get (bs! "default")).getD .null)] sn (.str x))))
      | _ => if sufs = [] then .ok (0, none) else .ub .nullDeref
  | _ => .ok (0, none)

/-- `node->parser(...)`; `fuel` bounds the number of rounds in `tokenized` -/
def v1Parser (E : V1Env) (norm : V1Norm) (fuel : Nat) (k : V1Fn) (f : V1Field) (s : Bytes) (offs : Nat) : PR :=
  match k with
  -- v1_parser.c:297-518 `ln_parseRFC3164Date`
  | .date3164 => parseRFC3164Date E.env s offs .asString false
  -- v1_parser.c:192-290 `ln_parseRFC5424Date`
  | .date5424 => parseRFC5424Date s offs .asString false
  | .number => v1Number s offs
  -- v1_parser.c:548-580 `ln_parseFloat`
  | .float => parseFloat s offs .asString false
  -- v1_parser.c:588-615 `ln_parseHexNumber`
  | .hexnumber => parseHexNumber s offs ⟨0, .asString⟩ false
  -- v1_parser.c:623-672 `ln_parseKernelTimestamp`
  | .kernelTs => parseKernelTimestamp s offs false
  -- v1_parser.c:679-700 `ln_parseWhitespace`
  | .whitespace => parseWhitespace s offs false
  -- v1_parser.c:2279-2325 `ln_parseIPv4`
  | .ipv4 => parseIPv4 s offs false
  -- v1_parser.c:2343-2425 `ln_parseIPv6`
  | .ipv6 => parseIPv6 s offs false
  -- v1_parser.c:705-729 `ln_parseWord`
  | .word => parseWord s offs false
  -- v1_parser.c:784-806 `ln_parseAlpha`
  | .alpha => parseAlpha s offs false
  -- v1_parser.c:1826-1868 `ln_parseOpQuotedString`
  | .opQuoted => parseOpQuotedString s offs true
  | .quoted => v1Quoted s offs
  -- v1_parser.c:1918-1965 `ln_parseISODate`
  | .dateIso => parseISODate s offs false
  -- v1_parser.c:2164-2200 `ln_parseTime24hr`
  | .time24 => parseTime24hr s offs false
  -- v1_parser.c:2207-2245 `ln_parseTime12hr`
  | .time12 => parseTime12hr s offs false
  -- v1_parser.c:2122-2157 `ln_parseDuration`
  | .duration => parseDuration s offs false
  | .cisco => v1Cisco s offs
  -- v1_parser.c:2555-2597 `ln_parseJSON`
  | .json => parseJSON E.env s offs true
  -- v1_parser.c:2671-2717 `ln_parseCEESyslog`
  | .cee => parseCEESyslog E.env s offs true
  -- v1_parser.c:2776-2819 `ln_parseMAC48`
  | .mac48 => parseMAC48 s offs true
  | .nameValue => v1NameValue s offs
  | .cef => v1CEF s offs
  | .lea => v1LEA s offs
  -- v1_parser.c:2502-2541 `ln_parsev2IPTables`
  | .v2iptables => parseIPTables s offs true
  | .stringTo => v1StringTo E.env f.raw s offs
  | .charTo => v1CharTo E.env f.raw s offs
  | .charSep => v1CharSep E.env f.raw s offs
  | .tokenized => v1Tokenized norm fuel f.pdata s offs
  | .recursive => v1Recursive norm f.pdata s offs
  | .interpret => v1InterpretP E norm f.pdata s offs
  | .suffixed => v1Suffixed norm f.pdata s offs

end LN
