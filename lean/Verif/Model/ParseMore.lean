import Verif.Model.ParseBasic
/-
Field parsers of parser.c, lines 285-760 (dates) and 2200-3180, 3380-3560 (structured motifs).
-/
namespace LN

/-! ### Dates -/

/-- parser.c:60-75 `hParseInt` on the rest of the buffer: value and remaining buffer. -/
def hParseInt (p : Bytes) : R (Int × Bytes) := do
  let v ← accDec intMax (p.takeWhile isDigit) 0
  pure (v, p.dropWhile isDigit)

/-- parser.c:163-200: `yearInSecs`, last second of the years 1967..2099. -/
def yearInSecs : List Int :=
  [-63158401, -31536001, -1, 31535999, 63071999, 94694399, 126230399,
   157766399, 189302399, 220924799, 252460799, 283996799, 315532799,
   347155199, 378691199, 410227199, 441763199, 473385599, 504921599,
   536457599, 567993599, 599615999, 631151999, 662687999, 694223999,
   725846399, 757382399, 788918399, 820454399, 852076799, 883612799,
   915148799, 946684799, 978307199, 1009843199, 1041379199, 1072915199,
   1104537599, 1136073599, 1167609599, 1199145599, 1230767999,
   1262303999, 1293839999, 1325375999, 1356998399, 1388534399,
   1420070399, 1451606399, 1483228799, 1514764799, 1546300799,
   1577836799, 1609459199, 1640995199, 1672531199, 1704067199,
   1735689599, 1767225599, 1798761599, 1830297599, 1861919999,
   1893455999, 1924991999, 1956527999, 1988150399, 2019686399,
   2051222399, 2082758399, 2114380799, 2145916799, 2177452799,
   2208988799, 2240611199, 2272147199, 2303683199, 2335219199,
   2366841599, 2398377599, 2429913599, 2461449599, 2493071999,
   2524607999, 2556143999, 2587679999, 2619302399, 2650838399,
   2682374399, 2713910399, 2745532799, 2777068799, 2808604799,
   2840140799, 2871763199, 2903299199, 2934835199, 2966371199,
   2997993599, 3029529599, 3061065599, 3092601599, 3124223999,
   3155759999, 3187295999, 3218831999, 3250454399, 3281990399,
   3313526399, 3345062399, 3376684799, 3408220799, 3439756799,
   3471292799, 3502915199, 3534451199, 3565987199, 3597523199,
   3629145599, 3660681599, 3692217599, 3723753599, 3755375999,
   3786911999, 3818447999, 3849983999, 3881606399, 3913142399,
   3944678399, 3976214399, 4007836799, 4039372799, 4070908799,
   4102444799]

/-- parser.c:231-274: days before the month (non leap year). -/
def monthInDays (month : Int) : Int :=
  if month = 1 then 0 else if month = 2 then 31 else if month = 3 then 59
  else if month = 4 then 90 else if month = 5 then 120 else if month = 6 then 151
  else if month = 7 then 181 else if month = 8 then 212 else if month = 9 then 243
  else if month = 10 then 273 else if month = 11 then 304 else if month = 12 then 334
  else 0

/-- parser.c:214-303 `syslogTime2time_t`. All intermediate values fit their C types for the
argument ranges the callers establish. -/
def syslogTime2timeT (year month day hour minute second offH offM : Int)
    (offMode : UInt8) : R Int :=
  if year < 1970 || year > 2100 then .ok 0
  else
    let mid := monthInDays month
    let leap : Bool := (year % 100 ≠ 0 && year % 4 = 0) || year = 2000
    let mid := if leap && month > 2 then mid + 1 else mid
    let numYears := year - 1967 - 1
    let numDays := mid + day - 1
    match yearInSecs[numYears.toNat]? with
    | none => .ub .oobRead
    | some ys =>
      let t := (ys + 1) + numDays * 86400
      let t := t + hour * 60 * 60
      let t := t + minute * 60
      let t := t + second
      let utc := offH * 3600 + offM * 60
      let utc := if offMode = ch! '+' then utc * (-1) else utc
      .ok (t + utc)

/-- parser.c:429-430: `for(i = 0 ; i < n ; ++i) div *= 10;` in `int`. -/
def mkDiv : Nat → Int → R Int
  | 0, d => .ok d
  | n + 1, d => if d * 10 > intMax then .ub .signedOverflow else mkDiv n (d * 10)

/-- parser.c:415-435: seconds (and fraction) to the value of `format`. -/
def tsValue (fmt : Fmt) (ts secfrac : Int) (prec : Nat) : R Int :=
  if fmt = .asTsUxMs then
    let ts := ts * 1000
    if prec = 1 then .ok (ts + secfrac * 100)
    else if prec = 2 then .ok (ts + secfrac * 10)
    else if prec > 3 then do
      let d ← mkDiv (prec - 3) 1
      pure (ts + secfrac / d)
    else .ok (ts + secfrac)
  else .ok ts

/-- cursor on the rest of the message; a start beyond the end wraps the length around
(`len = npb->strLen - *offs`, size_t) and the first read is out of bounds. -/
def cursor (s : Bytes) (offs : Nat) : R Bytes :=
  if s.length < offs then .ub .oobRead else .ok (s.drop offs)

/-- `if(len == 0 || *p++ != x) goto done; --len;` -/
def eat (x : UInt8) : Bytes → R Bytes
  | [] => .fail
  | c :: cs => if c = x then .ok cs else .fail

/-- parse an int and check its range -/
def hRange (lo hi : Int) (p : Bytes) : R (Int × Bytes) := do
  let (v, p) ← hParseInt p
  R.guard (lo ≤ v && v ≤ hi)
  pure (v, p)

/-- The fields of a timestamp as parsed. -/
structure Ts where
  year : Int
  month : Int
  day : Int
  hour : Int
  minute : Int
  second : Int
  secfrac : Int
  prec : Nat
  offH : Int
  offM : Int
  offMode : UInt8
  deriving DecidableEq, Repr

/-- parser.c:366-375: optional fraction of a second: value, number of digits, rest. -/
def rfc5424Frac : Bytes → R (Int × Nat × Bytes)
  | [] => .ok (0, 0, [])
  | c :: q =>
    if c = ch! '.' then do
      let (f, q') ← hParseInt q
      pure (f, q.length - q'.length, q')
    else .ok (0, 0, c :: q)

/-- parser.c:377-404: the time zone: hours, minutes, sign, rest. -/
def rfc5424Zone : Bytes → R (Int × Int × UInt8 × Bytes)
  | [] => .fail
  | c :: p =>
    if c = ch! 'Z' then .ok (0, 0, ch! '+', p)
    else if c = ch! '+' || c = ch! '-' then do
      let (oh, p) ← hRange 0 23 p
      let p ← eat (ch! ':') p
      let (om, p) ← hRange 0 59 p
      pure (oh, om, c, p)
    else .fail

/-- parser.c:406-409: a space must follow unless the message ends here. -/
def endOrSpace : Bytes → R Unit
  | [] => .ok ()
  | c :: _ => R.guard (c = ch! ' ')

/-- parser.c:334-409: the syntax part of the RFC5424 parser. Result: fields and rest. -/
def rfc5424Syntax (p : Bytes) : R (Ts × Bytes) := do
  let (year, p) ← hParseInt p
  let p ← eat (ch! '-') p
  let (month, p) ← hRange 1 12 p
  let p ← eat (ch! '-') p
  let (day, p) ← hRange 1 31 p
  let p ← eat (ch! 'T') p
  let (hour, p) ← hRange 0 23 p
  let p ← eat (ch! ':') p
  let (minute, p) ← hRange 0 59 p
  let p ← eat (ch! ':') p
  let (second, p) ← hRange 0 60 p
  let (secfrac, prec, p) ← rfc5424Frac p
  let (offH, offM, mode, p) ← rfc5424Zone p
  endOrSpace p
  pure (⟨year, month, day, hour, minute, second, secfrac, prec, offH, offM, mode⟩, p)

/-- parser.c:312-441 `ln_v2_parseRFC5424Date`. -/
def parseRFC5424Date (s : Bytes) (offs : Nat) (fmt : Fmt) (want : Bool) : PR := do
  let p ← cursor s offs
  let (t, rest) ← rfc5424Syntax p
  let n := p.length - rest.length
  if want then
    if fmt = .asString then pure (strRes want s offs n)
    else
      let ts ← syslogTime2timeT t.year t.month t.day t.hour t.minute t.second
        t.offH t.offM t.offMode
      let v ← tsValue fmt ts t.secfrac t.prec
      pure (n, some (.int v))
  else pure (n, none)

/-- `*p == 'x' || *p == 'X'` for a lower-case letter `x` -/
def isLetter (x : UInt8) (c : UInt8) : Bool := c == x || c == x - 32

/-- parser.c:518-639: month name (the caller checked `len >= 3`). -/
def rfc3164Month (a b c : UInt8) : R Int :=
  if isLetter (ch! 'j') a then
    if isLetter (ch! 'a') b then
      (if isLetter (ch! 'n') c then .ok 1 else .fail)
    else if isLetter (ch! 'u') b then
      (if isLetter (ch! 'n') c then .ok 6 else if isLetter (ch! 'l') c then .ok 7 else .fail)
    else .fail
  else if isLetter (ch! 'f') a then
    if isLetter (ch! 'e') b then (if isLetter (ch! 'b') c then .ok 2 else .fail) else .fail
  else if isLetter (ch! 'm') a then
    if isLetter (ch! 'a') b then
      (if isLetter (ch! 'r') c then .ok 3 else if isLetter (ch! 'y') c then .ok 5 else .fail)
    else .fail
  else if isLetter (ch! 'a') a then
    if isLetter (ch! 'p') b then (if isLetter (ch! 'r') c then .ok 4 else .fail)
    else if isLetter (ch! 'u') b then (if isLetter (ch! 'g') c then .ok 8 else .fail)
    else .fail
  else if isLetter (ch! 's') a then
    if isLetter (ch! 'e') b then (if isLetter (ch! 'p') c then .ok 9 else .fail) else .fail
  else if isLetter (ch! 'o') a then
    if isLetter (ch! 'c') b then (if isLetter (ch! 't') c then .ok 10 else .fail) else .fail
  else if isLetter (ch! 'n') a then
    if isLetter (ch! 'o') b then (if isLetter (ch! 'v') c then .ok 11 else .fail) else .fail
  else if isLetter (ch! 'd') a then
    if isLetter (ch! 'e') b then (if isLetter (ch! 'c') c then .ok 12 else .fail) else .fail
  else .fail

/-- skip one byte `x` if it is next (reading the terminating NUL at the end) -/
def skip1 (x : UInt8) (p : Bytes) : Bytes :=
  match p with
  | [] => []
  | c :: q => if c = x then q else c :: q

/-- parser.c:664-677: if the number is a year, the hour follows. -/
def rfc3164Year (hour : Int) (p : Bytes) : R (Int × Bytes) :=
  if hour > 1970 && hour < 2100 then do
    let p ← eat (ch! ' ') p
    hParseInt p
  else .ok (hour, p)

/-- parser.c:641-703: after the month name. -/
def rfc3164Rest (month : Int) (p : Bytes) : R (Ts × Bytes) := do
  let p ← eat (ch! ' ') p
  -- line 655: `*p == ' '` without length check; at the end the terminating NUL is read
  let p := skip1 (ch! ' ') p
  let (day, p) ← hRange 1 31 p
  let p ← eat (ch! ' ') p
  let (hour, p) ← hParseInt p
  let (hour, p) ← rfc3164Year hour p
  R.guard (0 ≤ hour && hour ≤ 23)
  let p ← eat (ch! ':') p
  let (minute, p) ← hRange 0 59 p
  let p ← eat (ch! ':') p
  let (second, p) ← hRange 0 60 p
  let p := skip1 (ch! ':') p
  pure (⟨0, month, day, hour, minute, second, 0, 0, 0, 0, ch! '+'⟩, p)

/-- parser.c:515-703: the syntax part of the RFC3164 parser. -/
def rfc3164Syntax (p : Bytes) : R (Ts × Bytes) :=
  match p with
  | a :: b :: c :: p => do
    let month ← rfc3164Month a b c
    rfc3164Rest month p
  | _ => .fail

/-- parser.c:493-730 `ln_v2_parseRFC3164Date`. -/
def parseRFC3164Date (env : Env) (s : Bytes) (offs : Nat) (fmt : Fmt) (want : Bool) : PR := do
  let p ← cursor s offs
  let (t, rest) ← rfc3164Syntax p
  let n := p.length - rest.length
  if want then
    if fmt = .asString then pure (strRes want s offs n)
    else
      let ts ← syslogTime2timeT env.year t.month t.day t.hour t.minute t.second 0 0 (ch! '+')
      let v := if fmt = .asTsUxMs then ts * 1000 else ts
      pure (n, some (.int v))
  else pure (n, none)

/-! ### iptables -/

/-- parser.c:2221-2269 `parseIPTablesNameValue`: new offset, name and value. -/
def iptablesNV (s : Bytes) (offs : Nat) : R (Nat × Bytes × Json) := do
  let i := scan isUpper s offs
  R.guard (i ≠ offs && !atP (fun c => c != ch! '=' && c != ch! ' ') s i)
  let name := slice s offs (i - offs)
  if atP (fun c => c != ch! ' ') s i then
    let iVal := i + 1
    let j := scan (fun c => !isSpace c) s iVal
    pure (j, name, .str (slice s iVal (j - iVal)))
  else pure (i, name, .null)

/-- parser.c:2292-2298: stage one; returns the end offset and number of fields. -/
def iptStage1 (s : Bytes) : (fuel : Nat) → (i nf : Nat) → R (Nat × Nat)
  | 0, _, _ => .oof
  | fuel + 1, i, nf =>
    if i < s.length then do
      let (i, _, _) ← iptablesNV s i
      let i := if atP (· = ch! ' ') s i then i + 1 else i
      iptStage1 s fuel i (nf + 1)
    else .ok (i, nf)

/-- parser.c:2314-2318: stage two. -/
def iptStage2 (s : Bytes) : (fuel : Nat) → Nat → Obj → R Obj
  | 0, _, _ => .oof
  | fuel + 1, i, o =>
    if i < s.length then do
      let (i, n, v) ← iptablesNV s i
      let i := scan isSpace s i
      iptStage2 s fuel i (Obj.add o n v)
    else .ok o

/-- parser.c:2287-2326 `ln_v2_parsev2IPTables`. -/
def parseIPTables (s : Bytes) (offs : Nat) (want : Bool) : PR := do
  let (i, nf) ← iptStage1 s (s.length - offs + 1) offs 0
  R.guard (¬ nf < 2)
  let n := i - offs
  if want then
    let o ← iptStage2 s (s.length - offs + 1) offs []
    pure (n, some (.obj o))
  else pure (n, none)

/-! ### JSON -/

/-- parser.c:2340-2378 `ln_v2_parseJSON` (line 2344 compares with a closing bracket). -/
def parseJSON (env : Env) (s : Bytes) (offs : Nat) (want : Bool) : PR := do
  let c ← rd s offs
  R.guard (c = ch! '{' || c = ch! ']')
  match env.tok (s.drop offs) with
  | none => .fail
  | some (v, n) => pure (n, if want then some v else none)

/-- parser.c:2522-2569 `ln_v2_parseCEESyslog` (line 2555: `*parsed = npb->strLen`). -/
def parseCEESyslog (env : Env) (s : Bytes) (offs : Nat) (want : Bool) : PR := do
  R.guard (offs + 7 ≤ s.length)
  guardChar s offs (ch! '@')
  guardChar s (offs + 1) (ch! 'c')
  guardChar s (offs + 2) (ch! 'e')
  guardChar s (offs + 3) (ch! 'e')
  guardChar s (offs + 4) (ch! ':')
  let i := scan isSpace s (offs + 5)
  R.guard (i ≠ s.length)
  guardChar s i (ch! '{')
  match env.tok (s.drop i) with
  | none => .fail
  | some (v, n) => do
    R.guard (i + n = s.length)
    pure (s.length, if want then some v else none)

/-! ### name-value-list -/

/-- parser.c:2572-2575; 0 = not set. -/
structure DataNameValue where
  sep : UInt8 := 0
  ass : UInt8 := 0
  deriving DecidableEq, Repr

/-- parser.c:2386-2394 `isValidNameChar`. -/
def isValidNameChar (c : UInt8) : Bool :=
  isAlnum c || c == ch! '.' || c == ch! '_' || c == ch! '-'

/-- parser.c:2447-2455 / 2473-2483: scan while `stop` does not hold or the byte is escaped by an
odd number of backslashes; `odd` = `continuous_backslash % 2 == 1`. Number of bytes. -/
def escScan (stop : UInt8 → Bool) : Bytes → Bool → Nat
  | [], _ => 0
  | c :: cs, odd =>
    if !stop c || odd then 1 + escScan stop cs (if c = ch! '\\' then !odd else false)
    else 0

/-- separator test: `sep == 0 ? isspace(c) : c == sep` -/
def nvIsSep (sep c : UInt8) : Bool := if sep = 0 then isSpace c else c == sep

/-- parser.c:2405-2511 `parseNameValue`: new offset, name, value. -/
def nameValue1 (s : Bytes) (offs : Nat) (d : DataNameValue) : R (Nat × Bytes × Bytes) := do
  let i := scan (fun c => if d.ass ≠ 0 then c != d.ass else isValidNameChar c) s offs
  let c ← rd s i
  R.guard (i ≠ offs && (if d.ass ≠ 0 then c == d.ass else c == ch! '='))
  let name := slice s offs (i - offs)
  let i := i + 1
  let q ← rd s i
  let quoted := i < s.length && (q = ch! '"' || q = ch! '\'')
  let quoting := if quoted then q else 0
  let iVal := if quoted then i + 1 else i
  let j := iVal + (if quoted then escScan (· == quoting) (s.drop iVal) false
                   else escScan (nvIsSep d.sep) (s.drop iVal) false)
  let hit := atP (· == quoting) s j
  R.guard (hit || !quoted)
  let j := if hit then j + 1 else j
  let lenVal := j - iVal - (if quoted then 1 else 0)
  pure (j, name, slice s iVal lenVal)

/-- parser.c:2599-2609 / 2621-2631: the loop, collecting the pairs. -/
def nvLoop (s : Bytes) (d : DataNameValue) : (fuel : Nat) → Nat → Obj → R (Nat × Obj)
  | 0, _, _ => .oof
  | fuel + 1, i, o =>
    if i < s.length then
      match nameValue1 s i d with
      | .ok (j, n, v) =>
        let o := Obj.add o (cstr n) (.str v)
        if atP (fun c => !nvIsSep d.sep c) s j then .ok (j, o)
        else nvLoop s d fuel (scan (nvIsSep d.sep) s j) o
      | .fail => .ok (i, o)
      | .ub k => .ub k
      | .oof => .oof
    else .ok (i, o)

/-- parser.c:2589-2637 `ln_v2_parseNameValue`. (Both stages run the same loop.) -/
def parseNameValue (s : Bytes) (offs : Nat) (d : DataNameValue) (want : Bool) : PR := do
  let (i, o) ← nvLoop s d (s.length - offs + 1) offs []
  pure (i - offs, if want then some (.obj o) else none)

/-! ### MAC48 -/

/-- `!isxdigit(npb->str[i])` -> FAIL -/
def guardX (s : Bytes) (i : Nat) : R Unit := do
  let c ← rd s i
  R.guard (isXDigit c)

/-- parser.c:2709-2754 `ln_v2_parseMAC48`. -/
def parseMAC48 (s : Bytes) (offs : Nat) (want : Bool) : PR := do
  R.guard (offs + 17 ≤ s.length)
  guardX s offs
  guardX s (offs + 1)
  let delim ← rd s (offs + 2)
  R.guard (delim = ch! ':' || delim = ch! '-')
  guardX s (offs + 3)
  guardX s (offs + 4)
  guardChar s (offs + 5) delim
  guardX s (offs + 6)
  guardX s (offs + 7)
  guardChar s (offs + 8) delim
  guardX s (offs + 9)
  guardX s (offs + 10)
  guardChar s (offs + 11) delim
  guardX s (offs + 12)
  guardX s (offs + 13)
  guardChar s (offs + 14) delim
  guardX s (offs + 15)
  guardX s (offs + 16)
  pure (strRes want s offs 17)

/-! ### CEF -/

/-- parser.c:2771-2796: scan of an extension value from index `i` on; `lw` =
`iLastWordBegin`. Result: index where the loop stopped and `iLastWordBegin`. -/
def cefValLoop : Bytes → (i lw : Nat) → (hadSP inEsc : Bool) → R (Nat × Nat)
  | [], i, lw, _, _ => .ok (i, lw)
  | c :: cs, i, lw, hadSP, inEsc =>
    if inEsc then
      if c ≠ ch! '=' && c ≠ ch! '\\' && c ≠ ch! 'r' && c ≠ ch! 'n' && c ≠ ch! '/' then .fail
      else cefValLoop cs (i + 1) lw hadSP false
    else if c = ch! '=' then .ok (i, lw)
    else if c = ch! '\\' then cefValLoop cs (i + 1) lw hadSP true
    else if c = ch! ' ' then cefValLoop cs (i + 1) lw true false
    else if hadSP then cefValLoop cs (i + 1) i false false
    else cefValLoop cs (i + 1) lw hadSP false

/-- parser.c:2760-2808 `cefParseExtensionValue`. -/
def cefExtValue (s : Bytes) (i : Nat) : R Nat := do
  let (j, lw) ← cefValLoop (s.drop i) i 0 false false
  if j < s.length then pure (if lw = 0 then j else lw - 1) else pure j

/-- parser.c:2817-2829 `cefParseName`: stops at `=` or the end; fails on other bytes. -/
def cefName (s : Bytes) (i : Nat) : R Nat := do
  let j := scan (fun c => isAlnum c || c == ch! '_' || c == ch! '.') s i
  R.guard (!atP (fun c => c != ch! '=') s j)
  pure j

/-- parser.c:2879-2901: copy of the value with escapes removed. `n` = bytes left
(`lenValue - iSrc`), first argument = message from `iValue+iSrc` on. An unknown escape
leaves the destination byte uninitialised (line 2902). -/
def cefUnescape : Bytes → Nat → R Bytes
  | _, 0 => .ok []
  | [], _ + 1 => .ub .oobRead
  | c :: cs, n + 1 =>
    if c = ch! '\\' then
      match cs with
      | [] => .ub .uninitRead      -- reads the NUL at the end: `default: break`
      | e :: cs' =>
        let b : R UInt8 :=
          if e = ch! '=' then .ok (ch! '=')
          else if e = ch! 'n' then .ok 10
          else if e = ch! 'r' then .ok 13
          else if e = ch! '\\' then .ok (ch! '\\')
          else if e = ch! '/' then .ok (ch! '/')
          else .ub .uninitRead
        b.bind fun b => (cefUnescape cs' (n - 1)).bind fun r => .ok (b :: r)
    else (cefUnescape cs n).bind fun r => .ok (c :: r)

/-- parser.c:2839-2916 `cefParseExtensions`; with `want` = `jroot != NULL`. -/
def cefExts (s : Bytes) (want : Bool) : (fuel : Nat) → Nat → Obj → R Obj
  | 0, _, _ => .oof
  | fuel + 1, i, o =>
    if i < s.length then do
      let i := scan (· == ch! ' ') s i
      let iName := i
      let i ← cefName s i
      guardChar s i (ch! '=')
      let name := slice s iName (i - iName)
      -- `=` was found, hence i < strLen
      let iValue := i + 1
      let i ← cefExtValue s iValue
      let lenValue := i - iValue
      let o ← if want then do
          let v ← cefUnescape (s.drop iValue) lenValue
          pure (Obj.add o name (newString v))
        else pure o
      cefExts s want fuel (i + 1) o
    else .ok o

/-- parser.c:2935-2945: scan of a header field; number of bytes up to the delimiter.
At the end of the message the NUL is read (`[]` case). -/
def cefHdrScan : Bytes → R Nat
  | [] => .fail
  | c :: cs =>
    if c = ch! '|' then .ok 0
    else if c = ch! '\\' then
      match cs with
      | [] => .fail
      | e :: cs' =>
        if e ≠ ch! '\\' && e ≠ ch! '|' then .fail
        else (cefHdrScan cs').bind fun n => .ok (n + 2)
    else (cefHdrScan cs).bind fun n => .ok (n + 1)

/-- parser.c:2956-2964: copy of the header field. -/
def cefHdrUnescape : Bytes → Bytes
  | [] => []
  | c :: cs =>
    if c = ch! '\\' then
      match cs with
      | [] => []
      | e :: cs' => e :: cefHdrUnescape cs'
    else c :: cefHdrUnescape cs

/-- parser.c:2927-2968 `cefGetHdrField` (the assert at line 2934 is compiled out). -/
def cefHdr (s : Bytes) (i : Nat) : R (Nat × Bytes) := do
  let n ← cefHdrScan (s.drop i)
  pure (i + n + 1, cefHdrUnescape (slice s i n))

/-- parser.c:2974-3060 `ln_v2_parseCEF`. -/
def parseCEF (s : Bytes) (offs : Nat) (want : Bool) : PR := do
  R.guard (offs + 17 ≤ s.length)
  guardChar s offs (ch! 'C')
  guardChar s (offs + 1) (ch! 'E')
  guardChar s (offs + 2) (ch! 'F')
  guardChar s (offs + 3) (ch! ':')
  guardChar s (offs + 4) (ch! '0')
  guardChar s (offs + 5) (ch! '|')
  let (i, vendor) ← cefHdr s (offs + 6)
  let (i, product) ← cefHdr s i
  let (i, version) ← cefHdr s i
  let (i, sigID) ← cefHdr s i
  let (i, name) ← cefHdr s i
  let (i, severity) ← cefHdr s i
  let i := scan (· == ch! ' ') s i
  let _ ← cefExts s false (s.length - i + 1) i []
  let n := s.length - offs
  if want then
    let ext ← cefExts s true (s.length - i + 1) i []
    pure (n, some (.obj
      [(bs! "DeviceVendor", newString vendor), (bs! "DeviceProduct", newString product),
       (bs! "DeviceVersion", newString version), (bs! "SignatureID", newString sigID),
       (bs! "Name", newString name), (bs! "Severity", newString severity),
       (bs! "Extensions", .obj ext)]))
  else pure (n, none)

/-! ### Checkpoint LEA -/

/-- parser.c:3078-3128: the loop of `ln_v2_parseCheckpointLEA`. `o` = `*value`
(`none` = still NULL). -/
def leaLoop (s : Bytes) (term : UInt8) : (fuel : Nat) → (i found : Nat) → Option Obj →
    R (Nat × Option Obj)
  | 0, _, _, _ => .oof
  | fuel + 1, i, found, o =>
    if i < s.length then
      let i := scan (· == ch! ' ') s i
      if i = s.length then
        if found = 0 then .fail else .ok (i, o)
      else
        if atP (· == term) s i then .ok (i, o)
        else
          let iName := i
          let i := scan (fun c => c != ch! ':') s i
          if i + 1 ≥ s.length then .fail
          else
            let name := slice s iName (i - iName)
            let i := scan (· == ch! ' ') s (i + 1)
            let iValue := i
            let i := scan (fun c => c != ch! ';') s i
            if i + 1 > s.length then .fail
            else
              let v := slice s iValue (i - iValue)
              leaLoop s term fuel (i + 1) (found + 1)
                (some (Obj.add (o.getD []) (cstr name) (newString v)))
    else .ok (i, o)

/-- parser.c:3069-3142 `ln_v2_parseCheckpointLEA`. -/
def parseCheckpointLEA (s : Bytes) (offs : Nat) (term : UInt8) (want : Bool) : PR := do
  let (i, o) ← leaLoop s term (s.length - offs + 1) offs 0 none
  pure (i - offs, if want then o.map Json.obj else none)

/-! ### string -/

/-- parser.c:3360-3361 -/
inductive QuoteMode | auto | none | reqd
  deriving DecidableEq, Repr
/-- parser.c:3355-3358 -/
inductive EscMode | none | backslash | double | both
  deriving DecidableEq, Repr

/-- parser.c:3359-3370 `struct data_String`. `perm` holds the bytes 0..127. -/
structure DataString where
  quoteMode : QuoteMode := .auto
  strip : Bool := true
  esc : EscMode := .both
  lazy : Bool := false
  qb : UInt8 := ch! '"'
  qe : UInt8 := ch! '"'
  perm : UInt8 → Bool := fun _ => true

/-- escape by doubling enabled -/
def DataString.dbl (d : DataString) : Bool := d.esc = .double || d.esc = .both
/-- escape by backslash enabled -/
def DataString.bsl (d : DataString) : Bool := d.esc = .backslash || d.esc = .both

/-- parser.c:3382-3386 `stringIsPermittedChar`: the index is `(unsigned) c` of a signed
`char`, so bytes >= 128 index far outside the table. -/
def strPermitted (d : DataString) (c : UInt8) : R Bool :=
  if c < 128 then .ok (d.perm c) else .ub .oobRead

/-- parser.c:3480-3515: the scan loop, on the rest of the message. Result: bytes
scanned, `bHadEndQuote`, `bHadEscape`. -/
def strLoop (d : DataString) (quotes : Bool) : (fuel : Nat) → Bytes → (hadEsc : Bool) →
    R (Nat × Bool × Bool)
  | 0, _, _ => .oof
  | _ + 1, [], he => .ok (0, false, he)
  | fuel + 1, c :: cs, he =>
    if quotes && c = d.qe && !(d.dbl && cs.head? = some d.qe) then .ok (0, true, he)
    else
      -- doubled end quote: skip the first one
      let dbl := quotes && c = d.qe
      let k := if dbl then 1 else 0
      let he := he || dbl
      let c := if dbl then cs.headD 0 else c
      let cs := if dbl then cs.drop 1 else cs
      -- backslash escape: skip it
      let bs := c = ch! '\\' && !cs.isEmpty && d.bsl
      let k := if bs then k + 1 else k
      let he := he || bs
      let c := if bs then cs.headD 0 else c
      let cs := if bs then cs.drop 1 else cs
      if !quotes && c = ch! ' ' then .ok (k, false, he)
      else (strPermitted d c).bind fun p =>
        if !p then .ok (k, false, he)
        else (strLoop d quotes fuel cs he).bind fun (n, q, he) => .ok (k + 1 + n, q, he)

/-- parser.c:3545-3565: removal of escape characters from the copied C string. -/
def strUnescape (d : DataString) : Bytes → Bytes
  | [] => []
  | c :: cs =>
    if (c = d.qe && cs.head? = some d.qe && d.dbl) || (c = ch! '\\' && d.bsl) then
      match cs with
      | [] => []
      | e :: cs' => e :: strUnescape d cs'
    else c :: strUnescape d cs

/-- parser.c:3523-3527: in exact mode, a space or the end of the message must follow. -/
def strTerm (d : DataString) (s : Bytes) (len trm : Nat) : R Unit :=
  if len < 1 || !d.lazy then (rd s trm).bind fun t => R.guard (t = ch! ' ' || trm = s.length)
  else .ok ()

/-- parser.c:3533-3568: the value. `strndup` stops at a NUL, but every removal of an escape
character moves bytes up to index `len`. -/
def strValue (d : DataString) (raw : Bytes) (hadEsc : Bool) : R Json :=
  if hadEsc then
    let cs := cstr raw
    let un := strUnescape d cs
    if cs.length ≠ raw.length && un.length ≠ cs.length then .ub .oobRead
    else .ok (.str un)
  else .ok (newString raw)

/-- parser.c:3455-3571 `ln_v2_parseString`. -/
def parseString (s : Bytes) (offs : Nat) (d : DataString) (want : Bool) : PR := do
  R.guard (offs ≠ s.length)
  let c ← rd s offs
  let quotes := (d.quoteMode = .auto || d.quoteMode = .reqd) && c = d.qb
  R.guard (!(d.quoteMode = .reqd && !quotes))
  let i0 := if quotes then offs + 1 else offs
  let (n, hadEnd, hadEsc) ← strLoop d quotes (s.length - i0 + 1) (s.drop i0) false
  let i := i0 + n
  R.guard (!(quotes && !hadEnd))
  R.guard (i ≠ offs)
  strTerm d s (i - offs) (if quotes then i + 1 else i)
  let parsed := if hadEnd then i - offs + 1 else i - offs
  if want then
    let strt := if quotes && d.strip then offs + 1 else offs
    let len := if quotes && d.strip then parsed - 2 else parsed
    let v ← strValue d (slice s strt len) hadEsc
    pure (parsed, some v)
  else pure (parsed, none)

end LN
