import Verif.Model.Basic
/-
Field parsers of parser.c, lines 715-2160 (the scalar ones).  Each takes the message
`s` (`npb->str`, length `npb->strLen`), the offset `offs`, the parser data, and
`want` = "`value` is not NULL" (pdag.c:1448 passes NULL for unnamed fields), and returns
the number of bytes parsed and the value.
-/
namespace LN

/-- Result of a field parser. -/
abbrev PR := R (Nat × Option Json)

/-- `if(value != NULL) *value = json_object_new_string_len(npb->str+(*offs), *parsed);` -/
def strRes (want : Bool) (s : Bytes) (offs n : Nat) : Nat × Option Json :=
  (n, if want then some (.str (slice s offs n)) else none)

/-- parser.c:52-57 `enum FMT_MODE`. -/
inductive Fmt | asString | asNumber | asTsUx | asTsUxMs
  deriving DecidableEq, Repr

/-- INT64_MAX -/
def int64Max : Int := 9223372036854775807
/-- INT_MAX -/
def intMax : Int := 2147483647
/-- conversion to int64_t (two's complement) -/
def toInt64 (n : Nat) : Int :=
  let m := n % 18446744073709551616
  if m < 9223372036854775808 then (m : Int) else (m : Int) - 18446744073709551616

/-- `val = val * 10 + c - '0'` for each digit in a signed type with maximum `mx`;
the intermediate sum `val * 10 + c` must be representable. -/
def accDec (mx : Int) : Bytes → Int → R Int
  | [], v => .ok v
  | c :: cs, v =>
    if v * 10 + (c.toNat : Int) > mx then .ub .signedOverflow
    else accDec mx cs (v * 10 + (c.toNat : Int) - 48)

/-- parser.c:775-778 `struct data_Number` -/
structure DataNumber where
  maxval : Int := 0
  fmt : Fmt := .asString
  deriving DecidableEq, Repr

/-- parser.c:784-827 `ln_v2_parseNumber` (`data` = none models `pdata == NULL`). -/
def parseNumber (s : Bytes) (offs : Nat) (data : Option DataNumber) (want : Bool) : PR := do
  let fmt := (data.map (·.fmt)).getD .asString
  let maxval := (data.map (·.maxval)).getD 0
  let i := scan isDigit s offs
  let val ← accDec int64Max (slice s offs (i - offs)) 0
  R.guard (!(maxval > 0 && val > maxval))
  R.guard (i ≠ offs)
  if fmt = .asString then pure (strRes want s offs (i - offs))
  else pure (i - offs, if want then some (.int val) else none)

/-- parser.c:905-919: the scan loop of the float parser, number of bytes accepted. -/
def floatLoop : Bytes → Bool → Nat
  | [], _ => 0
  | c :: cs, seen =>
    if c = ch! '.' then (if seen then 0 else 1 + floatLoop cs true)
    else if isDigit c then 1 + floatLoop cs seen
    else 0

/-- parser.c:883-941 `ln_v2_parseFloat`. The double itself is represented by its
serialisation (line 936-937). -/
def parseFloat (s : Bytes) (offs : Nat) (fmt : Fmt) (want : Bool) : PR := do
  let c ← rd s offs
  let i := if c = ch! '-' then offs + 1 else offs
  let i := i + floatLoop (s.drop i) false
  R.guard (i ≠ offs)
  let n := i - offs
  if fmt = .asString then pure (strRes want s offs n)
  else pure (n, if want then some (.dbl (cstr (slice s offs n))) else none)

/-- parser.c:984-987 `struct data_HexNumber` -/
structure DataHexNumber where
  maxval : Nat := 0
  fmt : Fmt := .asString
  deriving DecidableEq, Repr

/-- parser.c:1009-1016: value of the hex digits in `uint64_t`. -/
def accHex (ds : Bytes) (v : Nat) : Nat :=
  ds.foldl (fun v c => (v * 16 + hexVal c) % 18446744073709551616) v

/-- parser.c:994-1038 `ln_v2_parseHexNumber`. -/
def parseHexNumber (s : Bytes) (offs : Nat) (data : DataHexNumber) (want : Bool) : PR := do
  let c0 ← rd s offs
  R.guard (c0 = ch! '0')
  let c1 ← rd s (offs + 1)
  R.guard (c1 = ch! 'x')
  let i := scan isXDigit s (offs + 2)
  let val := accHex (slice s (offs + 2) (i - (offs + 2))) 0
  let e ← rd s i
  R.guard (i ≠ offs && isSpace e)
  R.guard (!(data.maxval > 0 && val > data.maxval))
  let n := i - offs
  if data.fmt = .asString then pure (strRes want s offs n)
  else pure (n, if want then some (.int (toInt64 val)) else none)

/-- `!myisdigit(c[i])` -> goto done, for consecutive indices -/
def guardDigit (s : Bytes) (i : Nat) : R Unit := do
  let c ← rd s i
  R.guard (isDigit c)

/-- `c[i] != x` -> goto done -/
def guardChar (s : Bytes) (i : Nat) (x : UInt8) : R Unit := do
  let c ← rd s i
  R.guard (c = x)

/-- `c[i] < lo || c[i] > hi` -> goto done -/
def guardRange (s : Bytes) (i : Nat) (lo hi : UInt8) : R Unit := do
  let c ← rd s i
  R.guard (lo ≤ c && c ≤ hi)

/-- parser.c:1098-1145 `ln_v2_parseKernelTimestamp` (LEN_KERNEL_TIMESTAMP = 14). -/
def parseKernelTimestamp (s : Bytes) (offs : Nat) (want : Bool) : PR := do
  guardChar s offs (ch! '[')
  R.guard (offs + 14 ≤ s.length)
  guardDigit s (offs + 1)
  guardDigit s (offs + 2)
  guardDigit s (offs + 3)
  guardDigit s (offs + 4)
  guardDigit s (offs + 5)
  let i := offs + 6
  -- at most 7 more digits
  let i := i + (((s.drop i).take 7).takeWhile isDigit).length
  R.guard (i < s.length)
  guardChar s i (ch! '.')
  let i := i + 1
  R.guard (i + 7 ≤ s.length)
  guardDigit s i
  guardDigit s (i + 1)
  guardDigit s (i + 2)
  guardDigit s (i + 3)
  guardDigit s (i + 4)
  guardDigit s (i + 5)
  guardChar s (i + 6) (ch! ']')
  pure (strRes want s offs (i + 7 - offs))

/-- parser.c:1157-1178 `ln_v2_parseWhitespace`. -/
def parseWhitespace (s : Bytes) (offs : Nat) (want : Bool) : PR := do
  let c ← rd s offs
  R.guard (isSpace c)
  let i := scan isSpace s (offs + 1)
  pure (strRes want s offs (i - offs))

/-- parser.c:1186-1211 `ln_v2_parseWord`. -/
def parseWord (s : Bytes) (offs : Nat) (want : Bool) : PR := do
  let i := scan (fun c => c != ch! ' ') s offs
  R.guard (i ≠ offs)
  pure (strRes want s offs (i - offs))

/-- parser.c:1242-1251: inner loop of string-to. `cs` = message from `m` on, `fs` =
search string from `j` on; true iff `chkstr` becomes 1. -/
def stringToInner : Bytes → Bytes → Bool
  | c :: cs, f :: fs => if c ≠ f then false else if fs = [] then true else stringToInner cs fs
  | _, _ => false

/-- parser.c:1236-1253: outer loop of string-to; `k = strLen - i`. Returns the final `i` and
`chkstr`. -/
def stringToLoop (s f : Bytes) : Nat → Nat → R (Nat × Bool)
  | 0, i => .ok (i, false)
  | k + 1, i => do
    let i := i + 1
    let c ← rd s i
    if c = f.headD 0 && stringToInner (s.drop (i + 1)) (f.drop 1) then pure (i, true)
    else stringToLoop s f k i

/-- parser.c:1222-1265 `ln_v2_parseStringTo`; `f` = `data->toFind`. -/
def parseStringTo (s : Bytes) (offs : Nat) (f : Bytes) (want : Bool) : PR := do
  let (i, found) ← stringToLoop s f (s.length - offs) offs
  R.guard (i ≠ offs && i ≠ s.length && found)
  pure (strRes want s offs (i - offs))

/-- parser.c:1299-1325 `ln_v2_parseAlpha`. -/
def parseAlpha (s : Bytes) (offs : Nat) (want : Bool) : PR := do
  let i := scan isAlpha s offs
  R.guard (i ≠ offs)
  pure (strRes want s offs (i - offs))

/-- parser.c:1342-1375 `ln_v2_parseCharTo`; `ts` = `data->term_chars`. -/
def parseCharTo (s : Bytes) (offs : Nat) (ts : Bytes) (want : Bool) : PR := do
  let i := scan (fun c => !ts.contains c) s offs
  -- `found` iff the loop stopped before the end
  R.guard (i ≠ offs && i < s.length)
  pure (strRes want s offs (i - offs))

/-- parser.c:1436-1440: comparison loop of the literal parser. `lit` without its NUL;
first argument = message from `i` on, second = rest of the literal from `j` on.
`none` in the third argument position never occurs; reading past the literal's NUL is UB. -/
def litLoop : Bytes → Bytes → Nat → R (Nat × Bool)
  -- message exhausted: result (j, lit[j] == NUL)
  | [], lit, j => .ok (j, lit.isEmpty)
  -- literal exhausted: lit[j] is the NUL; if the message has a NUL here the loop continues
  -- and reads beyond the literal's terminator
  | c :: _, [], j => if c = 0 then .ub .oobRead else .ok (j, true)
  | c :: cs, l :: ls, j => if l ≠ c then .ok (j, false) else litLoop cs ls (j + 1)

/-- parser.c:1430-1450 `ln_v2_parseLiteral`. The stored literal contains no NUL (strdup,
line 1470). -/
def parseLiteral (s : Bytes) (offs : Nat) (lit : Bytes) (want : Bool) : PR := do
  let (j, full) ← litLoop (s.drop offs) lit 0
  R.guard full
  pure (strRes want s offs j)

/-- parser.c:1518-1547 `ln_v2_parseCharSeparated`. -/
def parseCharSep (s : Bytes) (offs : Nat) (ts : Bytes) (want : Bool) : PR :=
  let i := scan (fun c => !ts.contains c) s offs
  .ok (strRes want s offs (i - offs))

/-- parser.c:1579-1593 `ln_v2_parseRest`. With `offs > strLen` the length wraps around
(size_t) and the copy reads out of bounds. -/
def parseRest (s : Bytes) (offs : Nat) (want : Bool) : PR :=
  if s.length < offs then .ub .oobRead
  else .ok (strRes want s offs (s.length - offs))

/-- parser.c:1602-1644 `ln_v2_parseOpQuotedString`. Line 1637 stores through `value`
without checking it for NULL. -/
def parseOpQuotedString (s : Bytes) (offs : Nat) (want : Bool) : PR := do
  let c ← rd s offs
  if c ≠ ch! '"' then
    let i := scan (fun c => c != ch! ' ') s offs
    R.guard (i ≠ offs)
    let n := i - offs
    if want then pure (n, some (newString (slice s offs n))) else .ub .nullDeref
  else
    let i := scan (fun c => c != ch! '"') s (offs + 1)
    R.guard (i < s.length)
    let n := i + 1 - offs
    if want then pure (n, some (newString (slice s (offs + 1) (n - 2)))) else .ub .nullDeref

/-- parser.c:1654-1686 `ln_v2_parseQuotedString`. -/
def parseQuotedString (s : Bytes) (offs : Nat) (want : Bool) : PR := do
  R.guard (offs + 2 ≤ s.length)
  guardChar s offs (ch! '"')
  let i := scan (fun c => c != ch! '"') s (offs + 1)
  R.guard (i < s.length)
  pure (strRes want s offs (i + 1 - offs))

/-- parser.c:1714-1720: second digit of the month, given the first. -/
def isoMonth (s : Bytes) (i : Nat) (m : UInt8) : R Unit :=
  if m = ch! '0' then guardRange s i (ch! '1') (ch! '9')
  else if m = ch! '1' then guardRange s i (ch! '0') (ch! '2')
  else .fail

/-- parser.c:1723-1731: second digit of the day, given the first. -/
def isoDay (s : Bytes) (i : Nat) (d : UInt8) : R Unit :=
  if d = ch! '0' then guardRange s i (ch! '1') (ch! '9')
  else if d = ch! '1' || d = ch! '2' then guardDigit s i
  else if d = ch! '3' then guardRange s i (ch! '0') (ch! '1')
  else .fail

/-- parser.c:1694-1741 `ln_v2_parseISODate`. -/
def parseISODate (s : Bytes) (offs : Nat) (want : Bool) : PR := do
  R.guard (offs + 10 ≤ s.length)
  guardDigit s offs
  guardDigit s (offs + 1)
  guardDigit s (offs + 2)
  guardDigit s (offs + 3)
  guardChar s (offs + 4) (ch! '-')
  let m ← rd s (offs + 5)
  isoMonth s (offs + 6) m
  guardChar s (offs + 7) (ch! '-')
  let d ← rd s (offs + 8)
  isoDay s (offs + 9) d
  pure (strRes want s offs 10)

/-- parser.c:2033-2057 `chkIPv4AddrByte`: returns the new offset. (At `i > strLen` the code
would read out of bounds; it is never called so, see `parseIPv4`.) -/
def chkIPv4AddrByte (s : Bytes) (i : Nat) : R Nat := do
  R.guard (i ≠ s.length)
  let c ← rd s i
  R.guard (isDigit c)
  let val := c.toNat - 48
  let i := i + 1
  if atP isDigit s i then
    let c2 ← rd s i
    let val := val * 10 + (c2.toNat - 48)
    let i := i + 1
    if atP isDigit s i then
      let c3 ← rd s i
      let val := val * 10 + (c3.toNat - 48)
      let i := i + 1
      R.guard (val ≤ 255)
      pure i
    else
      R.guard (val ≤ 255)
      pure i
  else
    R.guard (val ≤ 255)
    pure i

/-- `if(i == npb->strLen || c[i++] != '.') goto done;` -/
def eatDot (s : Bytes) (i : Nat) : R Nat := do
  R.guard (i ≠ s.length)
  guardChar s i (ch! '.')
  pure (i + 1)

/-- parser.c:2062-2096 `ln_v2_parseIPv4`. -/
def parseIPv4 (s : Bytes) (offs : Nat) (want : Bool) : PR := do
  R.guard (offs + 7 ≤ s.length)
  let i ← chkIPv4AddrByte s offs
  let i ← eatDot s i
  let i ← chkIPv4AddrByte s i
  let i ← eatDot s i
  let i ← chkIPv4AddrByte s i
  let i ← eatDot s i
  let i ← chkIPv4AddrByte s i
  pure (strRes want s offs (i - offs))

/-- parser.c:1899-1936 `ln_v2_parseDuration`. -/
def parseDuration (s : Bytes) (offs : Nat) (want : Bool) : PR := do
  guardDigit s offs
  let i := offs + 1
  let c ← rd s i
  let i := if isDigit c then i + 1 else i
  guardChar s i (ch! ':')
  let i := i + 1
  R.guard (i + 5 ≤ s.length)
  guardRange s i (ch! '0') (ch! '5')
  guardDigit s (i + 1)
  guardChar s (i + 2) (ch! ':')
  guardRange s (i + 3) (ch! '0') (ch! '5')
  guardDigit s (i + 4)
  pure (strRes want s offs (i + 5 - offs))

/-- parser.c:1965-1970 / 2009-2014: the common `:MM:SS` tail of the time parsers. -/
def timeTail (s : Bytes) (i : Nat) : R Unit := do
  guardChar s (i + 2) (ch! ':')
  guardRange s (i + 3) (ch! '0') (ch! '5')
  guardDigit s (i + 4)
  guardChar s (i + 5) (ch! ':')
  guardRange s (i + 6) (ch! '0') (ch! '5')
  guardDigit s (i + 7)

/-- parser.c:1957-1963: second digit of the hour (24h), given the first. -/
def hour24 (s : Bytes) (i : Nat) (c : UInt8) : R Unit :=
  if c = ch! '0' || c = ch! '1' then guardDigit s i
  else if c = ch! '2' then guardRange s i (ch! '0') (ch! '3')
  else .fail

/-- parser.c:1943-1980 `ln_v2_parseTime24hr`. -/
def parseTime24hr (s : Bytes) (offs : Nat) (want : Bool) : PR := do
  R.guard (offs + 8 ≤ s.length)
  let c ← rd s offs
  hour24 s (offs + 1) c
  timeTail s offs
  pure (strRes want s offs 8)

/-- parser.c:2002-2008: second digit of the hour (12h), given the first. -/
def hour12 (s : Bytes) (i : Nat) (c : UInt8) : R Unit :=
  if c = ch! '0' then guardDigit s i
  else if c = ch! '1' then guardRange s i (ch! '0') (ch! '2')
  else .fail

/-- parser.c:1988-2024 `ln_v2_parseTime12hr`. -/
def parseTime12hr (s : Bytes) (offs : Nat) (want : Bool) : PR := do
  R.guard (offs + 8 ≤ s.length)
  let c ← rd s offs
  hour12 s (offs + 1) c
  timeTail s offs
  pure (strRes want s offs 8)

/-- parser.c:1772-1800: interface name and IP. Returns
(interface start/len, idxIP, lenIP, i). -/
def ciscoHead (s : Bytes) (offs : Nat) :
    R (Option (Nat × Nat) × Nat × Nat × Nat) := do
  let ip ← R.attempt (parseIPv4 s offs false)
  match ip with
  | some (lenIP, _) =>
    let i := offs + lenIP - 1
    R.guard (i ≠ s.length)
    pure (none, offs, lenIP, i + 1)
  | none =>
    let i := scan (fun c => !isSpace c && c != ch! ':') s offs
    -- a space before the colon aborts
    R.guard (!atP isSpace s i)
    let lenIf := i - offs
    R.guard (i ≠ s.length)
    let i := i + 1
    let (lenIP, _) ← parseIPv4 s i false
    pure (some (offs, lenIf), i, lenIP, i + lenIP)

/-- parser.c:1811-1831: optional second ip/port. Returns
(idxIP2, lenIP2, idxPort2, lenPort2) and the new index on success. The test at line 1819
(`i < strLen || ...`) is always true here. -/
def ciscoSecond (s : Bytes) (i : Nat) : R (Option ((Nat × Nat × Nat × Nat) × Nat)) := do
  if i + 5 < s.length && atP (· = ch! ' ') s i && atP (· = ch! '(') s (i + 1) then
    let iTmp := i + 2
    let ip2 ← R.attempt (parseIPv4 s iTmp false)
    match ip2 with
    | none => pure none
    | some (lenIP2, _) =>
      let idxPort2 := iTmp + lenIP2 + 1
      let p2 ← R.attempt (parseNumber s idxPort2 none false)
      match p2 with
      | none => pure none
      | some (lenPort2, _) =>
        let j := idxPort2 + lenPort2
        if atP (· = ch! ')') s j then
          pure (some ((iTmp, lenIP2, idxPort2, lenPort2), j + 1))
        else pure none
  else pure none

/-- parser.c:1836-1850: optional user name: (idxUser, lenUser) and new index. -/
def ciscoUser (s : Bytes) (i : Nat) : Option ((Nat × Nat) × Nat) :=
  if (i + 2 < s.length && atP (· = ch! '(') s i && atP (fun c => !isSpace c) s (i + 1))
     || (i + 3 < s.length && atP (· = ch! ' ') s i && atP (· = ch! '(') s (i + 1)
         && atP (fun c => !isSpace c) s (i + 2)) then
    let idxUser := i + (if atP (· = ch! ' ') s i then 2 else 1)
    let j := scan (fun c => !isSpace c && c != ch! ')') s idxUser
    if atP (· = ch! ')') s j then some ((idxUser, j - idxUser), j + 1) else none
  else none

/-- parser.c:1756-1890 `ln_v2_parseCiscoInterfaceSpec`. -/
def parseCisco (s : Bytes) (offs : Nat) (want : Bool) : PR := do
  let c ← rd s offs
  R.guard (!(c = ch! ':' || isSpace c))
  let (ifc, idxIP, lenIP, i) ← ciscoHead s offs
  R.guard (i ≠ s.length)
  guardChar s i (ch! '/')
  let idxPort := i + 1
  let (lenPort, _) ← parseNumber s idxPort none false
  let i := idxPort + lenPort
  let sec ← ciscoSecond s i
  let i := match sec with | some (_, j) => j | none => i
  let usr := ciscoUser s i
  let i := match usr with | some (_, j) => j | none => i
  let v : Obj :=
    (match ifc with
     | some (a, n) => [(bs! "interface", Json.str (slice s a n))] | none => []) ++
    [(bs! "ip", Json.str (slice s idxIP lenIP)), (bs! "port", Json.str (slice s idxPort lenPort))] ++
    (match sec with
     | some ((a, n, b, m), _) =>
       [(bs! "ip2", Json.str (slice s a n)), (bs! "port2", Json.str (slice s b m))] | none => []) ++
    (match usr with
     | some ((a, n), _) => [(bs! "user", Json.str (slice s a n))] | none => [])
  pure (i - offs, if want then some (.obj v) else none)

/-! ### IPv6 -/

/-- parser.c:2106-2119 `skipIPv6AddrBlock`. -/
def skipIPv6AddrBlock (s : Bytes) (i : Nat) : R Nat := do
  R.guard (i ≠ s.length)
  pure (i + (((s.drop i).take 4).takeWhile isXDigit).length)

/-- State of the block loop of the IPv6 parser when it is left. -/
structure V6 where
  i : Nat
  beginBlock : Nat
  nBlocks : Nat
  abbr : Bool
  hasIPv4 : Bool
  deriving DecidableEq, Repr

/-- parser.c:2149-2173: at most `n` further iterations of the block loop.
`goto chk_ok` leaves with `hasIPv4 = false`, `break` with `hasIPv4 = true`. -/
def ipv6Loop (s : Bytes) : (n : Nat) → (i beginBlock nBlocks : Nat) → (abbr : Bool) → R V6
  | 0, i, bb, nb, ab => .ok ⟨i, bb, nb, ab, false⟩
  | n + 1, i, _, nb, ab => do
    let bb := i
    let i ← skipIPv6AddrBlock s i
    let nb := nb + 1
    if i = s.length then pure ⟨i, bb, nb, ab, false⟩ else
    let c ← rd s i
    if isSpace c then pure ⟨i, bb, nb, ab, false⟩ else
    if c = ch! '.' then pure ⟨i, bb, nb, ab, true⟩ else
    R.guard (c = ch! ':')
    let i := i + 1
    if i = s.length then pure ⟨i, bb, nb, ab, false⟩ else
    let c2 ← rd s i
    if ab then
      R.guard (c2 ≠ ch! ':')
      ipv6Loop s n i bb nb ab
    else if c2 = ch! ':' then
      let i := i + 1
      if i = s.length then pure ⟨i, bb, nb, true, false⟩
      else ipv6Loop s n i bb nb true
    else ipv6Loop s n i bb nb ab

/-- parser.c:2175-2184: embedded IPv4 address. -/
def ipv6V4 (s : Bytes) (offs : Nat) (v : V6) : R V6 := do
  if v.hasIPv4 then
    R.guard (v.beginBlock ≠ offs)
    let (n, _) ← parseIPv4 s v.beginBlock false
    pure { v with i := v.beginBlock + n, nBlocks := v.nBlocks - 1 }
  else pure v

/-- parser.c:2127-2203 `ln_v2_parseIPv6`. -/
def parseIPv6 (s : Bytes) (offs : Nat) (want : Bool) : PR := do
  R.guard (offs + 2 ≤ s.length)
  let c0 ← rd s offs
  let c1 ← rd s (offs + 1)
  R.guard (isXDigit c0 || (c0 = ch! ':' && c1 = ch! ':'))
  let v ← ipv6Loop s 9 offs offs 0 false
  let v ← ipv6V4 s offs v
  R.guard (!(v.nBlocks > 8))
  R.guard (!(v.abbr && v.nBlocks ≥ 8))
  -- c[i-1] == ':' && c[i-2] != ':'
  if v.i = 0 then .ub .oobRead else
  let a ← rd s (v.i - 1)
  if a = ch! ':' then
    if v.i < 2 then .ub .oobRead else
    let b ← rd s (v.i - 2)
    R.guard (b = ch! ':')
    pure (strRes want s offs (v.i - offs))
  else
    pure (strRes want s offs (v.i - offs))

end LN
