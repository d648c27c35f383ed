import Verif.Model.Basic
/-
How encoded events are read: decoders for the three formats, written without reference to the encoders. Each works through the
text from left to right, one byte at a time.
-/
set_option autoImplicit false
namespace LN

/-! ### CSV: columns separated by commas; a column is empty or a string in quotes with JSON escapes -/

/-- position of the CSV reader -/
inductive CsvPos where
  /-- in front of a column -/
  | start
  /-- inside of the quotes, behind `acc` -/
  | quoted (acc : Bytes)
  /-- behind a backslash -/
  | esc (acc : Bytes)
  /-- behind `\u`, `n` digits to come -/
  | hex (acc : Bytes) (n value : Nat)
  /-- behind the closing quote -/
  | closed (acc : Bytes)
  deriving DecidableEq

/-- value of a hex digit -/
def hexValue (c : UInt8) : Option Nat :=
  if 48 ≤ c ∧ c ≤ 57 then some (c.toNat - 48)
  else if 65 ≤ c ∧ c ≤ 70 then some (c.toNat - 55)
  else if 97 ≤ c ∧ c ≤ 102 then some (c.toNat - 87)
  else none

/-- the character behind a backslash -/
def jsonEscape (c : UInt8) : Option UInt8 :=
  if c = ch! '"' ∨ c = ch! '\\' ∨ c = ch! '/' then some c
  else if c = ch! 'b' then some 8
  else if c = ch! 'f' then some 12
  else if c = ch! 'n' then some 10
  else if c = ch! 'r' then some 13
  else if c = ch! 't' then some 9
  else none

/-- read one byte; the columns read so far -/
def csvStep (c : UInt8) : CsvPos × List (Option Bytes) → Option (CsvPos × List (Option Bytes))
  | (.start, cols) =>
    if c = ch! '"' then some (.quoted [], cols)
    else if c = ch! ',' then some (.start, cols ++ [none])
    else none
  | (.quoted acc, cols) =>
    if c = ch! '"' then some (.closed acc, cols)
    else if c = ch! '\\' then some (.esc acc, cols)
    else if c < 32 then none
    else some (.quoted (acc ++ [c]), cols)
  | (.esc acc, cols) =>
    if c = ch! 'u' then some (.hex acc 4 0, cols)
    else (jsonEscape c).map fun d => (.quoted (acc ++ [d]), cols)
  | (.hex acc n v, cols) =>
    match hexValue c with
    | none => none
    | some d =>
      if n = 1 then
        if v * 16 + d < 256 then some (.quoted (acc ++ [UInt8.ofNat (v * 16 + d)]), cols) else none
      else some (.hex acc (n - 1) (v * 16 + d), cols)
  | (.closed acc, cols) => if c = ch! ',' then some (.start, cols ++ [some acc]) else none

/-- read a text -/
def csvRun : Bytes → CsvPos × List (Option Bytes) → Option (CsvPos × List (Option Bytes))
  | [], s => some s
  | c :: t, s => (csvStep c s).bind (csvRun t)

/-- The columns of a CSV line: none for an empty column, the unescaped text for a quoted one. -/
def csvDecode (text : Bytes) : Option (List (Option Bytes)) :=
  match csvRun text (.start, []) with
  | some (.start, cols) => some (cols ++ [none])
  | some (.closed acc, cols) => some (cols ++ [some acc])
  | _ => none

/-! ### RFC5424 structured data element -/

/-- position of the reader -/
inductive SdPos where
  /-- behind the id or a parameter -/
  | between
  /-- in the name of a parameter -/
  | name (acc : Bytes)
  /-- behind the equal sign -/
  | eq (name : Bytes)
  /-- in the value: complete items, the current one -/
  | val (name : Bytes) (items : List Bytes) (cur : Bytes)
  /-- behind a backslash -/
  | esc (name : Bytes) (items : List Bytes) (cur : Bytes)
  /-- behind the closing bracket -/
  | done
  deriving DecidableEq

/-- Read one byte; the parameters read so far. A value is a list of items separated by commas. In values a backslash makes the
next character an ordinary one, except that `\n` is a newline (as documented in enc_syslog.c). -/
def sdStep (c : UInt8) : SdPos × List (Bytes × List Bytes) → Option (SdPos × List (Bytes × List Bytes))
  | (.between, ps) =>
    if c = ch! ' ' then some (.name [], ps)
    else if c = ch! ']' then some (.done, ps)
    else none
  | (.name acc, ps) =>
    if c = ch! '=' then some (.eq acc, ps)
    else if c = ch! ' ' ∨ c = ch! ']' ∨ c = ch! '"' then none
    else some (.name (acc ++ [c]), ps)
  | (.eq name, ps) => if c = ch! '"' then some (.val name [] [], ps) else none
  | (.val name items cur, ps) =>
    if c = ch! '"' then some (.between, ps ++ [(name, items ++ [cur])])
    else if c = ch! '\\' then some (.esc name items cur, ps)
    else if c = ch! ',' then some (.val name (items ++ [cur]) [], ps)
    else if c = ch! ']' then none
    else some (.val name items (cur ++ [c]), ps)
  | (.esc name items cur, ps) =>
    some (.val name items (cur ++ [if c = ch! 'n' then ch! '\n' else c]), ps)
  | (.done, _) => none

/-- read a text -/
def sdRun : Bytes → SdPos × List (Bytes × List Bytes) → Option (SdPos × List (Bytes × List Bytes))
  | [], s => some s
  | c :: t, s => (sdStep c s).bind (sdRun t)

/-- The parameters of a structured data element `[cee@115 ...]`. -/
def sdDecode (text : Bytes) : Option (List (Bytes × List Bytes)) :=
  if (bs! "[cee@115").isPrefixOf text then
    match sdRun (text.drop 8) (.between, []) with
    | some (.done, ps) => some ps
    | _ => none
  else none

/-! ### XML -/

/-- what an XML text is made of -/
inductive XmlTok where
  /-- `<...>` -/
  | markup (content : Bytes)
  /-- a character of the text -/
  | data (c : UInt8)
  deriving DecidableEq

/-- position of the reader -/
inductive XmlPos where
  | text
  /-- behind `<` -/
  | inTag (acc : Bytes)
  /-- behind `&` -/
  | entity (acc : Bytes)
  deriving DecidableEq

/-- the character an entity stands for -/
def xmlEntity (name : Bytes) : Option UInt8 :=
  if name = bs! "lt" then some (ch! '<')
  else if name = bs! "gt" then some (ch! '>')
  else if name = bs! "amp" then some (ch! '&')
  else if name = bs! "quot" then some (ch! '"')
  else if name = bs! "apos" then some (ch! '\'')
  else none

/-- read one byte; the tokens read so far -/
def xmlStep (c : UInt8) : XmlPos × List XmlTok → Option (XmlPos × List XmlTok)
  | (.text, ts) =>
    if c = ch! '<' then some (.inTag [], ts)
    else if c = ch! '&' then some (.entity [], ts)
    else some (.text, ts ++ [.data c])
  | (.inTag acc, ts) =>
    if c = ch! '>' then some (.text, ts ++ [.markup acc])
    else if c = ch! '<' then none
    else some (.inTag (acc ++ [c]), ts)
  | (.entity acc, ts) =>
    if c = ch! ';' then (xmlEntity acc).map fun d => (.text, ts ++ [.data d])
    else if c = ch! '<' ∨ c = ch! '&' then none
    else some (.entity (acc ++ [c]), ts)

/-- read a text -/
def xmlRun : Bytes → XmlPos × List XmlTok → Option (XmlPos × List XmlTok)
  | [], s => some s
  | c :: t, s => (xmlStep c s).bind (xmlRun t)

/-- the tokens of an XML text -/
def xmlTokens (text : Bytes) : Option (List XmlTok) :=
  match xmlRun text (.text, []) with
  | some (.text, ts) => some ts
  | _ => none


/-- position of the reader of events -/
inductive EvPos where
  | start
  /-- in front of a field or the end -/
  | outside
  | field (name : Bytes) (items : List Bytes)
  | value (name : Bytes) (items : List Bytes) (acc : Bytes)
  /-- in the list of tags -/
  | tags
  | tag (acc : Bytes)
  | done
  deriving DecidableEq

/-- read one token; the tags and the fields read so far -/
def evStep (t : XmlTok) : EvPos × List Bytes × List (Bytes × List Bytes) → Option (EvPos × List Bytes × List (Bytes × List Bytes))
  | (.start, tags, fs) => if t = .markup (bs! "event") then some (.outside, tags, fs) else none
  | (.outside, tags, fs) =>
    match t with
    | .markup c =>
      if c = bs! "/event" then some (.done, tags, fs)
      else if c = bs! "event.tags" then some (.tags, tags, fs)
      else if (bs! "field name=\"").isPrefixOf c ∧ c.getLast? = some (ch! '"') then
        some (.field (c.drop 12).dropLast [], tags, fs)
      else none
    | .data _ => none
  | (.field n items, tags, fs) =>
    if t = .markup (bs! "value") then some (.value n items [], tags, fs)
    else if t = .markup (bs! "/field") then some (.outside, tags, fs ++ [(n, items)])
    else none
  | (.value n items acc, tags, fs) =>
    match t with
    | .data c => some (.value n items (acc ++ [c]), tags, fs)
    | .markup c => if c = bs! "/value" then some (.field n (items ++ [acc]), tags, fs) else none
  | (.tags, tags, fs) =>
    if t = .markup (bs! "tag") then some (.tag [], tags, fs)
    else if t = .markup (bs! "/event.tags") then some (.outside, tags, fs)
    else none
  | (.tag acc, tags, fs) =>
    match t with
    | .data c => some (.tag (acc ++ [c]), tags, fs)
    | .markup c => if c = bs! "/tag" then some (.tags, tags ++ [acc], fs) else none
  | (.done, _) => none

/-- read a list of tokens -/
def evRun : List XmlTok → EvPos × List Bytes × List (Bytes × List Bytes) → Option (EvPos × List Bytes × List (Bytes × List Bytes))
  | [], s => some s
  | t :: l, s => (evStep t s).bind (evRun l)

/-- The tags and the fields (name and values) of an event in XML. -/
def xmlDecode (text : Bytes) : Option (List Bytes × List (Bytes × List Bytes)) :=
  match (xmlTokens text).bind fun ts => evRun ts (.start, [], []) with
  | some (.done, tags, fs) => some (tags, fs)
  | _ => none

/-! ### Events -/

/-- the text of a value: strings as they are, other values as serialised by the JSON library -/
def textOfJson (env : Env) : Json → Bytes
  | .str s => s
  | j => env.ser j

/-- not null, and its text has no NUL byte (C strings cannot represent it) -/
def Readable (env : Env) (j : Json) : Prop := j ≠ .null ∧ 0 ∉ textOfJson env j

/-- a string or an integer -/
def Scalar (env : Env) (j : Json) : Prop := ((∃ s, j = .str s) ∨ ∃ n, j = .int n) ∧ 0 ∉ textOfJson env j

/-- The texts a field value consists of: one for strings and integers; those of the elements, last one first, for arrays. -/
def itemsOf (env : Env) : Json → List Bytes
  | .arr l => l.reverse.map (textOfJson env)
  | j => [textOfJson env j]

/-- text up to the first NUL byte -/
def uptoNul (t : Bytes) : Bytes := t.takeWhile (· ≠ 0)

/-- texts with commas between them -/
def commaList : List Bytes → Bytes
  | [] => []
  | [t] => t
  | t :: l => t ++ bs! "," ++ commaList l

/-- The text of any value in CSV. Arrays are written from the end; if there is null in one, the text stops there, and the closing bracket is
missing. -/
def csvText (env : Env) : Json → Bytes
  | .str s => uptoNul s
  | .int n => uptoNul (env.ser (.int n))
  | .arr l =>
    if .null ∈ l then bs! "[" ++ (l.reverse.takeWhile (· ≠ .null)).flatMap fun j => uptoNul (textOfJson env j) ++ bs! ","
    else bs! "[" ++ commaList (l.reverse.map fun j => uptoNul (textOfJson env j)) ++ bs! "]"
  | _ => bs! "***unsupported type***"

/-- a list of names as it is written for the CSV encoder: separated by commas or blanks -/
def namesText (first : Bytes) (rest : List (UInt8 × Bytes)) : Bytes := first ++ rest.flatMap fun p => p.1 :: p.2

/-- names which can be written in such a list -/
def CsvName (n : Bytes) : Prop := ∀ c ∈ n, c ≠ ch! ',' ∧ c ≠ ch! ' ' ∧ c ≠ 0

/-- the parameters of an event in structured data: tags first, then the other members -/
def sdMeaning (env : Env) (o : Obj) : List (Bytes × List Bytes) :=
  (match Obj.get o (bs! "event.tags") with
    | some j => [(bs! "event.tags", itemsOf env j)]
    | none => []) ++
  (o.filter fun m => m.1 != bs! "event.tags").map fun m => (m.1, itemsOf env m.2)

/-- The event can be written as structured data: names as RFC 5424 demands, values strings, integers and non-empty arrays, tags without
quotes, backslashes, brackets and commas. -/
def SdOK (env : Env) (o : Obj) : Prop :=
  (∀ m ∈ o, m.1 ≠ bs! "event.tags" →
    (∀ c ∈ m.1, c ≠ ch! '=' ∧ c ≠ ch! ' ' ∧ c ≠ ch! ']' ∧ c ≠ ch! '"') ∧
    (Scalar env m.2 ∨ ∃ l, m.2 = .arr l ∧ l ≠ [] ∧ ∀ j ∈ l, Readable env j)) ∧
  ∀ j, Obj.get o (bs! "event.tags") = some j → ∃ l, j = .arr l ∧ l ≠ [] ∧
    ∀ t ∈ l, Readable env t ∧ ∀ c ∈ textOfJson env t, c ≠ ch! '"' ∧ c ≠ ch! '\\' ∧ c ≠ ch! ']' ∧ c ≠ ch! ','

/-- tags and fields of an event in XML -/
def xmlMeaning (env : Env) (o : Obj) : List Bytes × List (Bytes × List Bytes) :=
  (match Obj.get o (bs! "event.tags") with
    | some j => itemsOf env j
    | none => [],
   (o.filter fun m => m.1 != bs! "event.tags").map fun m => (m.1, itemsOf env m.2))

/-- The event can be written as XML: names without `<`, `>`; values strings, integers and arrays; tags without `<`
and `&`. -/
def XmlOK (env : Env) (o : Obj) : Prop :=
  (∀ m ∈ o, m.1 ≠ bs! "event.tags" → (∀ c ∈ m.1, c ≠ ch! '<' ∧ c ≠ ch! '>') ∧
    (Scalar env m.2 ∨ ∃ l, m.2 = .arr l ∧ ∀ j ∈ l, Readable env j)) ∧
  ∀ j, Obj.get o (bs! "event.tags") = some j → ∃ l, j = .arr l ∧
    ∀ t ∈ l, Readable env t ∧ ∀ c ∈ textOfJson env t, c ≠ ch! '<' ∧ c ≠ ch! '&'

end LN
