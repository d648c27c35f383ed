import Verif.Model.Basic
/-
The encoders of enc_csv.c, enc_syslog.c and enc_xml.c. Not modelled: memory exhaustion (`es_addChar` and `es_addBuf` succeed).
The assertions are compiled out (NDEBUG). Events are JSON objects.
-/
set_option autoImplicit false
namespace LN

/-- json-c `json_object_get_string` followed by `strlen`: none = NULL (a JSON null). For strings the text (up to
the first NUL byte), for everything else the serialisation. -/
def getString (env : Env) : Json → Option Bytes
  | .null => none
  | .str s => some (cstr s)
  | j => some (cstr (env.ser j))

/-- text of an unsupported value, e.g. enc_csv.c:164 -/
def unsupported : Bytes := bs! "***unsupported type***"

/-- the loop over an array, backwards, e.g. enc_csv.c:143-151: the texts of the elements in the order of
the loop and whether it comes to its end (an element null ends it, with the error code of CHKN) -/
def arrTexts (env : Env) : List Json → List Bytes × Bool
  | [] => ([], true)
  | j :: l =>
    match getString env j with
    | none => ([], false)
    | some t =>
      let r := arrTexts env l
      (t :: r.1, r.2)

/-- separate by commas (`needComma`); a comma stands in front of a null element as well -/
def commaSep (enc : Bytes → Bytes) : List Bytes → (complete : Bool) → Bytes
  | [], _ => []
  | [t], complete => enc t ++ (if complete then [] else bs! ",")
  | t :: l, complete => enc t ++ bs! "," ++ commaSep enc l complete

/-! ### CSV -/

/-- enc_csv.c:52-54 -/
def hexDigit (n : Nat) : UInt8 := if n < 10 then UInt8.ofNat (48 + n) else UInt8.ofNat (55 + n)

/-- enc_csv.c:76-121, one character of `ln_addValue_CSV`. -/
def csvChar (c : UInt8) : Bytes :=
  if (0x23 ≤ c ∧ c ≤ 0x5b) ∨ 0x5d ≤ c ∨ c = 0x20 ∨ c = 0x21 then [c]
  else if c = 0 then bs! "\\u0000"
  else if c = ch! '"' then bs! "\\\""
  else if c = ch! '\\' then bs! "\\\\"
  else if c = 8 then bs! "\\b"
  else if c = 12 then bs! "\\f"
  else if c = 10 then bs! "\\n"
  else if c = 13 then bs! "\\r"
  else if c = 9 then bs! "\\t"
  else bs! "\\u" ++ [hexDigit (c.toNat / 16 / 16 / 16 % 16), hexDigit (c.toNat / 16 / 16 % 16), hexDigit (c.toNat / 16 % 16), hexDigit (c.toNat % 16)]

/-- enc_csv.c:63-125 `ln_addValue_CSV`. -/
def csvValue (t : Bytes) : Bytes := t.flatMap csvChar

/-- enc_csv.c:128-173 `ln_addField_CSV`; the return code does not matter to the caller. -/
def csvField (env : Env) : Json → Bytes
  | .arr l =>
    let r := arrTexts env l.reverse
    bs! "[" ++ commaSep csvValue r.1 r.2 ++ if r.2 then bs! "]" else []
  | .str s => csvValue (cstr s)
  | .int n => csvValue (cstr (env.ser (.int n)))
  | _ => unsupported

/-- enc_csv.c:194-202: the list of names, separated by commas and blanks -/
def nameList : Bytes → List Bytes
  | [] => [[]]
  | c :: t =>
    if c = ch! ',' ∨ c = ch! ' ' then [] :: nameList t
    else match nameList t with
      | n :: l => (c :: n) :: l
      | [] => [[c]]

/-- enc_csv.c:203-213: one name. `field` is NULL if there is no such member or its value is null. -/
def csvCol (env : Env) (o : Obj) (name : Bytes) : Bytes :=
  match Obj.get o name with
  | none => []
  | some .null => []
  | some j => bs! "\"" ++ csvField env j ++ bs! "\""

/-- the loop of `ln_fmtEventToCSV` over the names -/
def csvCols (env : Env) (o : Obj) : List Bytes → Bytes
  | [] => []
  | [n] => csvCol env o n
  | n :: l => csvCol env o n ++ bs! "," ++ csvCols env o l

/-- enc_csv.c:176-220 `ln_fmtEventToCSV`: return code 0 or not, and the text. -/
def fmtCSV (env : Env) (o : Obj) (extraData : Option Bytes) : Bool × Bytes :=
  match extraData with
  | none => (false, [])
  | some e => (true, csvCols env o (nameList (e.filter (· != 0))))

/-! ### RFC5424 structured data -/

/-- enc_syslog.c:56-95, one character of `ln_addValue_Syslog`. -/
def sdChar (c : UInt8) : Bytes :=
  if c = 0 then bs! "\\0"
  else if c = ch! '\n' then bs! "\\n"
  else if c = ch! ',' then bs! "\\,"
  else if c = ch! '\\' then bs! "\\\\"
  else if c = ch! ']' then bs! "\\]"
  else if c = ch! '"' then bs! "\\\""
  else [c]

/-- enc_syslog.c:46-100 `ln_addValue_Syslog`. -/
def sdValue (t : Bytes) : Bytes := t.flatMap sdChar

/-- enc_syslog.c:103-149 `ln_addField_Syslog`; the return code does not matter to the caller. (If an element of
an array is null, the closing quote is missing.) -/
def sdField (env : Env) (name : Bytes) (j : Json) : Bytes :=
  name ++ bs! "=\"" ++
    match j with
    | .arr l =>
      let r := arrTexts env l.reverse
      commaSep sdValue r.1 r.2 ++ if r.2 then bs! "\"" else []
    | .str s => sdValue (cstr s) ++ bs! "\""
    | .int n => sdValue (cstr (env.ser (.int n))) ++ bs! "\""
    | _ => unsupported ++ bs! "\""

/-- enc_syslog.c:152-176 `ln_addTags_Syslog`: the text, and return code 0 or not. -/
def sdTags (env : Env) (l : List Json) : Bytes × Bool :=
  let r := arrTexts env l.reverse
  (bs! " event.tags=\"" ++ commaSep id r.1 r.2 ++ (if r.2 then bs! "\"" else []), r.2)

/-- the members other than `event.tags`, in order -/
def otherMembers (o : Obj) : Obj := o.filter fun m => m.1 != bs! "event.tags"

/-- enc_syslog.c:179-209 `ln_fmtEventToRFC5424`: return code 0 or not, and the text. The return code stays -1 unless there are
tags. (`json_object_array_length` of something that is no array: NULL pointer.) -/
def fmtRFC5424 (env : Env) (o : Obj) : R (Bool × Bytes) :=
  let fields := (otherMembers o).flatMap fun m => bs! " " ++ sdField env m.1 m.2
  match Obj.get o (bs! "event.tags") with
  | none => .ok (false, bs! "[cee@115" ++ fields ++ bs! "]")
  | some (.arr l) =>
    let t := sdTags env l
    if t.2 then .ok (true, bs! "[cee@115" ++ t.1 ++ fields ++ bs! "]")
    else .ok (false, bs! "[cee@115" ++ t.1)
  | some _ => .ub .nullDeref

/-! ### XML -/

/-- enc_xml.c:76-122, one character of `ln_addValue_XML`. -/
def xmlChar (c : UInt8) : Bytes :=
  if c = 0 then bs! "&#00;"
  else if c = ch! '<' then bs! "&lt;"
  else if c = ch! '&' then bs! "&amp;"
  else [c]

/-- enc_xml.c:59-128 `ln_addValue_XML`. -/
def xmlValue (t : Bytes) : Bytes := bs! "<value>" ++ t.flatMap xmlChar ++ bs! "</value>"

/-- enc_xml.c:131-175 `ln_addField_XML`; the return code does not matter to the caller. -/
def xmlField (env : Env) (name : Bytes) (j : Json) : Bytes :=
  bs! "<field name=\"" ++ name ++ bs! "\">" ++
    match j with
    | .arr l =>
      let r := arrTexts env l.reverse
      r.1.flatMap xmlValue ++ if r.2 then bs! "</field>" else []
    | .str s => xmlValue (cstr s) ++ bs! "</field>"
    | .int n => xmlValue (cstr (env.ser (.int n))) ++ bs! "</field>"
    | _ => unsupported ++ bs! "</field>"

/-- enc_xml.c:178-197 `ln_addTags_XML`: the text, and return code 0 or not. -/
def xmlTags (env : Env) (l : List Json) : Bytes × Bool :=
  let r := arrTexts env l.reverse
  (bs! "<event.tags>" ++ r.1.flatMap (fun t => bs! "<tag>" ++ t ++ bs! "</tag>") ++
    (if r.2 then bs! "</event.tags>" else bs! "<tag>"), r.2)

/-- enc_xml.c:200-230 `ln_fmtEventToXML`: return code 0 or not, and the text. -/
def fmtXML (env : Env) (o : Obj) : R (Bool × Bytes) :=
  let fields := (otherMembers o).flatMap fun m => xmlField env m.1 m.2
  match Obj.get o (bs! "event.tags") with
  | none => .ok (false, bs! "<event>" ++ fields ++ bs! "</event>")
  | some (.arr l) =>
    let t := xmlTags env l
    if t.2 then .ok (true, bs! "<event>" ++ t.1 ++ fields ++ bs! "</event>")
    else .ok (false, bs! "<event>" ++ t.1)
  | some _ => .ub .nullDeref

end LN
