/-
Basic vocabulary of the model: byte strings, C `ctype` predicates, the result
type of field parsers (with undefined behaviour as a distinct outcome), bounds
checked reads, and JSON values.
-/
namespace LN

/-- A C buffer with explicit length (`npb->str`, `npb->strLen`, pdag.h:168-169). -/
abbrev Bytes := List UInt8

/-- `ch! 'x'` is the byte value of the ASCII character `x`, as a numeral. -/
syntax "ch!" char : term
macro_rules
  | `(ch! $c:char) => `(($(Lean.Syntax.mkNatLit c.getChar.toNat) : UInt8))

/-- `bs! "text"` is the list of byte values of the ASCII string, as numerals. -/
syntax "bs!" str : term
macro_rules
  | `(bs! $s:str) => do
    let cs := s.getString.toList.map fun c => Lean.Syntax.mkNatLit c.toNat
    let elems : Array (Lean.TSyntax `term) := cs.toArray.map fun n => ⟨n⟩
    `(([$elems,*] : List UInt8))

/-! ### C character classes (C locale; bytes >= 128 are in no class) -/

/-- helpers.h:10-13 `myisdigit`; also `isdigit`. -/
def isDigit (c : UInt8) : Bool := 48 ≤ c && c ≤ 57
/-- C `isspace`: space, \t \n \v \f \r. -/
def isSpace (c : UInt8) : Bool := c == 32 || (9 ≤ c && c ≤ 13)
/-- C `isupper`. -/
def isUpper (c : UInt8) : Bool := 65 ≤ c && c ≤ 90
/-- C `islower`. -/
def isLower (c : UInt8) : Bool := 97 ≤ c && c ≤ 122
/-- C `isalpha`. -/
def isAlpha (c : UInt8) : Bool := isUpper c || isLower c
/-- C `isalnum`. -/
def isAlnum (c : UInt8) : Bool := isAlpha c || isDigit c
/-- C `isxdigit`. -/
def isXDigit (c : UInt8) : Bool := isDigit c || (65 ≤ c && c ≤ 70) || (97 ≤ c && c ≤ 102)
/-- numeric value of a hex digit (parser.c:980-985). -/
def hexVal (c : UInt8) : Nat :=
  if isDigit c then c.toNat - 48
  else if 97 ≤ c then c.toNat - 97 + 10 else c.toNat - 65 + 10

/-! ### Outcomes -/

/-- Kinds of undefined behaviour the model distinguishes. -/
inductive UB
  | oobRead | nullDeref | signedOverflow | uninitRead | divByZero | useAfterFree | bufferOverflow
  deriving DecidableEq, Repr

/-- Outcome of a C function: `ok` = returned 0 with a value, `fail` = returned
`LN_WRONGPARSER` (or another non-zero code), `ub` = undefined behaviour,
`oof` = the model ran out of fuel (the C code is still running). -/
inductive R (α : Type) where
  | ok (a : α)
  | fail
  | ub (k : UB)
  | oof
  deriving DecidableEq, Repr

namespace R
variable {α β : Type}

/-- sequencing -/
def bind (x : R α) (f : α → R β) : R β :=
  match x with
  | .ok a => f a
  | .fail => .fail
  | .ub k => .ub k
  | .oof => .oof

instance : Monad R where
  pure := .ok
  bind := R.bind

/-- `if(!cond) goto done;` -/
def guard (b : Bool) : R Unit := if b then .ok () else .fail

/-- call a function and look at its return code -/
def attempt (x : R α) : R (Option α) :=
  match x with
  | .ok a => .ok (some a)
  | .fail => .ok none
  | .ub k => .ub k
  | .oof => .oof

/-- no undefined behaviour, no fuel exhaustion -/
def Defined (x : R α) : Prop := (∃ a, x = .ok a) ∨ x = .fail

end R

/-! ### Reading memory -/

/-- `str[i]`: the terminating NUL at index `strLen` may be read, nothing beyond. -/
def rd (s : Bytes) (i : Nat) : R UInt8 :=
  if h : i < s.length then .ok s[i]
  else if i = s.length then .ok 0
  else .ub .oobRead

/-- `while(i < strLen && p(c[i])) ++i;` : number of bytes skipped from `i` on. -/
def scan (p : UInt8 → Bool) (s : Bytes) (i : Nat) : Nat :=
  i + ((s.drop i).takeWhile p).length

/-- `i < strLen && p(c[i])` -/
def atP (p : UInt8 → Bool) (s : Bytes) (i : Nat) : Bool :=
  match s[i]? with
  | some c => p c
  | none => false

/-- the `n` bytes at offset `i` -/
def slice (s : Bytes) (i n : Nat) : Bytes := (s.drop i).take n

/-- contents seen by a C string function: up to the first NUL -/
def cstr (s : Bytes) : Bytes := s.takeWhile (· != 0)

/-! ### JSON values (json-c / libfastjson objects) -/

/-- JSON values. Doubles are kept by their serialisation
(`json_object_new_double_s`, parser.c:916). -/
inductive Json where
  | null
  | bool (b : Bool)
  | int (n : Int)
  | dbl (repr : Bytes)
  | str (s : Bytes)
  | arr (l : List Json)
  | obj (l : List (Bytes × Json))
  deriving Repr, Inhabited

/-- A JSON object as an ordered list of members. -/
abbrev Obj := List (Bytes × Json)

mutual
/-- decidable equality of JSON values -/
def Json.beq : Json → Json → Bool
  | .null, .null => true
  | .bool a, .bool b => a == b
  | .int a, .int b => a == b
  | .dbl a, .dbl b => a == b
  | .str a, .str b => a == b
  | .arr a, .arr b => Json.beqArr a b
  | .obj a, .obj b => Json.beqObj a b
  | _, _ => false
/-- elementwise -/
def Json.beqArr : List Json → List Json → Bool
  | [], [] => true
  | a :: as, b :: bs => Json.beq a b && Json.beqArr as bs
  | _, _ => false
/-- memberwise -/
def Json.beqObj : List (Bytes × Json) → List (Bytes × Json) → Bool
  | [], [] => true
  | (k, a) :: as, (k', b) :: bs => k == k' && Json.beq a b && Json.beqObj as bs
  | _, _ => false
end

mutual
theorem Json.beq_eq : ∀ a b : Json, Json.beq a b = true ↔ a = b
  | .null, b => by cases b <;> simp [Json.beq]
  | .bool a, b => by cases b <;> simp [Json.beq]
  | .int a, b => by cases b <;> simp [Json.beq]
  | .dbl a, b => by cases b <;> simp [Json.beq]
  | .str a, b => by cases b <;> simp [Json.beq]
  | .arr a, b => by cases b <;> simp [Json.beq, Json.beqArr_eq a]
  | .obj a, b => by cases b <;> simp [Json.beq, Json.beqObj_eq a]
theorem Json.beqArr_eq : ∀ a b : List Json, Json.beqArr a b = true ↔ a = b
  | [], b => by cases b <;> simp [Json.beqArr]
  | a :: as, b => by cases b <;> simp [Json.beqArr, Json.beq_eq a, Json.beqArr_eq as]
theorem Json.beqObj_eq : ∀ a b : List (Bytes × Json), Json.beqObj a b = true ↔ a = b
  | [], b => by cases b <;> simp [Json.beqObj]
  | (k, a) :: as, b => by
    cases b with
    | nil => simp [Json.beqObj]
    | cons hd tl =>
      obtain ⟨k', b⟩ := hd
      simp [Json.beqObj, Json.beq_eq a, Json.beqObj_eq as, and_assoc]
end

instance : DecidableEq Json := fun a b =>
  if h : Json.beq a b then isTrue ((Json.beq_eq a b).1 h)
  else isFalse (fun he => h ((Json.beq_eq a b).2 he))

/-- `json_object_object_get_ex`: first member of that name. -/
def Obj.get (o : Obj) (k : Bytes) : Option Json :=
  match o with
  | [] => none
  | (k', v) :: tl => if k' = k then some v else Obj.get tl k

/-- `json_object_object_add`: replace the value of an existing member in place, or append. -/
def Obj.add (o : Obj) (k : Bytes) (v : Json) : Obj :=
  match o with
  | [] => [(k, v)]
  | (k', v') :: tl => if k' = k then (k, v) :: tl else (k', v') :: Obj.add tl k v

/-- `json_object_object_add_ex(.., JSON_C_OBJECT_ADD_KEY_IS_NEW|..)`: append, no check. -/
def Obj.addNew (o : Obj) (k : Bytes) (v : Json) : Obj := o ++ [(k, v)]

/-- `json_object_new_string(cstr)` -/
def newString (s : Bytes) : Json := .str (cstr s)

/-- External functions the library calls; parameters of the model. -/
structure Env where
  /-- `json_tokener_parse_ex` on a NUL-terminated buffer: value and `char_offset`
  on success. -/
  tok : Bytes → Option (Json × Nat)
  /-- libestr `es_unescapeStr`. -/
  unescape : Bytes → Bytes
  /-- year of `gmtime(time(NULL))`. -/
  year : Int
  /-- `json_object_to_json_string`: serialisation. -/
  ser : Json → Bytes
  /-- `json_object_get_int64` of strings and doubles. -/
  toInt : Json → Int := fun _ => 0
  /-- `char_offset` after `json_tokener_parse_ex` has not returned a value -/
  tokErr : Bytes → Nat := fun _ => 0

end LN
