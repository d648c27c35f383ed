import Verif.Spec.Struct
/-
Declarative specifications of the field types ipv6, cisco-interface-spec and string.
-/
set_option autoImplicit false
namespace LN.Spec
open LN

/-! ### C35 ipv6 -/

/-- a group: 1-4 hex digits -/
def V6Group (g : Bytes) : Prop := 1 ≤ g.length ∧ g.length ≤ 4 ∧ ∀ c ∈ g, isXDigit c = true

/-- the text of an IPv4 address -/
def V4Text (w : Bytes) : Prop := ipv4 w w.length

/-- Text forms of IPv6 addresses, RFC 4291 section 2.2: eight groups; groups with one `::` standing
for one or more zero groups; and both with the last two groups written as IPv4 address. -/
inductive V6Text : Bytes → Prop
  | full (gs : List Bytes) : (∀ g ∈ gs, V6Group g) → gs.length = 8 → V6Text (sepBy (ch! ':') gs)
  | abbr (a b : List Bytes) : (∀ g ∈ a, V6Group g) → (∀ g ∈ b, V6Group g) → a.length + b.length ≤ 7 →
      V6Text (sepBy (ch! ':') a ++ bs! "::" ++ sepBy (ch! ':') b)
  | full4 (gs : List Bytes) (v4 : Bytes) : (∀ g ∈ gs, V6Group g) → gs.length = 6 → V4Text v4 →
      V6Text (sepBy (ch! ':') (gs ++ [v4]))
  | abbr4 (a b : List Bytes) (v4 : Bytes) : (∀ g ∈ a, V6Group g) → (∀ g ∈ b, V6Group g) →
      a.length + b.length ≤ 5 → V4Text v4 →
      V6Text (sepBy (ch! ':') a ++ bs! "::" ++ sepBy (ch! ':') (b ++ [v4]))

/-- what the ipv6 field takes for an address, if `tl` follows: `n` groups separated by colons, 1 ≤ `n` ≤ 8; or such groups and an IPv4 address; or groups
around one `::`, or `:::`, with or without an IPv4 address at the end. Unless it ends with an IPv4 address, white space or nothing must follow. How many groups
there may be around `::`: an empty beginning counts like a group, so does the third colon of `:::`, and so does an empty end if something follows. (Addresses
in the sense of RFC 4291 are among these, with two exceptions, see `V6Quirk`; an IPv4 address does not count at all.) -/
inductive V6Loose : Bytes → Bytes → Prop
  | groups (gs : List Bytes) (tl : Bytes) : (∀ g ∈ gs, V6Group g) → 1 ≤ gs.length → gs.length ≤ 8 →
      (∀ c, tl.head? = some c → isSpace c = true) → V6Loose (sepBy (ch! ':') gs) tl
  | groups4 (gs : List Bytes) (v4 tl : Bytes) : (∀ g ∈ gs, V6Group g) → 1 ≤ gs.length → gs.length ≤ 8 →
      ipv4 (v4 ++ tl) v4.length → V6Loose (sepBy (ch! ':') (gs ++ [v4])) tl
  | abbr (a : List Bytes) (x : Bytes) (b : List Bytes) (tl : Bytes) : (∀ g ∈ a, V6Group g) → (x = [] ∨ x = bs! ":") → (∀ g ∈ b, V6Group g) →
      max 1 a.length + x.length + (if b = [] ∧ tl ≠ [] then 1 else b.length) ≤ 7 →
      (∀ c, tl.head? = some c → isSpace c = true) → V6Loose (sepBy (ch! ':') a ++ bs! "::" ++ x ++ sepBy (ch! ':') b) tl
  | abbr4 (a : List Bytes) (x : Bytes) (b : List Bytes) (v4 tl : Bytes) : (∀ g ∈ a, V6Group g) → (x = [] ∨ x = bs! ":") → (∀ g ∈ b, V6Group g) →
      max 1 a.length + x.length + b.length ≤ 7 →
      ipv4 (v4 ++ tl) v4.length → V6Loose (sepBy (ch! ':') a ++ bs! "::" ++ x ++ sepBy (ch! ':') (b ++ [v4])) tl

/-- C35 ipv6, exactly: see `V6Loose`; at least two bytes must be left in the message -/
def ipv6 (t : Bytes) (n : Nat) : Prop :=
  2 ≤ t.length ∧ ∃ w tl : Bytes, t = w ++ tl ∧ n = w.length ∧ V6Loose w tl

/-! ### C37 cisco-interface-spec -/

/-- the parts of a Cisco interface specification -/
structure Cisco where
  iface : Option Bytes
  ip : Bytes
  port : Bytes
  second : Option (Bytes × Bytes)
  user : Option Bytes
  deriving DecidableEq, Repr

/-- a port: a non-empty digit string -/
def Port (p : Bytes) : Prop := p ≠ [] ∧ ∀ c ∈ p, isDigit c = true

/-- `t` is `ip/port` followed by `r` (the port extends as far as possible) -/
def IpPort (t ip port r : Bytes) : Prop :=
  t = ip ++ bs! "/" ++ port ++ r ∧ ipv4 t ip.length ∧ Port port ∧ ∀ c, r.head? = some c → isDigit c = false

/-- `t` is `ip/port` or `interface:ip/port`, followed by `r`. An interface name contains no blanks
and no colon and does not begin with an IPv4 address. -/
def CiscoHead (t : Bytes) (iface : Option Bytes) (ip port r : Bytes) : Prop :=
  match iface with
  | none => IpPort t ip port r
  | some f => (∀ n, ¬ ipv4 t n) ∧ f ≠ [] ∧ (∀ c ∈ f, isSpace c = false ∧ c ≠ ch! ':') ∧
      ∃ t', t = f ++ bs! ":" ++ t' ∧ IpPort t' ip port r

/-- `t` is ` (ip2/port2)` followed by `r` -/
def SecondAt (t ip port r : Bytes) : Prop :=
  ∃ t', t = bs! " (" ++ t' ∧ IpPort t' ip port (bs! ")" ++ r)

/-- `t` is `(user)` or ` (user)` followed by `r`. (An empty user name counts only if something
follows.) -/
def UserAt (t user r : Bytes) : Prop :=
  (t = bs! "(" ++ user ++ bs! ")" ++ r ∨ t = bs! " (" ++ user ++ bs! ")" ++ r) ∧
  (∀ c ∈ user, isSpace c = false ∧ c ≠ ch! ')') ∧ (user = [] → r ≠ [])

/-- the whole specification, `n` bytes: optional parts are present if they can be -/
def cisco (t : Bytes) (v : Cisco) (n : Nat) : Prop :=
  ∃ r r2 r3, CiscoHead t v.iface v.ip v.port r ∧
    (match v.second with
     | some (ip2, port2) => SecondAt r ip2 port2 r2
     | none => r2 = r ∧ ∀ a b c, ¬ SecondAt r a b c) ∧
    (match v.user with
     | some u => UserAt r2 u r3
     | none => r3 = r2 ∧ ∀ u c, ¬ UserAt r2 u c) ∧
    n = t.length - r3.length

/-- what it means -/
def Cisco.value (v : Cisco) : Json :=
  .obj ((match v.iface with | some f => [(bs! "interface", Json.str f)] | none => []) ++
    [(bs! "ip", Json.str v.ip), (bs! "port", Json.str v.port)] ++
    (match v.second with
     | some (a, b) => [(bs! "ip2", Json.str a), (bs! "port2", Json.str b)] | none => []) ++
    (match v.user with | some u => [(bs! "user", Json.str u)] | none => []))

/-! ### C44 string -/

/-- a string parameter set: escaping of the end quote by doubling it is enabled -/
def StrDbl (d : DataString) : Prop := d.esc = .double ∨ d.esc = .both
/-- escaping by backslash is enabled -/
def StrBsl (d : DataString) : Prop := d.esc = .backslash ∨ d.esc = .both

/-- `text` is the written form of `value`, inside quotes (`q`) or not: permitted characters stand
for themselves, except the end quote (inside quotes), the space (outside quotes) and the escape
character; the end quote can be doubled, anything permitted can follow a backslash. -/
inductive StrBody (d : DataString) (q : Bool) : Bytes → Bytes → Prop
  | nil : StrBody d q [] []
  | plain {c : UInt8} {t v : Bytes} : d.perm c = true → ¬ (q = true ∧ c = d.qe) → ¬ (StrBsl d ∧ c = ch! '\\') →
      ¬ (q = false ∧ c = ch! ' ') → StrBody d q t v → StrBody d q (c :: t) (c :: v)
  | dbl {t v : Bytes} : q = true → StrDbl d → d.perm d.qe = true → StrBody d q t v →
      StrBody d q (d.qe :: d.qe :: t) (d.qe :: v)
  | esc {c : UInt8} {t v : Bytes} : StrBsl d → d.perm c = true → ¬ (q = false ∧ c = ch! ' ') →
      StrBody d q t v → StrBody d q (ch! '\\' :: c :: t) (c :: v)

/-- `t` begins with a string field of `n` bytes and this value. Quoted: the quotes are not part of
the value, a closing quote is not followed by another one if that would be an escape. Unquoted: not
empty, maximal, and (in automatic mode) not beginning with the quote character. In strict mode, a
space or the end of the message must follow. -/
def str (d : DataString) (t v : Bytes) (n : Nat) : Prop :=
  (∃ body tl, d.quoteMode ≠ .none ∧ t = d.qb :: body ++ d.qe :: tl ∧ StrBody d true body v ∧
    ¬ (StrDbl d ∧ tl.head? = some d.qe) ∧ n = body.length + 2 ∧
    (d.lazy = false → tl = [] ∨ tl.head? = some (ch! ' '))) ∨
  (∃ tl, t = t.take n ++ tl ∧ 0 < n ∧ n ≤ t.length ∧ d.quoteMode ≠ .reqd ∧
    (d.quoteMode = .auto → t.head? ≠ some d.qb) ∧
    StrBody d false (t.take n) v ∧
    (∀ c, tl.head? = some c → (c = ch! ' ' ∨ d.perm c = false) ∧ ¬ (StrBsl d ∧ c = ch! '\\')) ∧
    (d.lazy = false → tl = [] ∨ tl.head? = some (ch! ' ')))

end LN.Spec
