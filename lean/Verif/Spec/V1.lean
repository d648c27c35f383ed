import Verif.Model.V1
/- Specification of version 1 rulebases: samples as sequences of characters and fields. -/
set_option autoImplicit false
namespace LN

/-- if a parser for one of these fields matches, then a part of the message; and the message is smaller than the address space -/
structure V1RunIn (F : V1Field → Prop) (run : V1Run) (s : Bytes) : Prop where
  size : s.length < 2 ^ 64
  within : ∀ f off len v, F f → off ≤ s.length → run f s off = .ok (len, v) → off + len ≤ s.length

/-- the parsers for these fields match a part of the message, or nothing; nothing else can happen -/
structure V1RunOK (F : V1Field → Prop) (run : V1Run) (s : Bytes) : Prop extends V1RunIn F run s where
  total : ∀ f off, F f → off ≤ s.length → run f s off = .fail ∨ ∃ len v, run f s off = .ok (len, v)

/-- what a sample consists of: literal characters and fields -/
inductive VTok where
  | ch (c : UInt8)
  | fld (f : V1Field)
  deriving DecidableEq

/-- the characters of a literal -/
def chars (s : Bytes) : List VTok := s.map VTok.ch

/-- a sample as sequence of characters and fields -/
def V1Sample.toks (x : V1Sample) : List VTok := chars x.lit ++ x.rest.flatMap fun p => .fld p.1 :: chars p.2

/-- a field of a match: which one, where, how long, and the value its parser made -/
structure V1Step where
  f : V1Field
  off : Nat
  len : Nat
  v : Option Json

/-- The text `s` from `off` to its end consists of exactly these characters and texts accepted by these fields. `rest` takes
all there is. -/
inductive V1Match (run : V1Run) (s : Bytes) : Nat → List VTok → List V1Step → Prop
  | nil : V1Match run s s.length [] []
  | ch {off : Nat} {c : UInt8} {toks : List VTok} {tr : List V1Step} : s[off]? = some c → V1Match run s (off + 1) toks tr →
      V1Match run s off (.ch c :: toks) tr
  | fld {off len : Nat} {f : V1Field} {v : Option Json} {n : V1Fn} {toks : List VTok} {tr : List V1Step} :
      f.prs = .fn n → run f s off = .ok (len, v) →
      V1Match run s (off + len) toks tr → V1Match run s off (.fld f :: toks) (⟨f, off, len, v⟩ :: tr)
  | rest {off : Nat} {f : V1Field} {toks : List VTok} {tr : List V1Step} : f.prs = .rest → off ≤ s.length →
      V1Match run s s.length toks tr → V1Match run s off (.fld f :: toks) (⟨f, off, s.length - off, none⟩ :: tr)

/-- the value delivered for a field: the one its parser made, or its text -/
def V1Step.value (s : Bytes) (x : V1Step) : Json := x.v.getD (newString (slice s x.off x.len))

/-- the event: the named fields, the last one first -/
def v1Event (s : Bytes) (o : Obj) (tr : List V1Step) : Obj :=
  tr.reverse.foldl (fun o x => if x.f.name = bs! "-" then o else Obj.add o (cstr x.f.name) (x.value s)) o

/-- the last sample consisting of these characters and fields; its tags are those which count -/
def lastOf (xs : List V1Sample) (toks : List VTok) : Option V1Sample := xs.reverse.find? fun x => x.toks = toks

/-- what is assumed about fields -/
structure V1Pd where
  /-- what the constructors make of parser and raw data -/
  data : V1Prs → Option Bytes → Option V1Data
  /-- permitted fields -/
  ok : V1Field → Prop

/-- a permitted field, with the parser data the constructor makes -/
def V1Pd.OK (pd : V1Pd) (f : V1Field) : Prop := f.pdata = pd.data f.prs f.raw ∧ pd.ok f

/-- Samples the theorems are about. `pd`: what is assumed about their fields (in particular, fields with the same name,
parser and raw data are the same). Literals are shorter than 65536 bytes, `rest` is the last thing in its sample; the
sample is well formed, and `iptables` is not used. -/
structure V1Sample.OK (pd : V1Pd) (x : V1Sample) : Prop where
  complete : x.complete = true
  lit : x.lit.length < 65536
  lits : ∀ p ∈ x.rest, p.2.length < 65536
  data : ∀ p ∈ x.rest, pd.OK p.1
  noIpt : ∀ p ∈ x.rest, p.1.prs ≠ .iptables
  restLast : ∀ a b p, x.rest = a ++ p :: b → p.1.prs = .rest → p.2 = [] ∧ b = []

/-- no byte from 128 on in the literals -/
def V1Sample.Ascii (x : V1Sample) : Prop := ∀ c, .ch c ∈ x.toks → c < 128

/-! ### reading a tree -/

/-- subtree behind a field -/
def fldGet (l : List (V1Field × PTree)) (f : V1Field) : Option PTree :=
  match l with
  | [] => none
  | (g, t) :: l => if g = f then some t else fldGet l f

/-- tags of the node reached by these characters and fields, if it is the end of a sample; `p`: what remains of the prefix -/
def lookAt : List VTok → Bytes → PTree → Option (Option (List Bytes))
  | [], [], t => if t.terminal then some t.tags else none
  | [], _ :: _, _ => none
  | .ch c :: ts, d :: p, t => if c = d then lookAt ts p t else none
  | .fld _ :: _, _ :: _, _ => none
  | .ch c :: ts, [], t =>
    match subGet t.subs c with
    | none => none
    | some t' => lookAt ts t'.pfx t'
  | .fld f :: ts, [], t =>
    match fldGet t.fields f with
    | none => none
    | some t' => lookAt ts t'.pfx t'

/-- What the tree stands for: the tags at the end of the sample consisting of these characters and fields; none: there is no such
sample in it. -/
def look (t : PTree) (ts : List VTok) : Option (Option (List Bytes)) := lookAt ts t.pfx t

end LN
