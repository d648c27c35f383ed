import Verif.Model.Pdag
/-
Specification vocabulary for memory safety, termination and bounds.
-/
set_option autoImplicit false
namespace LN

/-- Messages the parsers handle without undefined behaviour: no NUL and no 8-bit bytes, no run of
ten or more digits, and no backslash at the very end.  (What happens without these conditions is
the subject of the `_violated` theorems.) -/
structure Tame (s : Bytes) : Prop where
  /-- bytes are 1..127 -/
  ascii : ∀ c ∈ s, c ≠ 0 ∧ c < 128
  /-- at most nine digits in a row -/
  digits : ∀ i, ((s.drop i).takeWhile isDigit).length ≤ 9
  /-- the last byte is not a backslash -/
  noTrail : s.getLast? ≠ some (ch! '\\')

/-- The JSON tokener consumes at most the text it is given. -/
def Env.TokOK (env : Env) : Prop := ∀ t v n, env.tok t = some (v, n) → n ≤ t.length

/-- The parser's configuration data exist, and the field is named if the parser needs it. -/
def Parser.Configured (k : PKind) (named : Bool) : Prop :=
  match k with
  | .literal d => d.isSome = true
  | .nameValue d => d.isSome = true
  | .stringTo d => d.isSome = true
  | .charTo d => d.isSome = true
  | .charSep d => d.isSome = true
  | .string d => d.isSome = true
  | .opQuoted => named = true
  | _ => True

/-- `x` stays inside the message: it neither runs forever nor claims text beyond the end of `s`
when called at `offs`, and if `U` holds it does nothing undefined. -/
def Contained (s : Bytes) (offs : Nat) (U : Prop) (x : PR) : Prop :=
  (∀ n v, x = .ok (n, v) → offs + n ≤ s.length) ∧ x ≠ .oof ∧ (U → ∀ k, x ≠ .ub k)

/-- `m` can be reached from `n` by following fields. -/
inductive Follows (ctx : Ctx) : NodeId → NodeId → Prop where
  | refl (n) : Follows ctx n n
  | step {n m p} (h : Follows ctx n m) (hp : p ∈ (ctx.node m).parsers) : Follows ctx n p.node

/-- No field leads back to where the search came from, not even through the definition of a
user-defined type or the parts of a repeat: `rank` decreases along all of them. -/
structure Acyclic (ctx : Ctx) (rank : NodeId → Nat) : Prop where
  next : ∀ n, ∀ p ∈ (ctx.node n).parsers, rank p.node < rank n
  type : ∀ n, ∀ p ∈ (ctx.node n).parsers, ∀ i, p.kind = .custom i →
    ∀ nm t, ctx.types[i]? = some (nm, t) → rank t < rank n
  rep : ∀ n, ∀ p ∈ (ctx.node n).parsers, ∀ a w m, p.kind = .repeat_ (some (a, w, m)) →
    rank a < rank n ∧ rank w < rank n

/-- The `while` part of every repeat begins with non-empty literal text. -/
def SepConsumes (ctx : Ctx) : Prop :=
  ∀ n, ∀ p ∈ (ctx.node n).parsers, ∀ a w m, p.kind = .repeat_ (some (a, w, m)) →
    (ctx.node w).isTerminal = false ∧
    ∀ q ∈ (ctx.node w).parsers, ∃ c cs, q.kind = .literal (some (c :: cs))

/-- `@cee:` stands nowhere in the message but perhaps at its beginning -/
def CeeFirst (s : Bytes) : Prop := ∀ off, bs! "@cee:" <+: s.drop off → off = 0

/-- no field of type cee-syslog (whose length is wrong in the middle of a message, see `C47_cee_violated`), or no `@cee:` but at the beginning of the message -/
def NoCee (ctx : Ctx) (s : Bytes) : Prop := ∀ n, ∀ p ∈ (ctx.node n).parsers, p.kind = .cee → CeeFirst s

/-- A rulebase without the configurations that make the search dereference NULL. -/
structure Ctx.WF (ctx : Ctx) : Prop where
  /-- parser data exist; op-quoted-string fields are named -/
  conf : ∀ n, ∀ p ∈ (ctx.node n).parsers, Parser.Configured p.kind p.name.isSome
  /-- user-defined types are defined -/
  types : ∀ n, ∀ p ∈ (ctx.node n).parsers, ∀ i, p.kind = .custom i → ctx.types[i]?.isSome = true
  /-- repeat fields are complete -/
  rep : ∀ n, ∀ p ∈ (ctx.node n).parsers, ∀ d, p.kind = .repeat_ d → d.isSome = true
  /-- fields in the `while` part of a repeat are unnamed -/
  quiet : ∀ n, ∀ p ∈ (ctx.node n).parsers, ∀ a w m, p.kind = .repeat_ (some (a, w, m)) →
    ∀ k, Follows ctx w k → ∀ q ∈ (ctx.node k).parsers, q.name = none
  /-- annotations have names and values -/
  annots : ∀ a ∈ ctx.annots, ∀ op ∈ a.ops, op.add = true → op.name.isSome = true ∧ op.value.isSome = true
  /-- with rule metadata requested no rule is empty -/
  mock : ctx.has 0x08 = true → (ctx.node ctx.root).isTerminal = false ∧
    ∀ n, ∀ p ∈ (ctx.node n).parsers, p.kind ≠ .literal (some [])
  /-- with rule locations requested, rules have a file name -/
  loc : ctx.has 0x10 = true → ∀ n, Follows ctx ctx.root n → (ctx.node n).isTerminal = true → (ctx.node n).rbFile.isSome = true

end LN
