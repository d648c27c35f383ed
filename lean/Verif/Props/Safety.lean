import Verif.Proofs.SafetyE
import Verif.Proofs.Mono
import Verif.Props.Examples
/- C06 (no undefined behaviour), C07 (termination), C47 (containment). -/
set_option autoImplicit false
namespace LN

variable {env : Env} {ctx : Ctx} {s : Bytes}

/-! ### Example rulebase -/

/-- `type=@tail: %w:word%` and
`rule=:%l:repeat{"parser":{"type":"number","name":"n"},"while":{"type":"literal","text":", "}}%%t:@tail%`,
with rule and location metadata requested. -/
def Ex.ctxRep : Ctx where
  node := fun n => match n with
    | 0 => { parsers := [{ kind := .repeat_ (some (3, 5, false)), node := 1, prio := 4,
                           name := some (bs! "l"), conf := .null }] }
    | 1 => { parsers := [{ kind := .custom 0, node := 2, prio := 16, name := some (bs! "t"), conf := .null }] }
    | 2 => { isTerminal := true, rbFile := some (bs! "rb"), rbLine := 2 }
    | 3 => { parsers := [{ kind := .number {}, node := 4, prio := 16, name := some (bs! "n"), conf := .null }] }
    | 4 => { isTerminal := true }
    | 5 => { parsers := [Ex.lit (bs! ", ") 6] }
    | 6 => { isTerminal := true }
    | 7 => { parsers := [Ex.lit (bs! " ") 8] }
    | 8 => { parsers := [{ kind := .word, node := 9, prio := 32, name := some (bs! "w"), conf := .null }] }
    | 9 => { isTerminal := true }
    | _ => {}
  root := 0
  types := [(bs! "@tail", 7)]
  opts := 0x18

def Ex.rankRep : NodeId → Nat := fun n =>
  match n with | 0 => 4 | 1 => 3 | 7 => 2 | 8 => 1 | 3 => 1 | 5 => 1 | _ => 0

/-- enumeration of the fields of the example -/
theorem Ex.ctxRep_mem {n : NodeId} {p : Parser} (h : p ∈ (Ex.ctxRep.node n).parsers) :
    (n = 0 ∧ p = { kind := .repeat_ (some (3, 5, false)), node := 1, prio := 4,
                   name := some (bs! "l"), conf := .null }) ∨
    (n = 1 ∧ p = { kind := .custom 0, node := 2, prio := 16, name := some (bs! "t"), conf := .null }) ∨
    (n = 3 ∧ p = { kind := .number {}, node := 4, prio := 16, name := some (bs! "n"), conf := .null }) ∨
    (n = 5 ∧ p = Ex.lit (bs! ", ") 6) ∨ (n = 7 ∧ p = Ex.lit (bs! " ") 8) ∨
    (n = 8 ∧ p = { kind := .word, node := 9, prio := 32, name := some (bs! "w"), conf := .null }) := by
  match n with
  | 0 | 1 | 2 | 3 | 4 | 5 | 6 | 7 | 8 | 9 | _ + 10 => simpa [Ex.ctxRep] using h

theorem Ex.acyclicRep : Acyclic Ex.ctxRep Ex.rankRep where
  next n p h := by
    rcases Ex.ctxRep_mem h with ⟨rfl, rfl⟩ | ⟨rfl, rfl⟩ | ⟨rfl, rfl⟩ | ⟨rfl, rfl⟩ | ⟨rfl, rfl⟩ | ⟨rfl, rfl⟩ <;>
      decide
  type n p h i hi nm t ht := by
    rcases Ex.ctxRep_mem h with ⟨rfl, rfl⟩ | ⟨rfl, rfl⟩ | ⟨rfl, rfl⟩ | ⟨rfl, rfl⟩ | ⟨rfl, rfl⟩ | ⟨rfl, rfl⟩ <;>
      simp [Ex.lit] at hi
    subst hi; simp [Ex.ctxRep] at ht; rw [← ht.2]; decide
  rep n p h a w m hk := by
    rcases Ex.ctxRep_mem h with ⟨rfl, rfl⟩ | ⟨rfl, rfl⟩ | ⟨rfl, rfl⟩ | ⟨rfl, rfl⟩ | ⟨rfl, rfl⟩ | ⟨rfl, rfl⟩ <;>
      simp [Ex.lit] at hk
    obtain ⟨rfl, rfl, rfl⟩ := hk; decide

theorem Ex.sepRep : SepConsumes Ex.ctxRep := by
  intro n p h a w m hk
  rcases Ex.ctxRep_mem h with ⟨rfl, rfl⟩ | ⟨rfl, rfl⟩ | ⟨rfl, rfl⟩ | ⟨rfl, rfl⟩ | ⟨rfl, rfl⟩ | ⟨rfl, rfl⟩ <;>
    simp [Ex.lit] at hk
  obtain ⟨rfl, rfl, rfl⟩ := hk
  refine ⟨rfl, fun q hq => ?_⟩
  simp [Ex.ctxRep] at hq; subst hq
  exact ⟨_, _, rfl⟩

theorem Ex.ceeRep (s : Bytes) : NoCee Ex.ctxRep s := by
  intro n p h
  rcases Ex.ctxRep_mem h with ⟨rfl, rfl⟩ | ⟨rfl, rfl⟩ | ⟨rfl, rfl⟩ | ⟨rfl, rfl⟩ | ⟨rfl, rfl⟩ | ⟨rfl, rfl⟩ <;>
    simp [Ex.lit]

theorem Ex.follows5 {k : NodeId} (h : Follows Ex.ctxRep 5 k) : k = 5 ∨ k = 6 := by
  induction h with
  | refl => simp
  | step _ hp ih => rcases ih with rfl | rfl <;> simp [Ex.ctxRep, Ex.lit] at hp; subst hp; simp

theorem Ex.follows0 {k : NodeId} (h : Follows Ex.ctxRep 0 k) : k = 0 ∨ k = 1 ∨ k = 2 := by
  induction h with
  | refl => simp
  | step _ hp ih => rcases ih with rfl | rfl | rfl <;> simp [Ex.ctxRep] at hp <;> subst hp <;> simp

theorem Ex.wfRep : Ex.ctxRep.WF where
  conf n p h := by
    rcases Ex.ctxRep_mem h with ⟨rfl, rfl⟩ | ⟨rfl, rfl⟩ | ⟨rfl, rfl⟩ | ⟨rfl, rfl⟩ | ⟨rfl, rfl⟩ | ⟨rfl, rfl⟩ <;>
      simp [Ex.lit, Parser.Configured]
  types n p h i hi := by
    rcases Ex.ctxRep_mem h with ⟨rfl, rfl⟩ | ⟨rfl, rfl⟩ | ⟨rfl, rfl⟩ | ⟨rfl, rfl⟩ | ⟨rfl, rfl⟩ | ⟨rfl, rfl⟩ <;>
      simp [Ex.lit] at hi
    subst hi; rfl
  rep n p h d hd := by
    rcases Ex.ctxRep_mem h with ⟨rfl, rfl⟩ | ⟨rfl, rfl⟩ | ⟨rfl, rfl⟩ | ⟨rfl, rfl⟩ | ⟨rfl, rfl⟩ | ⟨rfl, rfl⟩ <;>
      simp [Ex.lit] at hd
    subst hd; rfl
  quiet n p h a w m hk k hf q hq := by
    rcases Ex.ctxRep_mem h with ⟨rfl, rfl⟩ | ⟨rfl, rfl⟩ | ⟨rfl, rfl⟩ | ⟨rfl, rfl⟩ | ⟨rfl, rfl⟩ | ⟨rfl, rfl⟩ <;>
      simp [Ex.lit] at hk
    obtain ⟨rfl, rfl, rfl⟩ := hk
    rcases Ex.follows5 hf with rfl | rfl <;> simp [Ex.ctxRep] at hq
    subst hq; rfl
  annots a ha := by simp [Ex.ctxRep] at ha
  mock _ := ⟨rfl, fun n p h => by
    rcases Ex.ctxRep_mem h with ⟨rfl, rfl⟩ | ⟨rfl, rfl⟩ | ⟨rfl, rfl⟩ | ⟨rfl, rfl⟩ | ⟨rfl, rfl⟩ | ⟨rfl, rfl⟩ <;>
      simp [Ex.lit]⟩
  loc _ n hf ht := by
    rcases Ex.follows0 hf with rfl | rfl | rfl
    · simp [Ex.ctxRep] at ht
    · simp [Ex.ctxRep] at ht
    · rfl

theorem Ex.tokEnv : Ex.env.TokOK := by
  intro t v n h
  simp only [Ex.env] at h
  split at h
  · rename_i ht; cases h; rw [ht]; decide
  · cases h

theorem Ex.tameMsg : Tame (bs! "1, 22 end") where
  ascii := by decide
  digits := by
    have h : ∀ i < 10, (((bs! "1, 22 end").drop i).takeWhile isDigit).length ≤ 9 := by decide
    intro i
    by_cases hi : i < 10
    · exact h i hi
    · rw [List.drop_eq_nil_of_le (by simp; omega)]; simp
  noTrail := by decide

/-! ### C07: termination -/

/-- `ln_normalize` returns: from some number of steps on the outcome is settled. -/
def Returns (env : Env) (ctx : Ctx) (stats : NodeId → Stats) (s : Bytes) (json0 : Obj) : Prop :=
  ∃ N x, x ≠ .oof ∧ ∀ fuel, N ≤ fuel → normalize env fuel ctx stats s json0 = x

/-- `ln_normalize` never returns, however long one waits. -/
def RunsForever (env : Env) (ctx : Ctx) (stats : NodeId → Stats) (s : Bytes) (json0 : Obj) : Prop :=
  ∀ fuel, normalize env fuel ctx stats s json0 = .oof

/-- the two are exclusive and exhaustive -/
theorem C07_returns_or_runs_forever (stats : NodeId → Stats) (json0 : Obj) :
    Returns env ctx stats s json0 ↔ ¬ RunsForever env ctx stats s json0 := by
  constructor
  · rintro ⟨N, x, hx, h⟩ hr
    exact hx (by rw [← h N (Nat.le_refl _), hr N])
  · intro h
    obtain ⟨N, hN⟩ := Classical.not_forall.1 h
    refine ⟨N, _, hN, fun fuel hf => ?_⟩
    rcases normalize_fuelLe (env := env) (ctx := ctx) (s := s) hf stats json0 with h1 | h1
    · exact absurd h1 hN
    · exact h1.symm

/-- C07: for every rulebase without recursive types in which each repeat separator begins with
literal text, and for every message, `ln_normalize` returns. The number of nested calls and repeat
rounds is bounded by the depth of the rulebase plus the message length.
Missing for the full property: recursive types, repeat with a separator that may match empty text
(in both cases the code does not terminate, see below) and cee-syslog with `@cee:` in the middle of the message. -/
theorem C07_terminates_partial (he : env.TokOK) (hcee : NoCee ctx s) (hsep : SepConsumes ctx)
    {rank : NodeId → Nat} (hacyc : Acyclic ctx rank) (stats : NodeId → Stats) (json0 : Obj) :
    Returns env ctx stats s json0 := by
  rw [C07_returns_or_runs_forever]
  intro h
  exact (normalize_post he hcee hsep hacyc (Nat.lt_succ_self _) stats json0).2.1 (h _)

/-- for rulebases of plain fields no condition on repeat is needed -/
theorem C07_plain_terminates_partial (he : env.TokOK) (hcee : NoCee ctx s)
    (hrep : ∀ n, ∀ p ∈ (ctx.node n).parsers, ∀ d, p.kind ≠ .repeat_ d)
    {rank : NodeId → Nat} (hacyc : Acyclic ctx rank) (stats : NodeId → Stats) (json0 : Obj) :
    Returns env ctx stats s json0 :=
  C07_terminates_partial he hcee (fun n p hp a w m hk => absurd hk (hrep n p hp _)) hacyc stats json0

example : Ex.obs (normalize Ex.env 6 { Ex.ctxRep with opts := 0 } Ex.stats0 (bs! "1, 22 end") []) = .ok (true,
    [(bs! "t", .obj [(bs! "w", .str (bs! "end"))]),
     (bs! "l", .arr [.obj [(bs! "n", .str (bs! "1"))], .obj [(bs! "n", .str (bs! "22"))]])]) := by
  decide +kernel
example (s : Bytes) : Ex.env.TokOK ∧ NoCee Ex.ctxRep s ∧ SepConsumes Ex.ctxRep ∧ Acyclic Ex.ctxRep Ex.rankRep :=
  ⟨Ex.tokEnv, Ex.ceeRep s, Ex.sepRep, Ex.acyclicRep⟩

/-- `type=@t:%x:@t%` and `rule=:%f:@t%` -/
def Ex.ctxRec : Ctx where
  node := fun n => match n with
    | 0 => { parsers := [{ kind := .custom 0, node := 1, prio := 16, name := some (bs! "f"), conf := .null }] }
    | 1 => { isTerminal := true }
    | 2 => { parsers := [{ kind := .custom 0, node := 3, prio := 16, name := some (bs! "x"), conf := .null }] }
    | 3 => { isTerminal := true }
    | _ => {}
  root := 0
  types := [(bs! "@t", 2)]

/-- C07 is violated: a type that refers to itself first is looked up forever (in C until the stack
is exhausted), for every message. -/
theorem C07_recursive_type_violated (env : Env) (s : Bytes) (stats : NodeId → Stats) (json0 : Obj) :
    RunsForever env Ex.ctxRec stats s json0 := by
  have key : ∀ n st offs part json, normRec env Ex.ctxRec s n st 2 offs part json = .oof := by
    intro n
    induction n with
    | zero => intros; rfl
    | succ n ih =>
      intro st offs part json
      simp [normRec, normStep, Ex.ctxRec, tryLoop, tryParser] at ih ⊢
      simp [ih]
  intro fuel
  cases fuel with
  | zero => rfl
  | succ n =>
    have := key n
    simp [normalize, normRec, normStep, Ex.ctxRec, tryLoop, tryParser] at this ⊢
    simp [this]

/-- the field of the next example -/
def Ex.loopField : Parser :=
  { kind := .repeat_ (some (2, 4, false)), node := 1, prio := 4, name := some (bs! "r"), conf := .null }

/-- `rule=:%r:repeat{"parser":{"type":"rest","name":"x"},"while":{"type":"rest"}}%` -/
def Ex.ctxLoop : Ctx where
  node := fun n => match n with
    | 0 => { parsers := [Ex.loopField] }
    | 1 => { isTerminal := true }
    | 2 => { parsers := [{ kind := .rest, node := 3, prio := 255, name := some (bs! "x"), conf := .null }] }
    | 3 => { isTerminal := true }
    | 4 => { parsers := [{ kind := .rest, node := 5, prio := 255, name := none, conf := .null }] }
    | 5 => { isTerminal := true }
    | _ => {}
  root := 0

/-- C07 is violated: a repeat whose element and separator can match nothing never ends, for every
message. -/
theorem C07_repeat_empty_violated (env : Env) (s : Bytes) (stats : NodeId → Stats) (json0 : Obj) :
    RunsForever env Ex.ctxLoop stats s json0 := by
  have hend : ∀ n st e, (e = 3 ∨ e = 5) → ∀ offs json, normRec env Ex.ctxLoop s (n + 1) st e offs true json =
      .ok ⟨true, st.bumpCalled e, json, some e⟩ := by
    rintro n st e (rfl | rfl) offs json <;>
      simp [normRec, normStep, Ex.ctxLoop, tryLoop]
  have hfix : ∀ v, ∃ j, fixJSON (some []) (some (bs! "x")) v = .ok j := by
    intro v
    simp only [fixJSON]
    rw [if_neg (by decide)]
    split
    · split <;> exact ⟨_, rfl⟩
    · exact ⟨_, rfl⟩
  have hrest : ∀ offs want, offs ≤ s.length → ∃ v, parseRest s offs want = .ok (s.length - offs, v) := by
    intro offs want ho
    refine ⟨(strRes want s offs (s.length - offs)).2, ?_⟩
    rw [parseRest, if_neg (by omega)]
    rfl
  have h2 : ∀ n st offs, offs ≤ s.length → normRec env Ex.ctxLoop s n st 2 offs true (some []) = .oof ∨
      ∃ r, normRec env Ex.ctxLoop s n st 2 offs true (some []) = .ok r ∧ r.matched = true ∧
        (st.parsedTo ≤ s.length → r.st.parsedTo = s.length) := by
    intro n st offs ho
    obtain ⟨v1, hv1⟩ := hrest offs true ho
    obtain ⟨v2, hv2⟩ := hrest offs false ho
    match n with
    | 0 => exact .inl rfl
    | 1 => left; simp [normRec, normStep, Ex.ctxLoop, tryLoop, tryParser, runParser, hv1, hv2]
    | n + 2 =>
      right
      have := hend n
      rw [normRec]
      simp [normStep, Ex.ctxLoop, tryLoop, tryParser, runParser, hv1, hv2, Ctx.has] at this ⊢
      obtain ⟨j, hj⟩ := hfix v1
      simp [this, hj, Npb.raise, Npb.bumpCalled]
      omega
  have h4 : ∀ n st offs, offs ≤ s.length → normRec env Ex.ctxLoop s n st 4 offs true none = .oof ∨
      ∃ r, normRec env Ex.ctxLoop s n st 4 offs true none = .ok r ∧ r.matched = true ∧
        (st.parsedTo ≤ s.length → r.st.parsedTo = s.length) := by
    intro n st offs ho
    obtain ⟨v1, hv1⟩ := hrest offs true ho
    obtain ⟨v2, hv2⟩ := hrest offs false ho
    match n with
    | 0 => exact .inl rfl
    | 1 => left; simp [normRec, normStep, Ex.ctxLoop, tryLoop, tryParser, runParser, hv1, hv2]
    | n + 2 =>
      right
      have := hend n
      rw [normRec]
      simp [normStep, Ex.ctxLoop, tryLoop, tryParser, runParser, hv1, hv2, Ctx.has] at this ⊢
      simp [this, fixJSON, addMember, Npb.raise, Npb.bumpCalled]
      omega
  have hloop : ∀ n fuel st so good arr, so ≤ s.length → st.parsedTo ≤ s.length →
      repeatLoop (normRec env Ex.ctxLoop s n) 2 4 false 0 fuel st so good arr = .oof := by
    intro n fuel
    induction fuel with
    | zero => intros; rfl
    | succ fuel ih =>
      intro st so good arr h1 hst
      rw [repeatLoop]
      rcases h2 n st so h1 with h | ⟨r, h, hm, hp⟩
      · rw [h]; rfl
      · rw [h]
        have hp := hp hst
        simp only [R.ok_bind, hm, Bool.not_true, Bool.false_eq_true, if_false]
        rcases h4 n { r.st with parsedTo := 0 } r.st.parsedTo (by omega) with h' | ⟨w, h', hm', hp'⟩
        · rw [h']; rfl
        · rw [h']
          have hp' := hp' (by simp)
          simp only [R.ok_bind, hm', if_true]
          exact ih _ _ _ _ (by omega) (by omega)
  intro fuel
  cases fuel with
  | zero => rfl
  | succ n =>
    have := hloop n n (Npb.bumpCalled { stats := stats } 0) 0 0 none (by omega) (by simp [Npb.bumpCalled])
    have hk : tryParser env Ex.ctxLoop s (normRec env Ex.ctxLoop s n) n
        (Npb.bumpCalled { stats := stats } 0) 0 Ex.loopField = .oof := by
      simp only [tryParser, Ex.loopField]
      rw [show (Npb.bumpCalled { stats := stats } 0).parsedTo = 0 from rfl, this]; rfl
    have hp : (Ex.ctxLoop.node Ex.ctxLoop.root).parsers = [Ex.loopField] := rfl
    unfold normalize
    rw [normRec]
    unfold normStep
    dsimp only
    rw [hp, tryLoop, show Ex.ctxLoop.root = 0 from rfl, hk]
    rfl

/-! ### C06: no undefined behaviour -/

/-- C06: for every rulebase that is completely configured and every message of 7-bit non-NUL bytes
without overlong digit runs and without a trailing backslash, no step of `ln_normalize` is undefined.
Missing for the full property: exactly the listed conditions; that they matter is shown below. -/
theorem C06_no_undefined_behaviour_partial (he : env.TokOK) (hcee : NoCee ctx s) (hsep : SepConsumes ctx)
    {rank : NodeId → Nat} (hacyc : Acyclic ctx rank) (hs : Tame s) (hwf : ctx.WF)
    (stats : NodeId → Stats) (json0 : Obj) (fuel : Nat) (k : UB) :
    normalize env fuel ctx stats s json0 ≠ .ub k := by
  intro h
  have hp := (normalize_post (s := s) he hcee hsep hacyc (Nat.lt_succ_self _) stats json0).2.2 ⟨hs, hwf⟩ k
  rcases Nat.le_total fuel (rank ctx.root + s.length).succ with hle | hle
  · rcases normalize_fuelLe (env := env) (ctx := ctx) (s := s) hle stats json0 with h1 | h1
    · rw [h] at h1; cases h1
    · rw [h] at h1; exact hp h1.symm
  · exact (normalize_post (s := s) he hcee hsep hacyc (fuel := fuel) (by omega) stats json0).2.2 ⟨hs, hwf⟩ k h

example : Tame (bs! "1, 22 end") ∧ Ex.ctxRep.WF := ⟨Ex.tameMsg, Ex.wfRep⟩

/-- a rulebase with one rule consisting of one field -/
def Ex.oneField (k : PKind) (name : Option Bytes) : Ctx where
  node := fun n => match n with
    | 0 => { parsers := [{ kind := k, node := 1, prio := 16, name := name, conf := .null }] }
    | 1 => { isTerminal := true }
    | _ => {}
  root := 0

/-- C06 is violated by messages with a NUL after a literal: reads beyond the buffer -/
theorem C06_nul_violated :
    normalize Ex.env 5 (Ex.oneField (.literal (some (bs! "a"))) none) Ex.stats0 [97, 0] [] = .ub .oobRead := by
  rfl

/-- C06 is violated by long digit runs in number fields: signed overflow -/
theorem C06_number_violated :
    normalize Ex.env 5 (Ex.oneField (.number {}) none) Ex.stats0 (bs! "9999999999999999999") [] =
      .ub .signedOverflow := by rfl

/-- C06 is violated by 8-bit characters in string fields: the permission table is indexed with a
negative number -/
theorem C06_8bit_violated :
    normalize Ex.env 5 (Ex.oneField (.string (some {})) (some (bs! "f"))) Ex.stats0 [195, 164] [] =
      .ub .oobRead := by rfl

/-- C06 is violated by a cef extension that ends in a backslash -/
theorem C06_cef_violated :
    normalize Ex.env 5 (Ex.oneField .cef (some (bs! "f"))) Ex.stats0
      (bs! "CEF:0|a|b|c|d|e|f|k=v\\") [] = .ub .uninitRead := by rfl

/-- C06 is violated by an op-quoted-string without name -/
theorem C06_op_quoted_violated :
    normalize Ex.env 5 (Ex.oneField .opQuoted none) Ex.stats0 (bs! "a") [] = .ub .nullDeref := by rfl

/-- C06 is violated by fields whose construction failed, e.g. `%f:char-to%` without parameter -/
theorem C06_unconfigured_violated :
    normalize Ex.env 5 (Ex.oneField (.charTo none) (some (bs! "f"))) Ex.stats0 (bs! "a") [] =
      .ub .nullDeref := by rfl

/-- C06 is violated by an annotation with an empty value (`annotate=t:+a=""`) -/
theorem C06_annotation_violated :
    normalize Ex.env 5 { node := fun _ => { isTerminal := true, tags := some [bs! "t"] }, root := 0,
                         annots := [⟨bs! "t", [⟨true, some (bs! "a"), none⟩]⟩] } Ex.stats0 [] [] =
      .ub .nullDeref := by rfl

/-- C06 is violated by an empty rule when the mockup is requested -/
theorem C06_empty_mockup_violated :
    normalize Ex.env 5 { node := fun _ => { isTerminal := true }, root := 0, opts := 8 } Ex.stats0 [] [] =
      .ub .oobRead := by rfl

/-! ### C47: containment -/

/-- C47: whenever a plain parser (cee-syslog: unless `@cee:` stands in the middle of the message) matches at a position inside the message, it
consumes at most the rest of it. -/
theorem C47_parser_contained_partial (he : env.TokOK) (k : PKind) (hk : k = .cee → CeeFirst s) (want : Bool)
    {offs : Nat} (h : offs ≤ s.length) : Contained s offs (Tame s ∧ Parser.Configured k want)
      (runParser env s offs k want) :=
  let hp := runParser_within env he k want h hk
  ⟨fun _ _ hx => hp.1 _ hx, hp.2.1, hp.2.2⟩

example : runParser Ex.env (bs! "ab 12:34:56 x") 3 .duration true = .ok (8, some (.str (bs! "12:34:56"))) := by rfl

/-- C47 is violated by cee-syslog unless it starts the message: it claims the whole message
length counted from its own position. -/
theorem C47_cee_violated :
    runParser Ex.env (bs! "x @cee:{}") 2 .cee true = .ok (9, some (.obj [])) ∧
    ¬ 2 + 9 ≤ (bs! "x @cee:{}").length := by
  exact ⟨rfl, by decide⟩

/-- C47 for complete searches, including user-defined types and repeat: wherever the search stops in
whatever part of the rulebase, it has not moved beyond the end of the message, nor behind where it
already was. -/
theorem C47_search_contained_partial (he : env.TokOK) (hcee : NoCee ctx s) (hsep : SepConsumes ctx)
    {rank : NodeId → Nat} (hacyc : Acyclic ctx rank) {fuel : Nat} {st : Npb} {n : NodeId} {offs : Nat}
    {part : Bool} {json : Option Obj} {r : NRes} (ho : offs ≤ s.length) (hst : st.parsedTo ≤ s.length)
    (h : normRec env ctx s fuel st n offs part json = .ok r) :
    st.parsedTo ≤ r.st.parsedTo ∧ r.st.parsedTo ≤ s.length := by
  have hp := normRec_safe (s := s) he hcee hsep hacyc (max fuel (rank n + s.length + 1)) st n offs part json
    (by omega) ho hst
  rcases normRec_fuelLe (env := env) (ctx := ctx) (s := s) fuel (max fuel (rank n + s.length + 1)) (by omega)
    st n offs part json with h1 | h1
  · rw [h] at h1; cases h1
  · rw [h] at h1
    have := hp.1 _ h1.symm
    exact ⟨this.2.1, this.1⟩

end LN
