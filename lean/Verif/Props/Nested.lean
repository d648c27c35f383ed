import Verif.Proofs.NestedComplete
import Verif.Proofs.NestedFar
import Verif.Props.Match
import Verif.Props.Safety
import Verif.Props.FieldsC
import Verif.Proofs.Fields
/-
C01, C02, C04, C09, C11, C13, C15, C16 for arbitrary rulebases, including user-defined types and repeat.
`Holds env ctx s False (.path ..)` is the exact declarative reading of "the fields of a rule accept,
one after the other, parts of the message"; `Holds env ctx s True` leaves open where the text covered by a
user-defined type or an element of a repeat ends.
-/
set_option autoImplicit false
namespace LN

variable {env : Env} {fuel : Nat} {ctx : Ctx} {stats : NodeId → Stats} {s : Bytes}
  {json0 : Obj} {res : Res}

/-! ### C01 -/

/-- C01 for every rulebase: success means that there is a rule whose fields, one starting where the
other ends, accept parts of the message and together cover it, with the result made of the values
they extract.  What is missing is exactness of user-defined types and repeat: the text such a field
covers need not end where its definition stops matching (see `C01_overconsumption_violated`). -/
theorem C01_every_rulebase_partial (h : normalize env fuel ctx stats s json0 = .ok res) (hok : res.ok = true) :
    ∃ tr m, Holds env ctx s True (.path ctx.root 0 tr m s.length) ∧ (ctx.node m).isTerminal = true ∧
      ∃ e, firstEndN ctx s false ctx.root 0 tr = some e ∧
      ∀ k, k ≠ bs! "event.tags" → k ≠ bs! "originalmsg" → k ≠ bs! "metadata" →
        (∀ op ∈ annotOpsOf ctx.annots ((ctx.node e).tags.getD []), op.name.map cstr ≠ some k) →
        res.json.get k = Obj.get (storeNested json0 tr) k := by
  rcases normalize_general (slack := True) (by simp) h with ⟨_, tr, m, e, rule, hp, ht, hfe, hfin⟩ | ⟨h1, _⟩
  · refine ⟨tr, m, hp, ht, e, hfe, fun k h1 h2 h3 h4 => ?_⟩
    rcases finishMatch_get hfin h1 h2 h3 with ⟨h5, _⟩ | ⟨op, h5, _, n, v, h6, _, h7, _⟩
    · exact h5
    · exact absurd (by rw [h6, ← h7]; rfl) (h4 op h5)
  · rw [hok] at h1; cases h1

/-- C01 exactly, for rulebases where the next field decides which alternative is taken. -/
theorem C01_exact_partial (hdec : Decided env ctx s)
    (h : normalize env fuel ctx stats s json0 = .ok res) (hok : res.ok = true) :
    ∃ tr m, Holds env ctx s False (.path ctx.root 0 tr m s.length) ∧ (ctx.node m).isTerminal = true ∧
      ∃ e, firstEndN ctx s false ctx.root 0 tr = some e ∧
      ∀ k, k ≠ bs! "event.tags" → k ≠ bs! "originalmsg" → k ≠ bs! "metadata" →
        (∀ op ∈ annotOpsOf ctx.annots ((ctx.node e).tags.getD []), op.name.map cstr ≠ some k) →
        res.json.get k = Obj.get (storeNested json0 tr) k := by
  rcases normalize_general (slack := False) (fun _ => hdec) h with
    ⟨_, tr, m, e, rule, hp, ht, hfe, hfin⟩ | ⟨h1, _⟩
  · refine ⟨tr, m, hp, ht, e, hfe, fun k h1 h2 h3 h4 => ?_⟩
    rcases finishMatch_get hfin h1 h2 h3 with ⟨h5, _⟩ | ⟨op, h5, _, n, v, h6, _, h7, _⟩
    · exact h5
    · exact absurd (by rw [h6, ← h7]; rfl) (h4 op h5)
  · rw [hok] at h1; cases h1

/-- Rulebases without alternatives are decided, if complete definitions do not go on and none is
empty. -/
theorem decided_of_linear (h1 : ∀ n, (ctx.node n).parsers.length ≤ 1)
    (h2 : ∀ n, (ctx.node n).isTerminal = true → (ctx.node n).parsers = [])
    (h3 : ∀ e, Entry ctx e → (ctx.node e).isTerminal = false) : Decided env ctx s where
  one n off i j p q hi hj _ _ := by
    have := h1 n
    have hi' := (List.getElem?_eq_some_iff.1 hi).1
    have hj' := (List.getElem?_eq_some_iff.1 hj).1
    omega
  stop e n off _ _ ht p hp := by rw [h2 n ht] at hp; simp at hp
  nonempty := h3

/-- the return code -/
def Ex.okOf (r : R Res) : R Bool := r.bind fun r => .ok r.ok

theorem Ex.decidedRep : Decided Ex.env Ex.ctxRep (bs! "1, 22 end") := by
  refine decided_of_linear ?_ ?_ ?_
  · intro n
    match n with
    | 0 | 1 | 2 | 3 | 4 | 5 | 6 | 7 | 8 | 9 | _ + 10 => simp [Ex.ctxRep]
  · intro n
    match n with
    | 0 | 1 | 2 | 3 | 4 | 5 | 6 | 7 | 8 | 9 | _ + 10 => simp [Ex.ctxRep]
  · intro e he
    cases he with
    | type h =>
      rename_i i nm
      cases i with
      | zero => simp [Ex.ctxRep] at h; rw [← h.2]; rfl
      | succ i => simp [Ex.ctxRep] at h
    | elem hp hk =>
      rcases Ex.ctxRep_mem hp with ⟨rfl, rfl⟩ | ⟨rfl, rfl⟩ | ⟨rfl, rfl⟩ | ⟨rfl, rfl⟩ | ⟨rfl, rfl⟩ | ⟨rfl, rfl⟩ <;>
        simp [Ex.lit] at hk
      obtain ⟨rfl, rfl, rfl⟩ := hk; rfl
    | sep hp hk =>
      rcases Ex.ctxRep_mem hp with ⟨rfl, rfl⟩ | ⟨rfl, rfl⟩ | ⟨rfl, rfl⟩ | ⟨rfl, rfl⟩ | ⟨rfl, rfl⟩ | ⟨rfl, rfl⟩ <;>
        simp [Ex.lit] at hk
      obtain ⟨rfl, rfl, rfl⟩ := hk; rfl

example : Decided Ex.env Ex.ctxRep (bs! "1, 22 end") ∧
    Ex.okOf (normalize Ex.env 6 Ex.ctxRep Ex.stats0 (bs! "1, 22 end") []) = .ok true :=
  ⟨Ex.decidedRep, by decide +kernel⟩

/-- `type=@dir:up`, `type=@dir:down`, `rule=:%d:@dir% %n:number%`: a type with two definitions -/
def Ex.ctxDir : Ctx where
  node := fun n => match n with
    | 0 => { parsers := [{ kind := .custom 0, node := 1, prio := 16, name := some (bs! "d"), conf := .null }] }
    | 1 => { parsers := [Ex.lit (bs! " ") 2] }
    | 2 => { parsers := [{ kind := .number {}, node := 3, prio := 16, name := some (bs! "n"), conf := .null }] }
    | 3 => { isTerminal := true }
    | 4 => { parsers := [Ex.lit (bs! "up") 5, Ex.lit (bs! "down") 6] }
    | 5 => { isTerminal := true }
    | 6 => { isTerminal := true }
    | _ => {}
  root := 0
  types := [(bs! "@dir", 4)]

theorem Ex.lit_mayAccept {ctx : Ctx} {s : Bytes} (hz : ∀ c ∈ s, c ≠ 0) {l : Bytes} {n : NodeId} {off : Nat}
    (h : MayAccept Ex.env ctx s (Ex.lit l n) off) : l <+: s.drop off := by
  cases h with
  | plain hk hrun =>
    have hi := C28_literal_partial (s := s) (offs := off) l false hz
    apply Classical.byContradiction
    intro hno
    have := hi.2 (fun n hn => hno hn.1)
    simp [Ex.lit, runParser, needData] at hrun
    rw [this] at hrun; cases hrun
  | custom hk => cases hk
  | rep hk => cases hk
  | repNone hk => cases hk
  | customNil hk => cases hk
  | repNil hk => cases hk

theorem Ex.decidedDir (s : Bytes) (hz : ∀ c ∈ s, c ≠ 0) : Decided Ex.env Ex.ctxDir s where
  one n off i j p q hi hj hp hq := by
    have lone : (Ex.ctxDir.node n).parsers.length ≤ 1 → i = j := by
      intro h
      have hi' := (List.getElem?_eq_some_iff.1 hi).1
      have hj' := (List.getElem?_eq_some_iff.1 hj).1
      omega
    have incl : ∀ n m, MayAccept Ex.env Ex.ctxDir s (Ex.lit (bs! "up") n) off →
        MayAccept Ex.env Ex.ctxDir s (Ex.lit (bs! "down") m) off → False := by
      intro n m h1 h2
      obtain ⟨t, ht⟩ := Ex.lit_mayAccept hz h1
      obtain ⟨t', ht'⟩ := Ex.lit_mayAccept hz h2
      rw [← ht] at ht'
      simp at ht'
    match n with
    | 0 | 1 | 2 | 3 | 5 | 6 | _ + 7 => exact lone (by simp [Ex.ctxDir])
    | 4 =>
      match i, j with
      | 0, 0 | 1, 1 => rfl
      | 0, 1 =>
        simp [Ex.ctxDir] at hi hj; subst hi hj
        exact (incl _ _ hp hq).elim
      | 1, 0 =>
        simp [Ex.ctxDir] at hi hj; subst hi hj
        exact (incl _ _ hq hp).elim
      | _ + 2, _ => simp [Ex.ctxDir] at hi
      | _, _ + 2 => simp [Ex.ctxDir] at hj
  stop e n off _ _ ht p hp := by
    match n with
    | 0 | 1 | 2 | 4 | _ + 7 => simp [Ex.ctxDir] at ht
    | 3 | 5 | 6 => simp [Ex.ctxDir] at hp
  nonempty e he := by
    have norep : ∀ n, ∀ p ∈ (Ex.ctxDir.node n).parsers, ∀ d, p.kind ≠ .repeat_ d := by
      intro n p hp d
      match n with
      | 0 | 1 | 2 => simp [Ex.ctxDir, Ex.lit] at hp; subst hp; simp
      | 4 => simp [Ex.ctxDir] at hp; rcases hp with rfl | rfl <;> simp [Ex.lit]
      | 3 | 5 | 6 | _ + 7 => simp [Ex.ctxDir] at hp
    cases he with
    | type h =>
      rename_i i nm
      cases i with
      | zero => simp [Ex.ctxDir] at h; rw [← h.2]; rfl
      | succ i => simp [Ex.ctxDir] at h
    | elem hp hk => exact absurd hk (norep _ _ hp _)
    | sep hp hk => exact absurd hk (norep _ _ hp _)

example : Decided Ex.env Ex.ctxDir (bs! "down 7") ∧
    Ex.obs (normalize Ex.env 6 Ex.ctxDir Ex.stats0 (bs! "down 7") []) =
      .ok (true, [(bs! "n", .str (bs! "7")), (bs! "d", .obj [])]) :=
  ⟨Ex.decidedDir _ (by decide), by decide +kernel⟩

/-- `rule=:ab%-:number%`, `type=@t:a`, `rule=:%f:@t%<cont>` -/
def Ex.ctxOver (cont : Bytes) : Ctx where
  node := fun n => match n with
    | 0 => { parsers := [Ex.lit (bs! "ab") 1,
        { kind := .custom 0, node := 3, prio := 16, name := some (bs! "f"), conf := .null }] }
    | 1 => { parsers := [{ kind := .number {}, node := 2, prio := 16, name := none, conf := .null }] }
    | 2 => { isTerminal := true }
    | 3 => { parsers := [Ex.lit cont 4] }
    | 4 => { isTerminal := true }
    | 5 => { parsers := [Ex.lit (bs! "a") 6] }
    | 6 => { isTerminal := true }
    | _ => {}
  root := 0
  types := [(bs! "@t", 5)]

/-- C01 is violated: with the rules `ab%-:number%` and `%f:@t%c`, where `@t` is the text `a`, the message
`abc` is reported as a match although no rule matches it: after the failed attempt with the first
rule the field of type `@t` is taken to cover `ab`. -/
theorem C01_overconsumption_violated :
    Ex.obs (normalize Ex.env 6 (Ex.ctxOver (bs! "c")) Ex.stats0 (bs! "abc") []) =
      .ok (true, [(bs! "f", .obj [])]) ∧
    ¬ ∃ tr m, Holds Ex.env (Ex.ctxOver (bs! "c")) (bs! "abc") False (.path 0 0 tr m 3) ∧
      ((Ex.ctxOver (bs! "c")).node m).isTerminal = true := by
  refine ⟨by decide +kernel, ?_⟩
  rintro ⟨tr, m, hp, ht⟩
  cases hp with
  | cons hidx hacc htail =>
    rename_i idx p mid v tr
    match idx with
    | 0 =>
      simp [Ex.ctxOver] at hidx; subst hidx
      cases hacc with
      | plain hk hrun =>
        have : runParser Ex.env (bs! "abc") 0 (Ex.lit (bs! "ab") 1).kind (Ex.lit (bs! "ab") 1).name.isSome =
          .ok (2, none) := by rfl
        rw [this] at hrun; cases hrun
        cases htail with
        | cons hidx' hacc' htail' =>
          rename_i idx' p' mid' v' tr'
          match idx' with
          | 0 =>
            simp [Ex.lit, Ex.ctxOver] at hidx'; subst hidx'
            cases hacc' with
            | plain hk hrun =>
              have : runParser Ex.env (bs! "abc") (0 + 2) (.number {}) false = .fail := by rfl
              rw [show PKind.number {} = Parser.kind { kind := .number {}, node := 2, prio := 16, name := none, conf := .null } from rfl] at this
              exact absurd (this.symm.trans hrun) (by simp)
            | custom hk => cases hk
            | rep hk => cases hk
            | repNone hk => cases hk
          | _ + 1 => simp [Ex.lit, Ex.ctxOver] at hidx'
      | custom hk => cases hk
      | rep hk => cases hk
      | repNone hk => cases hk
    | 1 =>
      simp [Ex.ctxOver] at hidx; subst hidx
      cases hacc with
      | plain hk hrun => exact absurd hk (by simp [PKind.flat])
      | custom hk ht' hpath hterm hend =>
        cases hk
        simp [Ex.ctxOver] at ht'
        obtain ⟨_, rfl⟩ := ht'
        rcases hend with h | h
        · cases h
        subst h
        cases hpath with
        | nil => simp [Ex.ctxOver] at hterm
        | cons hidx2 hacc2 htail2 =>
          rename_i idx2 p2 mid2 v2 tr2
          match idx2 with
          | 0 =>
            simp [Ex.ctxOver] at hidx2; subst hidx2
            cases hacc2 with
            | plain hk hrun =>
              have : runParser Ex.env (bs! "abc") 0 (Ex.lit (bs! "a") 6).kind (Ex.lit (bs! "a") 6).name.isSome =
                .ok (1, none) := by rfl
              rw [this] at hrun; cases hrun
              cases htail2 with
              | cons hidx3 _ _ => simp [Ex.ctxOver, Ex.lit] at hidx3
              | nil =>
                cases htail with
                | cons hidx4 hacc4 htail4 =>
                  rename_i idx4 p4 mid4 v4 tr4
                  match idx4 with
                  | 0 =>
                    simp [Ex.ctxOver] at hidx4; subst hidx4
                    cases hacc4 with
                    | plain hk hrun =>
                      have : runParser Ex.env (bs! "abc") (0 + 1) (Ex.lit (bs! "c") 4).kind
                        (Ex.lit (bs! "c") 4).name.isSome = .fail := by rfl
                      rw [this] at hrun; cases hrun
                    | custom hk => cases hk
                    | rep hk => cases hk
                    | repNone hk => cases hk
                  | _ + 1 => simp [Ex.ctxOver] at hidx4
            | custom hk => cases hk
            | rep hk => cases hk
            | repNone hk => cases hk
          | _ + 1 => simp [Ex.ctxOver] at hidx2
      | rep hk => cases hk
      | repNone hk => cases hk
    | _ + 2 => simp [Ex.ctxOver] at hidx

/-! ### C02 -/

/-- C02 for rulebases with user-defined types in which the next field decides: exactly the messages
that some rule matches are matched. Missing: repeat, and alternatives that need backtracking across
user-defined types (both violated, see below). -/
theorem C02_types_partial (hdec : Decided env ctx s) (hrep : NoRepeat ctx)
    (h : normalize env fuel ctx stats s json0 = .ok res) :
    res.ok = true ↔ ∃ tr m, Holds env ctx s False (.path ctx.root 0 tr m s.length) ∧
      (ctx.node m).isTerminal = true := by
  constructor
  · intro hok
    obtain ⟨tr, m, h1, h2, _⟩ := C01_exact_partial hdec h hok
    exact ⟨tr, m, h1, h2⟩
  · exact normalize_complete hdec hrep h

example : NoRepeat Ex.ctxDir := by
  intro n p hp d
  match n with
  | 0 | 1 | 2 => simp [Ex.ctxDir, Ex.lit] at hp; subst hp; simp
  | 4 => simp [Ex.ctxDir] at hp; rcases hp with rfl | rfl <;> simp [Ex.lit]
  | 3 | 5 | 6 | _ + 7 => simp [Ex.ctxDir] at hp

/-- C02 is violated: with the rules `ab%-:number%` and `%f:@t%bc` (`@t` is `a`) the message `abc`, which
the second rule matches, is rejected. -/
theorem C02_types_violated :
    Ex.okOf (normalize Ex.env 6 (Ex.ctxOver (bs! "bc")) Ex.stats0 (bs! "abc") []) = .ok false ∧
    ∃ tr m, Holds Ex.env (Ex.ctxOver (bs! "bc")) (bs! "abc") False (.path 0 0 tr m 3) ∧
      ((Ex.ctxOver (bs! "bc")).node m).isTerminal = true := by
  have h1 : Holds Ex.env (Ex.ctxOver (bs! "bc")) (bs! "abc") False
      (.path 5 0 [⟨0, Ex.lit (bs! "a") 6, 0, 1, none⟩] 6 1) :=
    .cons (idx := 0) (p := Ex.lit (bs! "a") 6) rfl (.plain (len := 1) (v := none) trivial (by rfl)) (.nil _ _)
  have h2 : Holds Ex.env (Ex.ctxOver (bs! "bc")) (bs! "abc") False
      (.path 3 1 [⟨0, Ex.lit (bs! "bc") 4, 1, 3, none⟩] 4 3) :=
    .cons (idx := 0) (p := Ex.lit (bs! "bc") 4) rfl (.plain (len := 2) (v := none) trivial (by rfl)) (.nil _ _)
  exact ⟨by decide +kernel, _, 4, .cons (idx := 1) (mid := 1)
    (p := { kind := .custom 0, node := 3, prio := 16, name := some (bs! "f"), conf := .null }) rfl
    (.custom (i := 0) (nm := bs! "@t") (t := 5) rfl rfl h1 rfl (.inr rfl)) h2, rfl⟩

/-- `rule=:%l:repeat{"parser":{"type":"number","name":"n"},"while":{"type":"literal","text":", "}}%, end` -/
def Ex.ctxTrail : Ctx where
  node := fun n => match n with
    | 0 => { parsers := [{ kind := .repeat_ (some (3, 5, false)), node := 1, prio := 4,
                           name := some (bs! "l"), conf := .null }] }
    | 1 => { parsers := [Ex.lit (bs! ", end") 2] }
    | 2 => { isTerminal := true }
    | 3 => { parsers := [{ kind := .number {}, node := 4, prio := 16, name := some (bs! "n"), conf := .null }] }
    | 4 => { isTerminal := true }
    | 5 => { parsers := [Ex.lit (bs! ", ") 6] }
    | 6 => { isTerminal := true }
    | _ => {}
  root := 0

/-- C02 is violated by repeat, which does not give back a separator: the rule consists of a list of
numbers followed by `, end`, but `1, end` is rejected. -/
theorem C02_repeat_violated :
    Ex.okOf (normalize Ex.env 6 Ex.ctxTrail Ex.stats0 (bs! "1, end") []) = .ok false ∧
    ∃ tr m, Holds Ex.env Ex.ctxTrail (bs! "1, end") False (.path 0 0 tr m 6) ∧
      (Ex.ctxTrail.node m).isTerminal = true := by
  have h1 : Holds Ex.env Ex.ctxTrail (bs! "1, end") False (.path 3 0
      [⟨0, { kind := .number {}, node := 4, prio := 16, name := some (bs! "n"), conf := .null }, 0, 1,
        some (.str (bs! "1"))⟩] 4 1) :=
    .cons (idx := 0) rfl (.plain (len := 1) (v := some (.str (bs! "1"))) trivial (by rfl)) (.nil _ _)
  have h2 : Holds Ex.env Ex.ctxTrail (bs! "1, end") False
      (.path 1 1 [⟨0, Ex.lit (bs! ", end") 2, 1, 6, none⟩] 2 6) :=
    .cons (idx := 0) (p := Ex.lit (bs! ", end") 2) rfl
      (.plain (len := 5) (v := none) trivial (by rfl)) (.nil _ _)
  exact ⟨by decide +kernel, _, 2, .cons (idx := 0) (mid := 1)
    (p := { kind := .repeat_ (some (3, 5, false)), node := 1, prio := 4, name := some (bs! "l"), conf := .null })
    rfl (.rep (a := 3) (w := 5) (permit := false) rfl (.one h1 rfl (.inr rfl))) h2, rfl⟩

/-! ### C04 -/

/-- C04 for every rulebase: without a match the result consists of exactly originalmsg, the
complete message, and unparsed-data, a suffix of it.  Missing: messages with NUL bytes, where
unparsed-data stops at the first NUL (`C04_nul_violated`). -/
theorem C04_nonmatch_intact_every_rulebase_partial (hz : ∀ c ∈ s, c ≠ 0)
    (h : normalize env fuel ctx stats s [] = .ok res) (hno : res.ok = false) :
    ∃ u, u ≤ s.length ∧ res.json = [(bs! "originalmsg", .str s), (bs! "unparsed-data", .str (s.drop u))] := by
  rcases normalize_general (slack := True) (by simp) h with ⟨h1, _⟩ | ⟨_, u, hu, h2⟩
  · rw [hno] at h1; cases h1
  · refine ⟨u, hu, ?_⟩
    have : newString (s.drop u) = .str (s.drop u) := by
      unfold newString
      rw [cstr_noNul (fun c hc => hz c (List.mem_of_mem_drop hc))]
    rw [h2, this]; rfl

example : (∀ c ∈ bs! "1, 2; x", c ≠ 0) ∧
    Ex.obs (normalize Ex.env 6 Ex.ctxRep Ex.stats0 (bs! "1, 2; x") []) = .ok (false,
      [(bs! "originalmsg", .str (bs! "1, 2; x")), (bs! "unparsed-data", .str (bs! "; x"))]) :=
  ⟨by decide, by decide +kernel⟩

theorem C04_nul_violated :
    Ex.obs (normalize Ex.env 6 Ex.ctxRep Ex.stats0 [120, 0, 121] []) = .ok (false,
      [(bs! "originalmsg", .str [120, 0, 121]), (bs! "unparsed-data", .str [120])]) := by
  decide +kernel

/-! ### C05 -/

/-- C05 for every rulebase: unparsed-data starts at a position which some sequence of fields from the root reaches (up to where the text of user-defined
types ends). Missing: that it is the furthest one (`C05_types_furthest_partial`). -/
theorem C05_every_rulebase_partial (h : normalize env fuel ctx stats s json0 = .ok res) (hno : res.ok = false) :
    ∃ u, (∃ tr m, Holds env ctx s True (.path ctx.root 0 tr m u)) ∧ u ≤ s.length ∧
      res.json.get (bs! "unparsed-data") = some (newString (s.drop u)) ∧
      res.json.get (bs! "originalmsg") = some (.str s) := by
  obtain ⟨u, h1, h2, _, h3⟩ := normalize_unparsed (slack := True) (by simp) h hno
  refine ⟨u, h1, h2, ?_, ?_⟩
  · rw [h3, Obj.get_add_self]
  · rw [h3, Obj.get_add_ne _ _ (by decide), Obj.get_add_self]

/-- C05 for rulebases with user-defined types in which the next field decides: unparsed-data starts at the furthest position that any sequence of fields from
the root can reach. Missing: repeat, alternatives that need backtracking across user-defined types (both violated, see below). -/
theorem C05_types_furthest_partial (hdec : Decided env ctx s) (hrep : NoRepeat ctx)
    (h : normalize env fuel ctx stats s json0 = .ok res) (hno : res.ok = false) :
    ∃ u, (∃ tr m, Holds env ctx s False (.path ctx.root 0 tr m u)) ∧
      (∀ tr m off, Holds env ctx s False (.path ctx.root 0 tr m off) → off ≤ u) ∧
      res.json.get (bs! "unparsed-data") = some (newString (s.drop u)) ∧
      res.json.get (bs! "originalmsg") = some (.str s) := by
  obtain ⟨u, h1, _, h2, h3⟩ := normalize_unparsed (slack := False) (fun _ => hdec) h hno
  refine ⟨u, h1, h2 (by simp) hrep, ?_, ?_⟩
  · rw [h3, Obj.get_add_self]
  · rw [h3, Obj.get_add_ne _ _ (by decide), Obj.get_add_self]

example : Decided Ex.env Ex.ctxDir (bs! "down x") ∧ NoRepeat Ex.ctxDir ∧
    Ex.obs (normalize Ex.env 6 Ex.ctxDir Ex.stats0 (bs! "down x") []) = .ok (false,
      [(bs! "originalmsg", .str (bs! "down x")), (bs! "unparsed-data", .str (bs! "x"))]) := by
  refine ⟨Ex.decidedDir _ (by decide), ?_, by decide +kernel⟩
  intro n p hp d
  match n with
  | 0 | 1 | 2 => simp [Ex.ctxDir, Ex.lit] at hp; subst hp; simp
  | 4 => simp [Ex.ctxDir] at hp; rcases hp with rfl | rfl <;> simp [Ex.lit]
  | 3 | 5 | 6 | _ + 7 => simp [Ex.ctxDir] at hp

/-- C05 is violated with user-defined types that need backtracking: the fields of the second rule reach the end of the message `abc`, but unparsed-data is `c`. -/
theorem C05_types_violated :
    Ex.obs (normalize Ex.env 6 (Ex.ctxOver (bs! "bc")) Ex.stats0 (bs! "abc") []) = .ok (false,
      [(bs! "originalmsg", .str (bs! "abc")), (bs! "unparsed-data", .str (bs! "c"))]) ∧
    ∃ tr m, Holds Ex.env (Ex.ctxOver (bs! "bc")) (bs! "abc") False (.path 0 0 tr m 3) := by
  obtain ⟨_, tr, m, h, _⟩ := C02_types_violated
  exact ⟨by decide +kernel, tr, m, h⟩

/-- C05 is violated with repeat: the fields of the rule reach the end of the message, but unparsed-data is not empty. -/
theorem C05_repeat_violated :
    Ex.obs (normalize Ex.env 6 Ex.ctxTrail Ex.stats0 (bs! "1, end") []) = .ok (false,
      [(bs! "originalmsg", .str (bs! "1, end")), (bs! "unparsed-data", .str (bs! "1, end"))]) ∧
    ∃ tr m, Holds Ex.env Ex.ctxTrail (bs! "1, end") False (.path 0 0 tr m 6) := by
  obtain ⟨_, tr, m, h, _⟩ := C02_repeat_violated
  exact ⟨by decide +kernel, tr, m, h⟩

/-! ### C09 -/

theorem storeNested_get (json0 : Obj) (tr : List NStep) (k : Bytes)
    (hcon : ¬ ((∃ st ∈ tr, st.field.name = some k) ∨
        (∃ st ∈ tr, st.field.name = some (bs! ".") ∧ ∃ ms, st.value = some (.obj ms) ∧
          ∃ m ∈ ms, m.1 = k))) : Obj.get (storeNested json0 tr) k = json0.get k := by
  have := storeFields_get json0 (tr.map fun st => ⟨st.idx, st.field, st.start, 0, st.value⟩) k (by
    simpa using hcon)
  rw [← this]
  unfold storeFields storeNested
  rw [List.foldr_map]

/-- C09 for every rulebase: every member of the result that was not there before comes from a named
field (or the members of the object of a field named `.`), an annotation, or is one of the reserved
members. -/
theorem C09_only_named_fields_show (h : normalize env fuel ctx stats s json0 = .ok res) (hok : res.ok = true) :
    ∃ tr m e, Holds env ctx s True (.path ctx.root 0 tr m s.length) ∧ (ctx.node m).isTerminal = true ∧
      firstEndN ctx s false ctx.root 0 tr = some e ∧
      ∀ k, res.json.get k ≠ json0.get k →
        k = bs! "event.tags" ∨ k = bs! "originalmsg" ∨ k = bs! "metadata" ∨
        (∃ op ∈ annotOpsOf ctx.annots ((ctx.node e).tags.getD []), op.name.map cstr = some k) ∨
        (∃ st ∈ tr, st.field.name = some k) ∨
        (∃ st ∈ tr, st.field.name = some (bs! ".") ∧ ∃ ms, st.value = some (.obj ms) ∧
          ∃ m ∈ ms, m.1 = k) := by
  obtain ⟨tr, m, hp, ht, e, hfe, hk⟩ := C01_every_rulebase_partial h hok
  refine ⟨tr, m, e, hp, ht, hfe, fun k hne => ?_⟩
  by_cases k1 : k = bs! "event.tags"
  · exact .inl k1
  by_cases k2 : k = bs! "originalmsg"
  · exact .inr (.inl k2)
  by_cases k3 : k = bs! "metadata"
  · exact .inr (.inr (.inl k3))
  right; right; right
  by_cases k4 : ∃ op ∈ annotOpsOf ctx.annots ((ctx.node e).tags.getD []), op.name.map cstr = some k
  · exact .inl k4
  right
  apply Classical.byContradiction
  intro hcon
  exact hne (by
    rw [hk k k1 k2 k3 (fun op hop ho => k4 ⟨op, hop, ho⟩)]
    exact storeNested_get json0 tr k hcon)

/-- and inside a user-defined type or repeat element as well: unnamed fields contribute nothing -/
theorem C09_unnamed_contribute_nothing_nested (o : Obj) (tr : List NStep) :
    storeNested o tr = storeNested o (tr.filter fun st => st.field.name.isSome) := by
  induction tr with
  | nil => rfl
  | cons st tr ih =>
    have h3 : ∀ t, storeNested o (st :: t) = place (storeNested o t) st.field.name st.value := fun _ => rfl
    rw [h3, ih]
    cases hn : st.field.name with
    | none => simp [hn, place]
    | some nm => simp [hn, h3]

/-! ### C11 -/

theorem firstEndN_last {slack : Prop} {n m : NodeId} {off : Nat} {tr : List NStep}
    (hp : Holds env ctx s slack (.path n off tr m s.length)) (ht : (ctx.node m).isTerminal = true)
    (hne : ∀ st ∈ tr, st.start ≠ s.length) :
    firstEndN ctx s false n off tr = some m := by
  induction tr generalizing n off with
  | nil => cases hp; simp [firstEndN, CanEnd, ht]
  | cons st tr ih =>
    cases hp with
    | cons hidx hacc htail =>
      rename_i idx p mid v
      have h0 := hne ⟨idx, p, off, mid, v⟩ (by simp)
      simp only at h0
      have : CanEnd ctx s false n off = false := by simp [CanEnd, h0]
      simp only [firstEndN, this, Bool.false_eq_true, if_false]
      exact ih htail (fun st hst => hne st (by simp [hst]))

/-- C11 for every rulebase: if no field of the matching rule starts at the end of the message,
event.tags consists of exactly the tags of this rule (unless an annotation sets event.tags itself),
and is not touched if the rule has none. -/
theorem C11_tags_every_rulebase_partial (h : normalize env fuel ctx stats s json0 = .ok res) (hok : res.ok = true) :
    ∃ tr m, Holds env ctx s True (.path ctx.root 0 tr m s.length) ∧ (ctx.node m).isTerminal = true ∧
      ((∀ st ∈ tr, st.start ≠ s.length) →
       (∀ op ∈ annotOpsOf ctx.annots ((ctx.node m).tags.getD []),
          op.name.map cstr ≠ some (bs! "event.tags")) →
       res.json.get (bs! "event.tags") = match (ctx.node m).tags with
        | some ts => some (.arr (ts.map Json.str))
        | none => Obj.get (storeNested json0 tr) (bs! "event.tags")) := by
  rcases normalize_general (slack := True) (by simp) h with ⟨_, tr, m, e, rule, hp, ht, hfe, hfin⟩ | ⟨h1, _⟩
  · refine ⟨tr, m, hp, ht, fun hst hann => ?_⟩
    have := firstEndN_last hp ht hst
    rw [hfe, Option.some.injEq] at this
    subst this
    exact finishMatch_tags hfin hann
  · rw [hok] at h1; cases h1

/-! ### C13 -/

/-- C13 for every rulebase: the location is that of the end of a rule that matches (up to where the text of user-defined types ends), and the mockup begins with the
text of this rule. Missing: with user-defined types and repeat the fields inside of them are appended to the mockup (`C13_types_violated`). -/
theorem C13_every_rulebase_partial (h : normalize env fuel ctx stats s json0 = .ok res) (hok : res.ok = true)
    (hopt : ctx.has 0x08 = true ∨ ctx.has 0x10 = true) :
    ∃ tr m e more, Holds env ctx s True (.path ctx.root 0 tr m s.length) ∧ (ctx.node m).isTerminal = true ∧
      firstEndN ctx s false ctx.root 0 tr = some e ∧
      res.json.get (bs! "metadata") = some (.obj [(bs! "rule", .obj (
        (if ctx.has 0x08 then [(bs! "mockup", newString (mockupN tr ++ more))] else []) ++
        (if ctx.has 0x10 then [(bs! "location", Json.obj [
            (bs! "file", newString ((ctx.node e).rbFile.getD [])),
            (bs! "line", .int (ctx.node e).rbLine)])] else [])))]) := by
  rcases normalize_general' (slack := True) (by simp) h with ⟨_, tr, m, e, rule, h1, h2, h3, h4, h5⟩ | ⟨h1, _⟩
  · unfold finishMatch at h4
    rw [R.bind'_eq_ok] at h4
    obtain ⟨o1, _, h4⟩ := h4
    rw [addRuleMetadata_on h4 hopt]
    by_cases h8 : ctx.has 0x08 = true
    · obtain ⟨junk, hj⟩ := h5 h8
      exact ⟨tr, m, e, junk.reverse, h1, h2, h3, by simp [hj]⟩
    · exact ⟨tr, m, e, [], h1, h2, h3, by simp [h8]⟩
  · rw [hok] at h1; cases h1

/-- C13 is violated with user-defined types: the fields of the type's definition show up in the
mockup, behind the rest of the rule, although the rule is `%d:@dir% %n:number%`. -/
theorem C13_types_violated :
    Ex.obs (normalize Ex.env 6 { Ex.ctxDir with opts := 0x08 } Ex.stats0 (bs! "up 7") []) =
      .ok (true, [(bs! "n", .str (bs! "7")), (bs! "d", .obj []), (bs! "metadata", .obj [(bs! "rule", .obj [
        (bs! "mockup", .str (bs! "%d:USER-DEFINED% %n:number%up"))])])]) := by
  decide +kernel

/-! ### C15 -/

/-- C15: in rulebases where the next field decides, a match assigns to each field of user-defined
type exactly the text matched by one of the type's definitions, starting at the field's position,
and the object of the fields extracted there. -/
theorem C15_types_exact_partial (hdec : Decided env ctx s)
    (h : normalize env fuel ctx stats s json0 = .ok res) (hok : res.ok = true) :
    ∃ tr m, Holds env ctx s False (.path ctx.root 0 tr m s.length) ∧ (ctx.node m).isTerminal = true ∧
      ∀ st ∈ tr, ∀ i, st.field.kind = .custom i → ∃ nm t ntr e, ctx.types[i]? = some (nm, t) ∧
        Holds env ctx s False (.path t st.start ntr e st.stop) ∧ (ctx.node e).isTerminal = true ∧
        st.value = some (.obj (storeNested [] ntr)) := by
  obtain ⟨tr, m, hp, ht, hx⟩ := C01_exact_partial hdec h hok
  refine ⟨tr, m, hp, ht, ?_⟩
  clear h hok ht hx
  generalize ctx.root = n at hp
  generalize 0 = off at hp
  induction tr generalizing n off with
  | nil => simp
  | cons st tr ih =>
    cases hp with
    | cons hidx hacc htail =>
      intro st' hst' i hi
      rcases List.mem_cons.1 hst' with rfl | hst'
      · cases hacc with
        | plain hk => rw [hi] at hk; exact absurd hk (by simp [PKind.flat])
        | custom hk ht hpath hterm hend =>
          rw [hi] at hk; cases hk
          rcases hend with h | h
          · cases h
          · subst h; exact ⟨_, _, _, _, ht, hpath, hterm, rfl⟩
        | rep hk => rw [hi] at hk; cases hk
        | repNone hk => rw [hi] at hk; cases hk
      · exact ih _ _ htail st' hst' i hi

/-- In every rulebase the value is that of a real match of a definition at the field's position. -/
theorem C15_types_value_partial (h : normalize env fuel ctx stats s json0 = .ok res) (hok : res.ok = true) :
    ∃ tr m, Holds env ctx s True (.path ctx.root 0 tr m s.length) ∧ (ctx.node m).isTerminal = true ∧
      ∀ st ∈ tr, ∀ i, st.field.kind = .custom i → ∃ nm t ntr e stop, ctx.types[i]? = some (nm, t) ∧
        Holds env ctx s True (.path t st.start ntr e stop) ∧ (ctx.node e).isTerminal = true ∧
        st.value = some (.obj (storeNested [] ntr)) := by
  obtain ⟨tr, m, hp, ht, hx⟩ := C01_every_rulebase_partial h hok
  refine ⟨tr, m, hp, ht, ?_⟩
  clear h hok ht hx
  generalize ctx.root = n at hp
  generalize 0 = off at hp
  induction tr generalizing n off with
  | nil => simp
  | cons st tr ih =>
    cases hp with
    | cons hidx hacc htail =>
      intro st' hst' i hi
      rcases List.mem_cons.1 hst' with rfl | hst'
      · cases hacc with
        | plain hk => rw [hi] at hk; exact absurd hk (by simp [PKind.flat])
        | custom hk ht hpath hterm hend =>
          rw [hi] at hk; cases hk
          exact ⟨_, _, _, _, _, ht, hpath, hterm, rfl⟩
        | rep hk => rw [hi] at hk; cases hk
        | repNone hk => rw [hi] at hk; cases hk
      · exact ih _ _ htail st' hst' i hi

/-! ### C16 -/

/-- C16: in rulebases where the next field decides, a match assigns to each repeat field exactly the
text of an element followed by separators and elements, and the array of the elements' values in
message order; with permitMismatchInParser possibly no element at all, no text and no value. -/
theorem C16_repeat_exact_partial (hdec : Decided env ctx s)
    (h : normalize env fuel ctx stats s json0 = .ok res) (hok : res.ok = true) :
    ∃ tr m, Holds env ctx s False (.path ctx.root 0 tr m s.length) ∧ (ctx.node m).isTerminal = true ∧
      ∀ st ∈ tr, ∀ a w permit, st.field.kind = .repeat_ (some (a, w, permit)) →
        (∃ vs, Holds env ctx s False (.elems a w permit st.start vs st.stop) ∧
          st.value = if st.field.name.isSome then some (.arr vs) else none) ∨
        (permit = true ∧ st.stop = st.start ∧ st.value = none) := by
  obtain ⟨tr, m, hp, ht, hx⟩ := C01_exact_partial hdec h hok
  refine ⟨tr, m, hp, ht, ?_⟩
  clear h hok ht hx
  generalize ctx.root = n at hp
  generalize 0 = off at hp
  induction tr generalizing n off with
  | nil => simp
  | cons st tr ih =>
    cases hp with
    | cons hidx hacc htail =>
      intro st' hst' a w permit hi
      rcases List.mem_cons.1 hst' with rfl | hst'
      · cases hacc with
        | plain hk => rw [hi] at hk; exact absurd hk (by simp [PKind.flat])
        | custom hk => rw [hi] at hk; cases hk
        | rep hk hel => rw [hi] at hk; cases hk; exact .inl ⟨_, hel, rfl⟩
        | repNone hk => rw [hi] at hk; cases hk; exact .inr ⟨rfl, rfl, rfl⟩
      · exact ih _ _ htail st' hst' a w permit hi

/-- What "element (separator element)*" means, spelled out: the elements lie one after the other in
the given range, and each value is that of a match of the element's definition. -/
theorem C16_elements_spelled_out {a w : NodeId} {permit : Bool} {off off' : Nat} {vs : List Json}
    (h : Holds env ctx s False (.elems a w permit off vs off')) :
    ∃ spans : List (Nat × Nat), spans.length = vs.length ∧ spans.head?.map Prod.fst = some off ∧
      spans.getLast?.map Prod.snd = some off' ∧
      (∀ (i : Nat) (sp : Nat × Nat) (v : Json), spans[i]? = some sp → vs[i]? = some v → ∃ tr m,
        Holds env ctx s False (.path a sp.1 tr m sp.2) ∧ (ctx.node m).isTerminal = true ∧
          v = elemValue (storeNested [] tr)) ∧
      (∀ (i : Nat) (sp sp' : Nat × Nat), spans[i]? = some sp → spans[i + 1]? = some sp' → ∃ tr m,
        Holds env ctx s False (.path w sp.2 tr m sp'.1) ∧ (ctx.node m).isTerminal = true) := by
  generalize hj : Judgement.elems a w permit off vs off' = j at h
  induction h generalizing off vs off' with
  | one hpath hterm hend =>
    rename_i a1 w1 p1 off1 tr1 m1 e1 off2 ih1
    cases hj
    rcases hend with h | h
    · cases h
    subst h
    refine ⟨[(_, _)], rfl, rfl, rfl, ?_, ?_⟩
    · intro i sp v h1 h2
      cases i with
      | zero => simp at h1 h2; subst h1 h2; exact ⟨_, _, hpath, hterm, rfl⟩
      | succ i => simp at h1
    · intro i sp sp' h1 h2
      simp at h2
  | more hpath hterm hend hsep hterm' hend' hel ih1 ih2 ih3 =>
    cases hj
    rcases hend with h | h
    · cases h
    subst h
    rcases hend' with h | h
    · cases h
    subst h
    obtain ⟨spans, h1, h2, h3, h4, h5⟩ := ih3 rfl
    cases spans with
    | nil => simp at h2
    | cons s0 spans =>
      simp at h2
      obtain ⟨md, hmd⟩ : ∃ md, Holds env ctx s False (.path a _ _ _ md) ∧ Holds env ctx s False (.path w md _ _ _) :=
        ⟨_, hpath, hsep⟩
      refine ⟨(_, md) :: s0 :: spans, by simpa using h1, rfl, by simpa using h3, ?_, ?_⟩
      · intro i sp v g1 g2
        cases i with
        | zero => simp at g1 g2; subst g1 g2; exact ⟨_, _, hmd.1, hterm, rfl⟩
        | succ i => exact h4 i sp v (by simpa using g1) (by simpa using g2)
      · intro i sp sp' g1 g2
        cases i with
        | zero => simp at g1 g2; subst g1 g2; rw [h2]; exact ⟨_, _, hmd.2, hterm'⟩
        | succ i => exact h5 i sp sp' (by simpa using g1) (by simpa using g2)
  | _ => cases hj

example : Ex.obs (normalize Ex.env 6 { Ex.ctxRep with opts := 0 } Ex.stats0 (bs! "1, 22 end") []) = .ok (true,
    [(bs! "t", .obj [(bs! "w", .str (bs! "end"))]),
     (bs! "l", .arr [.obj [(bs! "n", .str (bs! "1"))], .obj [(bs! "n", .str (bs! "22"))]])]) := by
  decide +kernel

end LN
