import Verif.Props.Annot
import Verif.Proofs.Nested
/- C08, C14, C63 (any rulebase, including user-defined types and repeat). -/
namespace LN

variable {env : Env} {fuel : Nat} {ctx : Ctx} {s : Bytes} {json0 : Obj} {res : Res}

/-- what the caller of `ln_normalize` sees: return code and json (or the kind of failure) -/
def observe (r : R Res) : R (Bool × Obj) := r.bind fun r => .ok (r.ok, r.json)

/-! ### C08 -/

/-- One call leaves behind nothing but statistics; a history of calls on the messages `msgs`
starting with statistics `st`. -/
def history (env : Env) (fuel : Nat) (ctx : Ctx) : List Bytes → (NodeId → Stats) → R (NodeId → Stats)
  | [], st => .ok st
  | m :: ms, st => (normalize env fuel ctx st m []).bind fun r => history env fuel ctx ms r.stats

theorem C08_stats_do_not_matter (st st' : NodeId → Stats) :
    observe (normalize env fuel ctx st s json0) = observe (normalize env fuel ctx st' s json0) := by
  have hrel : RRel (fun a b : Res => a.ok = b.ok ∧ a.json = b.json)
      (normalize env fuel ctx st s json0) (normalize env fuel ctx st' s json0) := by
    unfold normalize
    refine RRel.bind (normRec_same (w := false) (c := ctx) (d := ctx) ⟨rfl, rfl, fun _ => rfl⟩ env s
      fuel { stats := st } { stats := st' } ctx.root 0 false (some json0) ⟨rfl, fun _ => rfl⟩) ?_
    rintro r r' ⟨hm, hj, he, hp, hr⟩
    rw [← hm, ← hj, ← he, ← hp, ← hr rfl]
    cases r.matched with
    | false =>
      simp only
      refine RRel.bind (RRel.refl (P := (· = ·)) (fun _ => rfl) _) ?_
      rintro a b rfl; exact ⟨rfl, rfl⟩
    | true =>
      cases r.endNode with
      | none => simp [RRel]
      | some e =>
        simp only
        split
        · refine RRel.bind (RRel.refl (P := (· = ·)) (fun _ => rfl) _) ?_
          rintro a b rfl; exact ⟨rfl, rfl⟩
        · refine RRel.bind (RRel.refl (P := (· = ·)) (fun _ => rfl) _) ?_
          rintro a b rfl; exact ⟨rfl, rfl⟩
  revert hrel
  generalize normalize env fuel ctx st s json0 = x
  generalize normalize env fuel ctx st' s json0 = y
  cases x <;> cases y <;> simp [RRel, observe]

/-- C08: after any history of calls the result for a message (value, error, undefined behaviour
or non-termination) is what a freshly loaded context gives. -/
theorem C08_history_independent (msgs : List Bytes) (st st1 : NodeId → Stats)
    (_h : history env fuel ctx msgs st = .ok st1) :
    observe (normalize env fuel ctx st1 s json0) =
      observe (normalize env fuel ctx (fun _ => {}) s json0) :=
  C08_stats_do_not_matter _ _

example : ∃ st1, history Ex.env 5 Ex.ctx1 [bs! "a 12", bs! "b", bs! "a x"] (fun _ => {}) = .ok st1 ∧
    (st1 0).called = 3 ∧ (st1 1).backtracked = 0 := ⟨_, rfl, rfl, rfl⟩

/-! ### C14 -/

/-- liblognorm.c:97-100 `ln_setCtxOpts`. -/
def setCtxOpts (ctx : Ctx) (opts : Nat) : Ctx := { ctx with opts := ctx.opts ||| opts }

theorem C14_options_accumulate (ctx : Ctx) (l : List Nat) :
    l.foldl setCtxOpts ctx = setCtxOpts ctx (l.foldr (· ||| ·) 0) := by
  induction l generalizing ctx with
  | nil => simp [setCtxOpts]
  | cons a l ih =>
    rw [List.foldl_cons, ih]
    simp [setCtxOpts, Nat.or_assoc]

theorem C14_order_irrelevant (ctx : Ctx) {l l' : List Nat} (h : l.Perm l') :
    l.foldl setCtxOpts ctx = l'.foldl setCtxOpts ctx := by
  rw [C14_options_accumulate, C14_options_accumulate]
  congr 1
  induction h with
  | nil => rfl
  | cons a _ ih => simp [ih]
  | swap a b l => simp [← Nat.or_assoc, Nat.or_comm]
  | trans _ _ ih1 ih2 => rw [ih1, ih2]

/-- after a call the options asked for are set, and those set before remain -/
theorem C14_option_set (ctx : Ctx) (o i : Nat) :
    (setCtxOpts ctx o).opts.testBit i = (ctx.opts.testBit i || o.testBit i) := by
  simp [setCtxOpts]

/-- C14: options change neither whether a message matches nor any member of the result except
originalmsg and metadata; without a match the results are equal. -/
theorem C14_options_only_add {opts : Nat} {st : NodeId → Stats} {res res' : Res}
    (h : normalize env fuel ctx st s json0 = .ok res)
    (h' : normalize env fuel { ctx with opts := opts } st s json0 = .ok res') :
    res.ok = res'.ok ∧ (res.ok = false → res.json = res'.json) ∧
    ∀ k, k ≠ bs! "originalmsg" → k ≠ bs! "metadata" → res.json.get k = res'.json.get k := by
  have hsame := normRec_same (w := true) (c := ctx) (d := { ctx with opts := opts })
    ⟨rfl, rfl, by simp⟩ env s
    fuel { stats := st } { stats := st } ctx.root 0 false (some json0) ⟨rfl, by simp⟩
  unfold normalize at h h'
  rw [R.bind_eq_ok] at h h'
  obtain ⟨r, hr, h⟩ := h
  obtain ⟨r', hr', h'⟩ := h'
  simp only at hr'
  rw [hr, hr'] at hsame
  obtain ⟨hm, hj, he, hp, _⟩ := hsame
  rw [← hm, ← hj, ← he, ← hp] at h'
  have hfin : ∀ (rule : Bytes) (c : Ctx) (e : NodeId) (o o' : Obj),
      finishMatch c s rule e o = .ok o' → ∃ o1, addTags c e o = .ok o1 ∧
        ∀ k, k ≠ bs! "originalmsg" → k ≠ bs! "metadata" → o'.get k = o1.get k := by
    intro rule c e o o' hf
    unfold finishMatch at hf
    rw [R.bind'_eq_ok] at hf
    obtain ⟨o1, h1, h2⟩ := hf
    refine ⟨o1, h1, fun k hk1 hk2 => ?_⟩
    rw [addRuleMetadata_get h2 hk2]
    split
    · exact Obj.get_add_ne _ _ hk1
    · rfl
  cases hmm : r.matched with
  | false =>
    simp only [hmm] at h h'
    rw [R.bind_eq_ok] at h h'
    obtain ⟨o, ho, h⟩ := h
    obtain ⟨o', ho', h'⟩ := h'
    simp at h h'
    subst h h'
    rw [ho] at ho'; cases ho'
    exact ⟨rfl, fun _ => rfl, fun _ _ _ => rfl⟩
  | true =>
    cases hee : r.endNode with
    | none => simp [hmm, hee] at h
    | some e =>
      simp only [hmm, hee] at h h'
      split at h
      · rename_i hte
        simp only [hte, if_true] at h'
        rw [R.bind_eq_ok] at h h'
        obtain ⟨o, ho, h⟩ := h
        obtain ⟨o', ho', h'⟩ := h'
        simp at h h'
        subst h h'
        obtain ⟨o1, h1, h2⟩ := hfin _ _ _ _ _ ho
        obtain ⟨o1', h1', h2'⟩ := hfin _ _ _ _ _ ho'
        have : addTags { ctx with opts := opts } e (r.json.getD []) = addTags ctx e (r.json.getD []) := rfl
        rw [this, h1] at h1'
        cases h1'
        exact ⟨rfl, by simp, fun k hk1 hk2 => by rw [h2 k hk1 hk2, h2' k hk1 hk2]⟩
      · rename_i hte
        simp only [hte, Bool.false_eq_true, if_false] at h'
        rw [R.bind_eq_ok] at h h'
        obtain ⟨o, ho, h⟩ := h
        obtain ⟨o', ho', h'⟩ := h'
        simp at h h'
        subst h h'
        rw [ho] at ho'; cases ho'
        exact ⟨rfl, fun _ => rfl, fun _ _ _ => rfl⟩

theorem has_testBit (c : Ctx) (i : Nat) : c.has (2 ^ i) = c.opts.testBit i := by
  unfold Ctx.has
  cases hb : c.opts.testBit i with
  | true =>
    simp only [bne_iff_ne, ne_eq]
    intro h0
    have := congrArg (fun x => Nat.testBit x i) h0
    simp [Nat.testBit_and, Nat.testBit_two_pow, hb] at this
  | false =>
    have h0 : c.opts &&& 2 ^ i = 0 := by
      apply Nat.eq_of_testBit_eq
      intro j
      rw [Nat.testBit_and, Nat.testBit_two_pow, Nat.zero_testBit]
      by_cases hij : i = j
      · subst hij; rw [hb]; rfl
      · simp [hij]
    rw [h0]; rfl

/-- C14, what each option does when a rule matches: option 2 (`LN_CTXOPT_ADD_ORIGINALMSG`, 0x04) adds the message as originalmsg, and no other option has an influence
on this member; without options 3 and 4 (`LN_CTXOPT_ADD_RULE`, `LN_CTXOPT_ADD_RULE_LOCATION`) the options have no influence on the member metadata, with
one of them there is such a member (its contents: C13). -/
theorem C14_option_effects {opts : Nat} {st : NodeId → Stats} {res res' : Res}
    (h : normalize env fuel ctx st s json0 = .ok res) (h' : normalize env fuel { ctx with opts := opts } st s json0 = .ok res')
    (hok : res.ok = true) :
    (ctx.opts.testBit 2 = true → res.json.get (bs! "originalmsg") = some (.str s)) ∧
    (ctx.opts.testBit 2 = opts.testBit 2 → res.json.get (bs! "originalmsg") = res'.json.get (bs! "originalmsg")) ∧
    (ctx.opts.testBit 3 = false → ctx.opts.testBit 4 = false → opts.testBit 3 = false → opts.testBit 4 = false →
      res.json.get (bs! "metadata") = res'.json.get (bs! "metadata")) ∧
    (ctx.opts.testBit 3 = true ∨ ctx.opts.testBit 4 = true → ∃ v, res.json.get (bs! "metadata") = some v) := by
  have hsame := normRec_same (w := true) (c := ctx) (d := { ctx with opts := opts })
    ⟨rfl, rfl, by simp⟩ env s
    fuel { stats := st } { stats := st } ctx.root 0 false (some json0) ⟨rfl, by simp⟩
  unfold normalize at h h'
  rw [R.bind_eq_ok] at h h'
  obtain ⟨r, hr, h⟩ := h
  obtain ⟨r', hr', h'⟩ := h'
  simp only at hr'
  rw [hr, hr'] at hsame
  obtain ⟨hm, hj, he, hp, _⟩ := hsame
  rw [← hm, ← hj, ← he, ← hp] at h'
  cases hmm : r.matched with
  | false =>
    simp only [hmm] at h
    rw [R.bind_eq_ok] at h
    obtain ⟨o, ho, h⟩ := h
    simp at h
    subst h
    cases hok
  | true =>
    cases hee : r.endNode with
    | none => simp [hmm, hee] at h
    | some e =>
      have hte : (ctx.node e).isTerminal = true := by
        obtain ⟨tr, m, e', _, _, hend, _⟩ :=
          (normRec_sound (slack := True) (fun hn => absurd trivial hn) fuel _ _ _ _ _ _ (by simp) hr).1 hmm
        rw [hee] at hend
        exact firstEndN_terminal hend.symm
      simp only [hmm, hee, hte, if_true] at h h'
      rw [R.bind_eq_ok] at h h'
      obtain ⟨o, ho, h⟩ := h
      obtain ⟨o', ho', h'⟩ := h'
      simp at h h'
      subst h h'
      unfold finishMatch at ho ho'
      rw [R.bind'_eq_ok] at ho ho'
      obtain ⟨o1, h1, ho⟩ := ho
      obtain ⟨o1', h1', ho'⟩ := ho'
      have : addTags { ctx with opts := opts } e (r.json.getD []) = addTags ctx e (r.json.getD []) := rfl
      rw [this, h1] at h1'
      cases h1'
      have b2 := has_testBit ctx 2
      have b2' := has_testBit { ctx with opts := opts } 2
      have b3 := has_testBit ctx 3
      have b3' := has_testBit { ctx with opts := opts } 3
      have b4 := has_testBit ctx 4
      have b4' := has_testBit { ctx with opts := opts } 4
      simp only [Nat.reducePow] at b2 b2' b3 b3' b4 b4'
      rw [b2] at ho
      rw [b2'] at ho'
      refine ⟨fun hb => ?_, fun hb => ?_, fun h3 h4 h3' h4' => ?_, fun hb => ?_⟩
      · rw [addRuleMetadata_get ho (by decide), if_pos hb, Obj.get_add_self]
      · rw [addRuleMetadata_get ho (by decide), addRuleMetadata_get ho' (by decide), hb]
      · unfold addRuleMetadata metaMockup metaLocation at ho ho'
        rw [if_neg (by rw [b3, h3]; decide), R.ok_bind', if_neg (by rw [b4, h4]; decide), R.ok_bind'] at ho
        rw [if_neg (by rw [b3', h3']; decide), R.ok_bind', if_neg (by rw [b4', h4']; decide), R.ok_bind'] at ho'
        cases ho
        cases ho'
        have hx : ∀ b : Bool, Obj.get (if b = true then Obj.add o1 (bs! "originalmsg") (.str s) else o1) (bs! "metadata") = o1.get (bs! "metadata") := by
          intro b
          cases b
          · rfl
          · exact Obj.get_add_ne _ _ (by decide)
        rw [hx, hx]
      · exact ⟨_, addRuleMetadata_on ho (by rw [b3, b4]; exact hb)⟩

example : ∃ r, normalize Ex.env 5 { Ex.ctx1 with opts := 4 } Ex.stats0 (bs! "a 12") [] = .ok r ∧ r.ok = true ∧
    Nat.testBit 4 2 = true ∧ r.json.get (bs! "originalmsg") = some (.str (bs! "a 12")) := ⟨_, rfl, rfl, rfl, by decide⟩

example : ∃ r r', normalize Ex.env 5 Ex.ctx1 Ex.stats0 (bs! "a 12") [] = .ok r ∧
    normalize Ex.env 5 { Ex.ctx1 with opts := 0 } Ex.stats0 (bs! "a 12") [] = .ok r' ∧
    r.json ≠ r'.json := ⟨_, _, rfl, rfl, by decide⟩

/-! ### C63 -/

/-- C63: every call increases the `called` counter of the root, and no counter ever
decreases. -/
theorem C63_counters_grow_partial {st : NodeId → Stats}
    (h : normalize env fuel ctx st s json0 = .ok res) :
    (st ctx.root).called < (res.stats ctx.root).called ∧
    ∀ n, (st n).called ≤ (res.stats n).called ∧ (st n).backtracked ≤ (res.stats n).backtracked := by
  unfold normalize at h
  rw [R.bind_eq_ok] at h
  obtain ⟨r, hr, h⟩ := h
  have h1 := normRec_grows env ctx s fuel _ _ _ _ _ _ hr
  have h2 := normRec_called hr
  have hs : res.stats = r.st.stats := by
    split at h
    · split at h <;> (rw [R.bind_eq_ok] at h; obtain ⟨o, _, h⟩ := h; simp at h; subst h; rfl)
    · cases h
    · rw [R.bind_eq_ok] at h; obtain ⟨o, _, h⟩ := h; simp at h; subst h; rfl
  rw [hs]
  exact ⟨h2, h1⟩

/-- rules `a%x:word% c` and `a%n:number% c`: both alternatives of node 1 parse but lead nowhere -/
def Ex.ctxBack : Ctx where
  node := fun n => match n with
    | 0 => { parsers := [
        { kind := .number {}, node := 1, prio := 16, name := some (bs! "n"), conf := .null },
        { kind := .word, node := 1, prio := 32, name := some (bs! "w"), conf := .null }] }
    | 1 => { parsers := [Ex.lit (bs! "c") 2] }
    | 2 => { isTerminal := true }
    | _ => {}
  root := 0

/-- C63 is violated: a single visit of a node may count as several backtracks. -/
theorem C63_backtracked_exceeds_called_violated :
    ∃ r, normalize Ex.env 5 Ex.ctxBack Ex.stats0 (bs! "12") [] = .ok r ∧
      (r.stats 0).called = 1 ∧ (r.stats 0).backtracked = 2 := ⟨_, rfl, rfl, rfl⟩

end LN
