import Verif.Proofs.OptSort
import Verif.Props.Build
/-
C17: optimising does not change the meaning of a rule base. C03: priorities.
-/
set_option autoImplicit false
namespace LN

theorem OptSteps.flat {srt : Sorter} {n0 : NodeId} {b b' : Bld} {E : List NodeId} (hi : Inv b E)
    (h : OptSteps srt n0 b b') (opts : Nat) (annots : List Annot) (hf : Flat (b.toCtx opts annots)) :
    Flat (b'.toCtx opts annots) := by
  induction h with
  | refl => exact hf
  | @head b b1 b2 st _ ih =>
    obtain ⟨hi', _⟩ := st.frame hi
    refine ih hi' ?_
    intro n p hp
    change p ∈ ((b1.heap n).getD {}).parsers at hp
    cases hh : b1.heap n with
    | none => rw [hh] at hp; simp at hp
    | some nd' =>
      rw [hh] at hp
      have hold : ∀ nd, b.heap n = some nd → ∀ q ∈ nd.parsers, q.kind.flat := by
        intro nd hn q hq
        refine hf n q ?_
        show q ∈ ((b.heap n).getD {}).parsers
        rw [hn]; exact hq
      rcases st.heap_cases hi n nd' hh with h1 | ⟨nd, h1, rfl⟩ | ⟨i, nd, p1, vd, c, wd, l, l', hc, rfl⟩
      · exact hold nd' h1 p hp
      · exact hold nd h1 p ((srt.perm _).mem_iff.1 hp)
      · rcases List.mem_or_eq_of_mem_set hp with h2 | h2
        · exact hold nd hc.hn p h2
        · subst h2; trivial

theorem finishMatch_congr {c c' : Ctx} (ho : c'.opts = c.opts) (ha : c'.annots = c.annots) {e : NodeId}
    (ht : (c'.node e).tags = (c.node e).tags) (hf : (c'.node e).rbFile = (c.node e).rbFile)
    (hl : (c'.node e).rbLine = (c.node e).rbLine) (s rule : Bytes) (o : Obj) :
    finishMatch c' s rule e o = finishMatch c s rule e o := by
  have hh : ∀ k, c'.has k = c.has k := fun k => by simp [Ctx.has, ho]
  unfold finishMatch addTags addRuleMetadata metaMockup metaLocation
  simp only [ht, hf, hl, ha, hh]

section
variable {env : Env} {srt : Sorter} {b b' : Bld} {opts : Nat} {annots : List Annot} {s : Bytes}

/-- what the optimiser does to a graph built by `ops` -/
theorem optimize_facts {ops : List BOp} (hb : runOps env srt ops = .ok b)
    (hopt : pdagOptimize srt b = .ok b') :
    OptSteps srt 0 b b' ∧ Inv b b.ctxRefs ∧
      (PrioOK b → Good b' b'.root ∧ ∀ t ∈ b'.types, Good b' t.2) := by
  have hi := (runOps_inv (env := env) (srt := srt) ops).ok_of hb
  have hr : b.root ∈ b.ctxRefs := List.mem_cons_self ..
  have ht : ∀ t ∈ b.types, t.2 ∈ b.ctxRefs := fun t ht => List.mem_cons_of_mem _ (List.mem_map.2 ⟨t, ht, rfl⟩)
  refine ⟨(pdagOptimize_ok hi hr ht).ok_of hopt, hi, fun hp => ?_⟩
  exact ((pdagOptimize_good hi hr ht hp).ok_of hopt).2

/-- **C17** (flat rule bases, messages without NUL) Which messages match does not change: the
optimised graph matches a message iff some rule of the graph as loaded matches it. The event is
the one a matching rule of the graph *as loaded* yields - same fields, tags, annotations, mockup
and location -, and this rule is first in the order of priorities.
Missing: user-defined types and repeat (violated, see below); messages with NUL bytes; equality of
`unparsed-data` for messages which do not match; priorities whose difference overflows an int. -/
theorem C17_optimise_meaning_partial {ops : List BOp} (hb : runOps env srt ops = .ok b)
    (hopt : pdagOptimize srt b = .ok b') (hflat : Flat (b.toCtx opts annots)) (h0 : ∀ c ∈ s, c ≠ 0)
    {fuel : Nat} {stats : NodeId → Stats} {json0 : Obj} {res : Res}
    (h : normalize env fuel (b'.toCtx opts annots) stats s json0 = .ok res) :
    (res.ok = true ↔ ∃ tr, Matches env (b.toCtx opts annots) s false b.root 0 tr) ∧
    (res.ok = true → ∃ tr e, Matches env (b.toCtx opts annots) s false b.root 0 tr ∧
      firstEnd (b.toCtx opts annots) s false b.root 0 tr = some e ∧
      finishMatch (b.toCtx opts annots) s (ruleAdd (b.toCtx opts annots) tr) e (storeFields json0 tr) =
        .ok res.json ∧
      (PrioOK b → ∀ tr', Matches env (b.toCtx opts annots) s false b.root 0 tr' → PrioBefore tr tr')) := by
  obtain ⟨hs, hi, hg⟩ := optimize_facts hb hopt
  obtain ⟨rel, sim⟩ := hs.sim (env := env) h0 hi (List.mem_cons_self ..) opts annots
  have hflat' := hs.flat hi opts annots hflat
  rcases normalize_cases hflat' h with ⟨hok, tr', e, hm, hmin, hfe, hfin⟩ | ⟨hno, hnone, _⟩
  · obtain ⟨tr, hrel⟩ := sim.bwd tr' hm
    have hmt := sim.left _ _ hrel
    have hfe' := sim.fst _ _ hrel
    refine ⟨⟨fun _ => ⟨tr, hmt⟩, fun _ => hok⟩, fun _ => ⟨tr, e, hmt, hfe'.trans hfe, ?_, ?_⟩⟩
    · have hterm := firstEnd_isTerminal (hfe'.trans hfe)
      obtain ⟨_, a1, a2, a3⟩ := sim.fin e hterm
      rw [← finishMatch_congr sim.opts sim.annots a1 a2 a3, sim.store json0 _ _ hrel]
      have : ruleAdd (b.toCtx opts annots) tr = ruleAdd (b'.toCtx opts annots) tr' := by
        unfold ruleAdd
        rw [sim.mock _ _ hrel]
        rfl
      rw [this]
      exact hfin
    · intro hpo tr2 hm2
      obtain ⟨tr2', hrel2⟩ := sim.fwd tr2 hm2
      rw [sim.order _ _ _ _ hrel hrel2]
      obtain ⟨m, o, hp, ht, he⟩ := hm
      exact triedBefore_prio (hg hpo).1 hp hmin tr2' (sim.right _ _ hrel2)
  · refine ⟨⟨fun h1 => (by rw [hno] at h1; cases h1), ?_⟩, fun h1 => (by rw [hno] at h1; cases h1)⟩
    rintro ⟨tr, hm⟩
    obtain ⟨tr', hrel⟩ := sim.fwd tr hm
    exact absurd (sim.right _ _ hrel) (hnone tr')

/-- **C17** Running the two graphs: the same messages match, and where just one rule matches the
events are equal. -/
theorem C17_optimise_same_result_partial {ops : List BOp} (hb : runOps env srt ops = .ok b)
    (hopt : pdagOptimize srt b = .ok b') (hflat : Flat (b.toCtx opts annots)) (h0 : ∀ c ∈ s, c ≠ 0)
    {fuel fuel' : Nat} {stats stats' : NodeId → Stats} {json0 : Obj} {res res' : Res}
    (h : normalize env fuel (b.toCtx opts annots) stats s json0 = .ok res)
    (h' : normalize env fuel' (b'.toCtx opts annots) stats' s json0 = .ok res') :
    res'.ok = res.ok ∧
    (res.ok = true → (∀ tr tr', Matches env (b.toCtx opts annots) s false b.root 0 tr →
      Matches env (b.toCtx opts annots) s false b.root 0 tr' → tr = tr') → res'.json = res.json) := by
  obtain ⟨h1, h2⟩ := C17_optimise_meaning_partial hb hopt hflat h0 h'
  rcases normalize_cases hflat h with ⟨hok, tr, e, hm, hmin, hfe, hfin⟩ | ⟨hno, hnone, _⟩
  · have hok' := h1.2 ⟨tr, hm⟩
    refine ⟨hok'.trans hok.symm, fun _ huniq => ?_⟩
    obtain ⟨tr2, e2, hm2, hfe2, hfin2, _⟩ := h2 hok'
    have := huniq tr tr2 hm hm2
    subst this
    have hfe' : firstEnd (b.toCtx opts annots) s false b.root 0 tr = some e := hfe
    rw [hfe2] at hfe'
    cases hfe'
    rw [hfin] at hfin2
    exact (R.ok.inj hfin2).symm
  · have : res'.ok = false := by
      cases hr : res'.ok with
      | false => rfl
      | true =>
        obtain ⟨tr, hm⟩ := h1.1 hr
        exact absurd hm (hnone tr)
    refine ⟨this.trans hno.symm, fun h1 => (by rw [hno] at h1; cases h1)⟩

/-- **C03** After loading, wherever the rules of the main rule base or of a type branch, the
alternatives are tried in order of priority. Missing: the sub-graphs of `repeat` (violated, see
below). -/
theorem C03_sorted_alternatives_partial {ops : List BOp} (hb : runOps env srt ops = .ok b)
    (hopt : pdagOptimize srt b = .ok b') (hpo : PrioOK b) (start : NodeId)
    (hstart : start = b'.root ∨ ∃ t ∈ b'.types, t.2 = start) (n : NodeId) (hreach : Reach b' start n)
    (nd : Node) (hn : b'.heap n = some nd) :
    nd.parsers.Pairwise fun p q => p.prio ≤ q.prio := by
  obtain ⟨_, _, hg⟩ := optimize_facts hb hopt
  rcases hstart with rfl | ⟨t, ht, rfl⟩
  · exact (hg hpo).1 n hreach nd hn
  · exact (hg hpo).2 t ht n hreach nd hn

end

namespace Ex

def mkCtx (ops : List BOp) (opts : Nat) : R Ctx :=
  (runOps env stableSorter ops).bind fun b => .ok (b.toCtx opts [])

/-- observable result of normalising with the graph the history builds -/
def runMsg (ops : List BOp) (opts : Nat) (s : Bytes) : R (Bool × Obj) :=
  (mkCtx ops opts).bind fun c => obs (normalize env 12 c stats0 s [])

/-- two rules with a common beginning, alternatives of different priority and literals to merge -/
def flatRules : List BOp := [
  .rule [litConf (bs! "a"), litConf (bs! "b"), fieldConf (bs! "w") (bs! "word")] true
    (some [bs! "t1"]) (bs! "rb") 2,
  .rule [litConf (bs! "a"), litConf (bs! "b"), fieldConf (bs! "n") (bs! "number")] true
    (some [bs! "t2"]) (bs! "rb") 3]

example : runMsg flatRules 0x08 (bs! "ab12") = .ok (true, [(bs! "w", .str (bs! "12")),
    (bs! "event.tags", .arr [.str (bs! "t1")]),
    (bs! "metadata", .obj [(bs! "rule", .obj [(bs! "mockup", .str (bs! "ab%w:word%"))])])]) := by decide +kernel
/-- checkable form of flatness and of the condition on priorities -/
def flatB (b : Bld) : Bool := (List.range b.next).all fun n =>
  ((b.heap n).getD {}).parsers.all fun p => match p.kind with
    | .custom _ => false
    | .repeat_ _ => false
    | _ => true
def prioB (b : Bld) : Bool := (List.range b.next).all fun n =>
  ((b.heap n).getD {}).parsers.all fun p => ((b.heap n).getD {}).parsers.all fun q =>
    decide (p.prio - q.prio ≤ 2147483647 ∧ -2147483648 ≤ p.prio - q.prio)

theorem flat_of_flatB {b : Bld} {E : List NodeId} (hi : Inv b E) (h : flatB b = true) (opts : Nat)
    (annots : List Annot) : Flat (b.toCtx opts annots) := by
  intro n p hp
  change p ∈ ((b.heap n).getD {}).parsers at hp
  by_cases hn : (b.heap n).isSome
  · have h1 := List.all_eq_true.1 h n (List.mem_range.2 (hi.live_pos hn).2)
    have h2 := List.all_eq_true.1 h1 p hp
    cases hk : p.kind <;> rw [hk] at h2 <;> first | trivial | cases h2
  · rw [Option.not_isSome_iff_eq_none.1 hn] at hp
    simp at hp

theorem prio_of_prioB {b : Bld} {E : List NodeId} (hi : Inv b E) (h : prioB b = true) : PrioOK b := by
  intro m nd hm p hp q hq
  have h1 := List.all_eq_true.1 h m (List.mem_range.2 (hi.live_pos (by rw [hm]; rfl)).2)
  rw [hm] at h1
  have h2 := List.all_eq_true.1 (List.all_eq_true.1 h1 p hp) q hq
  exact of_decide_eq_true h2

/-- the hypotheses of `C17_optimise_meaning_partial` are met by `flatRules`, and its conclusion is about a
matching message -/
theorem flatRules_hyps : ∃ b b', runOps env stableSorter flatRules = .ok b ∧ pdagOptimize stableSorter b = .ok b' ∧
    Flat (b.toCtx 0x08 []) ∧ PrioOK b ∧ ∃ res, normalize env 12 (b'.toCtx 0x08 []) stats0 (bs! "ab12") [] = .ok res ∧
      res.ok = true := by
  have h1 : (match runOps env stableSorter flatRules with
      | .ok b => flatB b && prioB b && (match pdagOptimize stableSorter b with
        | .ok b' => (match normalize env 12 (b'.toCtx 0x08 []) stats0 (bs! "ab12") [] with
          | .ok res => res.ok
          | _ => false)
        | _ => false)
      | _ => false) = true := by decide +kernel
  cases hb : runOps env stableSorter flatRules with
  | ok b =>
    have hi := (runOps_inv (env := env) (srt := stableSorter) flatRules).ok_of hb
    rw [hb] at h1
    dsimp only at h1
    cases hb' : pdagOptimize stableSorter b with
    | ok b' =>
      rw [hb'] at h1
      simp only [Bool.and_eq_true] at h1
      cases hr : normalize env 12 (b'.toCtx 0x08 []) stats0 (bs! "ab12") [] with
      | ok res =>
        rw [hr] at h1
        exact ⟨b, b', rfl, hb', flat_of_flatB hi h1.1.1 _ _, prio_of_prioB hi h1.1.2, res, hr, h1.2⟩
      | _ => rw [hr] at h1; simp at h1
    | _ => rw [hb'] at h1; simp at h1
  | _ => rw [hb] at h1; cases h1

/-- the optimiser sorts (number before word) and merges the literals -/
example : runMsg (flatRules ++ [.optimize]) 0x08 (bs! "ab12") = .ok (true, [(bs! "n", .str (bs! "12")),
    (bs! "event.tags", .arr [.str (bs! "t2")]),
    (bs! "metadata", .obj [(bs! "rule", .obj [(bs! "mockup", .str (bs! "ab%n:number%"))])])]) := by decide +kernel

end Ex

/-- C17 violated with user-defined types: with the rules `{xy}{z}` (two literals) and `%f:@t%yQ`
with `type=@t:x`, the message "xyQ" does not match before the literals are merged but does
afterwards. -/
theorem C17_types_violated :
    let ops : List BOp := [
      .typeDef (bs! "@t") [Ex.litConf (bs! "x")] true none (bs! "rb") 1,
      .rule [Ex.litConf (bs! "xy"), Ex.litConf (bs! "z")] true none (bs! "rb") 2,
      .rule [Ex.fieldConf (bs! "f") (bs! "@t"), Ex.litConf (bs! "yQ")] true none (bs! "rb") 3]
    Ex.runMsg ops 0 (bs! "xyQ") = .ok (false, [(bs! "originalmsg", .str (bs! "xyQ")),
        (bs! "unparsed-data", .str (bs! "Q"))]) ∧
    Ex.runMsg (ops ++ [.optimize]) 0 (bs! "xyQ") = .ok (true, [(bs! "f", .obj [])]) := by
  decide +kernel

/-- C17: `unparsed-data` of messages which do not match may change. -/
theorem C17_unparsed_violated :
    let ops : List BOp := [.rule [Ex.litConf (bs! "ab"), Ex.litConf (bs! "cd")] true none (bs! "rb") 2]
    Ex.runMsg ops 0 (bs! "abX") = .ok (false, [(bs! "originalmsg", .str (bs! "abX")),
        (bs! "unparsed-data", .str (bs! "X"))]) ∧
    Ex.runMsg (ops ++ [.optimize]) 0 (bs! "abX") = .ok (false, [(bs! "originalmsg", .str (bs! "abX")),
        (bs! "unparsed-data", .str (bs! "abX"))]) := by
  decide +kernel

/-- C03 violated inside `repeat`: the sub-graphs are not sorted, so the alternative given first is
taken (`word`), although `number` has the better priority. -/
theorem C03_repeat_unsorted_violated :
    let alt : Json := .obj [(bs! "type", .str (bs! "alternative")), (bs! "parser", .arr [
      Ex.fieldConf (bs! "w") (bs! "word"), Ex.fieldConf (bs! "n") (bs! "number")])]
    let rep : Json := .obj [(bs! "name", .str (bs! "l")), (bs! "type", .str (bs! "repeat")),
      (bs! "parser", alt), (bs! "while", Ex.litConf (bs! ","))]
    Ex.runMsg [.rule [rep] true none (bs! "rb") 1, .optimize] 0 (bs! "12") =
      .ok (true, [(bs! "l", .arr [.obj [(bs! "w", .str (bs! "12"))]])]) ∧
    Ex.runMsg [.rule [alt] true none (bs! "rb") 1, .optimize] 0 (bs! "12") =
      .ok (true, [(bs! "n", .str (bs! "12"))]) := by
  decide +kernel

end LN
