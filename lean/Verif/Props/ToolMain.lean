import Verif.Proofs.ToolMain
import Verif.Props.LoadMem
import Verif.Props.Include
import Verif.Props.ApiV1
/-
C86: the command line of the tool. C87: from the rulebase file and the log file to the output of the tool.
-/
set_option autoImplicit false
namespace LN
variable {w : World} {cw : Bytes → Bool} {ptr : NodeId → Bytes} {argv : List Bytes} {os : List Opt} {inp : Bytes}

/-! ### C86: the command line -/

/-- **C86** A command line means one list of options: however flags are grouped, arguments attached or separate, and operands in between. -/
theorem C86_meaning_unique {os' : List Opt} (h : OptsOf argv os) (h' : OptsOf argv os') : os = os' := by
  rw [← getopts_optsOf h, getopts_optsOf h']

/-- **C86** Unknown options, options without their argument, `-V`, `-h`, an unknown name behind `-o` or a file which cannot be written: the tool stops with exit code 1
and prints nothing to stdout. -/
theorem C86_rejected (h : ¬ ∃ os, OptsOf argv os ∧ Accepted cw os) :
    ∃ m, toolMain w cw ptr argv inp = .ok m ∧ m.code = 1 ∧ m.out = [] ∧ ∀ p ∈ m.files, p.2 = [] := by
  obtain ⟨c, hc⟩ := cmdLine_error h
  refine ⟨c.quit, by unfold toolMain; rw [hc], rfl, rfl, ?_⟩
  intro p hp
  obtain ⟨f, _, rfl⟩ := List.mem_map.1 hp
  rfl

/-- **C86** Without `-r` and `-R` the tool stops with exit code 1, and so it does if both are given once. -/
theorem C86_rulebase_required (h : OptsOf argv os) (ha : Accepted cw os)
    (hr : (os.map (·.1)).filter (fun x => x = ch! 'r' ∨ x = ch! 'R') ∈ ([[], [ch! 'r', ch! 'R'], [ch! 'R', ch! 'r']] : List Bytes)) :
    toolMain w cw ptr argv inp = .ok { code := 1, files := (outFiles os).map fun f => (f, []) } := by
  obtain ⟨c, hc, hR⟩ := cmdLine_ok h ha
  have hq : c.quit = { code := 1, files := (outFiles os).map fun f => (f, []) } := by unfold Cmd.quit; rw [hR.opened]
  have hu : ∀ l : Bytes, ∀ u : Int, l.foldl usedStep u = (l.filter (fun x => x = ch! 'r' ∨ x = ch! 'R')).foldl usedStep u := by
    intro l
    induction l with
    | nil => intro u; rfl
    | cons x l ih =>
      intro u
      by_cases hx : x = ch! 'r' ∨ x = ch! 'R'
      · rw [List.filter_cons_of_pos (by simpa using hx)]; exact ih _
      · rw [List.filter_cons_of_neg (by simpa using hx)]
        have : usedStep u x = u := by
          unfold usedStep; rw [if_neg fun e => hx (.inl e), if_neg fun e => hx (.inr e)]
        rw [List.foldl_cons, this]; exact ih u
  have hcu := hR.usedIs
  rw [hu] at hcu
  unfold toolMain
  rw [hc]
  dsimp only
  rw [List.mem_cons, List.mem_cons, List.mem_singleton] at hr
  rcases hr with e | e | e
  · have hn : ∀ x, x = ch! 'r' ∨ x = ch! 'R' → given x os = false := by
      intro x hx
      rw [given, List.any_eq_false]
      intro o ho he
      have : o.1 ∈ (os.map (·.1)).filter (fun x => x = ch! 'r' ∨ x = ch! 'R') :=
        List.mem_filter.2 ⟨List.mem_map.2 ⟨o, ho, rfl⟩, by rw [of_decide_eq_true he]; simpa using hx⟩
      rw [e] at this; cases this
    rw [(hR.noRules (hn _ (.inl rfl)) (hn _ (.inr rfl))).2, hq]
  all_goals
    rw [e] at hcu
    have hcu : c.used = -1 := hcu
    cases c.repository with
    | none => dsimp only; rw [hq]
    | some rb => dsimp only; rw [if_pos hcu, hq]

/-- **C86** If the rulebase cannot be loaded the tool stops with exit code 1 and prints nothing to stdout. -/
theorem C86_load_failure (h : OptsOf argv os) (ha : Accepted cw os) {src : RuleSrc} (hr : RulesFrom os src) {r : CtxRules}
    (hl : loadFrom (w.emptied (outFiles os)) src = .ok (r, false)) :
    toolMain w cw ptr argv inp = .ok { code := 1, files := (outFiles os).map fun f => (f, []) } := by
  obtain ⟨c, hc, hR⟩ := cmdLine_ok h ha
  obtain ⟨hu, rb, hrb, hload⟩ := hR.source hr
  unfold toolMain
  rw [hc]
  dsimp only
  rw [hrb]
  dsimp only
  rw [if_neg hu, hload, hl, R.ok_bind']
  simp only [Bool.not_false, if_true, Cmd.quit, hR.opened]

/-- the context's options are determined by the `-o` options -/
theorem hasBits_unique {a b : UInt32} (ha : HasBits os a) (hb : HasBits os b) : a = b := by
  apply UInt32.toNat_inj.1
  apply Nat.eq_of_testBit_eq
  intro i
  exact Bool.eq_iff_iff.2 ((ha i).trans (hb i).symm)

theorem destOf_ne_none {std : Bytes} {ls : List UInt8} : destOf std ls os = none ↔ ∀ o ∈ os, o.1 ∉ ls := by
  unfold destOf
  rw [Option.map_eq_none_iff, List.getLast?_eq_none_iff, List.filter_eq_nil_iff]
  simp

/-- where the text goes -/
theorem write_spec {m : MainRes} {g : Bytes → Bytes} {fs : List Bytes} (hm : m.files = fs.map fun f => (f, g f)) (d : Option Dest) (text : Bytes) :
    (m.write d text).out = m.out ++ (if d = some none then text else []) ∧
    (m.write d text).files = fs.map (fun f => (f, g f ++ if d = some (some f) then text else [])) ∧ (m.write d text).code = m.code := by
  match d with
  | none => simp [MainRes.write, hm]
  | some none => simp [MainRes.write, hm]
  | some (some f) =>
    simp only [MainRes.write, hm, List.map_map]
    refine ⟨by simp, ?_, trivial⟩
    apply List.map_congr_left
    intro x _
    by_cases hx : x = f
    · simp [hx]
    · have : ¬ f = x := fun e => hx e.symm
      simp [hx, this]

/-- what the tool prints, in a run with rules of version 2 -/
structure RunOf (w : World) (ptr : NodeId → Bytes) (os : List Opt) (r : LoadSt) (inp : Bytes) (m : MainRes) : Prop where
  code : m.code = 0
  /-- the messages are normalised with the settings; then come the reports -/
  run : ∃ (opts : UInt32) (t : ToolRes) (used : NodeId → Stats) (v : Flags) (rep dot : Bytes), HasBits os opts ∧
    toolLoop w.env (settings os) (normV2 w.env w.fuel (r.b.toCtx opts.toNat r.annots)) (fun _ => {}) 0 {} (toolLines inp) = .ok (t, used) ∧
    (if given (ch! 's') os || given (ch! 'S') os then
      ∃ ids, setIds r.b (fun _ => none) = .ok ids ∧ fullStats r.b (given (ch! 'S') os) used ids (fun _ => false) = .ok (v, rep)
     else v = (fun _ => false) ∧ rep = []) ∧
    (if given (ch! 'x') os then ∃ v', genStatsDot ptr used r.b v = .ok (v', dot) else dot = []) ∧
    m.out = t.out ++ (if destOf (bs! "-") [ch! 's', ch! 'S'] os = some none then rep else []) ++ (if destOf [] [ch! 'x'] os = some none then dot else []) ∧
    m.files = (outFiles os).map (fun f => (f, (if destOf (bs! "-") [ch! 's', ch! 'S'] os = some (some f) then rep else []) ++
      (if destOf [] [ch! 'x'] os = some (some f) then dot else []))) ∧
    m.err = endLines os t

theorem given_false {c : UInt8} : given c os = false ↔ ∀ o ∈ os, o.1 ≠ c := by
  rw [given, List.any_eq_false]; simp

theorem destOf_x : (destOf [] [ch! 'x'] os = none) ↔ given (ch! 'x') os = false := by
  rw [destOf_ne_none, given_false]; simp

theorem destOf_d : (destOf [] [ch! 'd'] os = none) ↔ given (ch! 'd') os = false := by
  rw [destOf_ne_none, given_false]; simp

theorem destOf_s : (destOf (bs! "-") [ch! 's', ch! 'S'] os = none) ↔ (given (ch! 's') os || given (ch! 'S') os) = false := by
  rw [destOf_ne_none, Bool.or_eq_false_iff, given_false, given_false]
  constructor
  · intro h; exact ⟨fun o ho e => h o ho (by simp [e]), fun o ho e => h o ho (by simp [e])⟩
  · intro ⟨h1, h2⟩ o ho hm
    rcases List.mem_cons.1 hm with e | hm
    · exact h1 o ho e
    · exact h2 o ho (by simpa using hm)

/-- **C86** A run with rules of version 2 which comes to its end normally: the exit code is 0, the messages are normalised with the options given (see C69 and C61 for what is
printed then), the reports of `-s`, `-S` and `-x` (C83 to C85) are about that run and go where the options say, and the lines at the end are those of `-U`, `-t` and `-H`. -/
theorem C86_run_partial (h : OptsOf argv os) (ha : Accepted cw os) {src : RuleSrc} (hr : RulesFrom os src) {r : CtxRules}
    (hl : loadFrom (w.emptied (outFiles os)) src = .ok (r, true)) (hv : r.1.version ≠ 1) (hd : given (ch! 'd') os = false) {m : MainRes}
    (hm : toolMain w cw ptr argv inp = .ok m) : RunOf w ptr os r.1 inp m := by
  obtain ⟨c, hc, hR⟩ := cmdLine_ok h ha
  obtain ⟨hu, rb, hrb, hload⟩ := hR.source hr
  unfold toolMain at hm
  rw [hc] at hm
  dsimp only at hm
  rw [hrb] at hm
  dsimp only at hm
  rw [if_neg hu, hload, hl, R.ok_bind'] at hm
  simp only [Bool.not_true, Bool.false_eq_true, if_false] at hm
  rw [hR.dot, destOf_d.2 hd] at hm
  dsimp only at hm
  obtain ⟨m', hm', hm⟩ := R.bind_eq_ok.1 hm
  obtain ⟨_, _, hm⟩ := R.bind_eq_ok.1 hm
  cases hm
  unfold Cmd.run at hm'
  dsimp only at hm'
  rw [if_neg hv] at hm'
  obtain ⟨⟨t, used⟩, ht, hm'⟩ := R.bind_eq_ok.1 hm'
  obtain ⟨⟨v, rep⟩, hs, hm'⟩ := R.bind_eq_ok.1 hm'
  obtain ⟨dot, hx, hm'⟩ := R.bind_eq_ok.1 hm'
  cases hm'
  rw [hR.stats] at hs
  rw [hR.statsDot] at hx
  have hw1 := write_spec (m := { files := c.opened.map fun f => (f, []), out := t.out }) (g := fun _ => []) (fs := outFiles os)
    (by rw [hR.opened]) (destOf (bs! "-") [ch! 's', ch! 'S'] os) rep
  have hw2 := write_spec hw1.2.1 (destOf [] [ch! 'x'] os) dot
  constructor
  · rw [hR.stats, hR.statsDot]; exact hw2.2.2.trans hw1.2.2
  · refine ⟨c.ctxOpts, t, used, v, rep, dot, hR.bits, by rw [← hR.settings]; exact ht, ?_, ?_, ?_, ?_, hR.tail t⟩
    · cases hg : given (ch! 's') os || given (ch! 'S') os with
      | false =>
        rw [if_pos (destOf_s.2 hg)] at hs
        cases hs; exact ⟨rfl, rfl⟩
      | true =>
        rw [if_neg fun e => by rw [destOf_s.1 e] at hg; cases hg] at hs
        obtain ⟨ids, h1, h2⟩ := R.bind_eq_ok.1 hs
        rw [hR.ext] at h2
        exact ⟨ids, h1, h2⟩
    · cases hg : given (ch! 'x') os with
      | false =>
        rw [if_pos (destOf_x.2 hg)] at hx
        cases hx; rfl
      | true =>
        rw [if_neg fun e => by rw [destOf_x.1 e] at hg; cases hg] at hx
        obtain ⟨y, h1, h2⟩ := R.bind_eq_ok.1 hx
        cases h2
        exact ⟨y.1, h1⟩
    · rw [hR.stats, hR.statsDot]; exact hw2.1.trans (by rw [hw1.1])
    · rw [hR.stats, hR.statsDot]; exact hw2.2.1.trans (by simp)

/-- **C86** `-d`: the graph is written as DOT text (C84), and no message is read. The exit code is 1. -/
theorem C86_dot_partial (h : OptsOf argv os) (ha : Accepted cw os) {src : RuleSrc} (hr : RulesFrom os src) {r : CtxRules}
    (hl : loadFrom (w.emptied (outFiles os)) src = .ok (r, true)) (hd : given (ch! 'd') os = true) {m : MainRes}
    (hm : toolMain w cw ptr argv inp = .ok m) :
    ∃ v text, genDot ptr r.1.b r.1.b.root (fun _ => false) = .ok (v, text) ∧ m.out = (if destOf [] [ch! 'd'] os = some none then text else []) ∧
      m.files = (outFiles os).map (fun f => (f, if destOf [] [ch! 'd'] os = some (some f) then text else [])) ∧ m.err = [] ∧ m.code = 1 := by
  obtain ⟨c, hc, hR⟩ := cmdLine_ok h ha
  obtain ⟨hu, rb, hrb, hload⟩ := hR.source hr
  unfold toolMain at hm
  rw [hc] at hm
  dsimp only at hm
  rw [hrb] at hm
  dsimp only at hm
  rw [if_neg hu, hload, hl, R.ok_bind'] at hm
  simp only [Bool.not_true, Bool.false_eq_true, if_false] at hm
  rw [hR.dot] at hm
  cases hdd : destOf [] [ch! 'd'] os with
  | none => rw [destOf_d.1 hdd] at hd; cases hd
  | some d =>
    rw [hdd] at hm
    dsimp only at hm
    obtain ⟨m', hm', hm⟩ := R.bind_eq_ok.1 hm
    obtain ⟨_, _, hm⟩ := R.bind_eq_ok.1 hm
    cases hm
    obtain ⟨⟨v, text⟩, hg, hm'⟩ := R.bind_eq_ok.1 hm'
    cases hm'
    have hw := write_spec (m := c.quit) (g := fun _ => []) (fs := outFiles os) (by unfold Cmd.quit; rw [hR.opened]) (some d) text
    refine ⟨v, text, hg, hw.1, by simpa using hw.2.1, ?_, hw.2.2⟩
    cases d <;> rfl

/-- **C86** A run with rules of version 1: the messages are normalised by the engine of version 1 (C70 to C74), with the same settings. No statistics
are written. -/
theorem C86_run_version1_partial (h : OptsOf argv os) (ha : Accepted cw os) {src : RuleSrc} (hr : RulesFrom os src) {r : CtxRules}
    (hl : loadFrom (w.emptied (outFiles os)) src = .ok (r, true)) (hv : r.1.version = 1) (hd : given (ch! 'd') os = false) (hx : given (ch! 'x') os = false)
    {m : MainRes} (hm : toolMain w cw ptr argv inp = .ok m) :
    m.code = 0 ∧ m.files = (outFiles os).map (fun f => (f, [])) ∧
    ∃ t, toolLoop w.env (settings os) (fun (u : Unit) msg =>
        (v1NormN (w.emptied (outFiles os)).v1Env { xs := r.2, annots := r.1.annots, rulePrefix := r.1.rulePrefix } w.fuel .root msg []).bind fun x => .ok (x.json, u))
        () 0 {} (toolLines inp) = .ok (t, ()) ∧ m.out = t.out ∧ m.err = endLines os t := by
  obtain ⟨c, hc, hR⟩ := cmdLine_ok h ha
  obtain ⟨hu, rb, hrb, hload⟩ := hR.source hr
  unfold toolMain at hm
  rw [hc] at hm
  dsimp only at hm
  rw [hrb] at hm
  dsimp only at hm
  rw [if_neg hu, hload, hl, R.ok_bind'] at hm
  simp only [Bool.not_true, Bool.false_eq_true, if_false] at hm
  rw [hR.dot, destOf_d.2 hd] at hm
  dsimp only at hm
  obtain ⟨m', hm', hm⟩ := R.bind_eq_ok.1 hm
  obtain ⟨_, _, hm⟩ := R.bind_eq_ok.1 hm
  cases hm
  unfold Cmd.run at hm'
  dsimp only at hm'
  rw [if_pos hv, hR.statsDot, destOf_x.2 hx, hR.opened, hR.settings] at hm'
  obtain ⟨⟨t, u⟩, ht, hm'⟩ := R.bind_eq_ok.1 hm'
  rw [if_pos rfl, R.ok_bind'] at hm'
  cases hm'
  exact ⟨rfl, rfl, t, ht, rfl, hR.tail t⟩

/-! ### C87: from files to output -/

open Spec

/-- What the tool prints, if the rules are these and the messages those: for each line its output (`lineOutput`), where whether a rule matches and which event follows
is as described by `Out` (such as `DocOutcome`); at the end the lines of `-U`, `-t` and `-H`, with the right numbers. -/
structure ToolPrints (env : Env) (os : List Opt) (Out : Bytes → Bool → Obj → Prop) (msgs : List Bytes) (m : MainRes) : Prop where
  code : m.code = 0
  files : m.files = []
  prints : ∃ ev : Bytes → Bool × Obj, (∀ msg ∈ msgs, Out msg (ev msg).1 (ev msg).2) ∧
    m.out = (msgs.zipIdx 1).flatMap (fun p => lineOutput env (settings os) p.2 p.1 (ev p.1).1 (ev p.1).2) ∧
    m.err = endLines os {
      numParsed := (msgs.filter fun x => tagOk (settings os).tag (ev x).2 && (ev x).1).length
      numUnparsed := (msgs.filter fun x => tagOk (settings os).tag (ev x).2 && !(ev x).1).length
      numWrongTag := (msgs.filter fun x => !tagOk (settings os).tag (ev x).2).length }

theorem emptied_nil (w : World) : w.emptied [] = w := by
  unfold World.emptied; simp

/-- a bound for all messages -/
theorem settings_bound {env : Env} {ctx : Ctx} {Out : Bytes → Bool → Obj → Prop} (msgs : List Bytes)
    (h : ∀ msg ∈ msgs, ∃ N, ∀ fuel, N ≤ fuel → ∃ res, normalize env fuel ctx (fun _ => {}) msg [] = .ok res ∧ Out msg res.ok res.json) :
    ∃ N, ∀ fuel, N ≤ fuel → ∀ msg ∈ msgs, ∃ res, normalize env fuel ctx (fun _ => {}) msg [] = .ok res ∧ Out msg res.ok res.json := by
  induction msgs with
  | nil => exact ⟨0, fun _ _ msg hm => absurd hm List.not_mem_nil⟩
  | cons x xs ih =>
    obtain ⟨N, hN1⟩ := ih fun msg hm => h msg (List.mem_cons_of_mem _ hm)
    obtain ⟨M, hM⟩ := h x List.mem_cons_self
    refine ⟨max N M, fun fuel hf msg hm => ?_⟩
    rcases List.mem_cons.1 hm with rfl | hm
    · exact hM fuel (by omega)
    · exact hN1 fuel (by omega) msg hm

/-- the run, once the rules are loaded -/
theorem run_core (h : OptsOf argv os) (ha : Accepted cw os) {src : RuleSrc} (hr : RulesFrom os src)
    (hf : given (ch! 'd') os = false ∧ given (ch! 's') os = false ∧ given (ch! 'S') os = false ∧ given (ch! 'x') os = false)
    {opts : UInt32} (hb : HasBits os opts) (hp : Printable (settings os)) {Out : Bytes → Bool → Obj → Prop} {st : LoadSt}
    (hver : st.version = 2) (N0 : Nat) (hl : ∀ fuel, N0 ≤ fuel → loadFrom { w with fuel := fuel } src = .ok ((st, []), true))
    (hs : ∀ msg ∈ (toolLines inp).map cstr, ∃ N, ∀ fuel, N ≤ fuel → ∃ res,
      normalize w.env fuel (st.b.toCtx opts.toNat st.annots) (fun _ => {}) msg [] = .ok res ∧ Out msg res.ok res.json)
    (hq : ∀ msg ok json, Out msg ok json → TagList json ∧ (ok = true → Obj.get json (bs! "unparsed-data") = none)) (hexit : ∃ b', exitBld st.b = .ok b') :
    ∃ N, ∀ fuel, N ≤ fuel → ∃ m, toolMain { w with fuel := fuel } cw ptr argv inp = .ok m ∧
      ToolPrints w.env os Out ((toolLines inp).map cstr) m := by
  obtain ⟨N, hN⟩ := settings_bound _ hs
  refine ⟨max N N0, fun fuel hfu => ?_⟩
  have hout : outFiles os = [] := by
    unfold outFiles
    rw [List.filterMap_eq_nil_iff]
    intro o ho
    rw [if_neg]
    have h1 := given_false.1 hf.1 o ho
    have h2 := given_false.1 hf.2.1 o ho
    have h3 := given_false.1 hf.2.2.1 o ho
    have h4 := given_false.1 hf.2.2.2 o ho
    rintro (⟨e | e, _⟩ | ⟨e | e, _⟩)
    · exact h1 e
    · exact h4 e
    · exact h2 e
    · exact h3 e
  have hld := hl fuel (by omega)
  have hev := hN fuel (by omega)
  obtain ⟨t, used, hloop, hto, hc1, hc2, hc3⟩ := toolLoop_lines (env := w.env) (fuel := fuel) (ctx := st.b.toCtx opts.toNat st.annots) (o := settings os) hp (inp := inp)
    (fun msg hm => by
      obtain ⟨res, h1, h2⟩ := hev msg hm
      exact ⟨res, h1, hq _ _ _ h2⟩)
  -- the run
  have hrun : ∃ m, toolMain { w with fuel := fuel } cw ptr argv inp = .ok m := by
    obtain ⟨c, hc, hR⟩ := cmdLine_ok h ha
    obtain ⟨hu, rb, hrb, hload⟩ := hR.source hr
    have hopts : c.ctxOpts = opts := hasBits_unique hR.bits hb
    obtain ⟨b', hb'⟩ := hexit
    unfold toolMain
    rw [hc]
    dsimp only
    rw [hrb]
    dsimp only
    rw [if_neg hu, hload, hout, emptied_nil, hld, R.ok_bind']
    simp only [Bool.not_true, Bool.false_eq_true, if_false]
    rw [hR.dot, destOf_d.2 hf.1]
    dsimp only
    unfold Cmd.run
    dsimp only
    rw [if_neg (by rw [hver]; decide), hR.opened, hout, emptied_nil, hR.settings, hopts]
    have : toolLoop w.env (settings os) (normV2 w.env fuel (st.b.toCtx opts.toNat st.annots)) (fun _ => {}) 0 {} (toolLines inp) = .ok (t, used) := hloop
    rw [this, R.ok_bind', hR.stats, destOf_s.2 (by rw [hf.2.1, hf.2.2.1]; rfl), if_pos rfl, R.ok_bind', hR.statsDot, destOf_x.2 hf.2.2.2, if_pos rfl, R.ok_bind',
      R.ok_bind', hb', R.ok_bind']
    exact ⟨_, rfl⟩
  obtain ⟨m, hm⟩ := hrun
  refine ⟨m, hm, ?_⟩
  have hR := C86_run_partial (w := { w with fuel := fuel }) h ha hr (by rw [hout, emptied_nil]; exact hld) (by rw [hver]; decide) hf.1 hm
  obtain ⟨opts', t', used', v, rep, dot, g1, g2, g3, g4, g5, g6, g7⟩ := hR.run
  have hopts' : opts' = opts := hasBits_unique g1 hb
  subst hopts'
  have hloop' : toolLoop w.env (settings os) (normV2 w.env fuel (st.b.toCtx opts'.toNat st.annots)) (fun _ => {}) 0 {} (toolLines inp) = .ok (t', used') := g2
  rw [hloop] at hloop'
  cases hloop'
  constructor
  · exact hR.code
  · rw [g6, hout]; rfl
  · refine ⟨fun msg => (isMatched w.env fuel (st.b.toCtx opts'.toNat st.annots) msg, eventOf w.env fuel (st.b.toCtx opts'.toNat st.annots) msg), ?_, ?_, ?_⟩
    · intro msg hm
      obtain ⟨res, h1, h2⟩ := hev msg hm
      obtain ⟨h3, h4⟩ := observe_ok h1
      dsimp only
      rw [h3, h4]; exact h2
    · rw [g5, destOf_s.2 (by rw [hf.2.1, hf.2.2.1]; rfl), destOf_x.2 hf.2.2.2, if_neg (by simp), if_neg (by simp), List.append_nil, List.append_nil]
      exact hto
    · rw [g7]
      unfold endLines
      rw [hc1, hc2, hc3]

theorem fs_fuel (w : World) (fuel : Nat) : ({ w with fuel := fuel } : World).fs = w.fs := rfl

theorem docRules_tags : ∀ (ls : List Loc) (pfx : Option Bytes) (x : List Bytes × Bytes × Bytes × Nat), x ∈ docRules pfx ls →
    ∃ l ∈ ls, ∃ t, l.what = .rule x.1 t
  | [], _, x, h => by cases h
  | l :: ls, pfx, x, h => by
    simp only [docRules] at h
    rcases List.mem_append.1 h with h | h
    · cases hw : l.what with
      | rule tags t =>
        rw [hw] at h
        rw [List.mem_singleton] at h
        subst h
        exact ⟨l, List.mem_cons_self, t, hw⟩
      | _ => rw [hw] at h; cases h
    · obtain ⟨l', h1, h2⟩ := docRules_tags ls _ x h
      exact ⟨l', List.mem_cons_of_mem _ h1, h2⟩

theorem tags_clean {locs : List Loc} {ρ : Type} {rules : List ρ} {tags : ρ → List Bytes} {k : ρ → Bytes × Bytes × Nat} (hok : ∀ l ∈ locs, l.what.OK)
    (hrules : docRules none locs = rules.map fun r => (tags r, k r)) : ∀ r ∈ rules, ∀ t ∈ tags r, ∀ c ∈ t, c ≠ 0 := by
  intro r hr t ht c hc
  obtain ⟨l, hl, x, hx⟩ := docRules_tags locs none (tags r, k r) (by rw [hrules]; exact List.mem_map.2 ⟨r, hr, rfl⟩)
  have := hok l hl
  rw [hx] at this
  exact ((this.1 t ht).2 c hc).2.2

/-- what the command line asks for: rules from `src`, no report, a format in which any event can be printed -/
structure Asks (cw : Bytes → Bool) (argv : List Bytes) (os : List Opt) (src : RuleSrc) (opts : UInt32) : Prop where
  opts_of : OptsOf argv os
  accepted : Accepted cw os
  rules : RulesFrom os src
  noReport : given (ch! 'd') os = false ∧ given (ch! 's') os = false ∧ given (ch! 'S') os = false ∧ given (ch! 'x') os = false
  bits : HasBits os opts
  printable : Printable (settings os)

/-- lines of a log -/
structure LogLine (p : Bytes × Bytes) : Prop where
  noNewline : ch! '\n' ∉ p.1
  noNul : (0 : UInt8) ∉ p.1
  noCr : p.1.getLast? ≠ some (ch! '\r')
  eol : IsEol p.2

/-- the run with a rulebase file, once it is known what normalising gives -/
theorem run_file {name : Bytes} {M : Nat} {st : LoadSt} (hl : ∀ fuel, M ≤ fuel → loadSamples w.env w.srt w.fs (fuel + 1) {} name = .ok (st, true)) (hver : st.version = 2)
    {opts : UInt32} (ha : Asks cw argv os (.file name) opts) {Out : Bytes → Bool → Obj → Prop} (log : List (Bytes × Bytes)) (hlog : ∀ p ∈ log, LogLine p)
    (hs : ∀ p ∈ log, ∃ N, ∀ fuel, N ≤ fuel → ∃ res,
      normalize w.env fuel (st.b.toCtx opts.toNat st.annots) (fun _ => {}) p.1 [] = .ok res ∧ Out p.1 res.ok res.json)
    (hq : ∀ msg ok json, Out msg ok json → TagList json ∧ (ok = true → Obj.get json (bs! "unparsed-data") = none)) :
    ∃ N, ∀ fuel, N ≤ fuel → ∃ m, toolMain { w with fuel := fuel } cw ptr argv (joinLines log) = .ok m ∧
      ToolPrints w.env os Out (log.map Prod.fst) m := by
  have hmsgs := C61_terminated_lines_partial log fun p hp => ⟨(hlog p hp).noNewline, (hlog p hp).noNul, (hlog p hp).noCr, (hlog p hp).eol⟩
  have hload : ∀ fuel, M + 1 ≤ fuel → loadFrom { w with fuel := fuel } (.file name) = .ok ((st, []), true) := by
    intro fuel hfu
    obtain ⟨k, rfl⟩ : ∃ k, fuel = k + 1 := ⟨fuel - 1, by omega⟩
    unfold loadFrom ctxLoad
    dsimp only
    rw [fs_fuel, hl k (by omega), R.ok_bind']
    dsimp only
    rw [if_neg (by rw [hver]; rintro ⟨_, h⟩; cases h)]
  have hexit : ∃ b', exitBld st.b = .ok b' := by
    obtain ⟨b', h1, _⟩ := (C66_loads_keep_graph (env := w.env) (srt := w.srt) (fs := w.fs) [.file name] (M + 1)).2 st (by
      simp only [List.foldlM_cons, List.foldlM_nil, LoadCall.run, hl _ (Nat.le_refl _), R.ok_bind']; rfl)
    exact ⟨b', h1⟩
  obtain ⟨N, h⟩ := run_core (w := w) (ptr := ptr) (inp := joinLines log) (Out := Out) ha.opts_of ha.accepted ha.rules ha.noReport ha.bits ha.printable hver (M + 1) hload
    (by
      rw [hmsgs]; intro msg hm
      obtain ⟨p, hp, rfl⟩ := List.mem_map.1 hm
      exact hs p hp) hq hexit
  rw [hmsgs] at h
  exact ⟨N, h⟩

/-- the run with a rulebase on the command line -/
theorem run_text {text : Bytes} {M : Nat} {st : LoadSt} (hl : ∀ fuel, M ≤ fuel → loadSamplesFromString w.env w.srt w.fs fuel {} text = .ok (st, true)) (hver : st.version = 2)
    {opts : UInt32} (ha : Asks cw argv os (.text text) opts) {Out : Bytes → Bool → Obj → Prop} (log : List (Bytes × Bytes)) (hlog : ∀ p ∈ log, LogLine p)
    (hs : ∀ p ∈ log, ∃ N, ∀ fuel, N ≤ fuel → ∃ res,
      normalize w.env fuel (st.b.toCtx opts.toNat st.annots) (fun _ => {}) p.1 [] = .ok res ∧ Out p.1 res.ok res.json)
    (hq : ∀ msg ok json, Out msg ok json → TagList json ∧ (ok = true → Obj.get json (bs! "unparsed-data") = none)) :
    ∃ N, ∀ fuel, N ≤ fuel → ∃ m, toolMain { w with fuel := fuel } cw ptr argv (joinLines log) = .ok m ∧
      ToolPrints w.env os Out (log.map Prod.fst) m := by
  have hmsgs := C61_terminated_lines_partial log fun p hp => ⟨(hlog p hp).noNewline, (hlog p hp).noNul, (hlog p hp).noCr, (hlog p hp).eol⟩
  have hload : ∀ fuel, M ≤ fuel → loadFrom { w with fuel := fuel } (.text text) = .ok ((st, []), true) := by
    intro fuel hfu
    unfold loadFrom
    dsimp only
    rw [fs_fuel, hl fuel hfu, R.ok_bind']
  have hexit : ∃ b', exitBld st.b = .ok b' := by
    obtain ⟨b', h1, _⟩ := (C66_loads_keep_graph (env := w.env) (srt := w.srt) (fs := w.fs) [.string text] M).2 st (by
      simp only [List.foldlM_cons, List.foldlM_nil, LoadCall.run, hl _ (Nat.le_refl _), R.ok_bind']; rfl)
    exact ⟨b', h1⟩
  obtain ⟨N, h⟩ := run_core (w := w) (ptr := ptr) (inp := joinLines log) (Out := Out) ha.opts_of ha.accepted ha.rules ha.noReport ha.bits ha.printable hver M hload
    (by
      rw [hmsgs]; intro msg hm
      obtain ⟨p, hp, rfl⟩ := List.mem_map.1 hm
      exact hs p hp) hq hexit
  rw [hmsgs] at h
  exact ⟨N, h⟩

/-- **C87** `lognormalizer -r FILE` with a rulebase file of version 2 (which may include others) and a log whose lines are terminated: what is printed, line by line.
The rules have fields of the built-in types; for user-defined types, `repeat` and `alternative` see the theorems below.
Missing: more than 255 different ways to go on at a point, messages out of scope (C06, C75); fields and annotations
with certain names; `-v -v`; reports (for these see C86). -/
theorem C87_file_partial (he : w.env.TokOK) (name : Bytes) (hname : ∀ c ∈ name, c ≠ 0) (is : List Item)
    (hfile : w.fs name = some (bs! "version=2\n" ++ itemsText is)) (hok : itemsOK w.fs .file is) (ls : List RLine)
    (hls : (itemsLines name 1 is).map (·.what) = ls) (hext : ExtendOK none ls) (hty : ∀ l ∈ ls, ∀ nm t, l ≠ .type nm t) (rules : List RuleD)
    (hrules : docRules none (itemsLines name 1 is) = rules.map fun r => (r.tags, r.text, r.file, r.line))
    (hrok : ∀ r ∈ rules, r.OK w.env) (hlen : Narrow (rules.map (·.toks w.env))) (hq : QuietNames ls rules)
    {opts : UInt32} (ha : Asks cw argv os (.file name) opts) (h8 : opts.toNat.testBit 3 = true → ∀ r ∈ rules, r.Shows w.env)
    (log : List (Bytes × Bytes)) (hlog : ∀ p ∈ log, LogLine p) (hs : ∀ p ∈ log, InScopeAll w.env rules p.1) :
    ∃ N, ∀ fuel, N ≤ fuel → ∃ m, toolMain { w with fuel := fuel } cw ptr argv (joinLines log) = .ok m ∧
      ToolPrints w.env os (fun msg ok event => DocOutcome w.env ls rules opts.toNat msg [] ok event) (log.map Prod.fst) m := by
  obtain ⟨st, hl, hver, _, hN⟩ := C78_file_end_to_end_partial (srt := w.srt) he name hname is hfile hok ls hls hext hty rules hrules hrok hlen
  exact run_file hl hver ha log hlog (fun p hp => hN opts.toNat p.1 (hs p hp).1 (hs p hp).2 h8 _ _)
    (fun msg ok json h => quiet_event hq (tags_clean (fun l hl => (items_lines_ok hname is 1 hok l hl).1) hrules) h)

/-- **C87** the same for `lognormalizer -R TEXT` -/
theorem C87_text_partial (he : w.env.TokOK) (is : List Item) (hok : itemsOK w.fs .string is) (ls : List RLine)
    (hls : (itemsLines (bs! "--NO-FILE--") 0 is).map (·.what) = ls) (hext : ExtendOK none ls) (hty : ∀ l ∈ ls, ∀ nm t, l ≠ .type nm t) (rules : List RuleD)
    (hrules : docRules none (itemsLines (bs! "--NO-FILE--") 0 is) = rules.map fun r => (r.tags, r.text, r.file, r.line))
    (hrok : ∀ r ∈ rules, r.OK w.env) (hlen : Narrow (rules.map (·.toks w.env))) (hq : QuietNames ls rules)
    {opts : UInt32} (ha : Asks cw argv os (.text (itemsText is)) opts) (h8 : opts.toNat.testBit 3 = true → ∀ r ∈ rules, r.Shows w.env)
    (log : List (Bytes × Bytes)) (hlog : ∀ p ∈ log, LogLine p) (hs : ∀ p ∈ log, InScopeAll w.env rules p.1) :
    ∃ N, ∀ fuel, N ≤ fuel → ∃ m, toolMain { w with fuel := fuel } cw ptr argv (joinLines log) = .ok m ∧
      ToolPrints w.env os (fun msg ok event => DocOutcome w.env ls rules opts.toNat msg [] ok event) (log.map Prod.fst) m := by
  obtain ⟨st, hl, hver, _, hN⟩ := C78_string_end_to_end_partial (srt := w.srt) he is hok ls hls hext hty rules hrules hrok hlen
  exact run_text hl hver ha log hlog (fun p hp => hN opts.toNat p.1 (hs p hp).1 (hs p hp).2 h8 _ _)
    (fun msg ok json h => quiet_event hq (tags_clean (fun l hl => (items_lines_ok (file := bs! "--NO-FILE--") (by decide) is 0 hok l hl).1) hrules) h)

/-! ### Violations -/

/-- **C86 violated** The usage text says that `-d` prints the DOT file to stdout. In fact `-d` takes the next argument as the name of a file: here it creates
a file named `-r` and then misses the rulebase. -/
theorem C86_dot_option_violated (w : World) (ptr : NodeId → Bytes) (rb inp : Bytes) (h : rb.head? ≠ some (ch! '-')) :
    toolMain w (fun _ => true) ptr [bs! "-d", bs! "-r", rb] inp = .ok { code := 1, files := [(bs! "-r", [])] } := by
  have h1 : getopts none [bs! "-d", bs! "-r", rb] = [(ch! 'd', bs! "-r")] :=
    getopts_optsOf (.separate [] (ch! 'd') (bs! "-r") (by simp) (by decide) (.operand rb (.inl h) .nil))
  have h2 : cmdLine (fun _ => true) [bs! "-d", bs! "-r", rb] = .ok { dot := some (some (bs! "-r")), opened := [bs! "-r"] } := by
    unfold cmdLine; rw [h1]; rfl
  unfold toolMain
  rw [h2]
  rfl

/-- **C86 violated** Rulebases given by both `-r` and `-R` are to be refused, but not if `-R` is given twice behind `-r`: then the last one is used. -/
theorem C86_mixed_rulebases_violated (w : World) (cw : Bytes → Bool) (ptr : NodeId → Bytes) (inp : Bytes) :
    toolMain w cw ptr [bs! "-ra", bs! "-Rb", bs! "-Rc"] inp = toolMain w cw ptr [bs! "-Rc"] inp := by
  have : cmdLine cw [bs! "-ra", bs! "-Rb", bs! "-Rc"] = cmdLine cw [bs! "-Rc"] := rfl
  unfold toolMain
  rw [this]

namespace Ex

/-- rulebases of both versions -/
def toolDisk (n : Bytes) : Option Bytes :=
  if n = bs! "r.rb" then some (bs! "version=2\nrule=t,u:a %x:word%\nrule=:b\n") else if n = bs! "v1.rb" then some (bs! "rule=:a %x:word%\n") else none
def toolWorld : World := { world with disk := toolDisk, fuel := 60 }
def toolPtr (_ : NodeId) : Bytes := bs! "p"

/-- flags and options in groups, with attached and separate arguments, an operand and the end of options -/
theorem toolOpts_ok : OptsOf [bs! "-HUr", bs! "r.rb", bs! "x", bs! "-eraw", bs! "-T", bs! "-oaddRule", bs! "--", bs! "-d"]
    [(ch! 'H', []), (ch! 'U', []), (ch! 'r', bs! "r.rb"), (ch! 'e', bs! "raw"), (ch! 'T', []), (ch! 'o', bs! "addRule")] :=
  .separate (bs! "HU") (ch! 'r') (bs! "r.rb") (by decide) (by decide) (.operand (bs! "x") (.inl (by decide))
    (.attached [] (ch! 'e') (bs! "raw") (by decide) (by decide) (by decide) (.flags (bs! "T") (by decide) (by decide)
      (.attached [] (ch! 'o') (bs! "addRule") (by decide) (by decide) (by decide) (.stop [bs! "-d"])))))

example : Accepted (fun _ => false) [(ch! 'H', []), (ch! 'U', []), (ch! 'r', bs! "r.rb"), (ch! 'e', bs! "raw"), (ch! 'T', []), (ch! 'o', bs! "addRule")] :=
  ⟨by decide, by decide, by
    intro n hn
    simp only [List.mem_cons, Prod.mk.injEq, List.not_mem_nil, or_false] at hn
    rcases hn with h | h | h | h | h | ⟨_, rfl⟩
    all_goals first | decide | (cases h.1), by decide⟩

/-- the settings; what is neither given nor refused has its default -/
example : (settings [(ch! 'p', []), (ch! 'e', bs! "xml"), (ch! 'P', []), (ch! 'e', bs! "what"), (ch! 't', bs! "a"), (ch! 't', bs! "b")]).outParsed = false ∧
    (settings [(ch! 'p', []), (ch! 'e', bs! "xml"), (ch! 'P', []), (ch! 'e', bs! "what"), (ch! 't', bs! "a"), (ch! 't', bs! "b")]).fmt = .xml ∧
    (settings [(ch! 'p', []), (ch! 'e', bs! "xml"), (ch! 'P', []), (ch! 'e', bs! "what"), (ch! 't', bs! "a"), (ch! 't', bs! "b")]).tag = some (bs! "b") := by decide

/-- not a command line: the argument is missing, the option is unknown -/
example : (¬ ∃ os, OptsOf [bs! "-Hr"] os) ∧ ¬ ∃ os, OptsOf [bs! "-q"] os := by
  constructor <;> (rintro ⟨os, h⟩; obtain ⟨h1, h2⟩ := (getopts_iff _ _).1 h; subst h1; exact absurd h2 (by decide))

/-- a run: two messages with the tag, two without -/
example : toolMain toolWorld (fun _ => true) toolPtr [bs! "-rr.rb", bs! "-HUe", bs! "raw", bs! "-tt"] (bs! "a b\nb\nc\na x\n") =
    .ok { out := bs! "a b\na x\n", err := bs! "2 entries with wrong tag dropped\n2 records processed, 2 parsed, 0 unparsed\n" } := by decide +kernel

/-- a run with a usage graph -/
example : toolMain toolWorld (fun _ => true) toolPtr [bs! "-rr.rb", bs! "-Peraw", bs! "-xout"] (bs! "a b\nc\n") =
    .ok { out := bs! "c\n", files := [(bs! "out", bs! "digraph pdag {\nlp [ label=\"2:0\"]\nlp -> lp [label=\"a \" style=\"dotted\"]\nlp [ label=\"1:0\"]\nlp -> lp [label=\"word\" style=\"dotted\"]\nlp [ label=\"1:0\" style=\"bold\"]\n}\n")] } := by
  decide +kernel

end Ex

/-- **C86 violated** For a rulebase of version 1, `-s` writes an empty report and `-d` shows a graph without any rule. -/
theorem C86_version1_reports_violated :
    toolMain Ex.toolWorld (fun _ => true) Ex.toolPtr [bs! "-rv1.rb", bs! "-sout", bs! "-eraw", bs! "-p"] (bs! "a b\nb\n") = .ok { out := bs! "a b\n", files := [(bs! "out", [])] } ∧
    toolMain Ex.toolWorld (fun _ => true) Ex.toolPtr [bs! "-rv1.rb", bs! "-d", []] (bs! "a b\nb\n") =
      .ok { code := 1, out := bs! "digraph pdag {\nlp [ label=\"1\" style=\"bold\"]\n}\n" } := by decide +kernel

namespace Ex

def worldM : World := { world with disk := incFs }
theorem worldM_fs : worldM.fs = incFs := by
  funext n
  show (match incFs n with | some c => some c | none => none) = incFs n
  cases incFs n <;> rfl

theorem rulesM_parts : ∀ r ∈ rulesM, ∀ p ∈ r.parts, p.1 = fNum ∨ p.1 = fWord := by
  intro r hr p hp
  simp only [rulesM, List.mem_cons, List.not_mem_nil, or_false] at hr
  rcases hr with rfl | rfl <;> simp only [List.mem_cons, List.not_mem_nil, or_false] at hp <;> subst hp
  · exact .inr rfl
  · exact .inl rfl

def optsM : List Opt := [(ch! 'r', bs! "main.rb"), (ch! 'p', []), (ch! 'e', bs! "raw")]
theorem asksM : Asks (fun _ => false) [bs! "-rmain.rb", bs! "-peraw"] optsM (.file (bs! "main.rb")) 0 where
  opts_of := .attached [] (ch! 'r') (bs! "main.rb") (by decide) (by decide) (by decide)
    (.attached (bs! "p") (ch! 'e') (bs! "raw") (by decide) (by decide) (by decide) .nil)
  accepted := ⟨by decide, by decide, by intro n hn; simp [optsM] at hn, by decide⟩
  rules := ⟨by decide, by decide⟩
  noReport := by decide
  bits := by intro i; simp [optsM]
  printable := fun h => by cases (show OutFmt.raw = .csv from h)

/-- The hypotheses of C87 are met by the rulebase of C78 and a log of two lines, and it follows that just the first one is printed with `-p -e raw`. -/
example : ∃ N, ∀ fuel, N ≤ fuel → ∃ m, toolMain { worldM with fuel := fuel } (fun _ => false) toolPtr [bs! "-rmain.rb", bs! "-peraw"] (bs! "a b c 12\nx\r\n") = .ok m ∧
    m.code = 0 ∧ m.out = bs! "a b c 12\n" := by
  have hx : Tame (bs! "x") := by
    refine ⟨by decide, fun i => ?_, by decide⟩
    have := (List.takeWhile_prefix (l := (bs! "x").drop i) isDigit).length_le
    simp at this
    omega
  have hsc : ∀ s : Bytes, Tame s → InScopeAll env rulesM s := fun s hs => ⟨hs, fun r hr p hp off _ => by
    rcases rulesM_parts r hr p hp with h | h <;> rw [h] <;> trivial⟩
  obtain ⟨N, hN⟩ := C87_file_partial (w := worldM) (ptr := toolPtr) Ex.tokEnv (bs! "main.rb") (by decide) mainItems (by rw [worldM_fs]; decide +kernel)
    (by rw [worldM_fs]; exact mainItems_ok) (mainLocs.map (·.what)) (by rw [mainItems_lines]) (by simp [mainLocs, ExtendOK, RLine.nextPrefix]) (by
      intro l hl nm t h
      subst h
      simp [mainLocs] at hl) rulesM (by rw [mainItems_lines]; decide +kernel)
    (by
      intro r hr
      refine ⟨fun p hp => ?_, fun x hx => ?_⟩
      · rcases rulesM_parts r hr p hp with h | h
        · rw [h]; exact fNum_ok
        · rw [h]; exact fWord_ok
      · simp only [rulesM, List.mem_cons, List.not_mem_nil, or_false] at hr
        rcases hr with rfl | rfl <;> cases hx) (narrow_of_length (by decide))
    ⟨fun r hr p hp => by rcases rulesM_parts r hr p hp with h | h <;> rw [h] <;> decide, fun l hl tag ops e => by subst e; simp [mainLocs] at hl⟩
    asksM (fun h => absurd h (by decide)) [(bs! "a b c 12", bs! "\n"), (bs! "x", bs! "\r\n")]
    (by
      intro p hp
      rcases List.mem_cons.1 hp with rfl | hp
      · exact ⟨by decide, by decide, by decide, .inl rfl⟩
      · rw [List.mem_singleton] at hp; subst hp
        exact ⟨by decide, by decide, by decide, .inr rfl⟩)
    (by
      intro p hp
      rcases List.mem_cons.1 hp with rfl | hp
      · exact hsc _ msgM_tame
      · rw [List.mem_singleton] at hp; subst hp
        exact hsc _ hx)
  refine ⟨N, fun fuel hf => ?_⟩
  obtain ⟨m, h1, h2⟩ := hN fuel hf
  refine ⟨m, h1, h2.code, ?_⟩
  obtain ⟨ev, h3, h4, _⟩ := h2.prints
  have e1 : (ev (bs! "a b c 12")).1 = true := (h3 _ List.mem_cons_self).iff.2 ⟨_, List.mem_cons_of_mem _ List.mem_cons_self, [(some (bs! "n"), some (.str (bs! "12")))],
    ⟨rfl, bs! "12", by decide, .cons (n := 2) (t' := []) ⟨⟨by decide, ⟨by decide, by decide, fun c h => by cases h⟩, by decide⟩, rfl⟩ (by decide) .nil⟩⟩
  have e2 : (ev (bs! "x")).1 = false := by
    cases he : (ev (bs! "x")).1 with
    | false => rfl
    | true =>
      obtain ⟨r, hr, vs, _, t, ht, _⟩ := (h3 _ (List.mem_cons_of_mem _ List.mem_cons_self)).iff.1 he
      exfalso
      have ht := congrArg List.length ht
      simp only [rulesM, List.mem_cons, List.not_mem_nil, or_false] at hr
      rcases hr with rfl | rfl <;> (simp [litMeaning, worldM, world, env] at ht)
  rw [h4]
  show lineOutput _ (settings optsM) 1 (bs! "a b c 12") (ev (bs! "a b c 12")).1 _ ++ (lineOutput _ (settings optsM) 2 (bs! "x") (ev (bs! "x")).1 _ ++ []) = _
  rw [e1, e2]
  rfl

end Ex
end LN
