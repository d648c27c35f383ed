import Verif.Proofs.Types
/-
Rules with fields of user-defined types. C17, C19, C62.
-/
set_option autoImplicit false
namespace LN
section
variable {env : Env} {srt : Sorter} {b b' : Bld} {opts : Nat} {annots : List Annot} {s : Bytes}

/-- **C17** (user-defined types and repeat) What the optimised graph reports is what a rule of the graph as loaded yields (in the
loose reading of user-defined types and repeat, see C10): same fields, tags, annotations, location. -/
theorem C17_nested_sound_partial {ops : List BOp} (hb : runOps env srt ops = .ok b) (hopt : pdagOptimize srt b = .ok b')
    (h0 : ∀ c ∈ s, c ≠ 0) {fuel : Nat} {stats : NodeId → Stats} {json0 : Obj} {res : Res}
    (h : normalize env fuel (b'.toCtx opts annots) stats s json0 = .ok res) (hok : res.ok = true) :
    ∃ tr m e rule, Holds env (b.toCtx opts annots) s True (.path b.root 0 tr m s.length) ∧
      ((b.toCtx opts annots).node m).isTerminal = true ∧ firstEndN (b.toCtx opts annots) s false b.root 0 tr = some e ∧
      finishMatch (b.toCtx opts annots) s rule e (storeNested json0 tr) = .ok res.json ∧
      ((b.toCtx opts annots).has 0x08 = true → ∃ junk, rule = junk ++ (mockupN tr).reverse) := by
  obtain ⟨hs, hi, _⟩ := optimize_facts hb hopt
  have sim := hs.hsim (env := env) (s := s) h0 hi (List.mem_cons_self ..)
    (fun t ht => List.mem_cons_of_mem _ (List.mem_map.2 ⟨t, ht, rfl⟩)) opts annots
  rcases normalize_general' (slack := True) (by simp) h with ⟨_, tr', m, e, rule, h2, h3, h4, h5, h6⟩ | ⟨h1, _⟩
  · obtain ⟨tr, k1, k2, k3⟩ := sim.bwd True tr' m h2 h3
    rw [sim.root] at h4
    have hfe : firstEndN (b.toCtx opts annots) s false b.root 0 tr = some e := k3.fst.symm.trans h4
    obtain ⟨_, f2, f3, f4⟩ := sim.fin e (firstEndN_terminal hfe)
    refine ⟨tr, m, e, rule, k1, k2, hfe, ?_, ?_⟩
    · rw [← finishMatch_congr sim.opts sim.annots f2 f3 f4, ← k3.store]; exact h5
    · intro h8
      rw [← k3.mock]
      exact h6 h8
  · rw [hok] at h1; cases h1

/-- **C17** (user-defined types, where the next field decides what is tried) Which messages match does not change by optimising, and what is
reported is what a rule of the graph as loaded yields, types covering exactly what their definitions cover. -/
theorem C17_types_partial {ops : List BOp} (hb : runOps env srt ops = .ok b) (hopt : pdagOptimize srt b = .ok b')
    (h0 : ∀ c ∈ s, c ≠ 0) (hdec : Decided env (b.toCtx opts annots) s) (hrep : NoRepeat (b.toCtx opts annots))
    {fuel : Nat} {stats : NodeId → Stats} {json0 : Obj} {res : Res} (h : normalize env fuel (b'.toCtx opts annots) stats s json0 = .ok res) :
    (res.ok = true ↔ ∃ tr m, Holds env (b.toCtx opts annots) s False (.path b.root 0 tr m s.length) ∧
      ((b.toCtx opts annots).node m).isTerminal = true) ∧
    (res.ok = true → ∃ tr m e rule, Holds env (b.toCtx opts annots) s False (.path b.root 0 tr m s.length) ∧
      ((b.toCtx opts annots).node m).isTerminal = true ∧ firstEndN (b.toCtx opts annots) s false b.root 0 tr = some e ∧
      finishMatch (b.toCtx opts annots) s rule e (storeNested json0 tr) = .ok res.json ∧
      ((b.toCtx opts annots).has 0x08 = true → ∃ junk, rule = junk ++ (mockupN tr).reverse)) := by
  obtain ⟨hs, hi, _⟩ := optimize_facts hb hopt
  have sim := hs.hsim (env := env) (s := s) h0 hi (List.mem_cons_self ..)
    (fun t ht => List.mem_cons_of_mem _ (List.mem_map.2 ⟨t, ht, rfl⟩)) opts annots
  have key : res.ok = true → ∃ tr m e rule, Holds env (b.toCtx opts annots) s False (.path b.root 0 tr m s.length) ∧
      ((b.toCtx opts annots).node m).isTerminal = true ∧ firstEndN (b.toCtx opts annots) s false b.root 0 tr = some e ∧
      finishMatch (b.toCtx opts annots) s rule e (storeNested json0 tr) = .ok res.json ∧
      ((b.toCtx opts annots).has 0x08 = true → ∃ junk, rule = junk ++ (mockupN tr).reverse) := by
    intro hok
    rcases normalize_general' (slack := False) (fun _ => sim.dec hdec) h with ⟨_, tr', m, e, rule, h2, h3, h4, h5, h6⟩ | ⟨h1, _⟩
    · obtain ⟨tr, k1, k2, k3⟩ := sim.bwd False tr' m h2 h3
      rw [sim.root] at h4
      have hfe : firstEndN (b.toCtx opts annots) s false b.root 0 tr = some e := k3.fst.symm.trans h4
      obtain ⟨_, f2, f3, f4⟩ := sim.fin e (firstEndN_terminal hfe)
      refine ⟨tr, m, e, rule, k1, k2, hfe, ?_, ?_⟩
      · rw [← finishMatch_congr sim.opts sim.annots f2 f3 f4, ← k3.store]; exact h5
      · intro h8
        rw [← k3.mock]
        exact h6 h8
    · rw [hok] at h1; cases h1
  refine ⟨⟨fun hok => ?_, fun ⟨tr, m, hp, ht⟩ => ?_⟩, key⟩
  · obtain ⟨tr, m, _, _, h1, h2, _⟩ := key hok
    exact ⟨tr, m, h1, h2⟩
  · obtain ⟨tr', k1, k2, _⟩ := sim.fwd False tr m hp ht
    exact normalize_complete (sim.dec hdec) (sim.norep hrep) h ⟨tr', m, k1, k2⟩

/-- paths from a start node are the definitions for it -/
theorem typed_paths {lab : NodeId → List Json} {ds : List Def} (h : IsTrie env b.types b lab ds) (hw : b.wrapped = false) {t : Option Bytes}
    {n : NodeId} (hn : b.start t = some n) (slack : Prop) (off off' : Nat) (vs : List (Option Bytes × Option Json)) :
    (∃ tr m, Holds env (b.toCtx opts annots) s slack (.path n off tr m off') ∧ ((b.toCtx opts annots).node m).isTerminal = true ∧
      tr.map NStep.nv = vs) ↔
    ∃ d ∈ ds, d.type = t ∧ d.rule.complete = true ∧ Derives env ds s slack d.rule.confs off vs off' := by
  constructor
  · rintro ⟨tr, m, hp, ht, rfl⟩
    obtain ⟨h1, h2⟩ := h.derives hp
    obtain ⟨nd, hm, htm⟩ := ctx_terminal ht
    obtain ⟨d, hd, hdc, hl⟩ := h.term m nd hm htm
    rw [h1, h.start _ _ hn, List.singleton_append] at hl
    injection hl with hl1 hl2
    exact ⟨d, hd, mark_inj hl1, hdc, by rw [hl2]; exact h2⟩
  · rintro ⟨d, hd, rfl, hdc, hder⟩
    obtain ⟨n', e, nd, a1, a2, a3, a4⟩ := h.walk hw d hd hdc
    rw [hn] at a1; cases a1
    obtain ⟨tr, k1, k2⟩ := h.holds (opts := opts) (annots := annots) hw hder a2
    refine ⟨tr, e, k1, ?_, k2⟩
    show ((b.heap e).getD {}).isTerminal = true
    rw [a3]; exact a4

theorem types_load (ds : List Def) (hk : TypesKnown env ds) :
    ∃ b lab, runOps env srt (ds.map Def.toOp) = .ok b ∧ IsTrie env b.types b lab ds := by
  obtain ⟨b, lab, h1, h2⟩ := isTrie_typeds (srt := srt) ds [] (b := initBld) (isTrie_init env) hk
  exact ⟨b, lab, h1, h2⟩

theorem types_opt {ds : List Def} {b0 b : Bld} (h1 : runOps env srt (ds.map Def.toOp) = .ok b0)
    (hb : runOps env srt (ds.map Def.toOp ++ [.optimize]) = .ok b) : pdagOptimize srt b0 = .ok b := by
  unfold runOps at h1 hb
  rw [Ex.foldlM_append, h1] at hb
  change ([BOp.optimize].foldlM (BOp.run env srt) b0) = _ at hb
  rw [List.foldlM_cons] at hb
  obtain ⟨b2, h3, h4⟩ := R.bind_eq_ok.1 hb
  cases h4
  exact h3

/-- **C62** A user-defined type is the union of its definitions, wherever they stand in the rule base and whatever stands between, also
where definitions use other user-defined types or the type itself: the graph of the type has a match of the text between `off` and `off'`,
with these names and values of fields, exactly if one of the definitions accepts it with them. -/
theorem C62_types_derive_partial (ds : List Def) (hk : TypesKnown env ds) (hlen : NarrowDefs ds)
    (hb : runOps env srt (ds.map Def.toOp) = .ok b) (t : Bytes) (ht : ∃ d ∈ ds, d.type = some t) :
    ∃ i n, findType b t = some i ∧ (b.toCtx opts annots).types[i]? = some (t, n) ∧
      ∀ (s : Bytes) (slack : Prop) (off off' : Nat) (vs : List (Option Bytes × Option Json)),
        (∃ tr m, Holds env (b.toCtx opts annots) s slack (.path n off tr m off') ∧
          ((b.toCtx opts annots).node m).isTerminal = true ∧ tr.map (fun st => (st.field.name, st.value)) = vs) ↔
        ∃ d ∈ ds, d.type = some t ∧ d.rule.complete = true ∧ Derives env ds s slack d.rule.confs off vs off' := by
  obtain ⟨b1, lab, h1, h2⟩ := types_load (srt := srt) ds hk
  rw [hb] at h1; cases h1
  obtain ⟨d, hd, hdt⟩ := ht
  obtain ⟨n, hn⟩ := h2.known d hd
  rw [hdt] at hn
  obtain ⟨i, h3, h4⟩ := start_type hn
  exact ⟨i, n, h3, h4, fun s slack off off' vs => typed_paths h2 (h2.wr hlen) hn slack off off' vs⟩

/-- **C19** (plain fields and user-defined types; at no point more than 255 different ways to go on; messages for which the rules are unambiguous) Loading rules and types
succeeds, and the loaded rule base matches a message exactly if one of the rules does, whatever the order in which they were added. -/
theorem C19_union_types_partial (ds : List Def) (hk : TypesKnown env ds) (hlen : NarrowDefs ds) :
    ∃ b, runOps env srt (ds.map Def.toOp) = .ok b ∧
      ∀ (opts : Nat) (annots : List Annot) (s : Bytes), Clear env ds s → ∀ (fuel : Nat) (stats : NodeId → Stats) (json0 : Obj) (res : Res),
        normalize env fuel (b.toCtx opts annots) stats s json0 = .ok res →
        (res.ok = true ↔ ∃ d ∈ ds, d.type = none ∧ ∃ vs, d.rule.Gives env ds s False vs) := by
  obtain ⟨b, lab, h1, h2⟩ := types_load (srt := srt) ds hk
  refine ⟨b, h1, fun opts annots s hc fuel stats json0 res h => ?_⟩
  have hdec := h2.decided (opts := opts) (annots := annots) hc
  constructor
  · intro hok
    rcases normalize_general (slack := False) (fun _ => hdec) h with ⟨_, tr, m, e, rule, k1, k2, _⟩ | ⟨k1, _⟩
    · obtain ⟨d, hd, ht, hcm, hder⟩ := (typed_paths h2 (h2.wr hlen) (t := none) rfl False 0 s.length _).1 ⟨tr, m, k1, k2, rfl⟩
      exact ⟨d, hd, ht, _, hcm, hder⟩
    · rw [hok] at k1; cases k1
  · rintro ⟨d, hd, ht, vs, hcm, hder⟩
    obtain ⟨tr, m, k1, k2, _⟩ := (typed_paths (opts := opts) (annots := annots) h2 (h2.wr hlen) (t := none) rfl False 0 s.length vs).2
      ⟨d, hd, ht, hcm, hder⟩
    exact normalize_complete hdec h2.no_repeat h ⟨tr, m, k1, k2⟩

/-- **C19** the same for the optimised graph, as `ln_loadSamples` leaves it behind (messages without NUL) -/
theorem C19_union_types_optimised_partial (ds : List Def) (hk : TypesKnown env ds) (hlen : NarrowDefs ds)
    (hb : runOps env srt (ds.map Def.toOp ++ [.optimize]) = .ok b) (h0 : ∀ c ∈ s, c ≠ 0) (hc : Clear env ds s)
    {fuel : Nat} {stats : NodeId → Stats} {json0 : Obj} {res : Res}
    (h : normalize env fuel (b.toCtx opts annots) stats s json0 = .ok res) :
    res.ok = true ↔ ∃ d ∈ ds, d.type = none ∧ ∃ vs, d.rule.Gives env ds s False vs := by
  obtain ⟨b0, lab, h1, h2⟩ := types_load (srt := srt) ds hk
  have hopt := types_opt h1 hb
  rw [(C17_types_partial h1 hopt h0 (h2.decided hc) h2.no_repeat h).1]
  constructor
  · rintro ⟨tr, m, k1, k2⟩
    obtain ⟨d, hd, ht, hcm, hder⟩ := (typed_paths h2 (h2.wr hlen) (t := none) rfl False 0 s.length _).1 ⟨tr, m, k1, k2, rfl⟩
    exact ⟨d, hd, ht, _, hcm, hder⟩
  · rintro ⟨d, hd, ht, vs, hcm, hder⟩
    obtain ⟨tr, m, k1, k2, _⟩ := (typed_paths (opts := opts) (annots := annots) h2 (h2.wr hlen) (t := none) rfl False 0 s.length vs).2
      ⟨d, hd, ht, hcm, hder⟩
    exact ⟨tr, m, k1, k2⟩

/-- **C19** for all messages without NUL: what matches is accepted by one of the rules in the loose reading (a field of user-defined type
may end elsewhere than its definition, see C10) -/
theorem C19_types_sound_partial (ds : List Def) (hk : TypesKnown env ds) (hlen : NarrowDefs ds)
    (hb : runOps env srt (ds.map Def.toOp ++ [.optimize]) = .ok b) (h0 : ∀ c ∈ s, c ≠ 0)
    {fuel : Nat} {stats : NodeId → Stats} {json0 : Obj} {res : Res}
    (h : normalize env fuel (b.toCtx opts annots) stats s json0 = .ok res) (hok : res.ok = true) :
    ∃ d ∈ ds, d.type = none ∧ ∃ vs, d.rule.Gives env ds s True vs := by
  obtain ⟨b0, lab, h1, h2⟩ := types_load (srt := srt) ds hk
  have hopt := types_opt h1 hb
  obtain ⟨tr, m, _, _, k1, k2, _⟩ := C17_nested_sound_partial h1 hopt h0 h hok
  obtain ⟨d, hd, ht, hcm, hder⟩ := (typed_paths h2 (h2.wr hlen) (t := none) rfl True 0 s.length _).1 ⟨tr, m, k1, k2, rfl⟩
  exact ⟨d, hd, ht, _, hcm, hder⟩

end
/-! ### a concrete case -/

namespace Ex

/-- `type=@end:(%n:number%)`, `type=@end:-`, `type=@pair:p%e:@end%`, `rule=:x%a:@pair%`, `rule=:y%a:@pair%` -/
def defsT : List Def := [
  { type := some (bs! "@end"), rule := ruleOf [litConf (bs! "("), fieldConf (bs! "n") (bs! "number"), litConf (bs! ")")] },
  { type := some (bs! "@end"), rule := ruleOf [litConf (bs! "-")] },
  { type := some (bs! "@pair"), rule := ruleOf [litConf (bs! "p"), fieldConf (bs! "e") (bs! "@end")] },
  { rule := ruleOf [litConf (bs! "x"), fieldConf (bs! "a") (bs! "@pair")] },
  { rule := ruleOf [litConf (bs! "y"), fieldConf (bs! "a") (bs! "@pair")] }]

theorem defsT_known : TypesKnown env defsT := by
  have hn : ∃ p, confField env [] (fieldConf (bs! "n") (bs! "number")) = some p := by
    have : (confField env [] (fieldConf (bs! "n") (bs! "number"))).isSome = true := by decide +kernel
    exact Option.isSome_iff_exists.1 this
  intro i d hd c hc
  match i, hd with
  | 0, hd =>
    cases hd
    simp only [ruleOf, List.mem_cons, List.not_mem_nil, or_false] at hc
    rcases hc with rfl | rfl | rfl
    · exact .inl (litConf_plain _ _)
    · exact .inl hn
    · exact .inl (litConf_plain _ _)
  | 1, hd =>
    cases hd
    simp only [ruleOf, List.mem_cons, List.not_mem_nil, or_false] at hc
    subst hc
    exact .inl (litConf_plain _ _)
  | 2, hd =>
    cases hd
    simp only [ruleOf, List.mem_cons, List.not_mem_nil, or_false] at hc
    rcases hc with rfl | rfl
    · exact .inl (litConf_plain _ _)
    · exact .inr ⟨bs! "@end", by decide, 0, _, by decide, rfl, rfl⟩
  | 3, hd =>
    cases hd
    simp only [ruleOf, List.mem_cons, List.not_mem_nil, or_false] at hc
    rcases hc with rfl | rfl
    · exact .inl (litConf_plain _ _)
    · exact .inr ⟨bs! "@pair", by decide, 2, _, by decide, rfl, rfl⟩
  | 4, hd =>
    cases hd
    simp only [ruleOf, List.mem_cons, List.not_mem_nil, or_false] at hc
    rcases hc with rfl | rfl
    · exact .inl (litConf_plain _ _)
    · exact .inr ⟨bs! "@pair", by decide, 2, _, by decide, rfl, rfl⟩
  | n + 5, hd => cases hd

/-- different characters do not both stand in one place -/
theorem lit_apart {env : Env} {ds : List Def} {s : Bytes} (h0 : ∀ c ∈ s, c ≠ 0) {a b : UInt8} (ha : a ≠ 0) (hb : b ≠ 0) (hab : a ≠ b) {off : Nat}
    (h1 : MayBegin env ds s (litConf [a]) off) (h2 : MayBegin env ds s (litConf [b]) off) : False := by
  have key : ∀ c : UInt8, c ≠ 0 → MayBegin env ds s (litConf [c]) off → [c] <+: s.drop off := by
    intro c hc h
    have hp := litConf_field env [c]
    cases h with
    | plain hf hrun =>
      rw [hp] at hf
      cases hf
      have : cstr [c] = [c] := by simp [cstr, hc]
      have hrun' : runParser env s off (.literal (some (cstr [c]))) false = .ok _ := hrun
      rw [this] at hrun'
      exact ((runLiteral_iff h0 rfl).1 hrun').1
    | user hf => rw [confField_not_user hp] at hf; cases hf
    | userNil hf => rw [confField_not_user hp] at hf; cases hf
  have e1 := key a ha h1
  have e2 := key b hb h2
  cases hd : s.drop off with
  | nil => rw [hd] at e1; simp at e1
  | cons x xs =>
    rw [hd] at e1 e2
    simp only [List.cons_prefix_cons, List.nil_prefix, and_true] at e1 e2
    exact hab (e1.trans e2.symm)

/-- a prefix with one more element of a short list -/
theorem prefix_snoc {α : Type} {x : List α} {c : α} : ∀ {l : List α}, x ++ [c] <+: l → l[x.length]? = some c ∧ x = l.take x.length := by
  rintro l ⟨t, rfl⟩
  constructor
  · simp
  · simp

theorem defsT_clear {s : Bytes} (h0 : ∀ c ∈ s, c ≠ 0) : Clear env defsT s where
  branch := by
    intro d hd d' hd' hty x c c' hx hx' hne off hm hm'
    obtain ⟨h1, h2⟩ := prefix_snoc hx
    obtain ⟨h3, h4⟩ := prefix_snoc hx'
    simp only [defsT, List.mem_cons, List.not_mem_nil, or_false] at hd hd'
    rcases hd with rfl | rfl | rfl | rfl | rfl <;> rcases hd' with rfl | rfl | rfl | rfl | rfl <;>
      first
      | (exact absurd hty (by decide))
      | (rw [h1] at h3; exact hne (Option.some.inj h3))
      | skip
    all_goals
      have hx0 : x = [] := by
        rw [h2] at h4
        cases x with
        | nil => rfl
        | cons y ys =>
          simp only [ruleOf, List.length_cons, List.take_succ_cons, List.cons.injEq] at h4
          exact absurd h4.1 (by decide)
      subst hx0
      simp only [ruleOf, List.length_nil, List.getElem?_cons_zero, Option.some.injEq] at h1 h3
      subst h1
      subst h3
      exact lit_apart h0 (by decide) (by decide) (by decide) hm hm'
  stop := by
    intro d hd hty hc d' hd' hty' c hpre
    obtain ⟨h1, h2⟩ := prefix_snoc hpre
    simp only [defsT, List.mem_cons, List.not_mem_nil, or_false] at hd hd'
    rcases hd with rfl | rfl | rfl | rfl | rfl <;> rcases hd' with rfl | rfl | rfl | rfl | rfl <;>
      first
      | (exact absurd hty' (by decide))
      | (exact absurd rfl hty)
      | (exact absurd h2 (by decide))
      | (cases h1)
  nonempty := by decide

/-- the hypotheses of the theorems above hold for it and every message without NUL; and what it does -/
example : TypesKnown env defsT ∧ NarrowDefs defsT ∧ ∀ s : Bytes, (∀ c ∈ s, c ≠ 0) → Clear env defsT s :=
  ⟨defsT_known, .of_length (by decide), fun _ h => defsT_clear h⟩

example : runMsg (defsT.map Def.toOp ++ [.optimize]) 0 (bs! "xp(12)") =
      .ok (true, [(bs! "a", .obj [(bs! "e", .obj [(bs! "n", .str (bs! "12"))])])]) ∧
    (match runMsg (defsT.map Def.toOp ++ [.optimize]) 0 (bs! "yp)") with | .ok (false, _) => true | _ => false) = true := by
  decide +kernel

end Ex
end LN
