import Verif.Proofs.Match
import Verif.Spec.Nested
/- The search procedure against the declarative relation `Holds`, for all rulebases. -/
set_option autoImplicit false
namespace LN
variable {env : Env} {ctx : Ctx} {s : Bytes} {slack : Prop}

theorem repeatElem_eq (o : Obj) : repeatElem o = elemValue o := by
  have key : ∀ (l : Obj) (d : Json), l.foldl (fun acc m => if m.1 = bs! "." then m.2 else acc) d =
      (match (l.reverse.find? fun m => decide (m.1 = bs! ".")) with | some m => m.2 | none => d) := by
    intro l
    induction l with
    | nil => intro d; rfl
    | cons m l ih =>
      intro d
      rw [List.foldl_cons, ih, List.reverse_cons, List.find?_append]
      cases h : l.reverse.find? fun m => decide (m.1 = bs! ".") with
      | some x => rfl
      | none =>
        simp only [Option.none_or, List.find?_cons, List.find?_nil]
        split <;> simp_all
  exact key o (.obj o)

/-- the stores of the code along a path -/
def storeN (json : Option Obj) : List NStep → R (Option Obj)
  | [] => .ok json
  | st :: tr => (storeN json tr).bind fun j => fixJSON j st.field.name st.value

theorem storeN_eq (o : Obj) (tr : List NStep) :
    storeN (some o) tr = .ok (some (storeNested o tr)) := by
  induction tr with
  | nil => rfl
  | cons st tr ih => simp only [storeN, ih, R.ok_bind', fixJSON_eq]; rfl

/-- what a derivation says about positions and beginnings -/
def Judgement.Facts (env : Env) (ctx : Ctx) (s : Bytes) (slack : Prop) : Judgement → Prop
  | .path n off tr m off' => (¬ slack → off ≤ off') ∧
      ((tr = [] ∧ n = m ∧ off' = off) ∨ (tr ≠ [] ∧ ∃ q ∈ (ctx.node n).parsers, MayAccept env ctx s q off))
  | .accepts p off off' _ => (¬ slack → off ≤ off') ∧ MayAccept env ctx s p off
  | .elems a _ _ off _ off' => (¬ slack → off ≤ off') ∧
      ((ctx.node a).isTerminal = true ∨ ∃ q ∈ (ctx.node a).parsers, MayAccept env ctx s q off)

theorem Holds.facts {j : Judgement} (h : Holds env ctx s slack j) : j.Facts env ctx s slack := by
  induction h with
  | nil n off => exact ⟨fun _ => Nat.le_refl _, .inl ⟨rfl, rfl, rfl⟩⟩
  | cons hidx hacc htail ih1 ih2 =>
    exact ⟨fun hs => Nat.le_trans (ih1.1 hs) (ih2.1 hs), .inr ⟨by simp, _, List.mem_of_getElem? hidx, ih1.2⟩⟩
  | plain hk hrun => exact ⟨fun _ => Nat.le_add_right _ _, .plain hk hrun⟩
  | custom hk ht hpath hterm hend ih =>
    refine ⟨fun hs => ?_, ?_⟩
    · rcases hend with h | h
      · exact absurd h hs
      · rw [h]; exact ih.1 hs
    · rcases ih.2 with ⟨_, rfl, _⟩ | ⟨_, q, hq, hm⟩
      · exact .customNil hk ht hterm
      · exact .custom hk ht hq hm
  | rep hk hel ih =>
    refine ⟨ih.1, ?_⟩
    rcases ih.2 with h | ⟨q, hq, hm⟩
    · exact .repNil hk h
    · exact .rep hk hq hm
  | repNone hk => exact ⟨fun _ => Nat.le_refl _, .repNone hk⟩
  | one hpath hterm hend ih =>
    refine ⟨fun hs => ?_, ?_⟩
    · rcases hend with h | h
      · exact absurd h hs
      · rw [h]; exact ih.1 hs
    · rcases ih.2 with ⟨_, rfl, _⟩ | ⟨_, q, hq, hm⟩
      · exact .inl hterm
      · exact .inr ⟨q, hq, hm⟩
  | more hpath hterm hend hsep hterm' hend' hel ih1 ih2 ih3 =>
    refine ⟨fun hs => ?_, ?_⟩
    · rcases hend with h | h
      · exact absurd h hs
      rcases hend' with h' | h'
      · exact absurd h' hs
      have h1 := ih1.1 hs
      have h2 := ih2.1 hs
      have h3 := ih3.1 hs
      omega
    · rcases ih1.2 with ⟨_, rfl, _⟩ | ⟨_, q, hq, hm⟩
      · exact .inl hterm
      · exact .inr ⟨q, hq, hm⟩

/-- inside the definition of a type or a part of a repeat -/
def Inner (ctx : Ctx) (n : NodeId) : Prop := ∃ e, Entry ctx e ∧ Follows ctx e n

/-- soundness of a call of the search -/
def NSound (env : Env) (ctx : Ctx) (s : Bytes) (slack : Prop) (rec : Rec) : Prop :=
  ∀ st dag offs part json r, (¬ slack → st.parsedTo ≤ offs) → rec st dag offs part json = .ok r →
    (r.matched = true → ∃ tr m e, Holds.Rule env ctx s slack part dag offs tr m e ∧
      storeN json tr = .ok r.json ∧ r.endNode = firstEndN ctx s part dag offs tr ∧
      (¬ slack → Inner ctx dag → part = true → r.st.parsedTo = if tr = [] then st.parsedTo else e) ∧
      (ctx.has 0x08 = true → ∃ junk, r.st.rule = junk ++ (mockupN tr).reverse)) ∧
    (r.matched = false → r.json = json)

/-- an entry point matched: the position reached is the end of the match -/
theorem NSound.entry {rec : Rec} (hrec : NSound env ctx s slack rec) (hdec : ¬ slack → Decided env ctx s)
    {st : Npb} {dag : NodeId} {offs : Nat} {json : Option Obj} {r : NRes} (hen : Entry ctx dag)
    (hst : ¬ slack → st.parsedTo ≤ offs) (h : rec st dag offs true json = .ok r) (hm : r.matched = true) :
    ∃ tr m e, Holds env ctx s slack (.path dag offs tr m e) ∧ (ctx.node m).isTerminal = true ∧
      storeN json tr = .ok r.json ∧ (slack ∨ r.st.parsedTo = e) := by
  obtain ⟨tr, m, e, ⟨hp, ht, _⟩, hs, _, hx, _⟩ := (hrec _ _ _ _ _ _ hst h).1 hm
  refine ⟨tr, m, e, hp, ht, hs, ?_⟩
  by_cases hsl : slack
  · exact .inl hsl
  right
  have h1 := hx hsl ⟨dag, hen, .refl dag⟩ rfl
  rcases hp.facts.2 with ⟨_, rfl, _⟩ | ⟨h2, _⟩
  · rw [(hdec hsl).nonempty dag hen] at ht; cases ht
  · rw [h1, if_neg h2]

theorem repeatLoop_sound {rec : Rec} (hrec : NSound env ctx s slack rec)
    (hdec : ¬ slack → Decided env ctx s) {n : NodeId} {p : Parser} {a w : NodeId} {permit : Bool}
    (hp : p ∈ (ctx.node n).parsers) (hk : p.kind = .repeat_ (some (a, w, permit))) (save : Nat) :
    ∀ fuel st so good arr st' res, (¬ slack → st.parsedTo ≤ so) →
      repeatLoop rec a w permit save fuel st so good arr = .ok (st', res) →
      ∀ o v, res = some (o, v) →
        (∃ vs, Holds env ctx s slack (.elems a w permit so vs o) ∧ v = some (.arr (arr.getD [] ++ vs))) ∨
        (permit = true ∧ o = good ∧ v = arr.map Json.arr) := by
  intro fuel
  induction fuel with
  | zero => intro st so good arr st' res _ h; simp [repeatLoop] at h
  | succ fuel ih =>
    intro st so good arr st' res hst h o v hres
    rw [repeatLoop, R.bind_eq_ok] at h
    obtain ⟨r, hr, h⟩ := h
    cases hm : r.matched with
    | false =>
      simp only [hm, Bool.not_false, if_true] at h
      cases permit with
      | false => simp at h; rw [← h.2] at hres; cases hres
      | true =>
        simp at h; rw [← h.2] at hres; cases hres
        exact .inr ⟨rfl, rfl, rfl⟩
    | true =>
      simp only [hm, Bool.not_true, Bool.false_eq_true, if_false] at h
      obtain ⟨tr, m, e, hpath, hterm, hstore, hend⟩ := hrec.entry hdec (.elem hp hk) hst hr hm
      rw [storeN_eq] at hstore
      cases hj : r.json with
      | none => rw [hj] at hstore; cases hstore
      | some o1 =>
        rw [hj] at hstore
        simp only [R.ok.injEq, Option.some.injEq] at hstore
        rw [hj, Option.getD_some, repeatElem_eq, ← hstore] at h
        rw [R.bind_eq_ok] at h
        obtain ⟨q, hq, h⟩ := h
        cases hm' : q.matched with
        | false =>
          simp only [hm', Bool.false_eq_true, if_false] at h
          simp at h
          rw [← h.2] at hres; cases hres
          exact .inl ⟨[elemValue (storeNested [] tr)], .one hpath hterm hend, rfl⟩
        | true =>
          simp only [hm', if_true] at h
          obtain ⟨tr', m', e', hpath', hterm', _, hend'⟩ := hrec.entry hdec (.sep hp hk)
            (fun _ => Nat.zero_le _) hq hm'
          rcases ih _ _ _ _ _ _ (fun _ => Nat.le_refl _) h o v hres with ⟨vs, h1, h2⟩ | ⟨h1, h2, h3⟩
          · exact .inl ⟨elemValue (storeNested [] tr) :: vs, .more hpath hterm hend hpath' hterm' hend' h1,
              by simpa using h2⟩
          · refine .inl ⟨[elemValue (storeNested [] tr)], ?_, by simpa using h3⟩
            rw [h2]; exact .one hpath hterm hend

theorem tryParser_sound {rec : Rec} (hrec : NSound env ctx s slack rec) (hdec : ¬ slack → Decided env ctx s)
    {n : NodeId} {p : Parser} (hp : p ∈ (ctx.node n).parsers) {fuel : Nat} {st : Npb} {offs : Nat}
    {st' : Npb} {res : Option (Nat × Option Json)} (hst : ¬ slack → st.parsedTo ≤ offs)
    (h : tryParser env ctx s rec fuel st offs p = .ok (st', res)) :
    st'.parsedTo = st.parsedTo ∧ ∀ o v, res = some (o, v) → Holds env ctx s slack (.accepts p offs o v) := by
  by_cases hf : p.kind.flat
  · rw [tryParser_flat hf, R.bind'_eq_ok] at h
    obtain ⟨x, hx, h⟩ := h
    simp only [R.ok.injEq, Prod.mk.injEq] at h
    obtain ⟨rfl, rfl⟩ := h
    refine ⟨rfl, fun o v hov => ?_⟩
    cases x with
    | none => cases hov
    | some x =>
      rw [R.attempt_eq_some] at hx
      simp at hov
      rw [← hov.1, ← hov.2]
      exact .plain hf hx
  · unfold tryParser at h
    cases hk : p.kind
    case custom i =>
      simp only [hk] at h
      cases ht : ctx.types[i]? with
      | none => simp [ht] at h
      | some x =>
        obtain ⟨nm, t⟩ := x
        simp only [ht] at h
        rw [R.bind_eq_ok] at h
        obtain ⟨r, hr, h⟩ := h
        cases hm : r.matched with
        | false =>
          simp [hm] at h
          obtain ⟨rfl, rfl⟩ := h
          exact ⟨rfl, by simp⟩
        | true =>
          simp [hm] at h
          obtain ⟨rfl, rfl⟩ := h
          refine ⟨rfl, fun o v hov => ?_⟩
          obtain ⟨tr, m, e, hpath, hterm, hstore, hend⟩ := hrec.entry hdec (.type ht) hst hr hm
          rw [storeN_eq] at hstore
          cases hj : r.json with
          | none => rw [hj] at hstore; cases hstore
          | some o1 =>
            rw [hj] at hstore hov
            simp only [R.ok.injEq, Option.some.injEq] at hstore
            simp at hov
            rw [← hov.2, ← hov.1, ← hstore]
            exact .custom hk ht hpath hterm hend
    case repeat_ d =>
      simp only [hk] at h
      cases d with
      | none => simp at h
      | some d =>
        obtain ⟨a, w, permit⟩ := d
        simp only at h
        rw [R.bind_eq_ok] at h
        obtain ⟨⟨st1, res1⟩, hr, h⟩ := h
        simp at h
        obtain ⟨rfl, rfl⟩ := h
        refine ⟨rfl, fun o v hov => ?_⟩
        cases res1 with
        | none => cases hov
        | some ov =>
          obtain ⟨o1, v1⟩ := ov
          simp at hov
          obtain ⟨rfl, rfl⟩ := hov
          rcases repeatLoop_sound hrec hdec hp hk _ _ _ _ _ _ _ _ hst hr _ _ rfl with
            ⟨vs, h1, rfl⟩ | ⟨rfl, rfl, rfl⟩
          · exact .rep hk h1
          · have : (if p.name.isSome = true then (Option.map Json.arr none : Option Json) else none) = none := by
              split <;> rfl
            rw [this]; exact .repNone hk
    all_goals exact absurd (by rw [hk]; trivial) hf

theorem tryLoop_sound {rec : Rec} (hloose : NSound env ctx s True rec)
    (hrec : NSound env ctx s slack rec) (hdec : ¬ slack → Decided env ctx s)
    {fuel : Nat} {dag : NodeId} {offs : Nat} {part : Bool} :
    ∀ (ps : List Parser) (k : Nat) (st : Npb) (pt : Nat) (json : Option Obj) (r : NRes),
      (∀ i : Nat, (ctx.node dag).parsers[k + i]? = ps[i]?) → pt ≤ st.parsedTo →
      (¬ slack → st.parsedTo ≤ offs ∨ ∀ q ∈ ps, ¬ MayAccept env ctx s q offs) →
      tryLoop env ctx s rec fuel dag offs part ps st pt json = .ok r →
      (r.matched = true → ∃ hd tl m e, Holds.Rule env ctx s slack part dag offs (hd :: tl) m e ∧
        storeN json (hd :: tl) = .ok r.json ∧
        r.endNode = firstEndN ctx s part hd.field.node hd.stop tl ∧ (¬ slack → Inner ctx dag → part = true → r.st.parsedTo = e) ∧
        (ctx.has 0x08 = true → ∃ junk, r.st.rule = junk ++ (mockupN (hd :: tl)).reverse)) ∧
      (r.matched = false → r.json = json) ∧
      (¬ slack → (∀ q ∈ ps, ¬ MayAccept env ctx s q offs) → r.matched = false ∧ r.st.parsedTo = st.parsedTo) := by
  intro ps
  induction ps with
  | nil =>
    intro k st pt json r hps hpt hinv h
    simp only [tryLoop, R.ok.injEq] at h
    subst h
    exact ⟨by simp, fun _ => rfl, fun _ _ => ⟨rfl, rfl⟩⟩
  | cons p ps ih =>
    intro k st pt json r hps hpt hinv h
    have hp0 : (ctx.node dag).parsers[k]? = some p := by have := hps 0; simpa using this
    have hpm := List.mem_of_getElem? hp0
    have hps' : ∀ i : Nat, (ctx.node dag).parsers[k + 1 + i]? = ps[i]? := by
      intro i
      have := hps (i + 1)
      rw [show k + 1 + i = k + (i + 1) by omega, this]; rfl
    rw [tryLoop, R.bind_eq_ok] at h
    obtain ⟨⟨st1, res⟩, htry, h⟩ := h
    obtain ⟨hst1, hl⟩ := tryParser_sound hloose (by simp) hpm (by simp) htry
    dsimp only at h
    cases res with
    | none =>
      simp only at h
      have hraise : (st1.raise pt).parsedTo = st.parsedTo := by
        simp only [Npb.raise]; omega
      have := ih (k + 1) (st1.raise pt) pt json r hps' (by omega) (fun hs => by
        rcases hinv hs with h1 | h1
        · left; omega
        · right; intro q hq; exact h1 q (by simp [hq])) h
      refine ⟨this.1, this.2.1, fun hs hno => ?_⟩
      have h2 := this.2.2 hs (fun q hq => hno q (by simp [hq]))
      exact ⟨h2.1, by rw [h2.2, hraise]⟩
    | some ov =>
      obtain ⟨newOffs, val⟩ := ov
      simp only at h
      have hmay := (hl _ _ rfl).facts.2
      have hle : ¬ slack → st.parsedTo ≤ offs := by
        intro hs
        rcases hinv hs with h1 | h1
        · exact h1
        · exact absurd hmay (h1 p (by simp))
      have hacc := (tryParser_sound hrec hdec hpm hle htry).2 _ _ rfl
      have hmono := hacc.facts.1
      rw [R.bind_eq_ok] at h
      obtain ⟨sub, hsub, h⟩ := h
      obtain ⟨hhit, hmiss⟩ := hrec _ _ _ _ _ _ (fun hs => by have := hle hs; have := hmono hs; omega) hsub
      cases hm : sub.matched with
      | true =>
        simp only [hm, if_true] at h
        rw [R.bind_eq_ok] at h
        obtain ⟨j, hj, h⟩ := h
        simp only [R.pure_eq, R.ok.injEq] at h
        obtain ⟨tr, m, e, ⟨hpath, hterm, hpe⟩, hstore, hend, hx, hmock⟩ := hhit hm
        have hst2 : ∀ b : Bool, (if b = true then
            { sub.st with rule := addRuleToMockup sub.st.rule p } else sub.st).parsedTo = sub.st.parsedTo := by
          intro b; cases b <;> rfl
        refine ⟨fun _ => ⟨⟨k, p, offs, newOffs, val⟩, tr, m, e, ⟨.cons hp0 hacc hpath, hterm, hpe⟩, ?_, ?_, ?_, ?_⟩, ?_, ?_⟩
        · rw [← h]; simp only [storeN, hstore, R.ok_bind', hj]
        · rw [← h]; exact hend
        · intro hs ⟨en, hen, hfol⟩ hpart
          have h1 := hx hs ⟨en, hen, .step hfol hpm⟩ hpart
          rw [← h]
          simp only [Npb.raise]
          rw [hst2, h1]
          have h2 := hle hs
          have h3 := hmono hs
          have h4 := hpath.facts.1 hs
          rcases hpath.facts.2 with ⟨h5, _, h6⟩ | ⟨h5, _⟩
          · rw [if_pos h5]; omega
          · rw [if_neg h5]; omega
        · intro h8
          obtain ⟨junk, hj8⟩ := hmock h8
          refine ⟨junk, ?_⟩
          rw [← h]
          simp only [h8, if_true, Npb.raise, addRuleToMockup_eq, hj8, mockupN, List.map_cons, List.flatten_cons, List.reverse_append,
            List.append_assoc]
        · rw [← h]; simp
        · intro _ hno; exact absurd hmay (hno p (by simp))
      | false =>
        simp only [hm, Bool.false_eq_true, if_false] at h
        rw [hmiss hm] at h
        have := ih (k + 1) ((sub.st.bumpBack dag).raise newOffs) newOffs json r hps'
          (by simp [Npb.raise]; omega) (fun hs => .inr fun q hq hq2 => by
            obtain ⟨i, hi⟩ := List.getElem?_of_mem hq
            rw [← hps' i] at hi
            have := (hdec hs).one dag offs _ _ _ _ hp0 hi hmay hq2
            omega) h
        refine ⟨this.1, this.2.1, fun _ hno => ?_⟩
        exact absurd hmay (hno p (by simp))

theorem normStep_sound {rec : Rec} (hloose : NSound env ctx s True rec)
    (hrec : NSound env ctx s slack rec) (hdec : ¬ slack → Decided env ctx s) (fuel : Nat) :
    NSound env ctx s slack (normStep env ctx s rec fuel) := by
  intro st dag offs part json r hst h
  unfold normStep at h
  dsimp only at h
  rw [R.bind_eq_ok] at h
  obtain ⟨q, hq, h⟩ := h
  obtain ⟨h1, h2, h3⟩ := tryLoop_sound hloose hrec hdec (ctx.node dag).parsers 0 (st.bumpCalled dag) st.parsedTo
    json q (by simp) (Nat.le_refl _) (fun hs => .inl (hst hs)) hq
  split at h
  · rename_i ht
    simp only [R.pure_eq, R.ok.injEq] at h
    subst h
    simp only [Bool.and_eq_true, Bool.or_eq_true, decide_eq_true_eq] at ht
    have hce : CanEnd ctx s part dag offs = true := by simp [CanEnd, ht.1]; exact ht.2
    refine ⟨fun _ => ?_, by simp⟩
    cases hm : q.matched with
    | true =>
      obtain ⟨hd, tl, m, e, hr, hs, _, hx, hmk⟩ := h1 hm
      refine ⟨hd :: tl, m, e, hr, hs, by simp [firstEndN, hce], fun a b c => ?_, hmk⟩
      rw [if_neg (by simp)]; exact hx a b c
    | false =>
      refine ⟨[], dag, offs, ⟨.nil _ _, ht.1, ht.2.symm⟩, ?_, by simp [firstEndN, hce], ?_, fun _ => ⟨q.st.rule, by simp [mockupN]⟩⟩
      · simp [storeN, h2 hm]
      · intro hs ⟨e, hen, hfol⟩ hpart
        have := (h3 hs (fun p hp => (hdec hs).stop e dag offs hen hfol ht.1 p hp)).2
        rw [if_pos rfl]; exact this
  · rename_i ht
    simp only [R.pure_eq, R.ok.injEq] at h
    subst h
    have hce : CanEnd ctx s part dag offs = false := by
      simp only [CanEnd]; simpa using ht
    refine ⟨fun hm => ?_, h2⟩
    obtain ⟨hd, tl, m, e, hr, hs, hend, hx, hmk⟩ := h1 hm
    refine ⟨hd :: tl, m, e, hr, hs, by simp [firstEndN, hce, hend], fun a b c => ?_, hmk⟩
    rw [if_neg (by simp)]; exact hx a b c

theorem normRec_sound_loose : ∀ fuel, NSound env ctx s True (normRec env ctx s fuel) := by
  intro fuel
  induction fuel with
  | zero => intro st dag offs part json r _ h; simp [normRec] at h
  | succ n ih => exact normStep_sound ih ih (by simp) n

theorem normRec_sound (hdec : ¬ slack → Decided env ctx s) :
    ∀ fuel, NSound env ctx s slack (normRec env ctx s fuel) := by
  intro fuel
  induction fuel with
  | zero => intro st dag offs part json r _ h; simp [normRec] at h
  | succ n ih => exact normStep_sound (normRec_sound_loose n) ih hdec n


theorem firstEndN_terminal {part : Bool} {tr : List NStep} : ∀ {n : NodeId} {off : Nat} {e : NodeId},
    firstEndN ctx s part n off tr = some e → (ctx.node e).isTerminal = true := by
  induction tr with
  | nil =>
    intro n off e h
    simp only [firstEndN] at h
    split at h
    · rename_i hc; cases h; simp [CanEnd] at hc; exact hc.1
    · cases h
  | cons st tr ih =>
    intro n off e h
    simp only [firstEndN] at h
    split at h
    · rename_i hc; cases h; simp [CanEnd] at hc; exact hc.1
    · exact ih h

/-- What `ln_normalize` returns, for every rulebase. -/
theorem normalize_general' {fuel : Nat} {stats : NodeId → Stats} {json0 : Obj} {res : Res}
    (hdec : ¬ slack → Decided env ctx s) (h : normalize env fuel ctx stats s json0 = .ok res) :
    (res.ok = true ∧ ∃ tr m e rule, Holds env ctx s slack (.path ctx.root 0 tr m s.length) ∧
      (ctx.node m).isTerminal = true ∧ firstEndN ctx s false ctx.root 0 tr = some e ∧
      finishMatch ctx s rule e (storeNested json0 tr) = .ok res.json ∧
      (ctx.has 0x08 = true → ∃ junk, rule = junk ++ (mockupN tr).reverse)) ∨
    (res.ok = false ∧ ∃ u, u ≤ s.length ∧
      res.json = Obj.add (Obj.add json0 (bs! "originalmsg") (.str s)) (bs! "unparsed-data")
          (newString (s.drop u))) := by
  unfold normalize at h
  rw [R.bind_eq_ok] at h
  obtain ⟨r, hr, h⟩ := h
  have hS := normRec_sound (slack := slack) hdec fuel _ _ _ _ _ _ (by simp) hr
  cases hm : r.matched with
  | true =>
    left
    obtain ⟨tr, m, e', ⟨hp, ht, hpe⟩, hstore, hend, _, hmk⟩ := hS.1 hm
    rcases hpe with hpe | hpe
    · cases hpe
    subst hpe
    rw [storeN_eq] at hstore
    cases hj : r.json with
    | none => rw [hj] at hstore; cases hstore
    | some o =>
      rw [hj] at hstore
      simp only [R.ok.injEq, Option.some.injEq] at hstore
      cases hen : r.endNode with
      | none => simp [hm, hen] at h
      | some e =>
        rw [hen] at hend
        have ht' := firstEndN_terminal hend.symm
        simp only [hm, hen, ht', if_true, hj, Option.getD_some, ← hstore] at h
        rw [R.bind_eq_ok] at h
        obtain ⟨o2, ho2, h⟩ := h
        simp only [R.pure_eq, R.ok.injEq] at h
        subst h
        exact ⟨rfl, tr, m, e, _, hp, ht, hend.symm, ho2, hmk⟩
  | false =>
    right
    simp only [hm, hS.2 hm, Option.getD_some] at h
    rw [R.bind_eq_ok] at h
    obtain ⟨o2, ho2, h⟩ := h
    simp only [R.pure_eq, R.ok.injEq] at h
    subst h
    unfold addUnparsedField at ho2
    dsimp only at ho2
    split at ho2
    · cases ho2
    · simp only [R.ok.injEq] at ho2
      exact ⟨rfl, r.st.parsedTo, by omega, ho2.symm⟩

/-- the same without the mockup -/
theorem normalize_general {fuel : Nat} {stats : NodeId → Stats} {json0 : Obj} {res : Res}
    (hdec : ¬ slack → Decided env ctx s) (h : normalize env fuel ctx stats s json0 = .ok res) :
    (res.ok = true ∧ ∃ tr m e rule, Holds env ctx s slack (.path ctx.root 0 tr m s.length) ∧
      (ctx.node m).isTerminal = true ∧ firstEndN ctx s false ctx.root 0 tr = some e ∧
      finishMatch ctx s rule e (storeNested json0 tr) = .ok res.json) ∨
    (res.ok = false ∧ ∃ u, u ≤ s.length ∧
      res.json = Obj.add (Obj.add json0 (bs! "originalmsg") (.str s)) (bs! "unparsed-data")
          (newString (s.drop u))) := by
  rcases normalize_general' hdec h with ⟨h1, tr, m, e, rule, h2, h3, h4, h5, _⟩ | h1
  · exact .inl ⟨h1, tr, m, e, rule, h2, h3, h4, h5⟩
  · exact .inr h1

end LN
