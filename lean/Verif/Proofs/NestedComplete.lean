import Verif.Proofs.Nested
/- For rulebases with user-defined types in which the next field decides, no match is lost. -/
set_option autoImplicit false
namespace LN
variable {env : Env} {ctx : Ctx} {s : Bytes}

/-- no repeat fields -/
def NoRepeat (ctx : Ctx) : Prop := ∀ n, ∀ p ∈ (ctx.node n).parsers, ∀ d, p.kind ≠ .repeat_ d

/-- uniqueness of derivations, by kind of judgement -/
def Judgement.Unique (env : Env) (ctx : Ctx) (s : Bytes) : Judgement → Prop
  | .path n off tr m off' => Inner ctx n → (ctx.node m).isTerminal = true → ∀ tr' m' e',
      Holds env ctx s False (.path n off tr' m' e') → (ctx.node m').isTerminal = true →
      tr' = tr ∧ m' = m ∧ e' = off'
  | .accepts p off off' v => (∀ d, p.kind ≠ .repeat_ d) → ∀ o' v',
      Holds env ctx s False (.accepts p off o' v') → o' = off' ∧ v' = v
  | .elems .. => True

theorem Holds.unique (hdec : Decided env ctx s) (hrep : NoRepeat ctx) {j : Judgement}
    (h : Holds env ctx s False j) : j.Unique env ctx s := by
  induction h with
  | nil n off =>
    intro ⟨e, hen, hfol⟩ ht tr' m' e' h' ht'
    cases h' with
    | nil => exact ⟨rfl, rfl, rfl⟩
    | cons hidx hacc htail =>
      exact absurd hacc.facts.2 (hdec.stop e n off hen hfol ht _ (List.mem_of_getElem? hidx))
  | cons hidx hacc htail ih1 ih2 =>
    rename_i n off idx p mid v tr m off'
    intro ⟨e, hen, hfol⟩ ht tr' m' e' h' ht'
    cases h' with
    | nil => exact absurd hacc.facts.2 (hdec.stop e n off hen hfol ht' _ (List.mem_of_getElem? hidx))
    | cons hidx' hacc' htail' =>
      have hi := hdec.one n off _ _ _ _ hidx hidx' hacc.facts.2 hacc'.facts.2
      subst hi
      rw [hidx] at hidx'
      cases hidx'
      obtain ⟨rfl, rfl⟩ := ih1 (hrep n p (List.mem_of_getElem? hidx)) _ _ hacc'
      obtain ⟨rfl, rfl, rfl⟩ := ih2 ⟨e, hen, .step hfol (List.mem_of_getElem? hidx)⟩ ht _ _ _ htail' ht'
      exact ⟨rfl, rfl, rfl⟩
  | plain hk hrun =>
    intro _ o' v' h'
    cases h' with
    | plain hk' hrun' => rw [hrun] at hrun'; cases hrun'; exact ⟨rfl, rfl⟩
    | custom hk' => rw [hk'] at hk; exact absurd hk (by simp [PKind.flat])
    | rep hk' => rw [hk'] at hk; exact absurd hk (by simp [PKind.flat])
    | repNone hk' => rw [hk'] at hk; exact absurd hk (by simp [PKind.flat])
  | custom hk ht hpath hterm hend ih =>
    intro _ o' v' h'
    cases h' with
    | plain hk' => rw [hk] at hk'; exact absurd hk' (by simp [PKind.flat])
    | custom hk' ht' hpath' hterm' hend' =>
      rw [hk] at hk'; cases hk'
      rw [ht] at ht'; cases ht'
      obtain ⟨rfl, rfl, rfl⟩ := ih ⟨_, .type ht, .refl _⟩ hterm _ _ _ hpath' hterm'
      rcases hend with h1 | h1
      · cases h1
      rcases hend' with h2 | h2
      · cases h2
      exact ⟨by rw [h1, h2], rfl⟩
    | rep hk' => rw [hk] at hk'; cases hk'
    | repNone hk' => rw [hk] at hk'; cases hk'
  | rep hk _ _ => intro hn; exact absurd hk (hn _)
  | repNone hk => intro hn; exact absurd hk (hn _)
  | one => trivial
  | more => trivial

def NComplete (env : Env) (ctx : Ctx) (s : Bytes) (rec : Rec) : Prop :=
  ∀ st dag offs part json r, st.parsedTo ≤ offs → rec st dag offs part json = .ok r →
    (∃ tr m e, Holds.Rule env ctx s False part dag offs tr m e) → r.matched = true

theorem tryLoop_complete (hdec : Decided env ctx s) (hrep : NoRepeat ctx) {rec : Rec}
    (hloose : NSound env ctx s True rec) (hsound : NSound env ctx s False rec)
    (hrec : NComplete env ctx s rec) {fuel : Nat} {dag : NodeId} {offs : Nat} {part : Bool} :
    ∀ (ps : List Parser) (k : Nat) (st : Npb) (pt : Nat) (json : Option Obj) (r : NRes),
      (∀ i : Nat, (ctx.node dag).parsers[k + i]? = ps[i]?) → pt ≤ st.parsedTo → st.parsedTo ≤ offs →
      tryLoop env ctx s rec fuel dag offs part ps st pt json = .ok r →
      (∃ hd tl m e, k ≤ hd.idx ∧ Holds.Rule env ctx s False part dag offs (hd :: tl) m e) →
      r.matched = true := by
  intro ps
  induction ps with
  | nil =>
    rintro k st pt json r hps hpt hst h ⟨hd, tl, m, e, hk, hp, _⟩
    cases hp with
    | cons hidx hacc htail =>
      rename_i idx p mid v
      have := hps (idx - k)
      rw [Nat.add_sub_cancel' (show k ≤ idx from hk), hidx] at this
      simp at this
  | cons p ps ih =>
    rintro k st pt json r hps hpt hst h ⟨hd, tl, m, e, hk, hp, hterm, hpe⟩
    have hp0 : (ctx.node dag).parsers[k]? = some p := by have := hps 0; simpa using this
    have hpm := List.mem_of_getElem? hp0
    have hps' : ∀ i : Nat, (ctx.node dag).parsers[k + 1 + i]? = ps[i]? := by
      intro i
      have := hps (i + 1)
      rw [show k + 1 + i = k + (i + 1) by omega, this]; rfl
    rw [tryLoop, R.bind_eq_ok] at h
    obtain ⟨⟨st1, res⟩, htry, h⟩ := h
    have hst1 := (tryParser_sound hloose (by simp) hpm (by simp) htry).1
    cases hp with
    | cons hidx hacc htail =>
      rename_i idx p' mid v
      dsimp only at h hk
      by_cases hik : idx = k
      · subst hik
        rw [hp0] at hidx; cases hidx
        have hsome : ∃ o v', res = some (o, v') := by
          cases res with
          | some x => exact ⟨_, _, rfl⟩
          | none =>
            exfalso
            cases hacc with
            | plain hf hrun =>
              rw [tryParser_flat hf, hrun] at htry
              simp at htry
            | custom hk' ht' hpath' hterm' hend' =>
              unfold tryParser at htry
              simp only [hk', ht'] at htry
              rw [R.bind_eq_ok] at htry
              obtain ⟨q, hq, htry⟩ := htry
              have hqm := hrec _ _ _ _ _ _ hst hq ⟨_, _, _, hpath', hterm', .inl rfl⟩
              simp [hqm] at htry
            | rep hk' => exact hrep dag p hpm _ hk'
            | repNone hk' => exact hrep dag p hpm _ hk'
        obtain ⟨o, v', rfl⟩ := hsome
        have hacc' := (tryParser_sound hsound (fun _ => hdec) hpm (fun _ => hst) htry).2 _ _ rfl
        obtain ⟨rfl, rfl⟩ := hacc.unique hdec hrep (hrep dag p hpm) _ _ hacc'
        have hmono := hacc'.facts.1 (by simp)
        simp only at h
        rw [R.bind_eq_ok] at h
        obtain ⟨sub, hsub, h⟩ := h
        have hm := hrec _ _ _ _ _ _ (by omega) hsub ⟨_, _, _, htail, hterm, hpe⟩
        simp only [hm, if_true] at h
        rw [R.bind_eq_ok] at h
        obtain ⟨j, hj, h⟩ := h
        simp only [R.pure_eq, R.ok.injEq] at h
        rw [← h]
      · have hnone : res = none := by
          cases res with
          | none => rfl
          | some x =>
            have h1 := ((tryParser_sound hloose (by simp) hpm (by simp) htry).2 _ _ rfl).facts.2
            exact absurd (hdec.one dag offs _ _ _ _ hp0 hidx h1 hacc.facts.2).symm hik
        subst hnone
        simp only at h
        exact ih (k + 1) (st1.raise pt) pt json r hps' (by simp only [Npb.raise]; omega)
          (by simp only [Npb.raise]; omega) h
          ⟨_, tl, m, e, show k + 1 ≤ idx by omega, .cons hidx hacc htail, hterm, hpe⟩

theorem normRec_complete (hdec : Decided env ctx s) (hrep : NoRepeat ctx) :
    ∀ fuel, NComplete env ctx s (normRec env ctx s fuel) := by
  intro fuel
  induction fuel with
  | zero => intro st dag offs part json r _ h; simp [normRec] at h
  | succ n ih =>
    rintro st dag offs part json r hst h ⟨tr, m, e, hp, hterm, hpe⟩
    simp only [normRec] at h
    unfold normStep at h
    dsimp only at h
    rw [R.bind_eq_ok] at h
    obtain ⟨q, hq, h⟩ := h
    split at h
    · simp only [R.pure_eq, R.ok.injEq] at h; rw [← h]
    · rename_i hc
      simp only [R.pure_eq, R.ok.injEq] at h; subst h
      cases tr with
      | nil =>
        cases hp
        exfalso; apply hc
        simp only [hterm, Bool.true_and, Bool.or_eq_true, decide_eq_true_eq]
        exact hpe.symm
      | cons hd tl =>
        exact tryLoop_complete hdec hrep (normRec_sound_loose n) (normRec_sound (fun _ => hdec) n) ih
          (ctx.node dag).parsers 0 (st.bumpCalled dag) st.parsedTo json q (by simp) (Nat.le_refl _) hst hq
          ⟨hd, tl, m, e, Nat.zero_le _, hp, hterm, hpe⟩

theorem normalize_complete (hdec : Decided env ctx s) (hrep : NoRepeat ctx) {fuel : Nat}
    {stats : NodeId → Stats} {json0 : Obj} {res : Res} (h : normalize env fuel ctx stats s json0 = .ok res)
    (hm : ∃ tr m, Holds env ctx s False (.path ctx.root 0 tr m s.length) ∧ (ctx.node m).isTerminal = true) :
    res.ok = true := by
  unfold normalize at h
  rw [R.bind_eq_ok] at h
  obtain ⟨r, hr, h⟩ := h
  obtain ⟨tr, m, hp, ht⟩ := hm
  have hmm := normRec_complete hdec hrep fuel _ _ _ _ _ _ (by simp) hr ⟨tr, m, _, hp, ht, .inr rfl⟩
  cases he : r.endNode with
  | none => simp [hmm, he] at h
  | some e =>
    simp only [hmm, he] at h
    split at h <;> (rw [R.bind_eq_ok] at h; obtain ⟨o, _, h⟩ := h; simp at h; subst h; rfl)

/-! ### the longest match -/

/-- nothing follows: no rule goes on from here -/
def NoMore (env : Env) (ctx : Ctx) (s : Bytes) (part : Bool) (m : NodeId) (e : Nat) : Prop :=
  ∀ hd tl m' e', ¬ Holds.Rule env ctx s False part m e (hd :: tl) m' e'

/-- soundness of a call of the search, with the longest match -/
def NMax (env : Env) (ctx : Ctx) (s : Bytes) (rec : Rec) : Prop :=
  ∀ st dag offs part json r, st.parsedTo ≤ offs → rec st dag offs part json = .ok r → r.matched = true →
    ∃ tr m e, Holds.Rule env ctx s False part dag offs tr m e ∧ storeN json tr = .ok r.json ∧
      r.endNode = firstEndN ctx s part dag offs tr ∧ (ctx.has 0x08 = true → ∃ junk, r.st.rule = junk ++ (mockupN tr).reverse) ∧
      NoMore env ctx s part m e

theorem tryLoop_max (hdec : Decided env ctx s) {rec : Rec}
    (hloose : NSound env ctx s True rec) (hsound : NSound env ctx s False rec)
    (hmax : NMax env ctx s rec) {fuel : Nat} {dag : NodeId} {offs : Nat} {part : Bool} :
    ∀ (ps : List Parser) (k : Nat) (st : Npb) (pt : Nat) (json : Option Obj) (r : NRes),
      (∀ i : Nat, (ctx.node dag).parsers[k + i]? = ps[i]?) → pt ≤ st.parsedTo → st.parsedTo ≤ offs →
      tryLoop env ctx s rec fuel dag offs part ps st pt json = .ok r → r.matched = true →
      ∃ hd tl m e, Holds.Rule env ctx s False part dag offs (hd :: tl) m e ∧ storeN json (hd :: tl) = .ok r.json ∧
        r.endNode = firstEndN ctx s part hd.field.node hd.stop tl ∧
        (ctx.has 0x08 = true → ∃ junk, r.st.rule = junk ++ (mockupN (hd :: tl)).reverse) ∧ NoMore env ctx s part m e := by
  intro ps
  induction ps with
  | nil =>
    intro k st pt json r hps hpt hst h hm
    simp only [tryLoop, R.ok.injEq] at h
    subst h
    cases hm
  | cons p ps ih =>
    intro k st pt json r hps hpt hst h hm
    have hp0 : (ctx.node dag).parsers[k]? = some p := by have := hps 0; simpa using this
    have hpm := List.mem_of_getElem? hp0
    have hps' : ∀ i : Nat, (ctx.node dag).parsers[k + 1 + i]? = ps[i]? := by
      intro i
      have := hps (i + 1)
      rw [show k + 1 + i = k + (i + 1) by omega, this]; rfl
    rw [tryLoop, R.bind_eq_ok] at h
    obtain ⟨⟨st1, res⟩, htry, h⟩ := h
    obtain ⟨hst1, hacc⟩ := tryParser_sound hsound (fun _ => hdec) hpm (fun _ => hst) htry
    dsimp only at h
    cases res with
    | none =>
      simp only at h
      exact ih (k + 1) (st1.raise pt) pt json r hps' (by simp only [Npb.raise]; omega) (by simp only [Npb.raise]; omega) h hm
    | some ov =>
      obtain ⟨newOffs, val⟩ := ov
      simp only at h
      have hacc := hacc _ _ rfl
      have hmono := hacc.facts.1 (by simp)
      rw [R.bind_eq_ok] at h
      obtain ⟨sub, hsub, h⟩ := h
      cases hms : sub.matched with
      | true =>
        simp only [hms, if_true] at h
        rw [R.bind_eq_ok] at h
        obtain ⟨j, hj, h⟩ := h
        simp only [R.pure_eq, R.ok.injEq] at h
        obtain ⟨tr, m, e, ⟨hpath, hterm, hpe⟩, hstore, hend, hmock, hno⟩ := hmax _ _ _ _ _ _ (by omega) hsub hms
        refine ⟨⟨k, p, offs, newOffs, val⟩, tr, m, e, ⟨.cons hp0 hacc hpath, hterm, hpe⟩, ?_, ?_, ?_, hno⟩
        · rw [← h]; simp only [storeN, hstore, R.ok_bind', hj]
        · rw [← h]; exact hend
        · intro h8
          obtain ⟨junk, hj8⟩ := hmock h8
          refine ⟨junk, ?_⟩
          rw [← h]
          simp only [h8, if_true, Npb.raise, addRuleToMockup_eq, hj8, mockupN, List.map_cons, List.flatten_cons, List.reverse_append,
            List.append_assoc]
      | false =>
        simp only [hms, Bool.false_eq_true, if_false] at h
        rw [(hsound _ _ _ _ _ _ (fun _ => by omega) hsub).2 hms] at h
        have hno : ∀ q ∈ ps, ¬ MayAccept env ctx s q offs := by
          intro q hq hq2
          obtain ⟨i, hi⟩ := List.getElem?_of_mem hq
          rw [← hps' i] at hi
          have := hdec.one dag offs _ _ _ _ hp0 hi hacc.facts.2 hq2
          omega
        have := (tryLoop_sound hloose hsound (fun _ => hdec) ps (k + 1) ((sub.st.bumpBack dag).raise newOffs) newOffs json r hps'
          (by simp [Npb.raise]; omega) (fun _ => .inr hno) h).2.2 (by simp) hno
        rw [hm] at this; cases this.1

theorem normRec_max (hdec : Decided env ctx s) (hrep : NoRepeat ctx) : ∀ fuel, NMax env ctx s (normRec env ctx s fuel) := by
  intro fuel
  induction fuel with
  | zero => intro st dag offs part json r _ h; simp [normRec] at h
  | succ n ih =>
    intro st dag offs part json r hst h hm
    simp only [normRec] at h
    unfold normStep at h
    dsimp only at h
    rw [R.bind_eq_ok] at h
    obtain ⟨q, hq, h⟩ := h
    have hloose := normRec_sound_loose (env := env) (ctx := ctx) (s := s) n
    have hsound := normRec_sound (slack := False) (env := env) (ctx := ctx) (s := s) (fun _ => hdec) n
    have hmx := tryLoop_max hdec hloose hsound ih (ctx.node dag).parsers 0 (st.bumpCalled dag) st.parsedTo
      json q (by simp) (Nat.le_refl _) hst hq
    split at h
    · rename_i ht
      simp only [R.pure_eq, R.ok.injEq] at h
      subst h
      simp only [Bool.and_eq_true, Bool.or_eq_true, decide_eq_true_eq] at ht
      have hce : CanEnd ctx s part dag offs = true := by simp [CanEnd, ht.1]; exact ht.2
      cases hmq : q.matched with
      | true =>
        obtain ⟨hd, tl, m, e, hr, hs, _, hmk, hno⟩ := hmx hmq
        exact ⟨hd :: tl, m, e, hr, hs, by simp [firstEndN, hce], hmk, hno⟩
      | false =>
        refine ⟨[], dag, offs, ⟨.nil _ _, ht.1, ht.2.symm⟩, ?_, by simp [firstEndN, hce], fun _ => ⟨q.st.rule, by simp [mockupN]⟩, ?_⟩
        · have := (tryLoop_sound hloose hsound (fun _ => hdec) (ctx.node dag).parsers 0 (st.bumpCalled dag) st.parsedTo
            json q (by simp) (Nat.le_refl _) (fun _ => .inl hst) hq).2.1 hmq
          simp [storeN, this]
        · intro hd tl m' e' hrule
          have := tryLoop_complete hdec hrep hloose hsound (normRec_complete hdec hrep n)
            (ctx.node dag).parsers 0 (st.bumpCalled dag) st.parsedTo json q (by simp) (Nat.le_refl _) hst hq
            ⟨hd, tl, m', e', Nat.zero_le _, hrule⟩
          rw [hmq] at this; cases this
    · rename_i ht
      simp only [R.pure_eq, R.ok.injEq] at h
      subst h
      have hce : CanEnd ctx s part dag offs = false := by
        simp only [CanEnd]; simpa using ht
      obtain ⟨hd, tl, m, e, hr, hs, hend, hmk, hno⟩ := hmx hm
      exact ⟨hd :: tl, m, e, hr, hs, by simp [firstEndN, hce, hend], hmk, hno⟩

/-- Where the next field decides, two matches from the same place begin alike. -/
theorem Holds.chain (hdec : Decided env ctx s) (hrep : NoRepeat ctx) : ∀ {tr tr' : List NStep} {n m m' : NodeId} {off e e' : Nat},
    Holds env ctx s False (.path n off tr m e) → Holds env ctx s False (.path n off tr' m' e') →
    (∃ u, tr' = tr ++ u ∧ Holds env ctx s False (.path m e u m' e')) ∨ (∃ u, tr = tr' ++ u ∧ Holds env ctx s False (.path m' e' u m e))
  | [], tr', n, m, m', off, e, e', h, h' => by
    cases h
    exact .inl ⟨tr', rfl, h'⟩
  | a :: tr, [], n, m, m', off, e, e', h, h' => by
    cases h'
    exact .inr ⟨a :: tr, rfl, h⟩
  | a :: tr, a' :: tr', n, m, m', off, e, e', h, h' => by
    cases h with
    | @cons _ _ idx p mid v _ _ _ hidx hacc htail =>
      cases h' with
      | @cons _ _ idx' p' mid' v' _ _ _ hidx' hacc' htail' =>
        have hi := hdec.one n off _ _ _ _ hidx hidx' hacc.facts.2 hacc'.facts.2
        subst hi
        rw [hidx] at hidx'
        cases hidx'
        obtain ⟨rfl, rfl⟩ := hacc.unique hdec hrep (hrep n p (List.mem_of_getElem? hidx)) _ _ hacc'
        rcases Holds.chain hdec hrep htail htail' with ⟨u, rfl, h1⟩ | ⟨u, rfl, h1⟩
        · exact .inl ⟨u, rfl, h1⟩
        · exact .inr ⟨u, rfl, h1⟩

theorem normalize_max (hdec : Decided env ctx s) (hrep : NoRepeat ctx) {fuel : Nat}
    {stats : NodeId → Stats} {json0 : Obj} {res : Res} (h : normalize env fuel ctx stats s json0 = .ok res) (hok : res.ok = true) :
    ∃ tr m e rule, Holds env ctx s False (.path ctx.root 0 tr m s.length) ∧
      (ctx.node m).isTerminal = true ∧ firstEndN ctx s false ctx.root 0 tr = some e ∧
      finishMatch ctx s rule e (storeNested json0 tr) = .ok res.json ∧
      (ctx.has 0x08 = true → ∃ junk, rule = junk ++ (mockupN tr).reverse) ∧
      ∀ tr' m', Holds env ctx s False (.path ctx.root 0 tr' m' s.length) → (ctx.node m').isTerminal = true → tr' <+: tr := by
  unfold normalize at h
  rw [R.bind_eq_ok] at h
  obtain ⟨r, hr, h⟩ := h
  cases hm : r.matched with
  | false =>
    have hS := (normRec_sound (slack := False) (fun _ => hdec) fuel _ _ _ _ _ _ (by simp) hr).2 hm
    simp only [hm, hS, Option.getD_some] at h
    rw [R.bind_eq_ok] at h
    obtain ⟨o2, ho2, h⟩ := h
    simp only [R.pure_eq, R.ok.injEq] at h
    subst h
    cases hok
  | true =>
    obtain ⟨tr, m, off', ⟨hp, hterm, hpe⟩, hstore, hend, hmock, hno⟩ := normRec_max hdec hrep fuel _ _ _ _ _ _ (by simp) hr hm
    have hoff : off' = s.length := by
      rcases hpe with h | h
      · cases h
      · exact h
    subst hoff
    rw [storeN_eq] at hstore
    cases hj : r.json with
    | none => rw [hj] at hstore; cases hstore
    | some o =>
      rw [hj] at hstore
      simp only [R.ok.injEq, Option.some.injEq] at hstore
      cases hen : r.endNode with
      | none => simp [hm, hen] at h
      | some e =>
        rw [hen] at hend
        have ht' := firstEndN_terminal hend.symm
        simp only [hm, hen, ht', if_true, hj, Option.getD_some, ← hstore] at h
        rw [R.bind_eq_ok] at h
        obtain ⟨o2, ho2, h⟩ := h
        simp only [R.pure_eq, R.ok.injEq] at h
        subst h
        refine ⟨tr, m, e, _, hp, hterm, hend.symm, ho2, hmock, fun tr' m' hp' hterm' => ?_⟩
        rcases Holds.chain hdec hrep hp hp' with ⟨u, rfl, h1⟩ | ⟨u, rfl, _⟩
        · cases u with
          | nil => simp
          | cons a u => exact absurd ⟨h1, hterm', .inr rfl⟩ (hno a u m' s.length)
        · exact List.prefix_append ..

end LN
