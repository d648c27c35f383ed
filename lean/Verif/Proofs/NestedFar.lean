import Verif.Proofs.NestedComplete
/- The position reported by a search without success, for rulebases with user-defined types. -/
set_option autoImplicit false
namespace LN
variable {env : Env} {ctx : Ctx} {s : Bytes} {slack : Prop}

/-- a failing search leaves the recorded position or moves it to one that fields can reach -/
def NReach (env : Env) (ctx : Ctx) (s : Bytes) (slack : Prop) (rec : Rec) : Prop :=
  ∀ st dag offs part json r, (¬ slack → st.parsedTo ≤ offs) → rec st dag offs part json = .ok r →
    r.matched = false → st.parsedTo ≤ r.st.parsedTo ∧
      (r.st.parsedTo = st.parsedTo ∨ ∃ tr m, Holds env ctx s slack (.path dag offs tr m r.st.parsedTo))

theorem tryLoop_reach {rec : Rec} (hloose : NSound env ctx s True rec)
    (hrec : NSound env ctx s slack rec) (hreach : NReach env ctx s slack rec) (hdec : ¬ slack → Decided env ctx s)
    {fuel : Nat} {dag : NodeId} {offs : Nat} {part : Bool} :
    ∀ (ps : List Parser) (k : Nat) (st : Npb) (pt : Nat) (json : Option Obj) (r : NRes),
      (∀ i : Nat, (ctx.node dag).parsers[k + i]? = ps[i]?) → pt ≤ st.parsedTo →
      (¬ slack → st.parsedTo ≤ offs ∨ ∀ q ∈ ps, ¬ MayAccept env ctx s q offs) →
      tryLoop env ctx s rec fuel dag offs part ps st pt json = .ok r → r.matched = false →
      st.parsedTo ≤ r.st.parsedTo ∧
      (r.st.parsedTo = st.parsedTo ∨ ∃ tr m, Holds env ctx s slack (.path dag offs tr m r.st.parsedTo)) := by
  intro ps
  induction ps with
  | nil =>
    intro k st pt json r hps hpt hinv h _
    simp only [tryLoop, R.ok.injEq] at h
    subst h
    exact ⟨Nat.le_refl _, .inl rfl⟩
  | cons p ps ih =>
    intro k st pt json r hps hpt hinv h hno
    have hp0 : (ctx.node dag).parsers[k]? = some p := by have := hps 0; simpa using this
    have hpm := List.mem_of_getElem? hp0
    have hps' : ∀ i : Nat, (ctx.node dag).parsers[k + 1 + i]? = ps[i]? := by
      intro i
      have := hps (i + 1)
      rw [show k + 1 + i = k + (i + 1) by omega, this]; rfl
    rw [tryLoop, R.bind_eq_ok] at h
    obtain ⟨⟨st1, res⟩, htry, h⟩ := h
    obtain ⟨hst1, hl⟩ := tryParser_sound hloose (by simp) hpm (by simp) htry
    dsimp only at h
    cases res with
    | none =>
      simp only at h
      have hraise : (st1.raise pt).parsedTo = st.parsedTo := by
        simp only [Npb.raise]; omega
      have := ih (k + 1) (st1.raise pt) pt json r hps' (by omega) (fun hs => by
        rcases hinv hs with h1 | h1
        · left; omega
        · right; intro q hq; exact h1 q (by simp [hq])) h hno
      rwa [hraise] at this
    | some ov =>
      obtain ⟨newOffs, val⟩ := ov
      simp only at h
      have hmay := (hl _ _ rfl).facts.2
      have hle : ¬ slack → st.parsedTo ≤ offs := by
        intro hs
        rcases hinv hs with h1 | h1
        · exact h1
        · exact absurd hmay (h1 p (by simp))
      have hacc := (tryParser_sound hrec hdec hpm hle htry).2 _ _ rfl
      have hmono := hacc.facts.1
      rw [R.bind_eq_ok] at h
      obtain ⟨sub, hsub, h⟩ := h
      have hst2 : ¬ slack → st1.parsedTo ≤ newOffs := fun hs => by have := hle hs; have := hmono hs; omega
      cases hm : sub.matched with
      | true =>
        simp only [hm, if_true] at h
        rw [R.bind_eq_ok] at h
        obtain ⟨j, hj, h⟩ := h
        simp only [R.pure_eq, R.ok.injEq] at h
        rw [← h] at hno; cases hno
      | false =>
        simp only [hm, Bool.false_eq_true, if_false] at h
        obtain ⟨h1, h2⟩ := hreach _ _ _ _ _ _ hst2 hsub hm
        have h3 := ih (k + 1) ((sub.st.bumpBack dag).raise newOffs) newOffs sub.json r hps'
          (by simp [Npb.raise]; omega) (fun hs => .inr fun q hq hq2 => by
            obtain ⟨i, hi⟩ := List.getElem?_of_mem hq
            rw [← hps' i] at hi
            have := (hdec hs).one dag offs _ _ _ _ hp0 hi hmay hq2
            omega) h hno
        have h4 : ((sub.st.bumpBack dag).raise newOffs).parsedTo = max sub.st.parsedTo newOffs := rfl
        rw [h4] at h3
        refine ⟨by omega, ?_⟩
        rcases h3.2 with h5 | h5
        · by_cases h6 : sub.st.parsedTo ≤ newOffs
          · right
            rw [h5, Nat.max_eq_right h6]
            exact ⟨_, _, .cons hp0 hacc (.nil _ _)⟩
          · rw [h5, Nat.max_eq_left (by omega)]
            rcases h2 with h2 | ⟨tr, m, h2⟩
            · left; omega
            · exact .inr ⟨_, m, .cons hp0 hacc h2⟩
        · exact .inr h5

theorem normStep_reach {rec : Rec} (hloose : NSound env ctx s True rec)
    (hrec : NSound env ctx s slack rec) (hreach : NReach env ctx s slack rec) (hdec : ¬ slack → Decided env ctx s)
    (fuel : Nat) : NReach env ctx s slack (normStep env ctx s rec fuel) := by
  intro st dag offs part json r hst h hno
  unfold normStep at h
  dsimp only at h
  rw [R.bind_eq_ok] at h
  obtain ⟨q, hq, h⟩ := h
  split at h
  · simp only [R.pure_eq, R.ok.injEq] at h
    rw [← h] at hno; cases hno
  · simp only [R.pure_eq, R.ok.injEq] at h
    subst h
    exact tryLoop_reach hloose hrec hreach hdec (ctx.node dag).parsers 0 (st.bumpCalled dag) st.parsedTo
      json q (by simp) (Nat.le_refl _) (fun hs => .inl (hst hs)) hq hno

theorem normRec_reach (hdec : ¬ slack → Decided env ctx s) : ∀ fuel, NReach env ctx s slack (normRec env ctx s fuel) := by
  intro fuel
  induction fuel with
  | zero => intro st dag offs part json r _ h; simp [normRec] at h
  | succ n ih => exact normStep_reach (normRec_sound_loose n) (normRec_sound hdec n) ih hdec n

/-- no sequence of fields gets beyond the position recorded by a failing search -/
def NFar (env : Env) (ctx : Ctx) (s : Bytes) (rec : Rec) : Prop :=
  ∀ st dag offs part json r, st.parsedTo ≤ offs → rec st dag offs part json = .ok r → r.matched = false →
    ∀ tr m off', Holds env ctx s False (.path dag offs tr m off') → off' ≤ max offs r.st.parsedTo

theorem tryLoop_far (hdec : Decided env ctx s) (hrep : NoRepeat ctx) {rec : Rec}
    (hloose : NSound env ctx s True rec) (hsound : NSound env ctx s False rec)
    (hcomp : NComplete env ctx s rec) (hreach : NReach env ctx s False rec) (hfar : NFar env ctx s rec)
    {fuel : Nat} {dag : NodeId} {offs : Nat} {part : Bool} :
    ∀ (ps : List Parser) (k : Nat) (st : Npb) (pt : Nat) (json : Option Obj) (r : NRes),
      (∀ i : Nat, (ctx.node dag).parsers[k + i]? = ps[i]?) → pt ≤ st.parsedTo → st.parsedTo ≤ offs →
      tryLoop env ctx s rec fuel dag offs part ps st pt json = .ok r → r.matched = false →
      ∀ hd tl m off', k ≤ hd.idx → Holds env ctx s False (.path dag offs (hd :: tl) m off') → off' ≤ r.st.parsedTo := by
  intro ps
  induction ps with
  | nil =>
    rintro k st pt json r hps hpt hst h hno hd tl m e hk hp
    cases hp with
    | cons hidx hacc htail =>
      rename_i idx p mid v
      have := hps (idx - k)
      rw [Nat.add_sub_cancel' (show k ≤ idx from hk), hidx] at this
      simp at this
  | cons p ps ih =>
    rintro k st pt json r hps hpt hst h hno hd tl m e hk hp
    have hp0 : (ctx.node dag).parsers[k]? = some p := by have := hps 0; simpa using this
    have hpm := List.mem_of_getElem? hp0
    have hps' : ∀ i : Nat, (ctx.node dag).parsers[k + 1 + i]? = ps[i]? := by
      intro i
      have := hps (i + 1)
      rw [show k + 1 + i = k + (i + 1) by omega, this]; rfl
    rw [tryLoop, R.bind_eq_ok] at h
    obtain ⟨⟨st1, res⟩, htry, h⟩ := h
    have hst1 := (tryParser_sound hloose (by simp) hpm (by simp) htry).1
    cases hp with
    | cons hidx hacc htail =>
      rename_i idx p' mid v
      dsimp only at h hk
      by_cases hik : idx = k
      · subst hik
        rw [hp0] at hidx; cases hidx
        have hsome : ∃ o v', res = some (o, v') := by
          cases res with
          | some x => exact ⟨_, _, rfl⟩
          | none =>
            exfalso
            cases hacc with
            | plain hf hrun =>
              rw [tryParser_flat hf, hrun] at htry
              simp at htry
            | custom hk' ht' hpath' hterm' hend' =>
              unfold tryParser at htry
              simp only [hk', ht'] at htry
              rw [R.bind_eq_ok] at htry
              obtain ⟨q, hq, htry⟩ := htry
              have hqm := hcomp _ _ _ _ _ _ hst hq ⟨_, _, _, hpath', hterm', .inl rfl⟩
              simp [hqm] at htry
            | rep hk' => exact hrep dag p hpm _ hk'
            | repNone hk' => exact hrep dag p hpm _ hk'
        obtain ⟨o, v', rfl⟩ := hsome
        have hacc' := (tryParser_sound hsound (fun _ => hdec) hpm (fun _ => hst) htry).2 _ _ rfl
        obtain ⟨rfl, rfl⟩ := hacc.unique hdec hrep (hrep dag p hpm) _ _ hacc'
        have hmono := hacc'.facts.1 (by simp)
        simp only at h
        rw [R.bind_eq_ok] at h
        obtain ⟨sub, hsub, h⟩ := h
        cases hm : sub.matched with
        | true =>
          simp only [hm, if_true] at h
          rw [R.bind_eq_ok] at h
          obtain ⟨j, hj, h⟩ := h
          simp only [R.pure_eq, R.ok.injEq] at h
          rw [← h] at hno; cases hno
        | false =>
          simp only [hm, Bool.false_eq_true, if_false] at h
          have h1 := hfar _ _ _ _ _ _ (by omega) hsub hm _ _ _ htail
          have h3 := (tryLoop_reach (slack := False) hloose hsound hreach (fun _ => hdec) ps (idx + 1)
            ((sub.st.bumpBack dag).raise o) o sub.json r hps'
            (by simp [Npb.raise]; omega) (fun hs => .inr fun q hq hq2 => by
              obtain ⟨i, hi⟩ := List.getElem?_of_mem hq
              rw [← hps' i] at hi
              have := hdec.one dag offs _ _ _ _ hp0 hi hacc.facts.2 hq2
              omega) h hno).1
          have h4 : ((sub.st.bumpBack dag).raise o).parsedTo = max sub.st.parsedTo o := rfl
          omega
      · have hnone : res = none := by
          cases res with
          | none => rfl
          | some x =>
            have h1 := ((tryParser_sound hloose (by simp) hpm (by simp) htry).2 _ _ rfl).facts.2
            exact absurd (hdec.one dag offs _ _ _ _ hp0 hidx h1 hacc.facts.2).symm hik
        subst hnone
        simp only at h
        exact ih (k + 1) (st1.raise pt) pt json r hps' (by simp only [Npb.raise]; omega)
          (by simp only [Npb.raise]; omega) h hno
          _ tl m e (show k + 1 ≤ idx by omega) (.cons hidx hacc htail)

theorem normRec_far (hdec : Decided env ctx s) (hrep : NoRepeat ctx) :
    ∀ fuel, NFar env ctx s (normRec env ctx s fuel) := by
  intro fuel
  induction fuel with
  | zero => intro st dag offs part json r _ h; simp [normRec] at h
  | succ n ih =>
    rintro st dag offs part json r hst h hno tr m e hp
    simp only [normRec] at h
    unfold normStep at h
    dsimp only at h
    rw [R.bind_eq_ok] at h
    obtain ⟨q, hq, h⟩ := h
    split at h
    · simp only [R.pure_eq, R.ok.injEq] at h; rw [← h] at hno; cases hno
    · simp only [R.pure_eq, R.ok.injEq] at h; subst h
      cases tr with
      | nil => cases hp; omega
      | cons hd tl =>
        have := tryLoop_far hdec hrep (normRec_sound_loose n) (normRec_sound (fun _ => hdec) n)
          (normRec_complete hdec hrep n) (normRec_reach (fun _ => hdec) n) ih
          (ctx.node dag).parsers 0 (st.bumpCalled dag) st.parsedTo json q (by simp) (Nat.le_refl _) hst hq hno
          hd tl m e (Nat.zero_le _) hp
        omega

/-- What is reported of a message without match. -/
theorem normalize_unparsed {fuel : Nat} {stats : NodeId → Stats} {json0 : Obj} {res : Res}
    (hdec : ¬ slack → Decided env ctx s) (h : normalize env fuel ctx stats s json0 = .ok res) (hno : res.ok = false) :
    ∃ u, (∃ tr m, Holds env ctx s slack (.path ctx.root 0 tr m u)) ∧ u ≤ s.length ∧
      (¬ slack → NoRepeat ctx → ∀ tr m off, Holds env ctx s False (.path ctx.root 0 tr m off) → off ≤ u) ∧
      res.json = Obj.add (Obj.add json0 (bs! "originalmsg") (.str s)) (bs! "unparsed-data") (newString (s.drop u)) := by
  unfold normalize at h
  rw [R.bind_eq_ok] at h
  obtain ⟨r, hr, h⟩ := h
  have hS := normRec_sound (slack := slack) hdec fuel _ _ _ _ _ _ (by simp) hr
  cases hm : r.matched with
  | true =>
    exfalso
    cases he : r.endNode with
    | none => simp [hm, he] at h
    | some e =>
      simp only [hm, he] at h
      split at h <;> (rw [R.bind_eq_ok] at h; obtain ⟨o, _, h⟩ := h; simp at h; subst h; cases hno)
  | false =>
    simp only [hm, hS.2 hm, Option.getD_some] at h
    rw [R.bind_eq_ok] at h
    obtain ⟨o2, ho2, h⟩ := h
    simp only [R.pure_eq, R.ok.injEq] at h
    subst h
    unfold addUnparsedField at ho2
    dsimp only at ho2
    split at ho2
    · cases ho2
    rename_i hle
    cases ho2
    refine ⟨r.st.parsedTo, ?_, by omega, fun hs hrep tr m off hp => ?_, rfl⟩
    · rcases (normRec_reach hdec fuel _ _ _ _ _ _ (by simp) hr hm).2 with h1 | h1
      · rw [h1]; exact ⟨[], _, .nil _ _⟩
      · exact h1
    · have := normRec_far (hdec hs) hrep fuel _ _ _ _ _ _ (by simp) hr hm tr m off hp
      omega

end LN
