import Verif.Spec.Repeat
import Verif.Proofs.Nested
/- The engine on graphs without branching, with repeat fields nested to any depth. -/
set_option autoImplicit false
namespace LN

mutual
/-- From node `n` on the graph is the sequence of fields `fs`, with a rule ending behind the last one. -/
def Chain (c : NodeId → Node) : NodeId → List Fld → Prop
  | n, [] => (c n).parsers = [] ∧ (c n).isTerminal = true
  | n, f :: fs => ∃ p, (c n).parsers = [p] ∧ (c n).isTerminal = false ∧ FldAt c p f ∧ Chain c p.node fs
/-- the parser instance `p` is the field `f` -/
def FldAt (c : NodeId → Node) : Parser → Fld → Prop
  | p, .plain k nm => p.kind = k ∧ p.name = nm ∧ k.flat
  | p, .rep nm el sep permit => ∃ a w, p.kind = .repeat_ (some (a, w, permit)) ∧ p.name = nm ∧ Chain c a el ∧ Chain c w sep ∧ el ≠ [] ∧ sep ≠ [] ∧
      ∀ f ∈ sep, f.name = none
end

theorem FldAt.name {c : NodeId → Node} {p : Parser} {f : Fld} (h : FldAt c p f) : p.name = f.name := by
  cases f with
  | plain k nm => rw [FldAt] at h; exact h.2.1
  | rep nm el sep permit => rw [FldAt] at h; obtain ⟨a, w, _, h, _⟩ := h; exact h

/-- following the only parser of each node leads from `n` to `e` -/
inductive Leads (c : NodeId → Node) : NodeId → NodeId → Prop where
  | stop {n : NodeId} (h : (c n).parsers = []) : Leads c n n
  | step {n e : NodeId} {p : Parser} (h : (c n).parsers = [p]) (t : Leads c p.node e) : Leads c n e

theorem Leads.of_nil {c : NodeId → Node} {n e : NodeId} (h : Leads c n e) (hn : (c n).parsers = []) : e = n := by
  cases h with
  | stop => rfl
  | step h' => rw [hn] at h'; cases h'

theorem Leads.of_cons {c : NodeId → Node} {n e : NodeId} {p : Parser} (h : Leads c n e) (hn : (c n).parsers = [p]) : Leads c p.node e := by
  cases h with
  | stop h' => rw [hn] at h'; cases h'
  | step h' t => rw [hn] at h'; cases h'; exact t

section
variable {env : Env} {ctx : Ctx} {s : Bytes}

theorem attempt_ok {α : Type} {x : R α} {a : α} (h : x = .ok a) : x.attempt = .ok (some a) := by rw [h]; rfl
theorem attempt_fail {α : Type} {x : R α} (h : x = .fail) : x.attempt = .ok none := by rw [h]; rfl

theorem tryParser_plainKind {rec : Rec} {fuel : Nat} {st : Npb} {off : Nat} {p : Parser} (hk : p.kind.flat) :
    tryParser env ctx s rec fuel st off p = (runParser env s off p.kind p.name.isSome).attempt.bind fun r =>
      .ok (st, r.map fun (n, v) => (off + n, v)) := by
  unfold tryParser
  cases hkk : p.kind <;> first | rfl | (rw [hkk] at hk; exact hk.elim)

/-- the fields' values in the object passed, if there is one -/
def putAll (json : Option Obj) (vs : List (Option Bytes × Option Json)) : Option Obj :=
  json.map fun o => vs.foldr (fun x o => place o x.1 x.2) o

/-- what the engine does in each case; `n` is fuel -/
def Reading.Runs (env : Env) (ctx : Ctx) (s : Bytes) : Reading → Prop
  | .takes f off off' v => off ≤ off' ∧ ∀ p, FldAt ctx.node p f → ∃ n0, ∀ n, n0 ≤ n → ∀ st : Npb, st.parsedTo ≤ off →
      ∃ st' : Npb, tryParser env ctx s (normRec env ctx s n) n st off p = .ok (st', some (off', v)) ∧ st'.parsedTo = st.parsedTo
  | .refuses f off => ∀ p, FldAt ctx.node p f → ∃ n0, ∀ n, n0 ≤ n → ∀ st : Npb, st.parsedTo ≤ off →
      ∃ st' : Npb, tryParser env ctx s (normRec env ctx s n) n st off p = .ok (st', none) ∧ st'.parsedTo = st.parsedTo
  | .all fs off vs off' => off ≤ off' ∧ ∀ m, Chain ctx.node m fs → ∃ n0, ∀ n, n0 ≤ n → ∀ (st : Npb) (part : Bool) (json : Option Obj), st.parsedTo ≤ off →
      (json = none → ∀ f ∈ fs, f.name = none) →
      ∃ r : NRes, normRec env ctx s n st m off part json = .ok r ∧ max r.st.parsedTo off = off' ∧ (fs ≠ [] → r.st.parsedTo = off') ∧
        (r.matched = true ↔ part = true ∨ off' = s.length) ∧ (r.matched = true → r.json = putAll json vs) ∧ (r.matched = false → r.json = json) ∧
        (r.matched = true → ∀ e, Leads ctx.node m e → r.endNode = some e)
  | .stuck fs off a => off ≤ a ∧ ∀ m, Chain ctx.node m fs → ∃ n0, ∀ n, n0 ≤ n → ∀ (st : Npb) (part : Bool) (json : Option Obj), st.parsedTo ≤ off →
      ∃ r : NRes, normRec env ctx s n st m off part json = .ok r ∧ max r.st.parsedTo off = a ∧ r.matched = false ∧ r.json = json
  | .list el sep permit off vs off' => off ≤ off' ∧ ∀ a w, Chain ctx.node a el → Chain ctx.node w sep → el ≠ [] → sep ≠ [] → (∀ f ∈ sep, f.name = none) →
      ∃ n0, ∀ n, n0 ≤ n → ∀ k, n0 ≤ k → ∀ (st : Npb) (save good : Nat) (arr : Option (List Json)), st.parsedTo ≤ off →
      ∃ st' : Npb, repeatLoop (normRec env ctx s n) a w permit save k st off good arr = .ok (st', some (off', some (.arr (arr.getD [] ++ vs))))
  | .broken el sep off => ∀ a w, Chain ctx.node a el → Chain ctx.node w sep → el ≠ [] → sep ≠ [] → (∀ f ∈ sep, f.name = none) →
      ∃ n0, ∀ n, n0 ≤ n → ∀ k, n0 ≤ k → ∀ (st : Npb) (save good : Nat) (arr : Option (List Json)), st.parsedTo ≤ off →
      ∃ st' : Npb, repeatLoop (normRec env ctx s n) a w false save k st off good arr = .ok (st', none)

theorem putAll_fix {json : Option Obj} {nm : Option Bytes} {v : Option Json} {vs : List (Option Bytes × Option Json)} (h : json = none → nm = none) :
    fixJSON (putAll json vs) nm v = .ok (putAll json ((nm, v) :: vs)) := by
  cases json with
  | none => rw [h rfl]; rfl
  | some o => exact fixJSON_eq ..

theorem bumpCalled_parsedTo (st : Npb) (n : NodeId) : (st.bumpCalled n).parsedTo = st.parsedTo := rfl

theorem Reads.runs {j : Reading} (h : Reads env s j) : j.Runs env ctx s := by
  induction h with
  | @plain k nm off len v h =>
    refine ⟨Nat.le_add_right _ _, fun p hp => ⟨0, fun n _ st _ => ⟨st, ?_, rfl⟩⟩⟩
    rw [FldAt] at hp
    obtain ⟨h1, h2, h3⟩ := hp
    rw [tryParser_plainKind (h1 ▸ h3), h1, h2, attempt_ok h]
    rfl
  | @noPlain k nm off h =>
    refine fun p hp => ⟨0, fun n _ st _ => ⟨st, ?_, rfl⟩⟩
    rw [FldAt] at hp
    obtain ⟨h1, h2, h3⟩ := hp
    rw [tryParser_plainKind (h1 ▸ h3), h1, h2, attempt_fail h]
    rfl
  | @rep nm el sep permit off off' vs h ih =>
    refine ⟨ih.1, fun p hp => ?_⟩
    rw [FldAt] at hp
    obtain ⟨a, w, hk, hnm, ha, hw, he, hs, hu⟩ := hp
    obtain ⟨n0, hn0⟩ := ih.2 a w ha hw he hs hu
    refine ⟨n0, fun n hn st hst => ?_⟩
    obtain ⟨st', h1⟩ := hn0 n hn n hn st st.parsedTo off none hst
    refine ⟨{ st' with parsedTo := st.parsedTo }, ?_, rfl⟩
    unfold tryParser
    rw [hk]
    dsimp only
    rw [h1, hnm]
    rfl
  | @repNone nm el sep off a h ih =>
    refine ⟨Nat.le_refl _, fun p hp => ?_⟩
    rw [FldAt] at hp
    obtain ⟨m, w, hk, hnm, ha, hw, he, hs, hu⟩ := hp
    obtain ⟨n0, hn0⟩ := ih.2 m ha
    refine ⟨n0 + 1, fun n hn st hst => ?_⟩
    obtain ⟨r, h1, _, h2, _⟩ := hn0 n (by omega) st true (some []) hst
    obtain ⟨k, rfl⟩ : ∃ k, n = k + 1 := ⟨n - 1, by omega⟩
    refine ⟨{ r.st with parsedTo := st.parsedTo }, ?_, rfl⟩
    unfold tryParser
    rw [hk]
    dsimp only
    rw [repeatLoop, h1, hnm]
    simp only [bind, R.ok_bind', h2]
    cases nm <;> rfl
  | @noRep nm el sep off h ih =>
    refine fun p hp => ?_
    rw [FldAt] at hp
    obtain ⟨a, w, hk, hnm, ha, hw, he, hs, hu⟩ := hp
    obtain ⟨n0, hn0⟩ := ih a w ha hw he hs hu
    refine ⟨n0, fun n hn st hst => ?_⟩
    obtain ⟨st', h1⟩ := hn0 n hn n hn st st.parsedTo off none hst
    refine ⟨{ st' with parsedTo := st.parsedTo }, ?_, rfl⟩
    unfold tryParser
    rw [hk]
    dsimp only
    rw [h1]
    rfl
  | @nil off =>
    refine ⟨Nat.le_refl _, fun m hm => ⟨1, fun n hn st part json hst _ => ?_⟩⟩
    rw [Chain] at hm
    obtain ⟨k, rfl⟩ : ∃ k, n = k + 1 := ⟨n - 1, by omega⟩
    rw [normRec, normStep, hm.1, hm.2]
    simp only [tryLoop, bind, R.ok_bind', Bool.true_and]
    by_cases hc : (decide (off = s.length) || part) = true
    · rw [if_pos hc]
      refine ⟨_, rfl, Nat.max_eq_right hst, fun h => absurd rfl h, ?_, ?_, ?_, ?_⟩
      · simp at hc; simp; rcases hc with h | h <;> simp [h]
      · intro _; cases json <;> rfl
      · intro h; cases h
      · intro _ e he; rw [he.of_nil hm.1]
    · rw [if_neg hc]
      refine ⟨_, rfl, Nat.max_eq_right hst, fun h => absurd rfl h, ?_, ?_, ?_, ?_⟩
      · simp at hc; simp [hc]
      · intro h; cases h
      · intro _; rfl
      · intro h; cases h
  | @cons f fs off mid off' v vs h t ihf iht =>
    have hle := iht.1
    refine ⟨Nat.le_trans ihf.1 hle, fun m hm => ?_⟩
    rw [Chain] at hm
    obtain ⟨p, hps, hterm, hp, hch⟩ := hm
    obtain ⟨n1, hn1⟩ := ihf.2 p hp
    obtain ⟨n2, hn2⟩ := iht.2 p.node hch
    refine ⟨max n1 n2 + 1, fun n hn st part json hst hjson => ?_⟩
    obtain ⟨k, rfl⟩ : ∃ k, n = k + 1 := ⟨n - 1, by omega⟩
    have hst' : (st.bumpCalled m).parsedTo ≤ off := hst
    obtain ⟨st1, e1, e2⟩ := hn1 k (by omega) (st.bumpCalled m) hst'
    have hst1 : st1.parsedTo ≤ mid := by rw [e2]; exact Nat.le_trans hst' ihf.1
    obtain ⟨r, q1, q2, q3, q4, q5, q6, q7⟩ := hn2 k (by omega) st1 part json hst1 (fun hj g hg => hjson hj g (List.mem_cons_of_mem _ hg))
    rw [normRec, normStep, hps, hterm]
    simp only [tryLoop, bind, e1, R.ok_bind', q1, Bool.false_and, Bool.false_eq_true, if_false]
    by_cases hmm : r.matched = true
    · rw [if_pos hmm, q5 hmm, FldAt.name hp, putAll_fix (fun hj => hjson hj f List.mem_cons_self)]
      refine ⟨_, rfl, ?_, ?_, ?_, ?_, ?_, ?_⟩
      · show max (max _ mid) off = off'
        split <;> (show max (max r.st.parsedTo mid) off = off'; have := ihf.1; omega)
      · intro _
        show max _ mid = off'
        split <;> exact q2
      · show true = true ↔ _
        rw [← q4, hmm]
      · intro _; rfl
      · intro h; cases h
      · intro _ e he; exact q7 hmm e (he.of_cons hps)
    · have hmf : r.matched = false := by simpa using hmm
      rw [if_neg hmm]
      refine ⟨_, rfl, ?_, ?_, ?_, ?_, ?_, ?_⟩
      · show max (max r.st.parsedTo mid) off = off'
        have := ihf.1; omega
      · intro _
        exact q2
      · show false = true ↔ _
        rw [← q4, hmf]
      · intro h; cases h
      · intro _; exact q6 hmf
      · intro h; cases h
  | @here f fs off h ih =>
    refine ⟨Nat.le_refl _, fun m hm => ?_⟩
    rw [Chain] at hm
    obtain ⟨p, hps, hterm, hp, hch⟩ := hm
    obtain ⟨n1, hn1⟩ := ih p hp
    refine ⟨n1 + 1, fun n hn st part json hst => ?_⟩
    obtain ⟨k, rfl⟩ : ∃ k, n = k + 1 := ⟨n - 1, by omega⟩
    obtain ⟨st1, e1, e2⟩ := hn1 k (by omega) (st.bumpCalled m) hst
    rw [normRec, normStep, hps, hterm]
    simp only [tryLoop, bind, e1, R.ok_bind', Bool.false_and, Bool.false_eq_true, if_false]
    refine ⟨_, rfl, ?_, rfl, rfl⟩
    show max (max st1.parsedTo st.parsedTo) off = off
    rw [e2, bumpCalled_parsedTo]
    omega
  | @later f fs off mid a v h t ihf iht =>
    have hle := iht.1
    refine ⟨Nat.le_trans ihf.1 hle, fun m hm => ?_⟩
    rw [Chain] at hm
    obtain ⟨p, hps, hterm, hp, hch⟩ := hm
    obtain ⟨n1, hn1⟩ := ihf.2 p hp
    obtain ⟨n2, hn2⟩ := iht.2 p.node hch
    refine ⟨max n1 n2 + 1, fun n hn st part json hst => ?_⟩
    obtain ⟨k, rfl⟩ : ∃ k, n = k + 1 := ⟨n - 1, by omega⟩
    obtain ⟨st1, e1, e2⟩ := hn1 k (by omega) (st.bumpCalled m) hst
    have hst1 : st1.parsedTo ≤ mid := by rw [e2]; exact Nat.le_trans hst ihf.1
    obtain ⟨r, q1, q2, q3, q4⟩ := hn2 k (by omega) st1 part json hst1
    rw [normRec, normStep, hps, hterm]
    simp only [tryLoop, bind, e1, R.ok_bind', q1, q3, Bool.false_and, Bool.false_eq_true, if_false]
    refine ⟨_, rfl, ?_, rfl, q4⟩
    show max (max r.st.parsedTo mid) off = a
    have := ihf.1; omega
  | @last el sep permit off e a vs h t ih1 ih2 =>
    refine ⟨ih1.1, fun m w ha hw he hs hu => ?_⟩
    obtain ⟨n1, hn1⟩ := ih1.2 m ha
    obtain ⟨n2, hn2⟩ := ih2.2 w hw
    refine ⟨max n1 n2 + 1, fun n hn k hk st save good arr hst => ?_⟩
    obtain ⟨k, rfl⟩ : ∃ k', k = k' + 1 := ⟨k - 1, by omega⟩
    obtain ⟨r, q1, q2, q3, q4, q5, q6⟩ := hn1 n (by omega) st true (some []) hst (by intro h; cases h)
    have hm : r.matched = true := q4.2 (.inl rfl)
    obtain ⟨r', w1, w2, w3, w4⟩ := hn2 n (by omega) { r.st with parsedTo := 0 } true none (Nat.zero_le _)
    rw [repeatLoop, q1]
    simp only [bind, R.ok_bind', hm, Bool.not_true, Bool.false_eq_true, if_false, q3 he, w1, w3]
    refine ⟨{ r'.st with parsedTo := save }, ?_⟩
    rw [q5 hm, repeatElem_eq]
    rfl
  | @giveBack el sep off e e' a vs us h hs t ih1 ih2 ih3 =>
    refine ⟨ih1.1, fun m w ha hw he hs hu => ?_⟩
    obtain ⟨n1, hn1⟩ := ih1.2 m ha
    obtain ⟨n2, hn2⟩ := ih2.2 w hw
    obtain ⟨n3, hn3⟩ := ih3.2 m ha
    refine ⟨max n1 (max n2 n3) + 2, fun n hn k hk st save good arr hst => ?_⟩
    obtain ⟨k, rfl⟩ : ∃ k', k = k' + 2 := ⟨k - 2, by omega⟩
    obtain ⟨r, q1, q2, q3, q4, q5, q6⟩ := hn1 n (by omega) st true (some []) hst (by intro h; cases h)
    have hm : r.matched = true := q4.2 (.inl rfl)
    obtain ⟨r', w1, w2, w3, w4, w5, w6⟩ := hn2 n (by omega) { r.st with parsedTo := 0 } true none (Nat.zero_le _) (fun _ => hu)
    have hm' : r'.matched = true := w4.2 (.inl rfl)
    obtain ⟨r'', x1, x2, x3, x4⟩ := hn3 n (by omega) r'.st true (some []) (Nat.le_of_eq (w3 hs))
    rw [repeatLoop, q1]
    simp only [bind, R.ok_bind', hm, Bool.not_true, Bool.false_eq_true, if_false, q3 he, w1, hm', if_true, w3 hs]
    rw [repeatLoop, x1]
    simp only [bind, R.ok_bind', x3, Bool.not_false, if_true]
    refine ⟨{ r''.st with parsedTo := save }, ?_⟩
    rw [q5 hm, repeatElem_eq]
    rfl
  | @more el sep permit off e e' off' vs us xs h hs t ih1 ih2 ih3 =>
    refine ⟨Nat.le_trans ih1.1 (Nat.le_trans ih2.1 ih3.1), fun m w ha hw he hs hu => ?_⟩
    obtain ⟨n1, hn1⟩ := ih1.2 m ha
    obtain ⟨n2, hn2⟩ := ih2.2 w hw
    obtain ⟨n3, hn3⟩ := ih3.2 m w ha hw he hs hu
    refine ⟨max n1 (max n2 n3) + 1, fun n hn k hk st save good arr hst => ?_⟩
    obtain ⟨k, rfl⟩ : ∃ k', k = k' + 1 := ⟨k - 1, by omega⟩
    obtain ⟨r, q1, q2, q3, q4, q5, q6⟩ := hn1 n (by omega) st true (some []) hst (by intro h; cases h)
    have hm : r.matched = true := q4.2 (.inl rfl)
    obtain ⟨r', w1, w2, w3, w4, w5, w6⟩ := hn2 n (by omega) { r.st with parsedTo := 0 } true none (Nat.zero_le _) (fun _ => hu)
    have hm' : r'.matched = true := w4.2 (.inl rfl)
    obtain ⟨st', x1⟩ := hn3 n (by omega) k (by omega) r'.st save e (some (arr.getD [] ++ [elemValue (vs.foldr (fun x o => place o x.1 x.2) [])]))
      (Nat.le_of_eq (w3 hs))
    rw [repeatLoop, q1]
    simp only [bind, R.ok_bind', hm, Bool.not_true, Bool.false_eq_true, if_false, q3 he, w1, hm', if_true, w3 hs]
    refine ⟨st', ?_⟩
    rw [q5 hm, repeatElem_eq]
    refine Eq.trans x1 ?_
    simp
  | @none_ el sep off a h ih =>
    refine fun m w ha hw he hs hu => ?_
    obtain ⟨n1, hn1⟩ := ih.2 m ha
    refine ⟨n1 + 1, fun n hn k hk st save good arr hst => ?_⟩
    obtain ⟨k, rfl⟩ : ∃ k', k = k' + 1 := ⟨k - 1, by omega⟩
    obtain ⟨r, q1, q2, q3, q4⟩ := hn1 n (by omega) st true (some []) hst
    rw [repeatLoop, q1]
    simp only [bind, R.ok_bind', q3, Bool.not_false, if_true, Bool.false_eq_true, if_false]
    exact ⟨_, rfl⟩
  | @after el sep off e e' vs us h hs t ih1 ih2 ih3 =>
    refine fun m w ha hw he hs hu => ?_
    obtain ⟨n1, hn1⟩ := ih1.2 m ha
    obtain ⟨n2, hn2⟩ := ih2.2 w hw
    obtain ⟨n3, hn3⟩ := ih3 m w ha hw he hs hu
    refine ⟨max n1 (max n2 n3) + 1, fun n hn k hk st save good arr hst => ?_⟩
    obtain ⟨k, rfl⟩ : ∃ k', k = k' + 1 := ⟨k - 1, by omega⟩
    obtain ⟨r, q1, q2, q3, q4, q5, q6⟩ := hn1 n (by omega) st true (some []) hst (by intro h; cases h)
    have hm : r.matched = true := q4.2 (.inl rfl)
    obtain ⟨r', w1, w2, w3, w4, w5, w6⟩ := hn2 n (by omega) { r.st with parsedTo := 0 } true none (Nat.zero_le _) (fun _ => hu)
    have hm' : r'.matched = true := w4.2 (.inl rfl)
    obtain ⟨st', x1⟩ := hn3 n (by omega) k (by omega) r'.st save e (some (arr.getD [] ++ [repeatElem (r.json.getD [])]))
      (Nat.le_of_eq (w3 hs))
    rw [repeatLoop, q1]
    simp only [bind, R.ok_bind', hm, Bool.not_true, Bool.false_eq_true, if_false, q3 he, w1, hm', if_true, w3 hs]
    exact ⟨st', x1⟩

end
end LN
