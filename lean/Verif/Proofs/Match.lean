import Verif.Proofs.RLemmas
import Verif.Spec.Match
/- The search procedure against the declarative relation `Path`, for flat rulebases. -/
namespace LN

theorem addRuleToMockup_eq (rule : Bytes) (p : Parser) :
    addRuleToMockup rule p = rule ++ (mockField p).reverse := by
  unfold addRuleToMockup mockField addStrReversed
  cases p.kind <;> cases p.name <;> simp

/-- mockup bytes the options ask for -/
def ruleAdd (ctx : Ctx) (tr : List Step) : Bytes :=
  if ctx.has 0x08 then (mockup tr).reverse else []

theorem ruleAdd_nil (ctx : Ctx) : ruleAdd ctx [] = [] := by simp [ruleAdd, mockup]

/-- the stores of the code along a path -/
def storeR (json : Option Obj) : List Step → R (Option Obj)
  | [] => .ok json
  | st :: tr => (storeR json tr).bind fun j => fixJSON j st.field.name st.value

theorem mergeMembers_eq (o : Obj) (ms : Obj) :
    mergeMembers (some o) ms = .ok (some (ms.foldl (fun o m => Obj.add o m.1 m.2) o)) := by
  induction ms generalizing o with
  | nil => rfl
  | cons m ms ih =>
    obtain ⟨k, v⟩ := m
    simp only [mergeMembers, addMember, Bool.false_eq_true, if_false, R.ok_bind', ih, List.foldl_cons]

theorem fixJSON_eq (o : Obj) (name : Option Bytes) (value : Option Json) :
    fixJSON (some o) name value = .ok (some (place o name value)) := by
  unfold fixJSON place
  cases name with
  | none => rfl
  | some nm =>
    simp only
    by_cases h : nm = bs! "."
    · rw [if_pos h, if_pos h]
      cases value with
      | none => rfl
      | some v => cases v <;> first | rfl | exact mergeMembers_eq o _
    · rw [if_neg h, if_neg h]
      cases value with
      | none => rfl
      | some v =>
        cases v with
        | obj ms =>
          match ms with
          | [] => rfl
          | [(k, v)] =>
            simp only [unwrapDotDot, addMember, Obj.addNew, Option.getD_some, if_true]
            split <;> rfl
          | _ :: _ :: _ => rfl
        | _ => rfl

theorem storeR_eq (o : Obj) (tr : List Step) :
    storeR (some o) tr = .ok (some (storeFields o tr)) := by
  induction tr with
  | nil => rfl
  | cons st tr ih => simp only [storeR, ih, R.ok_bind', fixJSON_eq]; rfl

section
variable {env : Env} {ctx : Ctx} {s : Bytes}

theorem tryParser_flat {rec : Rec} {fuel : Nat} {st : Npb} {offs : Nat} {p : Parser}
    (h : p.kind.flat) :
    tryParser env ctx s rec fuel st offs p =
      (runParser env s offs p.kind p.name.isSome).attempt.bind fun r =>
        .ok (st, r.map fun (n, v) => (offs + n, v)) := by
  unfold tryParser
  cases hk : p.kind <;> simp_all [PKind.flat] <;> rfl

/-- What a call of the search does (flat rulebases). -/
structure SearchPost (env : Env) (ctx : Ctx) (s : Bytes) (st : Npb) (dag : NodeId) (offs : Nat)
    (part : Bool) (json : Option Obj) (r : NRes) : Prop where
  hit : r.matched = true → ∃ tr, Matches env ctx s part dag offs tr ∧
    storeR json tr = .ok r.json ∧
    r.endNode = firstEnd ctx s part dag offs tr ∧
    r.st.rule = st.rule ++ ruleAdd ctx tr ∧
    ∀ tr', Matches env ctx s part dag offs tr' →
      TriedBefore (tr.map Step.idx) (tr'.map Step.idx)
  miss : r.matched = false → r.json = json ∧ r.st.rule = st.rule ∧
    ∀ tr, ¬ Matches env ctx s part dag offs tr
  low : st.parsedTo ≤ r.st.parsedTo
  att : r.st.parsedTo = st.parsedTo ∨
    ∃ tr m, tr ≠ [] ∧ Path env ctx s dag offs tr m r.st.parsedTo
  far : r.matched = false → ∀ tr m off', tr ≠ [] → Path env ctx s dag offs tr m off' →
    off' ≤ r.st.parsedTo

/-- The same for the loop, restricted to alternatives from `k` on. -/
structure LoopPost (env : Env) (ctx : Ctx) (s : Bytes) (st : Npb) (dag : NodeId) (offs : Nat)
    (part : Bool) (json : Option Obj) (k : Nat) (r : NRes) : Prop where
  hit : r.matched = true → ∃ hd tl, k ≤ hd.idx ∧ Matches env ctx s part dag offs (hd :: tl) ∧
    storeR json (hd :: tl) = .ok r.json ∧
    r.endNode = firstEnd ctx s part hd.field.node (hd.start + hd.len) tl ∧
    r.st.rule = st.rule ++ ruleAdd ctx (hd :: tl) ∧
    ∀ hd' tl', k ≤ hd'.idx → Matches env ctx s part dag offs (hd' :: tl') →
      TriedBefore ((hd :: tl).map Step.idx) ((hd' :: tl').map Step.idx)
  miss : r.matched = false → r.json = json ∧ r.st.rule = st.rule ∧
    ∀ hd tl, k ≤ hd.idx → ¬ Matches env ctx s part dag offs (hd :: tl)
  low : st.parsedTo ≤ r.st.parsedTo
  att : r.st.parsedTo = st.parsedTo ∨
    ∃ hd tl m, Path env ctx s dag offs (hd :: tl) m r.st.parsedTo
  far : r.matched = false → ∀ hd tl m off', k ≤ hd.idx → Path env ctx s dag offs (hd :: tl) m off' →
    off' ≤ r.st.parsedTo

theorem tryLoop_post (hflat : Flat ctx) {rec : Rec} {fuel : Nat} {dag : NodeId} {offs : Nat}
    {part : Bool}
    (hrec : ∀ st dag offs json r, rec st dag offs part json = .ok r →
      SearchPost env ctx s st dag offs part json r) :
    ∀ (ps : List Parser) (k : Nat) (st : Npb) (pt : Nat) (json : Option Obj) (r : NRes),
      (∀ i, (ctx.node dag).parsers[k + i]? = ps[i]?) → pt ≤ st.parsedTo →
      tryLoop env ctx s rec fuel dag offs part ps st pt json = .ok r →
      LoopPost env ctx s st dag offs part json k r := by
  intro ps
  induction ps with
  | nil =>
    intro k st pt json r hps hpt h
    simp only [tryLoop, R.ok.injEq] at h
    subst h
    have hno : ∀ hd tl m off', k ≤ hd.idx → ¬ Path env ctx s dag offs (hd :: tl) m off' := by
      intro hd tl m off' hk hp
      cases hp with
      | cons hidx hacc htail =>
        rename_i idx p len v
        have := hps (idx - k)
        rw [Nat.add_sub_cancel' (show k ≤ idx from hk), hidx] at this
        simp at this
    refine ⟨by simp, ?_, Nat.le_refl _, .inl rfl, ?_⟩
    · intro _
      exact ⟨rfl, rfl, fun hd tl hk ⟨m, off', hp, _⟩ => hno hd tl m off' hk hp⟩
    · intro _ hd tl m off' hk hp
      exact absurd hp (hno hd tl m off' hk)
  | cons p ps ih =>
    intro k st pt json r hps hpt h
    have hp0 : (ctx.node dag).parsers[k]? = some p := by have := hps 0; simpa using this
    have hpflat : p.kind.flat := hflat dag p (List.mem_of_getElem? hp0)
    have hps' : ∀ i, (ctx.node dag).parsers[k + 1 + i]? = ps[i]? := by
      intro i
      have := hps (i + 1)
      rw [show k + 1 + i = k + (i + 1) by omega, this]; rfl
    -- a path taking alternative k takes p
    have hinv : ∀ hd tl m off', k ≤ hd.idx → Path env ctx s dag offs (hd :: tl) m off' →
        (k + 1 ≤ hd.idx) ∨ (∃ len v, hd = ⟨k, p, offs, len, v⟩ ∧
          runParser env s offs p.kind p.name.isSome = .ok (len, v) ∧
          Path env ctx s p.node (offs + len) tl m off') := by
      intro hd tl m off' hk hpath
      cases hpath with
      | cons hidx hacc htail =>
        rename_i idx p' len v
        rcases Nat.lt_or_ge k idx with hlt | hge
        · exact .inl hlt
        · have : idx = k := Nat.le_antisymm hge hk
          subst this
          rw [hp0] at hidx
          cases hidx
          exact .inr ⟨len, v, rfl, hacc, htail⟩
    rw [tryLoop, tryParser_flat hpflat] at h
    cases hrun : runParser env s offs p.kind p.name.isSome with
    | ub k' => simp [hrun] at h
    | oof => simp [hrun] at h
    | fail =>
      simp only [hrun, R.attempt_fail, R.ok_bind', R.ok_bind, Option.map_none] at h
      have hraise : st.raise pt = st := by
        unfold Npb.raise; rw [Nat.max_eq_left hpt]
      rw [hraise] at h
      have := ih (k + 1) st pt json r hps' hpt h
      have hinv' : ∀ hd tl m off', k ≤ hd.idx → Path env ctx s dag offs (hd :: tl) m off' →
          k + 1 ≤ hd.idx := by
        intro hd tl m off' hk hpath
        rcases hinv hd tl m off' hk hpath with h1 | ⟨len, v, _, h2, _⟩
        · exact h1
        · rw [hrun] at h2; cases h2
      refine ⟨?_, ?_, this.low, this.att, ?_⟩
      · intro hm
        obtain ⟨hd, tl, hk, h1, h2, h3, h4, h5⟩ := this.hit hm
        refine ⟨hd, tl, by omega, h1, h2, h3, h4, ?_⟩
        intro hd' tl' hk' hm'
        obtain ⟨m, off', hp', _⟩ := id hm'
        exact h5 hd' tl' (hinv' _ _ _ _ hk' hp') hm'
      · intro hm
        obtain ⟨h1, h2, h3⟩ := this.miss hm
        refine ⟨h1, h2, ?_⟩
        intro hd tl hk hm'
        obtain ⟨m, off', hp', _⟩ := id hm'
        exact h3 hd tl (hinv' _ _ _ _ hk hp') hm'
      · intro hm hd tl m off' hk hp'
        exact this.far hm hd tl m off' (hinv' _ _ _ _ hk hp') hp'
    | ok lv =>
      obtain ⟨len, v⟩ := lv
      simp only [hrun, R.attempt_ok, R.ok_bind', R.ok_bind, Option.map_some] at h
      rw [R.bind_eq_ok] at h
      obtain ⟨sub, hsub, h⟩ := h
      have hS := hrec _ _ _ _ _ hsub
      have hcons : ∀ {tl m off'}, Path env ctx s p.node (offs + len) tl m off' →
          Path env ctx s dag offs (⟨k, p, offs, len, v⟩ :: tl) m off' :=
        fun hp => .cons hp0 hrun hp
      cases hm : sub.matched with
      | true =>
        simp only [hm, if_true] at h
        rw [R.bind_eq_ok] at h
        obtain ⟨json', hfix, h⟩ := h
        simp only [R.pure_eq, R.ok.injEq] at h
        subst h
        obtain ⟨tl, ⟨m, off', hpath, hterm, hend⟩, hstore, hendn, hrule, hfirst⟩ := hS.hit hm
        refine ⟨?_, by simp, ?_, ?_, by simp⟩
        · intro _
          refine ⟨⟨k, p, offs, len, v⟩, tl, Nat.le_refl _, ⟨m, off', hcons hpath, hterm, hend⟩,
            ?_, hendn, ?_, ?_⟩
          · simp only [storeR, hstore, R.ok_bind', hfix]
          · by_cases ho : ctx.has 0x08 = true
            · simp only [ho, if_true, Npb.raise, addRuleToMockup_eq, hrule, ruleAdd, mockup,
                List.map_cons, List.flatten_cons, List.reverse_append, List.append_assoc]
            · simp [ho, Npb.raise, hrule, ruleAdd]
          · intro hd' tl' hk' hm'
            obtain ⟨m', off'', hp', ht', he'⟩ := id hm'
            simp only [List.map_cons, TriedBefore]
            rcases hinv _ _ _ _ hk' hp' with h1 | ⟨len', v', heq, hr', htl'⟩
            · exact .inl (by omega)
            · rw [hrun] at hr'; cases hr'
              subst heq
              exact .inr ⟨rfl, hfirst tl' ⟨m', off'', htl', ht', he'⟩⟩
        · have := hS.low
          by_cases ho : ctx.has 0x08 = true <;> simp [ho, Npb.raise] <;> omega
        · have hatt : ∀ q, (q = sub.st.parsedTo ∨ q = offs + len) → q = st.parsedTo ∨
              ∃ hd tl m, Path env ctx s dag offs (hd :: tl) m q := by
            rintro q (rfl | rfl)
            · rcases hS.att with h1 | ⟨tr', m', _, hp'⟩
              · exact .inl h1
              · exact .inr ⟨_, _, _, hcons hp'⟩
            · exact .inr ⟨_, [], _, hcons (.nil _ _)⟩
          apply hatt
          by_cases ho : ctx.has 0x08 = true <;> simp [ho, Npb.raise] <;> omega
      | false =>
        simp only [hm, Bool.false_eq_true, if_false] at h
        have := ih (k + 1) _ (offs + len) sub.json r hps' (by simp [Npb.raise, Npb.bumpBack]; omega) h
        obtain ⟨hj, hrl, hno⟩ := hS.miss hm
        rw [hj] at this
        have hpt' : ((sub.st.bumpBack dag).raise (offs + len)).parsedTo =
            max sub.st.parsedTo (offs + len) := rfl
        have hrl' : ((sub.st.bumpBack dag).raise (offs + len)).rule = st.rule := hrl
        have hlow := this.low
        rw [hpt'] at hlow
        have hslow := hS.low
        have hinvM : ∀ hd tl, k ≤ hd.idx → Matches env ctx s part dag offs (hd :: tl) →
            k + 1 ≤ hd.idx := by
          intro hd tl hk ⟨m, off', hp', ht', he'⟩
          rcases hinv _ _ _ _ hk hp' with h1 | ⟨len', v', heq, hr', htl'⟩
          · exact h1
          · rw [hrun] at hr'; cases hr'
            exact absurd ⟨m, off', htl', ht', he'⟩ (hno tl)
        refine ⟨?_, ?_, by omega, ?_, ?_⟩
        · intro hm'
          obtain ⟨hd, tl, hk, h1, h2, h3, h4, h5⟩ := this.hit hm'
          rw [hrl'] at h4
          refine ⟨hd, tl, by omega, h1, h2, h3, h4, ?_⟩
          intro hd' tl' hk' hm''
          exact h5 hd' tl' (hinvM _ _ hk' hm'') hm''
        · intro hm'
          obtain ⟨h1, h2, h3⟩ := this.miss hm'
          rw [hrl'] at h2
          exact ⟨h1, h2, fun hd tl hk hmm => h3 hd tl (hinvM _ _ hk hmm) hmm⟩
        · rcases this.att with h1 | h1
          · rw [hpt'] at h1
            rcases Nat.le_total sub.st.parsedTo (offs + len) with hle | hle
            · rw [Nat.max_eq_right hle] at h1
              rw [h1]
              exact .inr ⟨_, [], _, hcons (.nil _ _)⟩
            · rw [Nat.max_eq_left hle] at h1
              rw [h1]
              rcases hS.att with h2 | ⟨tr', m', _, hp'⟩
              · exact .inl h2
              · exact .inr ⟨_, _, _, hcons hp'⟩
          · exact .inr h1
        · intro hm' hd tl m off' hk hp'
          rcases hinv _ _ _ _ hk hp' with h1 | ⟨len', v', heq, hr', htl'⟩
          · exact this.far hm' hd tl m off' h1 hp'
          · rw [hrun] at hr'; cases hr'
            cases tl with
            | nil => cases htl'; omega
            | cons hd' tl' =>
              have := hS.far hm (hd' :: tl') m off' (by simp) htl'
              omega

theorem normRec_post (hflat : Flat ctx) (part : Bool) :
    ∀ (fuel : Nat) (st : Npb) (dag : NodeId) (offs : Nat) (json : Option Obj) (r : NRes),
      normRec env ctx s fuel st dag offs part json = .ok r →
      SearchPost env ctx s st dag offs part json r := by
  intro fuel
  induction fuel with
  | zero => intro st dag offs json r h; simp [normRec] at h
  | succ n ih =>
    intro st dag offs json r h
    rw [normRec, normStep, R.bind_eq_ok] at h
    obtain ⟨r0, hl, h⟩ := h
    have hL := tryLoop_post hflat ih (ctx.node dag).parsers 0 (st.bumpCalled dag) st.parsedTo json r0
      (by simp) (Nat.le_refl _) hl
    have hpt : (st.bumpCalled dag).parsedTo = st.parsedTo := rfl
    have hrl : (st.bumpCalled dag).rule = st.rule := rfl
    have hatt : r0.st.parsedTo = st.parsedTo ∨
        ∃ tr m, tr ≠ [] ∧ Path env ctx s dag offs tr m r0.st.parsedTo := by
      rcases hL.att with h1 | ⟨hd, tl, m, h1⟩
      · exact .inl h1
      · exact .inr ⟨_, m, by simp, h1⟩
    have hfar : r0.matched = false → ∀ tr m off', tr ≠ [] → Path env ctx s dag offs tr m off' →
        off' ≤ r0.st.parsedTo := by
      intro hm tr m off' hne hp
      cases tr with
      | nil => exact absurd rfl hne
      | cons hd tl => exact hL.far hm hd tl m off' (Nat.zero_le _) hp
    have hCE : ((ctx.node dag).isTerminal && (decide (offs = s.length) || part)) =
        CanEnd ctx s part dag offs := rfl
    rw [hCE] at h
    cases hc : CanEnd ctx s part dag offs with
    | false =>
      simp only [hc, Bool.false_eq_true, if_false, R.pure_eq, R.ok.injEq] at h
      subst h
      have hnil : ¬ Matches env ctx s part dag offs [] := by
        rintro ⟨m, off', hp, ht, he⟩
        cases hp
        simp only [CanEnd, ht, Bool.true_and, Bool.or_eq_false_iff, decide_eq_false_iff_not] at hc
        rcases he with he | he
        · rw [he] at hc; simp at hc
        · exact hc.1 he
      refine ⟨?_, ?_, hL.low, hatt, hfar⟩
      · intro hm
        obtain ⟨hd, tl, _, h1, h2, h3, h4, h5⟩ := hL.hit hm
        refine ⟨hd :: tl, h1, h2, by simp [firstEnd, hc, h3], h4, ?_⟩
        intro tr' hm'
        cases tr' with
        | nil => exact absurd hm' hnil
        | cons hd' tl' => exact h5 hd' tl' (Nat.zero_le _) hm'
      · intro hm
        obtain ⟨h1, h2, h3⟩ := hL.miss hm
        refine ⟨h1, h2, ?_⟩
        intro tr' hm'
        cases tr' with
        | nil => exact absurd hm' hnil
        | cons hd' tl' => exact h3 hd' tl' (Nat.zero_le _) hm'
    | true =>
      simp only [hc, if_true, R.pure_eq, R.ok.injEq] at h
      subst h
      refine ⟨?_, by simp, hL.low, hatt, by simp⟩
      intro _
      cases hm : r0.matched with
      | true =>
        obtain ⟨hd, tl, _, h1, h2, h3, h4, h5⟩ := hL.hit hm
        refine ⟨hd :: tl, h1, h2, by simp [firstEnd, hc], h4, ?_⟩
        intro tr' hm'
        cases tr' with
        | nil => simp [TriedBefore]
        | cons hd' tl' => exact h5 hd' tl' (Nat.zero_le _) hm'
      | false =>
        obtain ⟨h1, h2, h3⟩ := hL.miss hm
        refine ⟨[], ?_, ?_, by simp [firstEnd, hc], ?_, ?_⟩
        · refine ⟨dag, offs, .nil _ _, ?_, ?_⟩
          · simp only [CanEnd, Bool.and_eq_true] at hc; exact hc.1
          · simp only [CanEnd, Bool.and_eq_true, Bool.or_eq_true, decide_eq_true_eq] at hc
            exact hc.2.symm
        · simp [storeR, h1]
        · rw [ruleAdd_nil, List.append_nil]; exact h2
        · intro tr' hm'
          cases tr' with
          | nil => simp [TriedBefore]
          | cons hd' tl' => exact absurd hm' (h3 hd' tl' (Nat.zero_le _))

end
end LN
