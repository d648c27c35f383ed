import Verif.Proofs.RLemmas
import Verif.Model.Pdag
/- Facts about the search which hold for every rulebase: fuel monotonicity, independence of the
statistics, of the mockup and of the options. -/
namespace LN

/-- lifting of a relation to outcomes -/
def RRel {α β : Type} (P : α → β → Prop) : R α → R β → Prop
  | .ok a, .ok b => P a b
  | .fail, .fail => True
  | .ub k, .ub k' => k = k'
  | .oof, .oof => True
  | _, _ => False

theorem RRel.bind {α β γ δ : Type} {P : α → β → Prop} {Q : γ → δ → Prop} {x : R α} {y : R β}
    {f : α → R γ} {g : β → R δ} (h : RRel P x y) (hfg : ∀ a b, P a b → RRel Q (f a) (g b)) :
    RRel Q (x >>= f) (y >>= g) := by
  cases x <;> cases y <;> simp_all [RRel]
  
theorem RRel.refl {α : Type} {P : α → α → Prop} (hP : ∀ a, P a a) (x : R α) : RRel P x x := by
  cases x <;> simp [RRel, hP]

theorem RRel.eq_iff {α : Type} {x y : R α} : RRel (· = ·) x y ↔ x = y := by
  cases x <;> cases y <;> simp [RRel]

/-! ### non-interference -/

/-- States that differ only in statistics (and, if `w`, in the collected mockup). -/
def SameSt (w : Bool) (a b : Npb) : Prop := a.parsedTo = b.parsedTo ∧ (w = false → a.rule = b.rule)

/-- Results that differ only in statistics (and, if `w`, in the collected mockup). -/
def SameRes (w : Bool) (a b : NRes) : Prop :=
  a.matched = b.matched ∧ a.json = b.json ∧ a.endNode = b.endNode ∧ SameSt w a.st b.st

/-- Contexts with the same rulebase; if not `w`, also the mockup option agrees. -/
def SameGraph (w : Bool) (c d : Ctx) : Prop :=
  c.node = d.node ∧ c.types = d.types ∧ (w = false → c.has 0x08 = d.has 0x08)

def SameRec (w : Bool) (f g : Rec) : Prop :=
  ∀ a b dag offs part json, SameSt w a b → RRel (SameRes w) (f a dag offs part json) (g b dag offs part json)

/-- Results of `tryParser` and of the repeat loop that differ only in statistics -/
def SameTry {β : Type} (w : Bool) (a b : Npb × β) : Prop := SameSt w a.1 b.1 ∧ a.2 = b.2

theorem repeatLoop_same {w : Bool} {f g : Rec} (h : SameRec w f g) (pn wn : NodeId) (permit : Bool)
    (save : Nat) : ∀ (fuel : Nat) (a b : Npb) (so good : Nat) (arr : Option (List Json)),
    SameSt w a b → RRel (SameTry w) (repeatLoop f pn wn permit save fuel a so good arr)
      (repeatLoop g pn wn permit save fuel b so good arr) := by
  intro fuel
  induction fuel with
  | zero => intros; simp [repeatLoop, RRel]
  | succ n ih =>
    intro a b so good arr hab
    simp only [repeatLoop]
    refine RRel.bind (h a b pn so true (some []) hab) ?_
    rintro r r' ⟨hm, hj, _, hst⟩
    rw [← hm]
    cases hmm : r.matched with
    | false =>
      cases permit <;> simp [RRel, SameTry, SameSt, hst.1] <;> exact hst.2
    | true =>
      simp only [Bool.not_true, Bool.false_eq_true, if_false]
      rw [← hst.1, ← hj]
      refine RRel.bind (h _ _ wn r.st.parsedTo true none ⟨rfl, hst.2⟩) ?_
      rintro q q' ⟨hm', _, _, hst'⟩
      rw [← hm']
      cases hmm' : q.matched with
      | false => simp [RRel, SameTry, SameSt]; exact hst'.2
      | true =>
        simp only [if_true]
        rw [← hst'.1]
        exact ih _ _ _ _ _ hst'

theorem tryParser_same {w : Bool} {c d : Ctx} (hc : SameGraph w c d) {f g : Rec}
    (h : SameRec w f g) (env : Env) (s : Bytes) (fuel : Nat) (a b : Npb) (offs : Nat) (p : Parser)
    (hab : SameSt w a b) :
    RRel (SameTry w) (tryParser env c s f fuel a offs p) (tryParser env d s g fuel b offs p) := by
  unfold tryParser
  cases hk : p.kind
  case custom idx =>
    simp only
    rw [← hc.2.1]
    cases c.types[idx]? with
    | none => simp [RRel]
    | some t =>
      obtain ⟨nm, tn⟩ := t
      simp only
      refine RRel.bind (h a b tn offs true (some []) hab) ?_
      rintro r r' ⟨hm, hj, _, hst⟩
      rw [← hm]
      cases hmm : r.matched <;> simp [RRel, SameTry, SameSt, hst.1, hab.1, hj] <;> exact hst.2
  case repeat_ dt =>
    cases dt with
    | none => simp [RRel]
    | some t =>
      obtain ⟨pn, wn, permit⟩ := t
      simp only
      rw [hab.1]
      refine RRel.bind (repeatLoop_same h pn wn permit b.parsedTo fuel a b offs offs none hab) ?_
      rintro ⟨q, v⟩ ⟨q', v'⟩ ⟨h1, h2⟩
      simp only at h1 h2
      subst h2
      simp [RRel, SameTry, SameSt]
      exact h1.2
  all_goals
    simp only
    refine RRel.bind (RRel.refl (P := (· = ·)) (fun _ => rfl) _) ?_
    rintro r r' rfl
    simp [RRel, SameTry]
    exact hab

theorem tryLoop_same {w : Bool} {c d : Ctx} (hc : SameGraph w c d) {f g : Rec}
    (h : SameRec w f g) (env : Env) (s : Bytes) (fuel : Nat) (dag : NodeId) (offs : Nat)
    (part : Bool) : ∀ (ps : List Parser) (a b : Npb) (pt : Nat) (json : Option Obj), SameSt w a b →
    RRel (SameRes w) (tryLoop env c s f fuel dag offs part ps a pt json)
      (tryLoop env d s g fuel dag offs part ps b pt json) := by
  intro ps
  induction ps with
  | nil => intro a b pt json hab; simp [tryLoop, RRel, SameRes]; exact hab
  | cons p ps ih =>
    intro a b pt json hab
    simp only [tryLoop]
    refine RRel.bind (tryParser_same hc h env s fuel a b offs p hab) ?_
    rintro ⟨q, v⟩ ⟨q', v'⟩ ⟨h1, h2⟩
    simp only at h1 h2
    subst h2
    cases v with
    | none =>
      simp only
      exact ih _ _ _ _ ⟨by simp [Npb.raise, h1.1], h1.2⟩
    | some v =>
      obtain ⟨no, val⟩ := v
      simp only
      refine RRel.bind (h q q' p.node no part json h1) ?_
      rintro r r' ⟨hm, hj, he, hst⟩
      rw [← hm]
      cases hmm : r.matched with
      | false =>
        simp only [Bool.false_eq_true, if_false]
        rw [← hj]
        exact ih _ _ _ _ ⟨by simp [Npb.raise, Npb.bumpBack, hst.1], hst.2⟩
      | true =>
        simp only [if_true]
        rw [← hj]
        refine RRel.bind (RRel.refl (P := (· = ·)) (fun _ => rfl) _) ?_
        rintro j j' rfl
        refine ⟨rfl, rfl, he, ?_, ?_⟩
        · cases c.has 8 <;> cases d.has 8 <;> simp [Npb.raise, hst.1]
        · intro hw
          rw [← hc.2.2 hw]
          cases c.has 8 <;> simp [Npb.raise, hst.2 hw]

theorem normRec_same {w : Bool} {c d : Ctx} (hc : SameGraph w c d) (env : Env) (s : Bytes) :
    ∀ fuel, SameRec w (normRec env c s fuel) (normRec env d s fuel) := by
  intro fuel
  induction fuel with
  | zero => intro a b dag offs part json _; simp [normRec, RRel]
  | succ n ih =>
    intro a b dag offs part json hab
    simp only [normRec, normStep]
    rw [← hc.1, ← hab.1]
    refine RRel.bind (tryLoop_same hc ih env s n dag offs part _ _ _ _ _ ?_) ?_
    · exact ⟨hab.1, hab.2⟩
    · rintro r r' ⟨hm, hj, he, hst⟩
      split
      · exact ⟨rfl, hj, rfl, hst⟩
      · exact ⟨hm, hj, he, hst⟩

/-! ### fuel monotonicity -/

/-- `x` is unfinished or equal to `y` -/
def Below {α : Type} (x y : R α) : Prop := x = .oof ∨ x = y

theorem Below.refl {α : Type} (x : R α) : Below x x := .inr rfl

theorem Below.bind {α β : Type} {x y : R α} {f g : α → R β} (h : Below x y)
    (hf : ∀ a, Below (f a) (g a)) : Below (x >>= f) (y >>= g) := by
  rcases h with rfl | rfl
  · exact .inl rfl
  · cases x
    · exact hf _
    all_goals exact .inr rfl

def BelowRec (f g : Rec) : Prop := ∀ st dag offs part json,
  Below (f st dag offs part json) (g st dag offs part json)

theorem repeatLoop_below {f g : Rec} (h : BelowRec f g) (pn wn : NodeId) (permit : Bool)
    (save : Nat) : ∀ (fuel : Nat) (a : Npb) (so good : Nat) (arr : Option (List Json)),
    Below (repeatLoop f pn wn permit save fuel a so good arr)
      (repeatLoop g pn wn permit save (fuel + 1) a so good arr) := by
  intro fuel
  induction fuel with
  | zero => intros; exact .inl rfl
  | succ n ih =>
    intro a so good arr
    rw [repeatLoop, repeatLoop]
    refine Below.bind (h _ _ _ _ _) fun r => ?_
    split
    · exact .refl _
    · refine Below.bind (h _ _ _ _ _) fun r => ?_
      split
      · exact ih _ _ _ _
      · exact .refl _

theorem tryParser_below {f g : Rec} (h : BelowRec f g) (env : Env) (c : Ctx) (s : Bytes)
    (fuel : Nat) (a : Npb) (offs : Nat) (p : Parser) :
    Below (tryParser env c s f fuel a offs p) (tryParser env c s g (fuel + 1) a offs p) := by
  unfold tryParser
  cases hk : p.kind
  case custom idx =>
    simp only
    cases c.types[idx]? with
    | none => exact .refl _
    | some t =>
      obtain ⟨nm, tn⟩ := t
      exact Below.bind (h _ _ _ _ _) fun r => .refl _
  case repeat_ dt =>
    cases dt with
    | none => exact .refl _
    | some t =>
      obtain ⟨pn, wn, permit⟩ := t
      exact Below.bind (repeatLoop_below h _ _ _ _ _ _ _ _ _) fun r => .refl _
  all_goals exact .refl _

theorem tryLoop_below {f g : Rec} (h : BelowRec f g) (env : Env) (c : Ctx) (s : Bytes) (fuel : Nat)
    (dag : NodeId) (offs : Nat) (part : Bool) :
    ∀ (ps : List Parser) (a : Npb) (pt : Nat) (json : Option Obj),
    Below (tryLoop env c s f fuel dag offs part ps a pt json)
      (tryLoop env c s g (fuel + 1) dag offs part ps a pt json) := by
  intro ps
  induction ps with
  | nil => intros; exact .refl _
  | cons p ps ih =>
    intro a pt json
    rw [tryLoop, tryLoop]
    refine Below.bind (tryParser_below h env c s fuel a offs p) fun r => ?_
    obtain ⟨q, v⟩ := r
    cases v with
    | none => exact ih _ _ _
    | some v =>
      refine Below.bind (h _ _ _ _ _) fun r => ?_
      split
      · exact .refl _
      · exact ih _ _ _

theorem normRec_below (env : Env) (c : Ctx) (s : Bytes) :
    ∀ fuel, BelowRec (normRec env c s fuel) (normRec env c s (fuel + 1)) := by
  intro fuel
  induction fuel with
  | zero => intro st dag offs part json; exact .inl rfl
  | succ n ih =>
    intro st dag offs part json
    rw [normRec, normRec.eq_def env c s (n + 1 + 1)]
    simp only [normStep]
    refine Below.bind (tryLoop_below ih env c s n dag offs part _ _ _ _) fun r => ?_
    exact .refl _

theorem normalize_below (env : Env) (c : Ctx) (stats : NodeId → Stats) (s : Bytes) (json0 : Obj)
    (fuel : Nat) :
    Below (normalize env fuel c stats s json0) (normalize env (fuel + 1) c stats s json0) :=
  Below.bind (normRec_below env c s fuel _ _ _ _ _) fun _ => .refl _

/-- once the search has finished, more fuel does not change anything -/
theorem normalize_mono {env : Env} {c : Ctx} {stats : NodeId → Stats} {s : Bytes} {json0 : Obj}
    {fuel fuel' : Nat} (hle : fuel ≤ fuel') (h : normalize env fuel c stats s json0 ≠ .oof) :
    normalize env fuel' c stats s json0 = normalize env fuel c stats s json0 := by
  induction hle with
  | refl => rfl
  | step _ ih =>
    rename_i m _
    rcases normalize_below env c stats s json0 m with h1 | h1
    · rw [ih] at h1; exact absurd h1 h
    · rw [← h1, ih]

/-! ### statistics only grow -/

def Grows (a b : NodeId → Stats) : Prop :=
  ∀ n, (a n).called ≤ (b n).called ∧ (a n).backtracked ≤ (b n).backtracked

theorem Grows.refl (a : NodeId → Stats) : Grows a a := fun _ => ⟨Nat.le_refl _, Nat.le_refl _⟩
theorem Grows.trans {a b c : NodeId → Stats} (h : Grows a b) (h' : Grows b c) : Grows a c :=
  fun n => ⟨Nat.le_trans (h n).1 (h' n).1, Nat.le_trans (h n).2 (h' n).2⟩

def GrowsRec (f : Rec) : Prop := ∀ st dag offs part json r,
  f st dag offs part json = .ok r → Grows st.stats r.st.stats

theorem repeatLoop_grows {f : Rec} (h : GrowsRec f) (pn wn : NodeId) (permit : Bool)
    (save : Nat) : ∀ (fuel : Nat) (a : Npb) (so good : Nat) (arr : Option (List Json)) r,
    repeatLoop f pn wn permit save fuel a so good arr = .ok r → Grows a.stats r.1.stats := by
  intro fuel
  induction fuel with
  | zero => intro a so good arr r hr; simp [repeatLoop] at hr
  | succ n ih =>
    intro a so good arr r hr
    rw [repeatLoop, R.bind_eq_ok] at hr
    obtain ⟨q, hq, hr⟩ := hr
    have h1 := h _ _ _ _ _ _ hq
    split at hr
    · split at hr <;> simp at hr <;> subst hr <;> exact h1
    · rw [R.bind_eq_ok] at hr
      obtain ⟨w, hw, hr⟩ := hr
      have h2 := h _ _ _ _ _ _ hw
      have h3 : Grows a.stats w.st.stats := h1.trans h2
      split at hr
      · exact h3.trans (ih _ _ _ _ _ hr)
      · simp at hr; subst hr; exact h3

theorem tryParser_grows {f : Rec} (h : GrowsRec f) {env : Env} {c : Ctx} {s : Bytes} {fuel : Nat}
    {a : Npb} {offs : Nat} {p : Parser} {r : Npb × Option (Nat × Option Json)}
    (hr : tryParser env c s f fuel a offs p = .ok r) : Grows a.stats r.1.stats := by
  unfold tryParser at hr
  split at hr
  · split at hr
    · cases hr
    · rw [R.bind_eq_ok] at hr
      obtain ⟨q, hq, hr⟩ := hr
      have h1 := h _ _ _ _ _ _ hq
      simp only at hr
      split at hr <;> simp at hr <;> subst hr <;> exact h1
  · split at hr
    · cases hr
    · rw [R.bind_eq_ok] at hr
      obtain ⟨q, hq, hr⟩ := hr
      have h1 := repeatLoop_grows h _ _ _ _ _ _ _ _ _ _ hq
      obtain ⟨q1, q2⟩ := q
      simp at hr; subst hr; exact h1
  · rw [R.bind_eq_ok] at hr
    obtain ⟨q, _, hr⟩ := hr
    simp at hr; subst hr; exact .refl _

theorem bumpBack_grows (st : Npb) (n : NodeId) : Grows st.stats (st.bumpBack n).stats := by
  intro m; simp only [Npb.bumpBack]; split <;> simp
theorem bumpCalled_grows (st : Npb) (n : NodeId) : Grows st.stats (st.bumpCalled n).stats := by
  intro m; simp only [Npb.bumpCalled]; split <;> simp

theorem tryLoop_grows {f : Rec} (h : GrowsRec f) {env : Env} {c : Ctx} {s : Bytes} {fuel : Nat}
    {dag : NodeId} {offs : Nat} {part : Bool} :
    ∀ (ps : List Parser) (a : Npb) (pt : Nat) (json : Option Obj) (r : NRes),
    tryLoop env c s f fuel dag offs part ps a pt json = .ok r → Grows a.stats r.st.stats := by
  intro ps
  induction ps with
  | nil => intro a pt json r hr; simp [tryLoop] at hr; subst hr; exact .refl _
  | cons p ps ih =>
    intro a pt json r hr
    rw [tryLoop, R.bind_eq_ok] at hr
    obtain ⟨⟨q, v⟩, hq, hr⟩ := hr
    have h1 := tryParser_grows h hq
    cases v with
    | none =>
      have h2 := ih _ _ _ _ hr
      exact h1.trans h2
    | some v =>
      rw [R.bind_eq_ok] at hr
      obtain ⟨sub, hsub, hr⟩ := hr
      have h2 := h1.trans (h _ _ _ _ _ _ hsub)
      split at hr
      · rw [R.bind_eq_ok] at hr
        obtain ⟨j, _, hr⟩ := hr
        simp at hr; subst hr
        by_cases ho : c.has 8 = true <;> simp [ho, Npb.raise] <;> exact h2
      · have h3 := ih _ _ _ _ hr
        exact (h2.trans (bumpBack_grows _ dag)).trans h3

theorem normRec_grows (env : Env) (c : Ctx) (s : Bytes) : ∀ fuel, GrowsRec (normRec env c s fuel) := by
  intro fuel
  induction fuel with
  | zero => intro st dag offs part json r h; simp [normRec] at h
  | succ n ih =>
    intro st dag offs part json r h
    rw [normRec, normStep, R.bind_eq_ok] at h
    obtain ⟨q, hq, h⟩ := h
    have h1 := (bumpCalled_grows st dag).trans (tryLoop_grows ih _ _ _ _ _ hq)
    split at h <;> simp at h <;> subst h <;> exact h1

/-- a visited node has its counter incremented -/
theorem normRec_called {env : Env} {c : Ctx} {s : Bytes} {fuel : Nat} {st : Npb} {dag : NodeId}
    {offs : Nat} {part : Bool} {json : Option Obj} {r : NRes}
    (h : normRec env c s fuel st dag offs part json = .ok r) :
    (st.stats dag).called + 1 ≤ (r.st.stats dag).called := by
  cases fuel with
  | zero => simp [normRec] at h
  | succ n =>
    rw [normRec, normStep, R.bind_eq_ok] at h
    obtain ⟨q, hq, h⟩ := h
    have h1 := (tryLoop_grows (normRec_grows env c s n) _ _ _ _ _ hq dag).1
    have h0 : ((st.bumpCalled dag).stats dag).called = (st.stats dag).called + 1 := by
      simp [Npb.bumpCalled]
    rw [h0] at h1
    split at h <;> simp at h <;> subst h <;> exact h1

end LN
