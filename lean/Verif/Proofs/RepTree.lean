import Verif.Spec.DocRs
import Verif.Proofs.Repeat
import Verif.Proofs.RepeatTotal
/- The engine on trees with repeat fields, for messages which tell the branches apart. -/
set_option autoImplicit false
namespace LN

/-- a way through the graph, with the fields on it -/
inductive RPath (c : NodeId → Node) : NodeId → List Fld → NodeId → Prop where
  | nil (n : NodeId) : RPath c n [] n
  | cons {n m : NodeId} {q : Parser} {f : Fld} {fs : List Fld} (hq : q ∈ (c n).parsers) (hf : FldAt c q f) (t : RPath c q.node fs m) : RPath c n (f :: fs) m

section
variable {env : Env} {s : Bytes}

theorem takes_begins : ∀ {f : Fld} {off mid : Nat} {v : Option Json}, Reads env s (.takes f off mid v) → f.Begins env s off
  | .plain k nm, off, mid, v, h => by
    rw [Fld.Begins]
    intro h'
    exact h.det.2 h'
  | .rep nm el sep permit, off, mid, v, h => by
    rw [Fld.Begins]
    have key : ∀ vs e, Reads env s (.all el off vs e) → Fld.BeginsAll env s off el := by
      intro vs e ha
      cases el with
      | nil => rw [Fld.BeginsAll]; trivial
      | cons f fs =>
        rw [Fld.BeginsAll]
        cases ha with
        | cons h1 _ => exact takes_begins h1
    cases h with
    | repNone _ => exact .inl rfl
    | rep hl =>
      cases hl with
      | last h1 _ => exact .inr (key _ _ h1)
      | giveBack h1 _ _ => exact .inl rfl
      | more h1 _ _ => exact .inr (key _ _ h1)

theorem noBegin_refuses {f : Fld} {off : Nat} (ho : Outcome env s f) (hoff : off ≤ s.length) (h : ¬ f.Begins env s off) : Reads env s (.refuses f off) := by
  rcases ho off hoff with ⟨_, _, h1, _⟩ | h1
  · exact absurd (takes_begins h1) h
  · exact h1

variable {ctx : Ctx}

/-- a field which cannot begin fails, whatever has happened before -/
theorem tryParser_noBegin : ∀ {f : Fld} {off : Nat}, ¬ f.Begins env s off → ∀ {p : Parser}, FldAt ctx.node p f →
    ∃ n0, ∀ n, n0 ≤ n → ∀ st : Npb, ∃ st' : Npb, tryParser env ctx s (normRec env ctx s n) n st off p = .ok (st', none) ∧ st'.parsedTo = st.parsedTo
  | .plain k nm, off, h, p, hp => by
    rw [Fld.Begins] at h
    have h : Reads env s (.refuses (.plain k nm) off) := Classical.not_not.1 h
    rw [FldAt] at hp
    obtain ⟨h1, h2, h3⟩ := hp
    refine ⟨0, fun n _ st => ⟨st, ?_, rfl⟩⟩
    cases h with
    | noPlain h =>
      rw [tryParser_plainKind (h1 ▸ h3), h1, h2, attempt_fail h]
      rfl
  | .rep nm [] sep permit, off, h, p, hp => by
    rw [Fld.Begins, Fld.BeginsAll] at h
    exact absurd (.inr trivial) h
  | .rep nm (g :: gs) sep permit, off, h, p, hp => by
    rw [Fld.Begins, Fld.BeginsAll] at h
    rw [FldAt] at hp
    obtain ⟨a, w, hk, hnm, ha, hw, he, hs, hu⟩ := hp
    rw [Chain] at ha
    obtain ⟨q, hps, hterm, hq, hch⟩ := ha
    obtain ⟨n0, hn0⟩ := tryParser_noBegin (f := g) (off := off) (fun x => h (.inr x)) hq
    refine ⟨n0 + 1, fun n hn st => ?_⟩
    obtain ⟨k, rfl⟩ : ∃ k, n = k + 1 := ⟨n - 1, by omega⟩
    obtain ⟨st1, e1, _⟩ := hn0 k (by omega) (st.bumpCalled a)
    have hr : normRec env ctx s (k + 1) st a off true (some []) = .ok ⟨false, st1.raise st.parsedTo, some [], none⟩ := by
      rw [normRec, normStep, hps, hterm]
      simp only [tryLoop, bind, e1, R.ok_bind', Bool.false_and, Bool.false_eq_true, if_false]
      rfl
    have hperm : permit = false := by
      cases permit with
      | false => rfl
      | true => exact absurd (.inl rfl) h
    subst hperm
    refine ⟨{ st1.raise st.parsedTo with parsedTo := st.parsedTo }, ?_, rfl⟩
    unfold tryParser
    rw [hk]
    dsimp only
    rw [repeatLoop, hr]
    simp only [bind, R.ok_bind', Bool.not_false, if_true, Bool.false_eq_true, if_false]
    rfl

/-- fields which cannot begin are passed over -/
theorem tryLoop_skip {dag : NodeId} {off : Nat} {part : Bool} (rest : List Parser) : ∀ (ps : List Parser), (∀ q ∈ ps, ∃ f, FldAt ctx.node q f ∧ ¬ f.Begins env s off) →
    ∃ n0, ∀ n, n0 ≤ n → ∀ (st : Npb) (pt : Nat) (json : Option Obj), ∃ st' : Npb,
      tryLoop env ctx s (normRec env ctx s n) n dag off part (ps ++ rest) st pt json = tryLoop env ctx s (normRec env ctx s n) n dag off part rest st' pt json ∧
      max st'.parsedTo pt = max st.parsedTo pt ∧ st.parsedTo ≤ st'.parsedTo
  | [], _ => ⟨0, fun n _ st pt json => ⟨st, rfl, rfl, Nat.le_refl _⟩⟩
  | q :: ps, h => by
    obtain ⟨f, hf, hb⟩ := h q (List.mem_cons_self ..)
    obtain ⟨n1, hn1⟩ := tryParser_noBegin hb hf
    obtain ⟨n2, hn2⟩ := tryLoop_skip (dag := dag) (off := off) (part := part) rest ps fun x hx => h x (List.mem_cons_of_mem _ hx)
    refine ⟨max n1 n2, fun n hn st pt json => ?_⟩
    obtain ⟨st1, e1, e2⟩ := hn1 n (by omega) st
    obtain ⟨st', e3, e4, e5⟩ := hn2 n (by omega) (st1.raise pt) pt json
    have e6 : (st1.raise pt).parsedTo = max st.parsedTo pt := by rw [← e2]; rfl
    refine ⟨st', ?_, ?_, ?_⟩
    · rw [List.cons_append, tryLoop, e1]
      simp only [bind, R.ok_bind']
      exact e3
    · rw [e4, e6]; omega
    · rw [e6] at e5; omega

/-- the top level of the graph: a tree (children have larger numbers) of fields with an outcome, and the message tells the branches apart -/
structure TopAt (env : Env) (s : Bytes) (c : NodeId → Node) (T : NodeId → Prop) (bound : Nat) : Prop where
  lt : ∀ n, T n → n < bound
  edge : ∀ n, T n → ∀ q ∈ (c n).parsers, T q.node ∧ n < q.node ∧ ∃ f, FldAt c q f
  out : ∀ n, T n → ∀ q ∈ (c n).parsers, ∀ f, FldAt c q f → Outcome env s f
  apart : ∀ n, T n → (c n).parsers.Pairwise fun p q => ∀ f g, FldAt c p f → FldAt c q g → ∀ off, off ≤ s.length → ¬ (f.Begins env s off ∧ g.Begins env s off)
  stop : ∀ n, T n → (c n).isTerminal = true → ∀ q ∈ (c n).parsers, ∀ f, FldAt c q f → ¬ f.Begins env s s.length

/-- what the engine says at node `n` and byte `off` -/
inductive Verdict where
  /-- the fields `fs` take the rest of the message and lead to the end `e` of a rule -/
  | yes (fs : List Fld) (vs : List (Option Bytes × Option Json)) (e : NodeId)
  /-- the fields `fs` lead to node `x` and byte `a`, from where there is no way on -/
  | no (fs : List Fld) (vs : List (Option Bytes × Option Json)) (x : NodeId) (a : Nat)

/-- the verdict is justified -/
def Verdict.Just (env : Env) (s : Bytes) (c : NodeId → Node) (n : NodeId) (off : Nat) : Verdict → Prop
  | .yes fs vs e => RPath c n fs e ∧ (c e).isTerminal = true ∧ Reads env s (.all fs off vs s.length)
  | .no fs vs x a => RPath c n fs x ∧ Reads env s (.all fs off vs a) ∧ a ≤ s.length ∧ ((c x).isTerminal = false ∨ a ≠ s.length) ∧
      ∀ q ∈ (c x).parsers, ∀ f, FldAt c q f → Reads env s (.refuses f a)

/-- and it is the one of the engine -/
def Verdict.Is (s : Bytes) (off : Nat) (o : Obj) (r : NRes) : Verdict → Prop
  | .yes _ vs e => r.matched = true ∧ r.json = some (vs.foldr (fun x o => place o x.1 x.2) o) ∧ r.endNode = some e
  | .no _ _ _ a => r.matched = false ∧ r.json = some o ∧ max r.st.parsedTo off = a

theorem pairwise_around {α : Type} {R : α → α → Prop} (hs : ∀ a b, R a b → R b a) {pre post : List α} {q : α} (h : (pre ++ q :: post).Pairwise R) :
    ∀ x, x ∈ pre ∨ x ∈ post → R x q := by
  rw [List.pairwise_append] at h
  obtain ⟨_, h2, h3⟩ := h
  rw [List.pairwise_cons] at h2
  rintro x (hx | hx)
  · exact h3 x hx q (List.mem_cons_self ..)
  · exact hs _ _ (h2.1 x hx)

theorem nat_help0 {b n : Nat} (h : b - n ≤ 0) : ¬ n < b := by omega
theorem nat_help1 {b n k m : Nat} (h : b - n ≤ k + 1) (h' : n < m) : b - m ≤ k := by omega

theorem engine_verdict {T : NodeId → Prop} {bound : Nat} (ht : TopAt env s ctx.node T bound) : ∀ (k : Nat) (n : NodeId), T n → bound - n ≤ k → ∀ off, off ≤ s.length →
    ∃ v : Verdict, v.Just env s ctx.node n off ∧ ∃ n0, ∀ fuel, n0 ≤ fuel → ∀ (st : Npb) (o : Obj), st.parsedTo ≤ off →
      ∃ r, normRec env ctx s fuel st n off false (some o) = .ok r ∧ v.Is s off o r
  | 0, n, hn, hk, off, hoff => absurd (ht.lt n hn) (nat_help0 hk)
  | k + 1, n, hn, hk, off, hoff => by
    have hfld : ∀ q ∈ (ctx.node n).parsers, ∃ f, FldAt ctx.node q f := fun q hq => (ht.edge n hn q hq).2.2
    by_cases hb : ∃ q ∈ (ctx.node n).parsers, ∃ f, FldAt ctx.node q f ∧ f.Begins env s off
    · obtain ⟨q, hq, f, hf, hbf⟩ := hb
      obtain ⟨pre, post, hsplit⟩ := List.append_of_mem hq
      have hap := ht.apart n hn
      rw [hsplit] at hap
      have hothers : ∀ x, x ∈ pre ∨ x ∈ post → ∃ g, FldAt ctx.node x g ∧ ¬ g.Begins env s off := by
        intro x hx
        have hmem : x ∈ (ctx.node n).parsers := by
          rw [hsplit]
          rcases hx with hx | hx
          · exact List.mem_append_left _ hx
          · exact List.mem_append_right _ (List.mem_cons_of_mem _ hx)
        obtain ⟨g, hg⟩ := hfld x hmem
        have := pairwise_around (fun a b h f g hf hg off ho hh => h g f hg hf off ho hh.symm) hap x hx
        exact ⟨g, hg, fun hbg => this g f hg hf off hoff ⟨hbg, hbf⟩⟩
      have hothers' : ∀ x, x ∈ pre ∨ x ∈ post → ∀ g, FldAt ctx.node x g → ¬ g.Begins env s off := by
        intro x hx g hg hbg
        exact pairwise_around (fun a b h f g hf hg off ho hh => h g f hg hf off ho hh.symm) hap x hx g f hg hf off hoff ⟨hbg, hbf⟩
      have hnt : ((ctx.node n).isTerminal && (decide (off = s.length) || false)) = false := by
        cases hterm : (ctx.node n).isTerminal with
        | false => rfl
        | true =>
          have : off ≠ s.length := by
            rintro rfl
            exact ht.stop n hn hterm q hq f hf hbf
          simp [this]
      have hnt' : (ctx.node n).isTerminal = false ∨ off ≠ s.length := by
        cases hterm : (ctx.node n).isTerminal with
        | false => exact .inl rfl
        | true => rw [hterm] at hnt; simp at hnt; exact .inr hnt
      obtain ⟨n1, hn1⟩ := tryLoop_skip (env := env) (ctx := ctx) (s := s) (dag := n) (off := off) (part := false) (q :: post) pre fun x hx => hothers x (.inl hx)
      obtain ⟨n2, hn2⟩ := tryLoop_skip (env := env) (ctx := ctx) (s := s) (dag := n) (off := off) (part := false) [] post fun x hx => hothers x (.inr hx)
      rw [List.append_nil] at hn2
      obtain ⟨hTq, hlt, _⟩ := ht.edge n hn q hq
      rcases ht.out n hn q hq f hf off hoff with ⟨mid, v, hr, hmid⟩ | hr
      · obtain ⟨vd, hjust, n3, hn3⟩ := engine_verdict ht k q.node hTq (nat_help1 hk hlt) mid hmid
        obtain ⟨hle, hrun⟩ := hr.runs (ctx := ctx)
        obtain ⟨n4, hn4⟩ := hrun q hf
        have step : ∀ fuel, max (max n1 n2) (max n3 n4) ≤ fuel → ∀ (st : Npb) (o : Obj), st.parsedTo ≤ off → ∃ (st1 : Npb) (sub : NRes), vd.Is s mid o sub ∧ st1.parsedTo ≤ off ∧
            normRec env ctx s (fuel + 1) st n off false (some o) =
              if sub.matched then (fixJSON sub.json q.name v).bind fun j => .ok ⟨true, (if ctx.has 0x08 then { sub.st with rule := addRuleToMockup sub.st.rule q } else sub.st).raise mid, j, sub.endNode⟩
              else tryLoop env ctx s (normRec env ctx s fuel) fuel n off false post ((sub.st.bumpBack n).raise mid) mid sub.json := by
          intro fuel hfuel st o hst
          obtain ⟨st', e1, e2, e3⟩ := hn1 fuel (by omega) (st.bumpCalled n) st.parsedTo (some o)
          have e4 : st'.parsedTo ≤ off := by
            have h0 : (st.bumpCalled n).parsedTo = st.parsedTo := rfl
            rw [h0] at e2
            omega
          obtain ⟨st1, e5, e6⟩ := hn4 fuel (by omega) st' e4
          obtain ⟨sub, e7, e8⟩ := hn3 fuel (by omega) st1 o (by rw [e6]; omega)
          refine ⟨st1, sub, e8, by rw [e6]; exact e4, ?_⟩
          rw [normRec, normStep, hsplit, e1, tryLoop, e5]
          dsimp only [bind]
          simp only [R.ok_bind', e7]
          cases hm : sub.matched with
          | true =>
            simp only [if_true]
            cases hj : fixJSON sub.json q.name v <;> simp only [R.bind, hnt, Bool.false_eq_true, if_false] <;> rfl
          | false =>
            simp only [Bool.false_eq_true, if_false]
            cases hj : tryLoop env ctx s (normRec env ctx s fuel) fuel n off false post ((sub.st.bumpBack n).raise mid) mid sub.json <;>
              simp only [R.bind, hnt, Bool.false_eq_true, if_false] <;> rfl
        cases vd with
        | yes fs vs e =>
          obtain ⟨j1, j2, j3⟩ := hjust
          refine ⟨.yes (f :: fs) ((f.name, v) :: vs) e, ⟨.cons hq hf j1, j2, .cons hr j3⟩, max (max n1 n2) (max n3 n4) + 1, fun fuel hfuel st o hst => ?_⟩
          obtain ⟨g, rfl⟩ : ∃ g, fuel = g + 1 := ⟨fuel - 1, by omega⟩
          obtain ⟨st1, sub, ⟨i1, i2, i3⟩, _, i5⟩ := step g (by omega) st o hst
          rw [i1, if_pos rfl, i2] at i5
          have := putAll_fix (json := some o) (nm := q.name) (v := v) (vs := vs) (fun h => by cases h)
          change fixJSON (some (vs.foldr (fun x o => place o x.1 x.2) o)) q.name v = _ at this
          rw [this, R.ok_bind', hf.name] at i5
          exact ⟨_, i5, rfl, rfl, i3⟩
        | no fs vs x a =>
          obtain ⟨j1, j2, j3, j4, j5⟩ := hjust
          refine ⟨.no (f :: fs) ((f.name, v) :: vs) x a, ⟨.cons hq hf j1, .cons hr j2, j3, j4, j5⟩, max (max n1 n2) (max n3 n4) + 1, fun fuel hfuel st o hst => ?_⟩
          obtain ⟨g, rfl⟩ : ∃ g, fuel = g + 1 := ⟨fuel - 1, by omega⟩
          obtain ⟨st1, sub, ⟨i1, i2, i3⟩, _, i5⟩ := step g (by omega) st o hst
          rw [i1, if_neg (by simp), i2] at i5
          obtain ⟨st2, k1, k2, k3⟩ := hn2 g (by omega) ((sub.st.bumpBack n).raise mid) mid (some o)
          rw [k1, tryLoop] at i5
          refine ⟨_, i5, rfl, rfl, ?_⟩
          have h0 : ((sub.st.bumpBack n).raise mid).parsedTo = max sub.st.parsedTo mid := rfl
          rw [h0] at k2 k3
          have := j2.le
          dsimp only at this
          show max st2.parsedTo off = a
          omega
      · obtain ⟨n4, hn4⟩ := (hr.runs (ctx := ctx)) q hf
        refine ⟨.no [] [] n off, ⟨.nil n, .nil, hoff, hnt', ?_⟩, max (max n1 n2) n4 + 1, fun fuel hfuel st o hst => ?_⟩
        · intro x hx g hg
          rw [hsplit] at hx
          rcases List.mem_append.1 hx with hx' | hx'
          · exact noBegin_refuses (ht.out n hn x (by rw [hsplit]; exact hx) g hg) hoff (hothers' x (.inl hx') g hg)
          · rcases List.mem_cons.1 hx' with rfl | hx''
            · rcases ht.out n hn x hq g hg off hoff with ⟨m', v', hr', _⟩ | hr'
              · obtain ⟨_, hrun'⟩ := hr'.runs (ctx := ctx)
                obtain ⟨n5, hn5⟩ := hrun' x hg
                obtain ⟨sa, ea, _⟩ := hn5 (max n4 n5) (by omega) { stats := fun _ => {} } (Nat.zero_le _)
                obtain ⟨sb, eb, _⟩ := hn4 (max n4 n5) (by omega) { stats := fun _ => {} } (Nat.zero_le _)
                rw [ea] at eb
                cases eb
              · exact hr'
            · exact noBegin_refuses (ht.out n hn x (by rw [hsplit]; exact hx) g hg) hoff (hothers' x (.inr hx'') g hg)
        · obtain ⟨g, rfl⟩ : ∃ g, fuel = g + 1 := ⟨fuel - 1, by omega⟩
          obtain ⟨st', e1, e2, e3⟩ := hn1 g (by omega) (st.bumpCalled n) st.parsedTo (some o)
          have h0 : (st.bumpCalled n).parsedTo = st.parsedTo := rfl
          rw [h0] at e2
          obtain ⟨st1, e5, e6⟩ := hn4 g (by omega) st' (by omega)
          obtain ⟨st2, k1, k2, k3⟩ := hn2 g (by omega) (st1.raise st.parsedTo) st.parsedTo (some o)
          have h1 : (st1.raise st.parsedTo).parsedTo = max st1.parsedTo st.parsedTo := rfl
          rw [h1] at k2
          refine ⟨⟨false, st2, some o, none⟩, ?_, rfl, rfl, ?_⟩
          · rw [normRec, normStep, hsplit, e1, tryLoop, e5]
            dsimp only [bind]
            simp only [R.ok_bind', k1, tryLoop, hnt, Bool.false_eq_true, if_false]
            rfl
          · show max st2.parsedTo off = off
            omega
    · have hno : ∀ q ∈ (ctx.node n).parsers, ∀ f, FldAt ctx.node q f → ¬ f.Begins env s off := fun q hq f hf h => hb ⟨q, hq, f, hf, h⟩
      obtain ⟨n1, hn1⟩ := tryLoop_skip (env := env) (ctx := ctx) (s := s) (dag := n) (off := off) (part := false) [] (ctx.node n).parsers
        fun q hq => (hfld q hq).imp fun f hf => ⟨hf, hno q hq f hf⟩
      rw [List.append_nil] at hn1
      by_cases hend : (ctx.node n).isTerminal = true ∧ off = s.length
      · obtain ⟨hterm, rfl⟩ := hend
        refine ⟨.yes [] [] n, ⟨.nil n, hterm, .nil⟩, n1 + 1, fun fuel hfuel st o hst => ?_⟩
        obtain ⟨g, rfl⟩ : ∃ g, fuel = g + 1 := ⟨fuel - 1, by omega⟩
        obtain ⟨st', e1, _, _⟩ := hn1 g (by omega) (st.bumpCalled n) st.parsedTo (some o)
        refine ⟨⟨true, st', some o, some n⟩, ?_, rfl, rfl, rfl⟩
        rw [normRec, normStep, e1, tryLoop, hterm]
        simp [bind, R.bind]
      · have hnt : (ctx.node n).isTerminal = false ∨ off ≠ s.length := by
          cases hterm : (ctx.node n).isTerminal with
          | false => exact .inl rfl
          | true => exact .inr fun h => hend ⟨hterm, h⟩
        refine ⟨.no [] [] n off, ⟨.nil n, .nil, hoff, hnt, fun q hq f hf => noBegin_refuses (ht.out n hn q hq f hf) hoff (hno q hq f hf)⟩, n1 + 1,
          fun fuel hfuel st o hst => ?_⟩
        obtain ⟨g, rfl⟩ : ∃ g, fuel = g + 1 := ⟨fuel - 1, by omega⟩
        obtain ⟨st', e1, e2, _⟩ := hn1 g (by omega) (st.bumpCalled n) st.parsedTo (some o)
        have h0 : (st.bumpCalled n).parsedTo = st.parsedTo := rfl
        rw [h0] at e2
        refine ⟨⟨false, st', some o, none⟩, ?_, rfl, rfl, ?_⟩
        · rw [normRec, normStep, e1, tryLoop]
          have : ((ctx.node n).isTerminal && (decide (off = s.length) || false)) = false := by
            rcases hnt with h | h <;> simp [h]
          simp only [bind, R.ok_bind', this, Bool.false_eq_true, if_false]
          rfl
        · show max st'.parsedTo off = off
          omega

end
end LN
