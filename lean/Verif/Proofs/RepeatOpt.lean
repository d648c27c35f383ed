import Verif.Proofs.Repeat
import Verif.Proofs.OptHolds
/- Merging adjacent literals does not change how sequences of fields with repeats read a message. -/
set_option autoImplicit false
namespace LN

/-- an unnamed literal -/
abbrev Fld.lit (l : Bytes) : Fld := .plain (.literal (some l)) none

mutual
/-- `f'` is `f` with some adjacent unnamed literals merged -/
inductive MergedF : Fld → Fld → Prop where
  | plain (k : PKind) (nm : Option Bytes) : MergedF (.plain k nm) (.plain k nm)
  | rep {nm : Option Bytes} {el sep el' sep' : List Fld} {permit : Bool} (h : Merged el el') (h' : Merged sep sep') :
      MergedF (.rep nm el sep permit) (.rep nm el' sep' permit)
inductive Merged : List Fld → List Fld → Prop where
  | nil : Merged [] []
  | cons {f f' : Fld} {fs fs' : List Fld} (h : MergedF f f') (t : Merged fs fs') : Merged (f :: fs) (f' :: fs')
  | merge {l l' : Bytes} {fs fs' : List Fld} (t : Merged fs fs') : Merged (.lit l :: .lit l' :: fs) (.lit (l ++ l') :: fs')
end

theorem MergedF.name {f f' : Fld} (h : MergedF f f') : f'.name = f.name := by cases h <;> rfl

theorem Merged.ne {fs fs' : List Fld} (h : Merged fs fs') (hne : fs ≠ []) : fs' ≠ [] := by
  cases h <;> simp_all

theorem Merged.names {fs : List Fld} : ∀ {fs' : List Fld}, Merged fs fs' → (∀ f ∈ fs, f.name = none) → ∀ f ∈ fs', f.name = none := by
  intro fs' h hn
  cases h with
  | nil => simp
  | cons h t =>
    intro g hg
    rcases List.mem_cons.1 hg with rfl | hg
    · rw [h.name]; exact hn _ List.mem_cons_self
    · exact t.names (fun f hf => hn f (List.mem_cons_of_mem _ hf)) g hg
  | merge t =>
    intro g hg
    rcases List.mem_cons.1 hg with rfl | hg
    · rfl
    · exact t.names (fun f hf => hn f (List.mem_cons_of_mem _ (List.mem_cons_of_mem _ hf))) g hg
termination_by fs.length
decreasing_by all_goals simp_all <;> omega

/-! ### the graph -/

section
variable {c c' : Ctx} {D : NodeId → Prop} {Mg : NodeId → Parser → Parser → Parser → Prop}

/-- a node with one entry keeps having one entry -/
theorem Corr.single (cr : Corr c c' D Mg) {x : NodeId} (hx : D x) {p : Parser} (hp : (c.node x).parsers = [p]) :
    ((c'.node x).parsers = [p] ∧ D p.node) ∨ ∃ q pq, Mg x p q pq ∧ (c'.node x).parsers = [pq] := by
  have hlen : (c'.node x).parsers.length ≤ 1 := by
    have := cr.pw x hx (fun _ _ => False) (fun _ _ h => h) (fun _ _ _ _ _ h => h) (by rw [hp]; simp)
    cases h : (c'.node x).parsers with
    | nil => simp
    | cons a l =>
      cases l with
      | nil => simp
      | cons b l =>
        rw [h] at this
        simp at this
        exact absurd rfl (this.1 b).1
  have one : ∀ a, a ∈ (c'.node x).parsers → (c'.node x).parsers = [a] := by
    intro a ha
    cases h : (c'.node x).parsers with
    | nil => rw [h] at ha; cases ha
    | cons b l =>
      cases l with
      | nil => rw [h] at ha; rw [List.mem_singleton.1 ha]
      | cons d l => rw [h] at hlen; simp at hlen
  rcases cr.fwd x hx p (by rw [hp]; simp) with ⟨h1, h2⟩ | ⟨q, pq, hmg⟩
  · exact .inl ⟨one p h1, h2⟩
  · obtain ⟨_, _, _, _, _, _, _, _, _, _, _, _, _, h⟩ := cr.mg _ _ _ _ hmg
    exact .inr ⟨q, pq, hmg, one pq h⟩

theorem Corr.none (cr : Corr c c' D Mg) {x : NodeId} (hx : D x) (hp : (c.node x).parsers = []) : (c'.node x).parsers = [] := by
  cases h : (c'.node x).parsers with
  | nil => rfl
  | cons b l =>
    rcases cr.bwd x hx b (by rw [h]; simp) with ⟨h1, _⟩ | ⟨p0, q, hmg⟩
    · rw [hp] at h1; cases h1
    · obtain ⟨_, _, _, _, _, _, _, _, _, _, _, _, h1, _⟩ := cr.mg _ _ _ _ hmg
      rw [hp] at h1; cases h1

mutual
theorem Corr.chain (cr : Corr c c' D Mg) {n : NodeId} (hd : D n) : ∀ {fs : List Fld}, Chain c.node n fs → ∃ fs', Merged fs fs' ∧ Chain c'.node n fs'
  | [], h => by
    rw [Chain] at h
    exact ⟨[], .nil, by rw [Chain]; exact ⟨cr.none hd h.1, (cr.node n hd).1.trans h.2⟩⟩
  | f :: fs, h => by
    rw [Chain] at h
    obtain ⟨p, hps, hterm, hf, ht⟩ := h
    rcases cr.single hd hps with ⟨hps', hdp⟩ | ⟨q, pq, hmg, hps'⟩
    · obtain ⟨f', hf', hfa⟩ := cr.fldAt (fun a w permit hk => cr.rep n hd p (by rw [hps]; simp) a w permit hk) hf
      obtain ⟨fs', hfs', hch⟩ := cr.chain hdp ht
      exact ⟨f' :: fs', .cons hf' hfs', by rw [Chain]; exact ⟨p, hps', (cr.node n hd).1.trans hterm, hfa, hch⟩⟩
    · obtain ⟨l, l', hpk, hqk, hpqk, hpn, hqn, hpqn, hpars, hin, hnode, hqd, _, _⟩ := cr.mg _ _ _ _ hmg
      cases f with
      | rep nm el sep permit =>
        rw [FldAt] at hf
        obtain ⟨a, w, hk, _⟩ := hf
        rw [hpk] at hk; cases hk
      | plain k nm =>
        rw [FldAt] at hf
        obtain ⟨hk, hn, _⟩ := hf
        rw [hpk] at hk; rw [hpn] at hn
        subst hk hn
        cases fs with
        | nil =>
          rw [Chain] at ht
          rw [hpars] at ht; cases ht.1
        | cons g fs =>
          rw [Chain] at ht
          obtain ⟨q', hq', hterm', hg, ht'⟩ := ht
          rw [hpars] at hq'
          obtain rfl : q = q' := by simpa using hq'
          cases g with
          | rep nm el sep permit =>
            rw [FldAt] at hg
            obtain ⟨a, w, hk, _⟩ := hg
            rw [hqk] at hk; cases hk
          | plain k nm =>
            rw [FldAt] at hg
            obtain ⟨hk, hn, _⟩ := hg
            rw [hqk] at hk; rw [hqn] at hn
            subst hk hn
            obtain ⟨fs', hfs', hch⟩ := cr.chain hqd ht'
            refine ⟨_, .merge hfs', ?_⟩
            rw [Chain]
            exact ⟨pq, hps', (cr.node n hd).1.trans hterm, by rw [FldAt]; exact ⟨hpqk, hpqn, trivial⟩, by rw [hnode]; exact hch⟩
  termination_by fs => sizeOf fs

theorem Corr.fldAt (cr : Corr c c' D Mg) {p : Parser} (hr : RepIn D p) : ∀ {f : Fld}, FldAt c.node p f → ∃ f', MergedF f f' ∧ FldAt c'.node p f'
  | .plain k nm, h => by
    rw [FldAt] at h
    exact ⟨_, .plain k nm, by rw [FldAt]; exact h⟩
  | .rep nm el sep permit, h => by
    rw [FldAt] at h
    obtain ⟨a, w, hk, hnm, ha, hw, he, hs, hu⟩ := h
    obtain ⟨hda, hdw⟩ := hr a w permit hk
    obtain ⟨el', h1, h2⟩ := cr.chain hda ha
    obtain ⟨sep', h3, h4⟩ := cr.chain hdw hw
    exact ⟨_, .rep h1 h3, by rw [FldAt]; exact ⟨a, w, hk, hnm, h2, h4, h1.ne he, h3.ne hs, h3.names hu⟩⟩
  termination_by f => sizeOf f
end

end

theorem Corr.leads {c c' : Ctx} {D : NodeId → Prop} {Mg : NodeId → Parser → Parser → Parser → Prop} (cr : Corr c c' D Mg) {n e : NodeId}
    (h : Leads c.node n e) : (D n → Leads c'.node n e ∧ D e) ∧ (¬ D n → ∀ p, (c.node n).parsers = [p] → D p.node → Leads c'.node p.node e ∧ D e) := by
  induction h with
  | @stop n h =>
    refine ⟨fun hd => ⟨.stop (cr.none hd h), hd⟩, fun _ p hp => ?_⟩
    rw [h] at hp; cases hp
  | @step n e p h t ih =>
    refine ⟨fun hd => ?_, fun _ p' hp hd => ?_⟩
    · rcases cr.single hd h with ⟨h', hdp⟩ | ⟨q, pq, hmg, h'⟩
      · exact ⟨.step h' (ih.1 hdp).1, (ih.1 hdp).2⟩
      · obtain ⟨l, l', hpk, hqk, hpqk, hpn, hqn, hpqn, hpars, hin, hnode, hqd, _, _⟩ := cr.mg _ _ _ _ hmg
        have := ih.2 hin q hpars hqd
        exact ⟨.step h' (by rw [hnode]; exact this.1), this.2⟩
    · rw [h] at hp; cases hp
      exact ih.1 hd

theorem MergedF.refl : ∀ f : Fld, MergedF f f := by
  intro f
  cases f with
  | plain k nm => exact .plain k nm
  | rep nm el sep permit =>
    have key : ∀ fs : List Fld, (∀ f ∈ fs, MergedF f f) → Merged fs fs := by
      intro fs h
      induction fs with
      | nil => exact .nil
      | cons f fs ih => exact .cons (h f List.mem_cons_self) (ih fun g hg => h g (List.mem_cons_of_mem _ hg))
    exact .rep (key el fun f _ => MergedF.refl f) (key sep fun f _ => MergedF.refl f)
termination_by f => sizeOf f
decreasing_by
  all_goals
    have := List.sizeOf_lt_of_mem ‹_ ∈ _›
    simp
    omega

theorem Merged.refl : ∀ fs : List Fld, Merged fs fs
  | [] => .nil
  | f :: fs => .cons (MergedF.refl f) (Merged.refl fs)

/-! ### the reading -/

section
variable {env : Env} {s : Bytes}

/-- the values are put into an event in the same way -/
def SamePut (vs vs' : List (Option Bytes × Option Json)) : Prop :=
  ∀ o : Obj, vs'.foldr (fun x o => place o x.1 x.2) o = vs.foldr (fun x o => place o x.1 x.2) o

/-- what merging does to a reading -/
def Reading.Merges (env : Env) (s : Bytes) : Reading → Prop
  | .takes f off off' v => ∀ f', MergedF f f' → Reads env s (.takes f' off off' v)
  | .refuses f off => ∀ f', MergedF f f' → Reads env s (.refuses f' off)
  | .all fs off vs off' => ∀ fs', Merged fs fs' → ∃ vs', Reads env s (.all fs' off vs' off') ∧ SamePut vs vs'
  | .stuck fs off a => ∀ fs', Merged fs fs' → ∃ a', a' ≤ a ∧ Reads env s (.stuck fs' off a')
  | .list el sep permit off vs off' => ∀ el' sep', Merged el el' → Merged sep sep' → Reads env s (.list el' sep' permit off vs off')
  | .broken el sep off => ∀ el' sep', Merged el el' → Merged sep sep' → Reads env s (.broken el' sep' off)


theorem runLiteral_fail {h0 : ∀ c ∈ s, c ≠ 0} {off : Nat} {l : Bytes} :
    runParser env s off (.literal (some l)) false = .fail ↔ ¬ l <+: s.drop off := by
  constructor
  · intro h hp
    have := (runLiteral_iff (env := env) h0 (off := off) (l := l) (want := false) rfl).2 ⟨hp, rfl, rfl⟩
    rw [h] at this; cases this
  · intro hp
    have hno : ∀ (t lit : Bytes) (j : Nat), (∀ c ∈ t, c ≠ 0) → ∃ x, litLoop t lit j = .ok x := by
      intro t
      induction t with
      | nil => intro lit j _; exact ⟨_, rfl⟩
      | cons c t ih =>
        intro lit j hc
        cases lit with
        | nil => rw [litLoop, if_neg (hc c List.mem_cons_self)]; exact ⟨_, rfl⟩
        | cons a lit =>
          rw [litLoop]
          split
          · exact ⟨_, rfl⟩
          · exact ih lit _ fun x hx => hc x (List.mem_cons_of_mem _ hx)
    show parseLiteral s off l false = .fail
    obtain ⟨⟨j, full⟩, hx⟩ := hno (s.drop off) l 0 fun c hc => h0 c (List.mem_of_mem_drop hc)
    unfold parseLiteral
    rw [hx]
    cases full with
    | false => rfl
    | true =>
      exact absurd ((litLoop_iff (fun c hc => h0 c (List.mem_of_mem_drop hc)) l 0 j).1 hx).1 hp

theorem takes_lit (h0 : ∀ c ∈ s, c ≠ 0) {l : Bytes} {off off' : Nat} {v : Option Json} :
    Reads env s (.takes (.lit l) off off' v) ↔ l <+: s.drop off ∧ off' = off + l.length ∧ v = none := by
  constructor
  · intro h
    cases h with
    | plain h =>
      obtain ⟨h1, rfl, rfl⟩ := (runLiteral_iff h0 rfl).1 h
      exact ⟨h1, rfl, rfl⟩
  · rintro ⟨h1, rfl, rfl⟩
    exact .plain ((runLiteral_iff h0 rfl).2 ⟨h1, rfl, rfl⟩)

theorem refuses_lit (h0 : ∀ c ∈ s, c ≠ 0) {l : Bytes} {off : Nat} : Reads env s (.refuses (.lit l) off) ↔ ¬ l <+: s.drop off := by
  constructor
  · intro h
    cases h with
    | noPlain h => exact (runLiteral_fail (h0 := h0)).1 h
  · intro h
    exact .noPlain ((runLiteral_fail (h0 := h0)).2 h)

theorem SamePut.cons {vs vs' : List (Option Bytes × Option Json)} (h : SamePut vs vs') (x : Option Bytes × Option Json) : SamePut (x :: vs) (x :: vs') :=
  fun o => by simp only [List.foldr_cons, h o]

theorem Reads.le {j : Reading} (h : Reads env s j) : match j with
    | .takes _ off off' _ => off ≤ off'
    | .all _ off _ off' => off ≤ off'
    | .stuck _ off a => off ≤ a
    | .list _ _ _ off _ off' => off ≤ off'
    | _ => True := by
  induction h with
  | plain => exact Nat.le_add_right _ _
  | noPlain => trivial
  | rep _ ih => exact ih
  | repNone _ _ => exact Nat.le_refl _
  | noRep _ _ => trivial
  | nil => exact Nat.le_refl _
  | cons _ _ ih1 ih2 => exact Nat.le_trans ih1 ih2
  | here _ _ => exact Nat.le_refl _
  | later _ _ ih1 ih2 => exact Nat.le_trans ih1 ih2
  | last _ _ ih1 _ => exact ih1
  | giveBack _ _ _ ih1 _ _ => exact ih1
  | more _ _ _ ih1 ih2 ih3 => exact Nat.le_trans ih1 (Nat.le_trans ih2 ih3)
  | none_ _ _ => trivial
  | after _ _ _ _ _ _ => trivial

theorem Reads.merges (h0 : ∀ c ∈ s, c ≠ 0) {j : Reading} (h : Reads env s j) : j.Merges env s := by
  induction h with
  | plain h =>
    intro f' hf
    cases hf
    exact .plain h
  | noPlain h =>
    intro f' hf
    cases hf
    exact .noPlain h
  | rep h ih =>
    intro f' hf
    cases hf with
    | rep h1 h2 => exact .rep (ih _ _ h1 h2)
  | repNone h ih =>
    intro f' hf
    cases hf with
    | rep h1 h2 =>
      obtain ⟨a', _, h3⟩ := ih _ h1
      exact .repNone h3
  | noRep h ih =>
    intro f' hf
    cases hf with
    | rep h1 h2 => exact .noRep (ih _ _ h1 h2)
  | nil =>
    intro fs' hfs
    cases hfs
    exact ⟨[], .nil, fun _ => rfl⟩
  | @cons f fs off mid off' v vs h t ih1 ih2 =>
    intro fs' hfs
    cases hfs with
    | cons hf ht =>
      obtain ⟨vs', h1, h2⟩ := ih2 _ ht
      have := Reads.cons (ih1 _ hf) h1
      rw [hf.name] at this
      exact ⟨_, this, h2.cons _⟩
    | @merge l l' fs2 fs2' ht =>
      obtain ⟨vs', h1, h2⟩ := ih2 _ (.cons (MergedF.refl _) ht)
      obtain ⟨e1, rfl, rfl⟩ := (takes_lit h0).1 h
      cases h1 with
      | @cons _ _ _ mid2 _ v2 vs2 h3 h4 =>
        obtain ⟨e2, rfl, rfl⟩ := (takes_lit h0).1 h3
        refine ⟨_, .cons ((takes_lit h0).2 ⟨prefix_append_drop.2 ⟨e1, e2⟩, rfl, rfl⟩) (by rw [List.length_append, ← Nat.add_assoc]; exact h4), ?_⟩
        intro o
        exact h2 o
  | here h ih =>
    intro fs' hfs
    cases hfs with
    | cons hf ht => exact ⟨_, Nat.le_refl _, .here (ih _ hf)⟩
    | merge ht =>
      have := (refuses_lit h0).1 h
      exact ⟨_, Nat.le_refl _, .here ((refuses_lit h0).2 fun hp => this (prefix_append_drop.1 hp).1)⟩
  | @later f fs off mid a v h t ih1 ih2 =>
    intro fs' hfs
    cases hfs with
    | cons hf ht =>
      obtain ⟨a', h1, h2⟩ := ih2 _ ht
      exact ⟨a', h1, .later (ih1 _ hf) h2⟩
    | @merge l l' fs2 fs2' ht =>
      obtain ⟨a', h1, h2⟩ := ih2 _ (.cons (MergedF.refl _) ht)
      obtain ⟨e1, rfl, rfl⟩ := (takes_lit h0).1 h
      cases h2 with
      | here h3 =>
        have := (refuses_lit h0).1 h3
        exact ⟨off, by omega, .here ((refuses_lit h0).2 fun hp => this (prefix_append_drop.1 hp).2)⟩
      | later h3 h4 =>
        obtain ⟨e2, rfl, rfl⟩ := (takes_lit h0).1 h3
        exact ⟨a', h1, .later ((takes_lit h0).2 ⟨prefix_append_drop.2 ⟨e1, e2⟩, rfl, rfl⟩) (by rw [List.length_append, ← Nat.add_assoc]; exact h4)⟩
  | last h t ih1 ih2 =>
    intro el' sep' he hs
    obtain ⟨vs', h1, h2⟩ := ih1 _ he
    obtain ⟨a', _, h3⟩ := ih2 _ hs
    rw [← h2 []]
    exact .last h1 h3
  | giveBack h hs t ih1 ih2 ih3 =>
    intro el' sep' he hs
    obtain ⟨vs', h1, h2⟩ := ih1 _ he
    obtain ⟨us', h3, _⟩ := ih2 _ hs
    obtain ⟨a', _, h4⟩ := ih3 _ he
    rw [← h2 []]
    exact .giveBack h1 h3 h4
  | more h hs t ih1 ih2 ih3 =>
    intro el' sep' he hs
    obtain ⟨vs', h1, h2⟩ := ih1 _ he
    obtain ⟨us', h3, _⟩ := ih2 _ hs
    rw [← h2 []]
    exact .more h1 h3 (ih3 _ _ he hs)
  | none_ h ih =>
    intro el' sep' he hs
    obtain ⟨a', _, h1⟩ := ih _ he
    exact .none_ h1
  | after h hs t ih1 ih2 ih3 =>
    intro el' sep' he hs
    obtain ⟨vs', h1, h2⟩ := ih1 _ he
    obtain ⟨us', h3, _⟩ := ih2 _ hs
    exact .after h1 h3 (ih3 _ _ he hs)

end
end LN
