import Verif.Proofs.HeapOpt
import Verif.Proofs.Finish
import Verif.Spec.Prio
/-
The optimiser does not change the meaning of a graph: correspondence of rules (paths) before and
after each elementary step.
-/
set_option autoImplicit false
namespace LN

/-! ### literals on messages without NUL -/

theorem litLoop_iff {t : Bytes} (h0 : ∀ c ∈ t, c ≠ 0) : ∀ (lit : Bytes) (j k : Nat),
    litLoop t lit j = .ok (k, true) ↔ lit <+: t ∧ k = j + lit.length := by
  induction t with
  | nil =>
    intro lit j k
    cases lit <;> simp [litLoop, eq_comm]
  | cons c t ih =>
    intro lit j k
    have hc : c ≠ 0 := h0 c (List.mem_cons_self ..)
    cases lit with
    | nil => simp [litLoop, hc, eq_comm]
    | cons l lit =>
      rw [litLoop]
      by_cases hl : l = c
      · subst hl
        rw [if_neg (by simp), ih (fun c hc => h0 c (List.mem_cons_of_mem _ hc))]
        simp only [List.cons_prefix_cons, true_and, List.length_cons]
        constructor
        · rintro ⟨h1, rfl⟩; exact ⟨h1, by omega⟩
        · rintro ⟨h1, rfl⟩; exact ⟨h1, by omega⟩
      · rw [if_pos hl]
        simp [List.cons_prefix_cons, hl]

theorem runLiteral_iff {env : Env} {s : Bytes} (h0 : ∀ c ∈ s, c ≠ 0) {off : Nat} {l : Bytes} {want : Bool}
    {len : Nat} {v : Option Json} (hw : want = false) :
    runParser env s off (.literal (some l)) want = .ok (len, v) ↔
      l <+: s.drop off ∧ len = l.length ∧ v = none := by
  subst hw
  have key := litLoop_iff (t := s.drop off) (fun c hc => h0 c (List.mem_of_mem_drop hc)) l 0
  show parseLiteral s off l false = _ ↔ _
  unfold parseLiteral
  cases hl : litLoop (s.drop off) l 0 with
  | ok x =>
    obtain ⟨j, full⟩ := x
    cases full with
    | true =>
      have := (key j).1 hl
      simp [R.guard, strRes, this.1, this.2]
      constructor
      · rintro ⟨rfl, rfl⟩; exact ⟨rfl, rfl⟩
      · rintro ⟨rfl, rfl⟩; exact ⟨rfl, rfl⟩
    | false =>
      simp [R.guard]
      intro hp
      have := (key l.length).2 ⟨hp, by omega⟩
      rw [hl] at this; cases this
  | fail =>
    simp
    intro hp
    have := (key l.length).2 ⟨hp, by omega⟩
    rw [hl] at this; cases this
  | ub k =>
    simp
    intro hp
    have := (key l.length).2 ⟨hp, by omega⟩
    rw [hl] at this; cases this
  | oof =>
    simp
    intro hp
    have := (key l.length).2 ⟨hp, by omega⟩
    rw [hl] at this; cases this

theorem prefix_append_drop {l l' : Bytes} {s : Bytes} {off : Nat} :
    (l ++ l') <+: s.drop off ↔ l <+: s.drop off ∧ l' <+: s.drop (off + l.length) := by
  rw [← List.drop_drop]
  generalize s.drop off = t
  constructor
  · rintro ⟨r, rfl⟩
    refine ⟨⟨l' ++ r, by simp⟩, ⟨r, by simp⟩⟩
  · rintro ⟨⟨r, rfl⟩, ⟨r', h⟩⟩
    rw [List.drop_left] at h
    exact ⟨r', by rw [← h]; simp⟩

/-! ### corresponding paths -/

/-- `TRel x off tr tr' m off'`: corresponding paths of `c` and `c'`; the fields are the same except
that two fields may have been merged into one -/
inductive TRel (env : Env) (c c' : Ctx) (s : Bytes) (Mg : NodeId → Parser → Parser → Parser → Prop) :
    NodeId → Nat → List Step → List Step → NodeId → Nat → Prop where
  | nil (x : NodeId) (off : Nat) : TRel env c c' s Mg x off [] [] x off
  | keep {x : NodeId} {off idx idx' : Nat} {r : Parser} {len : Nat} {v : Option Json} {tr tr' : List Step}
      {m : NodeId} {off' : Nat} (h : (c.node x).parsers[idx]? = some r)
      (h' : (c'.node x).parsers[idx']? = some r)
      (hacc : runParser env s off r.kind r.name.isSome = .ok (len, v))
      (t : TRel env c c' s Mg r.node (off + len) tr tr' m off') :
      TRel env c c' s Mg x off (⟨idx, r, off, len, v⟩ :: tr) (⟨idx', r, off, len, v⟩ :: tr') m off'
  | merge {x : NodeId} {off idx idx' idx2 : Nat} {p q pq : Parser} {len len2 : Nat} {v v2 v' : Option Json}
      {tr tr' : List Step} {m : NodeId} {off' : Nat} (hm : Mg x p q pq)
      (h : (c.node x).parsers[idx]? = some p) (h2 : (c.node p.node).parsers[idx2]? = some q)
      (h' : (c'.node x).parsers[idx']? = some pq)
      (hacc : runParser env s off p.kind p.name.isSome = .ok (len, v))
      (hacc2 : runParser env s (off + len) q.kind q.name.isSome = .ok (len2, v2))
      (hacc' : runParser env s off pq.kind pq.name.isSome = .ok (len + len2, v'))
      (t : TRel env c c' s Mg q.node (off + len + len2) tr tr' m off') :
      TRel env c c' s Mg x off (⟨idx, p, off, len, v⟩ :: ⟨idx2, q, off + len, len2, v2⟩ :: tr)
        (⟨idx', pq, off, len + len2, v'⟩ :: tr') m off'

/-- what merging may do -/
structure MgOk (c c' : Ctx) (Mg : NodeId → Parser → Parser → Parser → Prop) : Prop where
  names : ∀ x p q pq, Mg x p q pq → p.name = none ∧ q.name = none ∧ pq.name = none
  prio : ∀ x p q pq, Mg x p q pq → pq.prio = p.prio
  mock : ∀ x p q pq, Mg x p q pq → mockField pq = mockField p ++ mockField q
  node : ∀ x p q pq, Mg x p q pq → pq.node = q.node
  inner : ∀ x p q pq, Mg x p q pq → (c.node p.node).isTerminal = false
  gone : ∀ x p q pq, Mg x p q pq → p ∉ (c'.node x).parsers
  new : ∀ x p q pq, Mg x p q pq → pq ∉ (c.node x).parsers
  uniq : ∀ x p q pq p2 q2 pq2, Mg x p q pq → Mg x p2 q2 pq2 → p = p2 ∧ q = q2 ∧ pq = pq2

section
variable {env : Env} {c c' : Ctx} {s : Bytes} {Mg : NodeId → Parser → Parser → Parser → Prop}

theorem TRel.left {x : NodeId} {off : Nat} {tr tr' : List Step} {m : NodeId} {off' : Nat}
    (h : TRel env c c' s Mg x off tr tr' m off') : Path env c s x off tr m off' := by
  induction h with
  | nil x off => exact .nil x off
  | keep h h' hacc t ih => exact .cons h hacc ih
  | merge hm h h2 h' hacc hacc2 hacc' t ih => exact .cons h hacc (.cons h2 hacc2 ih)

theorem TRel.right (ok : MgOk c c' Mg) {x : NodeId} {off : Nat} {tr tr' : List Step} {m : NodeId} {off' : Nat}
    (h : TRel env c c' s Mg x off tr tr' m off') : Path env c' s x off tr' m off' := by
  induction h with
  | nil x off => exact .nil x off
  | keep h h' hacc t ih => exact .cons h' hacc ih
  | merge hm h h2 h' hacc hacc2 hacc' t ih =>
    refine .cons h' hacc' ?_
    rw [ok.node _ _ _ _ hm, ← Nat.add_assoc]
    exact ih

theorem TRel.store (ok : MgOk c c' Mg) (json0 : Obj) {x : NodeId} {off : Nat} {tr tr' : List Step} {m : NodeId}
    {off' : Nat} (h : TRel env c c' s Mg x off tr tr' m off') : storeFields json0 tr = storeFields json0 tr' := by
  induction h with
  | nil x off => rfl
  | keep h h' hacc t ih =>
    unfold storeFields at ih ⊢
    simp only [List.foldr_cons]
    rw [ih]
  | merge hm h h2 h' hacc hacc2 hacc' t ih =>
    obtain ⟨h1, h2, h3⟩ := ok.names _ _ _ _ hm
    unfold storeFields at ih ⊢
    simp only [List.foldr_cons, h1, h2, h3, place]
    exact ih

theorem TRel.mock (ok : MgOk c c' Mg) {x : NodeId} {off : Nat} {tr tr' : List Step} {m : NodeId}
    {off' : Nat} (h : TRel env c c' s Mg x off tr tr' m off') : mockup tr = mockup tr' := by
  induction h with
  | nil x off => rfl
  | keep h h' hacc t ih =>
    unfold mockup at ih ⊢
    simp only [List.map_cons, List.flatten_cons, ih]
  | merge hm h h2 h' hacc hacc2 hacc' t ih =>
    unfold mockup at ih ⊢
    simp only [List.map_cons, List.flatten_cons, ih, ok.mock _ _ _ _ hm, List.append_assoc]

/-- `hterm`: nodes reached by corresponding paths end rules in both graphs or in none -/
theorem TRel.firstEnd (ok : MgOk c c' Mg) (D : NodeId → Prop)
    (hterm : ∀ x, D x → (c.node x).isTerminal = (c'.node x).isTerminal)
    (hD : ∀ (x : NodeId) (idx' : Nat) (r : Parser), D x → (c'.node x).parsers[idx']? = some r → D r.node)
    {x : NodeId} {off : Nat} {tr tr' : List Step} {m : NodeId}
    {off' : Nat} (h : TRel env c c' s Mg x off tr tr' m off') (hx : D x) :
    LN.firstEnd c s false x off tr = LN.firstEnd c' s false x off tr' := by
  induction h with
  | nil x off => simp [LN.firstEnd, CanEnd, hterm x hx]
  | keep h h' hacc t ih =>
    simp only [LN.firstEnd, CanEnd, hterm _ hx]
    rw [ih (hD _ _ _ hx h')]
    rfl
  | merge hm h h2 h' hacc hacc2 hacc' t ih =>
    have hq := hD _ _ _ hx h'
    have hn := ok.node _ _ _ _ hm
    simp only [LN.firstEnd, CanEnd, hterm _ hx, ok.inner _ _ _ _ hm]
    rw [ih (by rw [← hn]; exact hq), hn, Nat.add_assoc]
    simp

theorem TRel.nil_iff {x : NodeId} {off : Nat} {tr tr' : List Step} {m : NodeId} {off' : Nat}
    (h : TRel env c c' s Mg x off tr tr' m off') : tr = [] ↔ tr' = [] := by
  cases h <;> simp

theorem TRel.order (ok : MgOk c c' Mg) {x : NodeId} {off : Nat} {tr1 tr1' : List Step} {m1 : NodeId} {off1 : Nat}
    (h : TRel env c c' s Mg x off tr1 tr1' m1 off1) : ∀ {tr2 tr2' : List Step} {m2 : NodeId} {off2 : Nat},
    TRel env c c' s Mg x off tr2 tr2' m2 off2 → (PrioBefore tr1 tr2 ↔ PrioBefore tr1' tr2') := by
  induction h with
  | nil x off =>
    intro tr2 tr2' m2 off2 h2
    cases h2 <;> simp [PrioBefore]
  | @keep x off idx idx' r len v tr tr' m off' h h' hacc t ih =>
    intro tr2 tr2' m2 off2 hr2
    cases hr2 with
    | nil => simp [PrioBefore]
    | @keep _ _ jdx jdx' r2 len2 v2 _ _ _ _ k k' kacc kt =>
      simp only [PrioBefore]
      by_cases he : r = r2
      · subst he
        rw [hacc] at kacc
        cases kacc
        rw [ih kt]
      · simp [he]
    | @merge _ _ jdx jdx' jdx2 p q pq len3 len4 v3 v4 v5 _ _ _ _ hm k k2 k' kacc kacc2 kacc' kt =>
      have h1 : r ≠ p := by
        rintro rfl; exact ok.gone _ _ _ _ hm (List.mem_of_getElem? h')
      have h2 : r ≠ pq := by
        rintro rfl; exact ok.new _ _ _ _ hm (List.mem_of_getElem? h)
      simp [PrioBefore, h1, h2, ok.prio _ _ _ _ hm]
  | @merge x off idx idx' idx2 p q pq len len2 v v2 v' tr tr' m off' hm h h2 h' hacc hacc2 hacc' t ih =>
    intro tr2 tr2' m2 off2 hr2
    cases hr2 with
    | nil => simp [PrioBefore]
    | @keep _ _ jdx jdx' r2 len3 v3 _ _ _ _ k k' kacc kt =>
      have h1 : p ≠ r2 := by
        rintro rfl; exact ok.gone _ _ _ _ hm (List.mem_of_getElem? k')
      have h2 : pq ≠ r2 := by
        rintro rfl; exact ok.new _ _ _ _ hm (List.mem_of_getElem? k)
      simp [PrioBefore, h1, h2, ok.prio _ _ _ _ hm]
    | @merge _ _ jdx jdx' jdx2 p3 q3 pq3 len3 len4 v3 v4 v5 _ _ _ _ hm3 k k2 k' kacc kacc2 kacc' kt =>
      obtain ⟨rfl, rfl, rfl⟩ := ok.uniq _ _ _ _ _ _ _ hm hm3
      rw [hacc] at kacc; cases kacc
      rw [hacc2] at kacc2; cases kacc2
      simp [PrioBefore, ih kt]

end

/-! ### simulation of graphs -/

/-- the rules of `c` and `c'` correspond, with the same observable effects and order -/
structure Sim (env : Env) (s : Bytes) (c c' : Ctx) (rel : List Step → List Step → Prop) : Prop where
  fwd : ∀ tr, Matches env c s false c.root 0 tr → ∃ tr', rel tr tr'
  bwd : ∀ tr', Matches env c' s false c'.root 0 tr' → ∃ tr, rel tr tr'
  left : ∀ tr tr', rel tr tr' → Matches env c s false c.root 0 tr
  right : ∀ tr tr', rel tr tr' → Matches env c' s false c'.root 0 tr'
  store : ∀ json0 tr tr', rel tr tr' → storeFields json0 tr = storeFields json0 tr'
  mock : ∀ tr tr', rel tr tr' → mockup tr = mockup tr'
  fst : ∀ tr tr', rel tr tr' → firstEnd c s false c.root 0 tr = firstEnd c' s false c'.root 0 tr'
  order : ∀ tr1 tr1' tr2 tr2', rel tr1 tr1' → rel tr2 tr2' → (PrioBefore tr1 tr2 ↔ PrioBefore tr1' tr2')
  opts : c'.opts = c.opts
  annots : c'.annots = c.annots
  fin : ∀ e, (c.node e).isTerminal = true → (c'.node e).isTerminal = true ∧ (c'.node e).tags = (c.node e).tags ∧
    (c'.node e).rbFile = (c.node e).rbFile ∧ (c'.node e).rbLine = (c.node e).rbLine

theorem Sim.refl (env : Env) (s : Bytes) (c : Ctx) :
    Sim env s c c fun a b => a = b ∧ Matches env c s false c.root 0 a where
  fwd tr h := ⟨tr, rfl, h⟩
  bwd tr h := ⟨tr, rfl, h⟩
  left _ _ h := h.2
  right _ _ h := h.1 ▸ h.2
  store := by rintro j tr _ ⟨rfl, _⟩; rfl
  mock := by rintro tr _ ⟨rfl, _⟩; rfl
  fst := by rintro tr _ ⟨rfl, _⟩; rfl
  order := by rintro tr _ tr2 _ ⟨rfl, _⟩ ⟨rfl, _⟩; exact Iff.rfl
  opts := rfl
  annots := rfl
  fin e h := ⟨h, rfl, rfl, rfl⟩

theorem Sim.trans {env : Env} {s : Bytes} {c c' c'' : Ctx} {r r' : List Step → List Step → Prop}
    (h : Sim env s c c' r) (h' : Sim env s c' c'' r') :
    Sim env s c c'' fun a d => ∃ b, r a b ∧ r' b d where
  fwd tr hm := by
    obtain ⟨b, hb⟩ := h.fwd tr hm
    obtain ⟨d, hd⟩ := h'.fwd b (h.right _ _ hb)
    exact ⟨d, b, hb, hd⟩
  bwd tr hm := by
    obtain ⟨b, hb⟩ := h'.bwd tr hm
    obtain ⟨a, ha⟩ := h.bwd b (h'.left _ _ hb)
    exact ⟨a, b, ha, hb⟩
  left := by rintro a d ⟨b, h1, h2⟩; exact h.left _ _ h1
  right := by rintro a d ⟨b, h1, h2⟩; exact h'.right _ _ h2
  store := by rintro j a d ⟨b, h1, h2⟩; exact (h.store j _ _ h1).trans (h'.store j _ _ h2)
  mock := by rintro a d ⟨b, h1, h2⟩; exact (h.mock _ _ h1).trans (h'.mock _ _ h2)
  fst := by rintro a d ⟨b, h1, h2⟩; exact (h.fst _ _ h1).trans (h'.fst _ _ h2)
  order := by
    rintro a d a2 d2 ⟨b, h1, h2⟩ ⟨b2, h3, h4⟩
    exact (h.order _ _ _ _ h1 h3).trans (h'.order _ _ _ _ h2 h4)
  opts := h'.opts.trans h.opts
  annots := h'.annots.trans h.annots
  fin e he := by
    obtain ⟨a1, a2, a3, a4⟩ := h.fin e he
    obtain ⟨b1, b2, b3, b4⟩ := h'.fin e a1
    exact ⟨b1, b2.trans a2, b3.trans a3, b4.trans a4⟩

/-- from path correspondence to simulation. `D`: the nodes corresponding paths can visit -/
theorem Sim.ofTRel {env : Env} {s : Bytes} {c c' : Ctx} {Mg : NodeId → Parser → Parser → Parser → Prop}
    (ok : MgOk c c' Mg) (D : NodeId → Prop)
    (hroot : c'.root = c.root) (hopts : c'.opts = c.opts) (hann : c'.annots = c.annots) (hDr : D c.root)
    (hnode : ∀ x, D x → (c'.node x).isTerminal = (c.node x).isTerminal ∧ (c'.node x).tags = (c.node x).tags ∧
      (c'.node x).rbFile = (c.node x).rbFile ∧ (c'.node x).rbLine = (c.node x).rbLine)
    (hnd : ∀ x, ¬ D x → (c.node x).isTerminal = false)
    (hD : ∀ (x : NodeId) (idx' : Nat) (r : Parser), D x → (c'.node x).parsers[idx']? = some r → D r.node)
    (hf : ∀ x off tr m off', Path env c s x off tr m off' → D x → D m →
      ∃ tr', TRel env c c' s Mg x off tr tr' m off')
    (hb : ∀ x off tr' m off', Path env c' s x off tr' m off' → D x →
      ∃ tr, TRel env c c' s Mg x off tr tr' m off') :
    (∃ rel, Sim env s c c' rel) ∧
      ∀ m u, (∃ tr, Path env c' s c'.root 0 tr m u) ↔ D m ∧ ∃ tr, Path env c s c.root 0 tr m u := by
  have hDp : ∀ x off tr m off', Path env c' s x off tr m off' → D x → D m := by
    intro x off tr m off' hp
    induction hp with
    | nil => exact id
    | cons hidx _ _ ih => exact fun hx => ih (hD _ _ _ hx hidx)
  refine ⟨⟨fun tr tr' => ∃ m, TRel env c c' s Mg c.root 0 tr tr' m s.length ∧
    (c.node m).isTerminal = true ∧ (c'.node m).isTerminal = true, ?_⟩, fun m u => ⟨?_, ?_⟩⟩
  rotate_left
  · rintro ⟨tr, hp⟩
    rw [hroot] at hp
    obtain ⟨tr', h⟩ := hb _ _ _ _ _ hp hDr
    exact ⟨hDp _ _ _ _ _ hp hDr, tr', h.left⟩
  · rintro ⟨hm, tr, hp⟩
    obtain ⟨tr', h⟩ := hf _ _ _ _ _ hp hDr hm
    rw [hroot]
    exact ⟨tr', h.right ok⟩
  have hDm : ∀ m, (c.node m).isTerminal = true → D m := by
    intro m hm
    by_cases hd : D m
    · exact hd
    · rw [hnd m hd] at hm; cases hm
  constructor
  case fwd =>
    rintro tr ⟨m, off', hp, ht, he⟩
    have he : off' = s.length := by simpa using he
    subst he
    obtain ⟨tr', h⟩ := hf _ _ _ _ _ hp hDr (hDm m ht)
    exact ⟨tr', m, h, ht, (hnode m (hDm m ht)).1.trans ht⟩
  case bwd =>
    rintro tr ⟨m, off', hp, ht, he⟩
    have he : off' = s.length := by simpa using he
    subst he
    rw [hroot] at hp
    obtain ⟨tr', h⟩ := hb _ _ _ _ _ hp hDr
    have hd := hDp _ _ _ _ _ hp hDr
    exact ⟨tr', m, h, (hnode m hd).1.symm.trans ht, ht⟩
  case left =>
    rintro tr tr' ⟨m, h, h1, h2⟩
    exact ⟨m, s.length, h.left, h1, .inr rfl⟩
  case right =>
    rintro tr tr' ⟨m, h, h1, h2⟩
    exact ⟨m, s.length, by rw [hroot]; exact h.right ok, h2, .inr rfl⟩
  case store =>
    rintro j tr tr' ⟨m, h, h1, h2⟩
    exact h.store ok j
  case mock =>
    rintro tr tr' ⟨m, h, h1, h2⟩
    exact h.mock ok
  case fst =>
    rintro tr tr' ⟨m, h, h1, h2⟩
    rw [hroot]
    exact h.firstEnd ok D (fun x hx => (hnode x hx).1.symm) hD hDr
  case order =>
    rintro tr1 tr1' tr2 tr2' ⟨m1, h1, _⟩ ⟨m2, h2, _⟩
    exact h1.order ok h2
  case opts => exact hopts
  case annots => exact hann
  case fin =>
    intro e he
    obtain ⟨h1, h2, h3, h4⟩ := hnode e (hDm e he)
    exact ⟨h1.trans he, h2, h3, h4⟩


/-! ### the elementary steps -/

theorem sort_sim {env : Env} {s : Bytes} {srt : Sorter} {b : Bld} {n : NodeId} {nd : Node}
    (hn : b.heap n = some nd) (opts : Nat) (annots : List Annot) :
    (∃ rel, Sim env s (b.toCtx opts annots)
      ((b.store n { nd with parsers := srt.sort nd.parsers }).toCtx opts annots) rel) ∧
    ∀ m u, (∃ tr, Path env ((b.store n { nd with parsers := srt.sort nd.parsers }).toCtx opts annots) s b.root 0 tr m u) ↔
      True ∧ ∃ tr, Path env (b.toCtx opts annots) s b.root 0 tr m u := by
  have hnode : ∀ x, ((b.store n { nd with parsers := srt.sort nd.parsers }).toCtx opts annots).node x =
      if x = n then { nd with parsers := srt.sort nd.parsers } else (b.toCtx opts annots).node x := by
    intro x
    show (Bld.heap _ x).getD {} = _
    rw [Bld.heap_store]
    split <;> rfl
  have hold : (b.toCtx opts annots).node n = nd := by
    show (b.heap n).getD {} = nd
    rw [hn]; rfl
  have hmem : ∀ x r, r ∈ (((b.store n { nd with parsers := srt.sort nd.parsers }).toCtx opts annots).node x).parsers ↔
      r ∈ ((b.toCtx opts annots).node x).parsers := by
    intro x r
    rw [hnode]
    split
    · rename_i hx; subst hx; rw [hold]; exact (srt.perm nd.parsers).mem_iff
    · exact Iff.rfl
  refine Sim.ofTRel (Mg := fun _ _ _ _ => False) ?_ (fun _ => True) rfl rfl rfl trivial ?_ ?_ ?_ ?_ ?_
  · constructor <;> intros <;> contradiction
  · intro x _
    rw [hnode]
    split
    · rename_i hx; subst hx; rw [hold]; exact ⟨rfl, rfl, rfl, rfl⟩
    · exact ⟨rfl, rfl, rfl, rfl⟩
  · intro x hx; exact absurd trivial hx
  · intros; trivial
  · intro x off tr m off' hp _ _
    induction hp with
    | nil x off => exact ⟨[], .nil x off⟩
    | cons hidx hacc htail ih =>
      obtain ⟨tr', ht⟩ := ih
      obtain ⟨idx', h'⟩ := List.mem_iff_getElem?.1 ((hmem _ _).2 (List.mem_of_getElem? hidx))
      exact ⟨_, .keep hidx h' hacc ht⟩
  · intro x off tr m off' hp _
    induction hp with
    | nil x off => exact ⟨[], .nil x off⟩
    | cons hidx hacc htail ih =>
      obtain ⟨tr', ht⟩ := ih
      obtain ⟨idx', h'⟩ := List.mem_iff_getElem?.1 ((hmem _ _).1 (List.mem_of_getElem? hidx))
      exact ⟨_, .keep h' hidx hacc ht⟩

theorem count_range_mono (f : Nat → List Nat) (x : Nat) {a k : Nat} (h : a < k) :
    ((List.range (a + 1)).flatMap f).count x ≤ ((List.range k).flatMap f).count x := by
  obtain ⟨d, rfl⟩ : ∃ d, k = a + 1 + d := ⟨k - (a + 1), by omega⟩
  induction d with
  | zero => exact Nat.le_refl _
  | succ d ih =>
    refine Nat.le_trans (ih (by omega)) ?_
    rw [← Nat.add_assoc, List.range_succ (n := a + 1 + d), List.flatMap_append, List.count_append]
    exact Nat.le_add_right _ _

theorem compact_sim {env : Env} {s : Bytes} (h0 : ∀ c ∈ s, c ≠ 0) {b : Bld} {E : List NodeId} (hi : Inv b E)
    {n : NodeId} {i : Nat} {nd : Node}
    {p : Parser} {vd : Node} {c : Parser} {wd : Node} {l l' : Bytes}
    (hc : Compaction b n i nd p vd c wd l l') (hroot : b.root ∈ E) (opts : Nat) (annots : List Annot) :
    (∃ rel, Sim env s (b.toCtx opts annots) ((compacted b n i nd p c l l').toCtx opts annots) rel) ∧
    ∀ m u, (∃ tr, Path env ((compacted b n i nd p c l l').toCtx opts annots) s b.root 0 tr m u) ↔
      m ≠ p.node ∧ ∃ tr, Path env (b.toCtx opts annots) s b.root 0 tr m u := by
  obtain ⟨hlt1, hlt2⟩ := hc.lt hi
  have hi' := compact_inv hi hc
  have hvn : p.node ≠ n := Nat.ne_of_gt hlt1
  have hlen : i < nd.parsers.length := (List.getElem?_eq_some_iff.1 hc.hp).1
  have hnode : ∀ x, ((compacted b n i nd p c l l').toCtx opts annots).node x =
      if x = p.node then {} else if x = n then { nd with parsers := nd.parsers.set i (mergedPrs p c l l') }
      else (b.toCtx opts annots).node x := by
    intro x
    show (Bld.heap _ x).getD {} = _
    unfold compacted
    rw [Bld.heap_free, Bld.heap_store]
    split
    · rfl
    · split <;> rfl
  have holdn : (b.toCtx opts annots).node n = nd := by
    show (b.heap n).getD {} = nd
    rw [hc.hn]; rfl
  have holdv : (b.toCtx opts annots).node p.node = vd := by
    show (b.heap p.node).getD {} = vd
    rw [hc.hv]; rfl
  have hnewn : ((compacted b n i nd p c l l').toCtx opts annots).node n =
      { nd with parsers := nd.parsers.set i (mergedPrs p c l l') } := by
    rw [hnode, if_neg (Ne.symm hvn), if_pos rfl]
  -- nothing refers to the node between any more
  have hdead : (compacted b n i nd p c l l').heap p.node = none := by
    unfold compacted; rw [Bld.heap_free, if_pos rfl]
  have hnoref : ∀ (x : NodeId) (j : Nat) (r : Parser),
      (((compacted b n i nd p c l l').toCtx opts annots).node x).parsers[j]? = some r → r.node ≠ p.node := by
    intro x j r hr he
    have hx : r.node ∈ (compacted b n i nd p c l l').refsOf x := by
      cases hh : (compacted b n i nd p c l l').heap x with
      | none =>
        have : ((compacted b n i nd p c l l').toCtx opts annots).node x = {} := by
          show (Bld.heap _ x).getD {} = _
          rw [hh]; rfl
        rw [this] at hr; simp at hr
      | some xd =>
        have : ((compacted b n i nd p c l l').toCtx opts annots).node x = xd := by
          show (Bld.heap _ x).getD {} = _
          rw [hh]; rfl
        rw [this] at hr
        rw [refsOf_some hh]
        exact List.mem_flatMap.2 ⟨r, List.mem_of_getElem? hr, List.mem_cons_self ..⟩
    have := (hi'.asc _ _ hx).2
    rw [he, hdead] at this; cases this
  have hrootv : b.root ≠ p.node := by
    intro he
    have := hi'.ext _ hroot
    rw [he, hdead] at this; cases this
  -- the entry is the only one with this successor
  have huniq : ∀ (x : NodeId) (j : Nat) (r : Parser), x ≠ p.node →
      ((b.toCtx opts annots).node x).parsers[j]? = some r → r.node = p.node → x = n ∧ j = i := by
    intro x j r hx hr he
    by_cases hxn : x = n
    · subst hxn
      refine ⟨rfl, ?_⟩
      by_cases hji : j = i
      · exact hji
      · exfalso
        refine hnoref x j r ?_ he
        rw [hnewn]
        show (nd.parsers.set i _)[j]? = _
        rw [List.getElem?_set_ne (Ne.symm hji), ← holdn]
        exact hr
    · exfalso
      refine hnoref x j r ?_ he
      rw [hnode, if_neg hx, if_neg hxn]
      exact hr
  have hpi : ∀ (j : Nat) (r : Parser), j ≠ i → nd.parsers[j]? = some r →
      (((compacted b n i nd p c l l').toCtx opts annots).node n).parsers[j]? = some r := by
    intro j r hji hr
    rw [hnewn]
    show (nd.parsers.set i _)[j]? = _
    rw [List.getElem?_set_ne (Ne.symm hji)]
    exact hr
  have hmi : (((compacted b n i nd p c l l').toCtx opts annots).node n).parsers[i]? = some (mergedPrs p c l l') := by
    rw [hnewn]
    show (nd.parsers.set i _)[i]? = _
    rw [List.getElem?_set_self hlen]
  have hcv : vd.parsers[0]? = some c := by rw [hc.hpars]; rfl
  -- the node behind is referred to by the node between only
  have hwuniq : mergedPrs p c l l' ∉ nd.parsers := by
    intro hm
    have h1 := (hi.cnt _ _ hc.hw).1
    rw [hc.hwref] at h1
    obtain ⟨A, B, hAB⟩ := List.append_of_mem hm
    have hcn : 1 ≤ (b.refsOf n).count c.node := by
      rw [refsOf_some hc.hn]
      exact List.count_pos_iff.2 (List.mem_flatMap.2 ⟨_, hm, List.mem_cons_self ..⟩)
    have hcv' : 1 ≤ (b.refsOf p.node).count c.node := by
      rw [refsOf_some hc.hv, hc.hpars]
      exact List.count_pos_iff.2 (List.mem_flatMap.2 ⟨c, List.mem_cons_self .., List.mem_cons_self ..⟩)
    have hn1 := (hi.live_pos (by rw [hc.hn]; rfl : (b.heap n).isSome)).2
    have hv1 := (hi.live_pos (by rw [hc.hv]; rfl : (b.heap p.node).isSome)).2
    have h2 : 2 ≤ b.allRefs.count c.node := by
      unfold Bld.allRefs
      have hcountf : ∀ (k : Nat), n < k → p.node < k →
          2 ≤ ((List.range k).flatMap b.refsOf).count c.node := by
        intro k hnk hvk
        refine Nat.le_trans ?_ (count_range_mono b.refsOf c.node hvk)
        rw [List.range_succ, List.flatMap_append, List.count_append]
        have ha : 1 ≤ ((List.range p.node).flatMap b.refsOf).count c.node := by
          rw [Nat.succ_le_iff, List.count_pos_iff, List.mem_flatMap]
          exact ⟨n, List.mem_range.2 hlt1, List.count_pos_iff.1 hcn⟩
        have hb : 1 ≤ (([p.node] : List NodeId).flatMap b.refsOf).count c.node := by
          simpa using hcv'
        exact Nat.add_le_add ha hb
      exact hcountf b.next hn1 hv1
    have h3 := Nat.le_trans (Nat.le_trans h2 (Nat.le_add_right _ _)) h1
    exact absurd h3 (by decide)
  have hmergeAcc : ∀ off, (∃ v, runParser env s off (mergedPrs p c l l').kind (mergedPrs p c l l').name.isSome =
      .ok (l.length + l'.length, v)) ↔ l <+: s.drop off ∧ l' <+: s.drop (off + l.length) := by
    intro off
    have hw : (mergedPrs p c l l').name.isSome = false := by
      show p.name.isSome = false
      rw [hc.hname]; rfl
    constructor
    · rintro ⟨v, hv⟩
      exact prefix_append_drop.1 ((runLiteral_iff h0 hw).1 hv).1
    · intro h
      exact ⟨none, (runLiteral_iff h0 hw).2 ⟨prefix_append_drop.2 h, by simp, rfl⟩⟩
  have hpw : p.name.isSome = false := by rw [hc.hname]; rfl
  have hcw : c.name.isSome = false := by rw [hc.hcname]; rfl
  refine Sim.ofTRel (Mg := fun x p' q' pq' => x = n ∧ p' = p ∧ q' = c ∧ pq' = mergedPrs p c l l')
    ?_ (fun x => x ≠ p.node) rfl rfl rfl hrootv ?_ ?_ ?_ ?_ ?_
  · constructor
    · rintro x p' q' pq' ⟨rfl, rfl, rfl, rfl⟩; exact ⟨hc.hname, hc.hcname, hc.hname⟩
    · rintro x p' q' pq' ⟨rfl, rfl, rfl, rfl⟩; rfl
    · rintro x p' q' pq' ⟨rfl, rfl, rfl, rfl⟩
      simp [mockField, hc.hk, hc.hck]
    · rintro x p' q' pq' ⟨rfl, rfl, rfl, rfl⟩; rfl
    · rintro x p' q' pq' ⟨rfl, rfl, rfl, rfl⟩; rw [holdv]; exact hc.hterm
    · rintro x p' q' pq' ⟨rfl, rfl, rfl, rfl⟩ hm
      obtain ⟨j, hj⟩ := List.mem_iff_getElem?.1 hm
      exact hnoref _ _ _ hj rfl
    · rintro x p' q' pq' ⟨rfl, rfl, rfl, rfl⟩; rw [holdn]; exact hwuniq
    · rintro x p' q' pq' p2 q2 pq2 ⟨rfl, rfl, rfl, rfl⟩ ⟨_, rfl, rfl, rfl⟩; exact ⟨rfl, rfl, rfl⟩
  · intro x hx
    rw [hnode, if_neg hx]
    split
    · rename_i hxn; subst hxn; rw [holdn]; exact ⟨rfl, rfl, rfl, rfl⟩
    · exact ⟨rfl, rfl, rfl, rfl⟩
  · intro x hx
    have : x = p.node := Classical.not_not.1 hx
    subst this; rw [holdv]; exact hc.hterm
  · intro x idx r _ hr; exact hnoref x idx r hr
  · -- forward, by induction on the length
    have key : ∀ (k : Nat) (x : NodeId) (off : Nat) (tr : List Step) (m : NodeId) (off' : Nat),
        tr.length ≤ k → Path env (b.toCtx opts annots) s x off tr m off' → x ≠ p.node → m ≠ p.node →
        ∃ tr', TRel env (b.toCtx opts annots) ((compacted b n i nd p c l l').toCtx opts annots) s
          (fun x p' q' pq' => x = n ∧ p' = p ∧ q' = c ∧ pq' = mergedPrs p c l l') x off tr tr' m off' := by
      intro k
      induction k with
      | zero =>
        intro x off tr m off' hk hp hx hm
        cases hp with
        | nil => exact ⟨[], .nil _ _⟩
        | cons => simp at hk
      | succ k ih =>
        intro x off tr m off' hk hp hx hm
        cases hp with
        | nil => exact ⟨[], .nil _ _⟩
        | @cons _ _ idx r len v tr _ _ hidx hacc htail =>
          by_cases hr : r.node = p.node
          · obtain ⟨rfl, rfl⟩ := huniq _ _ _ hx hidx hr
            have hrp : r = p := by
              rw [holdn, hc.hp] at hidx
              exact (Option.some.inj hidx).symm
            subst hrp
            cases htail with
            | nil => exact absurd rfl hm
            | @cons _ _ idx2 r2 len2 v2 tr2 _ _ hidx2 hacc2 htail2 =>
              have hr2 : r2 = c := by
                rw [holdv, hc.hpars] at hidx2
                have := List.mem_of_getElem? hidx2
                simpa using this
              subst hr2
              have a1 := hacc
              have a2 := hacc2
              rw [hc.hk] at a1
              rw [hc.hck] at a2
              obtain ⟨e1, rfl, rfl⟩ := (runLiteral_iff h0 hpw).1 a1
              obtain ⟨e2, rfl, rfl⟩ := (runLiteral_iff h0 hcw).1 a2
              have hk2 : tr2.length ≤ k := by simp at hk; omega
              obtain ⟨tr', ht⟩ := ih _ _ _ _ _ hk2 htail2 (Nat.ne_of_gt hlt2) hm
              obtain ⟨v', hv'⟩ := (hmergeAcc off).2 ⟨e1, e2⟩
              exact ⟨_, .merge ⟨rfl, rfl, rfl, rfl⟩ hidx hidx2 hmi hacc hacc2 hv' ht⟩
          · have hk1 : tr.length ≤ k := by simp at hk; omega
            obtain ⟨tr', ht⟩ := ih _ _ _ _ _ hk1 htail hr hm
            by_cases hxn : x = n
            · subst hxn
              have hji : idx ≠ i := by
                rintro rfl
                rw [holdn, hc.hp] at hidx
                exact hr (congrArg Parser.node (Option.some.inj hidx)).symm
              exact ⟨_, .keep hidx (hpi _ _ hji (by rw [← holdn]; exact hidx)) hacc ht⟩
            · exact ⟨_, .keep hidx (by rw [hnode, if_neg hx, if_neg hxn]; exact hidx) hacc ht⟩
    intro x off tr m off' hp hx hm
    exact key _ _ _ _ _ _ (Nat.le_refl _) hp hx hm
  · intro x off tr m off' hp hx
    induction hp with
    | nil x off => exact ⟨[], .nil _ _⟩
    | @cons x off idx r len v tr m off' hidx hacc htail ih =>
      obtain ⟨tr', ht⟩ := ih (hnoref _ _ _ hidx)
      by_cases hxn : x = n
      · subst hxn
        by_cases hji : idx = i
        · subst hji
          rw [hmi] at hidx
          have hr := (Option.some.inj hidx)
          subst hr
          have a1 := hacc
          have hw : (mergedPrs p c l l').name.isSome = false := hpw
          obtain ⟨e1, rfl, rfl⟩ := (runLiteral_iff h0 hw).1 a1
          obtain ⟨e2, e3⟩ := prefix_append_drop.1 e1
          rw [List.length_append] at hacc ht ⊢
          rw [← Nat.add_assoc] at ht
          refine ⟨_, .merge (p := p) (q := c) (v := none) (v2 := none) ⟨rfl, rfl, rfl, rfl⟩
            (by rw [holdn]; exact hc.hp)
            (by rw [holdv]; exact hcv) hmi
            (by rw [hc.hk]; exact (runLiteral_iff h0 hpw).2 ⟨e2, rfl, rfl⟩)
            (by rw [hc.hck]; exact (runLiteral_iff h0 hcw).2 ⟨e3, rfl, rfl⟩) hacc ht⟩
        · have hidx' := hidx
          rw [hnewn] at hidx'
          have : nd.parsers[idx]? = some r := by
            rw [← hidx']
            show _ = (nd.parsers.set i _)[idx]?
            rw [List.getElem?_set_ne (Ne.symm hji)]
          exact ⟨_, .keep (by rw [holdn]; exact this) hidx hacc ht⟩
      · have hidx' := hidx
        rw [hnode, if_neg hx, if_neg hxn] at hidx'
        exact ⟨_, .keep hidx' hidx hacc ht⟩

theorem OptStep.sim {env : Env} {s : Bytes} (h0 : ∀ c ∈ s, c ≠ 0) {srt : Sorter} {n0 : NodeId} {b b' : Bld}
    {E : List NodeId} (hi : Inv b E) (hroot : b.root ∈ E) (h : OptStep srt n0 b b') (opts : Nat)
    (annots : List Annot) : ∃ rel, Sim env s (b.toCtx opts annots) (b'.toCtx opts annots) rel := by
  cases h with
  | sort h0' hn => exact (sort_sim hn opts annots).1
  | compact h0' hc => exact (compact_sim h0 hi hc hroot opts annots).1

theorem OptSteps.sim {env : Env} {s : Bytes} (h0 : ∀ c ∈ s, c ≠ 0) {srt : Sorter} {n0 : NodeId} {b b' : Bld}
    {E : List NodeId} (hi : Inv b E) (hroot : b.root ∈ E) (h : OptSteps srt n0 b b') (opts : Nat)
    (annots : List Annot) : ∃ rel, Sim env s (b.toCtx opts annots) (b'.toCtx opts annots) rel := by
  induction h with
  | refl b => exact ⟨_, Sim.refl env s _⟩
  | head st _ ih =>
    obtain ⟨r1, h1⟩ := st.sim (env := env) h0 hi hroot opts annots
    obtain ⟨hi', _, _, hr, _⟩ := st.frame hi
    obtain ⟨r2, h2⟩ := ih hi' (by rw [hr]; exact hroot)
    exact ⟨_, h1.trans h2⟩

end LN
