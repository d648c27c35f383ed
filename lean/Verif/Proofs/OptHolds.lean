import Verif.Proofs.OptSem
import Verif.Proofs.NestedComplete
/-
The optimiser and rule bases with user-defined types and repeat: the same rules apply to a message.
-/
set_option autoImplicit false
namespace LN

/-- Corresponding graphs: `D` are the nodes of both; `Mg x p q pq`: at node `x` the literals `p` and then `q` of the
first graph are the single literal `pq` of the second. -/
structure Corr (c c' : Ctx) (D : NodeId → Prop) (Mg : NodeId → Parser → Parser → Parser → Prop) : Prop where
  root : c'.root = c.root
  droot : D c.root
  types : c'.types = c.types
  dtype : ∀ (i : Nat) (nm : Bytes) (t : NodeId), c.types[i]? = some (nm, t) → D t
  opts : c'.opts = c.opts
  annots : c'.annots = c.annots
  node : ∀ x, D x → (c'.node x).isTerminal = (c.node x).isTerminal ∧ (c'.node x).tags = (c.node x).tags ∧
    (c'.node x).rbFile = (c.node x).rbFile ∧ (c'.node x).rbLine = (c.node x).rbLine
  inner : ∀ x, ¬ D x → (c.node x).isTerminal = false
  dead : ∀ x, ¬ D x → (c'.node x).parsers = []
  fwd : ∀ x, D x → ∀ p ∈ (c.node x).parsers, (p ∈ (c'.node x).parsers ∧ D p.node) ∨ ∃ q pq, Mg x p q pq
  bwd : ∀ x, D x → ∀ p ∈ (c'.node x).parsers, (p ∈ (c.node x).parsers ∧ D p.node) ∨ ∃ p0 q, Mg x p0 q p
  mg : ∀ x p q pq, Mg x p q pq → ∃ l l', p.kind = .literal (some l) ∧ q.kind = .literal (some l') ∧
    pq.kind = .literal (some (l ++ l')) ∧ p.name = none ∧ q.name = none ∧ pq.name = none ∧
    (c.node p.node).parsers = [q] ∧ ¬ D p.node ∧ pq.node = q.node ∧ D q.node ∧ p ∈ (c.node x).parsers ∧ pq ∈ (c'.node x).parsers
  rep : ∀ x, D x → ∀ p ∈ (c.node x).parsers, ∀ (a w : NodeId) (permit : Bool), p.kind = .repeat_ (some (a, w, permit)) → D a ∧ D w
  pw : ∀ x, D x → ∀ (R : Parser → Parser → Prop), (∀ p q, R p q → R q p) →
    (∀ p q pq r, Mg x p q pq → R p r → R pq r) → (c.node x).parsers.Pairwise R → (c'.node x).parsers.Pairwise R

/-- two lists of fields with the same observable effects -/
structure SameEffect (c c' : Ctx) (s : Bytes) (n : NodeId) (off : Nat) (tr tr' : List NStep) : Prop where
  store : ∀ o, storeNested o tr' = storeNested o tr
  mock : mockupN tr' = mockupN tr
  fst : firstEndN c' s false n off tr' = firstEndN c s false n off tr

section
variable {env : Env} {c c' : Ctx} {s : Bytes} {D : NodeId → Prop} {Mg : NodeId → Parser → Parser → Parser → Prop} {slack : Prop}

/-- entry points of the repeat, if the field is one -/
def RepIn (D : NodeId → Prop) (p : Parser) : Prop :=
  ∀ (a w : NodeId) (permit : Bool), p.kind = .repeat_ (some (a, w, permit)) → D a ∧ D w

theorem lit_accepts {p : Parser} {l : Bytes} (h0 : ∀ c ∈ s, c ≠ 0) (hk : p.kind = .literal (some l)) (hn : p.name = none) {off mid : Nat} {v : Option Json} :
    Holds env c s slack (.accepts p off mid v) ↔ l <+: s.drop off ∧ mid = off + l.length ∧ v = none := by
  have hw : p.name.isSome = false := by rw [hn]; rfl
  constructor
  · intro h
    cases h with
    | plain _ hrun =>
      rw [hk] at hrun
      obtain ⟨h1, rfl, rfl⟩ := (runLiteral_iff h0 hw).1 hrun
      exact ⟨h1, rfl, rfl⟩
    | custom hk' => rw [hk] at hk'; cases hk'
    | rep hk' => rw [hk] at hk'; cases hk'
    | repNone hk' => rw [hk] at hk'; cases hk'
  · rintro ⟨h1, rfl, rfl⟩
    refine .plain (by rw [hk]; trivial) ?_
    rw [hk]
    exact (runLiteral_iff h0 hw).2 ⟨h1, rfl, rfl⟩

theorem SameEffect.keep {n : NodeId} {off idx idx' : Nat} {p : Parser} {mid : Nat} {v : Option Json} {tr tr' : List NStep}
    (ht : (c'.node n).isTerminal = (c.node n).isTerminal) (h : SameEffect c c' s p.node mid tr tr') :
    SameEffect c c' s n off (⟨idx, p, off, mid, v⟩ :: tr) (⟨idx', p, off, mid, v⟩ :: tr') where
  store o := by
    have := h.store o
    unfold storeNested at this ⊢
    simp only [List.foldr_cons, this]
  mock := by
    have := h.mock
    unfold mockupN at this ⊢
    simp only [List.map_cons, List.flatten_cons, this]
  fst := by
    simp only [firstEndN, CanEnd, ht, h.fst]
    rfl

theorem SameEffect.merge (cr : Corr c c' D Mg) {n : NodeId} {off idx idx' idx2 : Nat} {p q pq : Parser} {l l' : Bytes} {v v' v2 : Option Json}
    {tr tr' : List NStep} {mid mid2 : Nat} (ht : (c'.node n).isTerminal = (c.node n).isTerminal)
    (hp : p.kind = .literal (some l)) (hq : q.kind = .literal (some l')) (hpq : pq.kind = .literal (some (l ++ l')))
    (hpn : p.name = none) (hqn : q.name = none) (hpqn : pq.name = none) (hin : ¬ D p.node) (hnode : pq.node = q.node)
    (h : SameEffect c c' s q.node mid2 tr tr') :
    SameEffect c c' s n off (⟨idx, p, off, mid, v⟩ :: ⟨idx2, q, mid, mid2, v2⟩ :: tr) (⟨idx', pq, off, mid2, v'⟩ :: tr') where
  store o := by
    have := h.store o
    unfold storeNested at this ⊢
    simp only [List.foldr_cons, hpn, hqn, hpqn, place]
    exact this
  mock := by
    have := h.mock
    unfold mockupN at this ⊢
    simp only [List.map_cons, List.flatten_cons, this]
    simp [mockField, hp, hq, hpq]
  fst := by
    simp only [firstEndN, CanEnd, ht, cr.inner _ hin, hnode, h.fst]
    simp

/-- what is shown from the first graph to the second -/
def Judgement.Fwd (env : Env) (c c' : Ctx) (s : Bytes) (slack : Prop) (D : NodeId → Prop) (Mg : NodeId → Parser → Parser → Parser → Prop) :
    Judgement → Prop
  | .path n off tr m off' => D m → (D n → ∃ tr', Holds env c' s slack (.path n off tr' m off') ∧ SameEffect c c' s n off tr tr') ∧
      ∀ x p q pq, Mg x p q pq → n = p.node → ∃ idx mid v tr0 tr', Holds env c s slack (.accepts q off mid v) ∧
        tr = ⟨idx, q, off, mid, v⟩ :: tr0 ∧ Holds env c' s slack (.path q.node mid tr' m off') ∧ SameEffect c c' s q.node mid tr0 tr'
  | .accepts p off off' v => RepIn D p → Holds env c' s slack (.accepts p off off' v)
  | .elems a w permit off vs off' => D a → D w → Holds env c' s slack (.elems a w permit off vs off')

theorem Corr.dterm (cr : Corr c c' D Mg) {m : NodeId} (h : (c.node m).isTerminal = true) : D m := by
  by_cases hd : D m
  · exact hd
  · rw [cr.inner m hd] at h; cases h

theorem Corr.forward (cr : Corr c c' D Mg) (h0 : ∀ c ∈ s, c ≠ 0) {j : Judgement} (h : Holds env c s slack j) :
    j.Fwd env c c' s slack D Mg := by
  induction h with
  | nil n off =>
    intro hm
    refine ⟨fun hn => ⟨[], .nil n off, ⟨fun _ => rfl, rfl, ?_⟩⟩, ?_⟩
    · simp only [firstEndN, CanEnd, (cr.node n hn).1]
      rfl
    · rintro x p q pq hmg rfl
      obtain ⟨_, _, _, _, _, _, _, _, _, hd, _⟩ := cr.mg _ _ _ _ hmg
      exact absurd hm hd
  | @cons n off idx p mid v tr m off' hidx hacc htail ih1 ih2 =>
    intro hm
    refine ⟨fun hn => ?_, ?_⟩
    · have hpm := List.mem_of_getElem? hidx
      rcases cr.fwd n hn p hpm with ⟨hp', hd⟩ | ⟨q, pq, hmg⟩
      · obtain ⟨tr', h1, h2⟩ := (ih2 hm).1 hd
        obtain ⟨idx', hidx'⟩ := List.mem_iff_getElem?.1 hp'
        exact ⟨_, .cons hidx' (ih1 (cr.rep n hn p hpm)) h1, h2.keep (cr.node n hn).1⟩
      · obtain ⟨l, l', hpk, hqk, hpqk, hpn, hqn, hpqn, _, hin, hnode, _, _, hpq'⟩ := cr.mg _ _ _ _ hmg
        obtain ⟨idx2, mid2, v2, tr0, tr', h1, rfl, h3, h4⟩ := (ih2 hm).2 n p q pq hmg rfl
        obtain ⟨idx', hidx'⟩ := List.mem_iff_getElem?.1 hpq'
        obtain ⟨e1, rfl, rfl⟩ := (lit_accepts h0 hpk hpn).1 hacc
        obtain ⟨e2, rfl, rfl⟩ := (lit_accepts h0 hqk hqn).1 h1
        refine ⟨⟨idx', pq, off, off + l.length + l'.length, none⟩ :: tr', .cons hidx' ?_ (by rw [hnode]; exact h3), ?_⟩
        · exact (lit_accepts h0 hpqk hpqn).2 ⟨prefix_append_drop.2 ⟨e1, e2⟩, by rw [List.length_append, Nat.add_assoc], rfl⟩
        · exact SameEffect.merge cr (cr.node n hn).1 hpk hqk hpqk hpn hqn hpqn hin hnode h4
    · rintro x p' q pq hmg rfl
      obtain ⟨l, l', hpk, hqk, hpqk, hpn, hqn, hpqn, hpars, hin, hnode, hqd, _, _⟩ := cr.mg _ _ _ _ hmg
      have : p = q := by
        rw [hpars] at hidx
        simpa using List.mem_of_getElem? hidx
      subst this
      obtain ⟨tr', h1, h2⟩ := (ih2 hm).1 hqd
      exact ⟨idx, mid, v, tr, tr', hacc, rfl, h1, h2⟩
  | plain hk hrun => exact fun _ => .plain hk hrun
  | @custom p off i nm t tr m e off' hk ht hpath hterm hend ih =>
    intro _
    have hm := cr.dterm hterm
    obtain ⟨tr', h1, h2⟩ := (ih hm).1 (cr.dtype i nm t ht)
    rw [← h2.store []]
    exact .custom hk (by rw [cr.types]; exact ht) h1 ((cr.node m hm).1.trans hterm) hend
  | rep hk _ ih =>
    intro hr
    obtain ⟨ha, hw⟩ := hr _ _ _ hk
    exact .rep hk (ih ha hw)
  | repNone hk => exact fun _ => .repNone hk
  | one hpath hterm hend ih =>
    intro ha hw
    have hm := cr.dterm hterm
    obtain ⟨tr', h1, h2⟩ := (ih hm).1 ha
    rw [← h2.store []]
    exact .one h1 ((cr.node _ hm).1.trans hterm) hend
  | more hpath hterm hend hsep hterm' hend' hel ih1 ih2 ih3 =>
    intro ha hw
    have hm := cr.dterm hterm
    have hm' := cr.dterm hterm'
    obtain ⟨tr', h1, h2⟩ := (ih1 hm).1 ha
    obtain ⟨tr2, h3, h4⟩ := (ih2 hm').1 hw
    rw [← h2.store []]
    exact .more h1 ((cr.node _ hm).1.trans hterm) hend h3 ((cr.node _ hm').1.trans hterm') hend' (ih3 ha hw)

/-- what is shown from the second graph to the first -/
def Judgement.Bwd (env : Env) (c c' : Ctx) (s : Bytes) (slack : Prop) (D : NodeId → Prop) :
    Judgement → Prop
  | .path n off tr' m off' => D n → D m ∧ ∃ tr, Holds env c s slack (.path n off tr m off') ∧ SameEffect c c' s n off tr tr'
  | .accepts p off off' v => RepIn D p → Holds env c s slack (.accepts p off off' v)
  | .elems a w permit off vs off' => D a → D w → Holds env c s slack (.elems a w permit off vs off')

theorem Corr.backward (cr : Corr c c' D Mg) (h0 : ∀ c ∈ s, c ≠ 0) {j : Judgement} (h : Holds env c' s slack j) :
    j.Bwd env c c' s slack D := by
  induction h with
  | nil n off =>
    intro hn
    refine ⟨hn, [], .nil n off, ⟨fun _ => rfl, rfl, ?_⟩⟩
    simp only [firstEndN, CanEnd, (cr.node n hn).1]
    rfl
  | @cons n off idx p mid v tr m off' hidx hacc htail ih1 ih2 =>
    intro hn
    have hpm := List.mem_of_getElem? hidx
    rcases cr.bwd n hn p hpm with ⟨hp', hd⟩ | ⟨p0, q, hmg⟩
    · obtain ⟨hm, tr', h1, h2⟩ := ih2 hd
      obtain ⟨idx', hidx'⟩ := List.mem_iff_getElem?.1 hp'
      exact ⟨hm, _, .cons hidx' (ih1 (cr.rep n hn p hp')) h1, h2.keep (cr.node n hn).1⟩
    · obtain ⟨l, l', hpk, hqk, hpqk, hpn, hqn, hpqn, hpars, hin, hnode, hqd, hp0, _⟩ := cr.mg _ _ _ _ hmg
      obtain ⟨hm, tr', h1, h2⟩ := ih2 (by rw [hnode]; exact hqd)
      obtain ⟨idx', hidx'⟩ := List.mem_iff_getElem?.1 hp0
      obtain ⟨e1, rfl, rfl⟩ := (lit_accepts h0 hpqk hpqn).1 hacc
      obtain ⟨e2, e3⟩ := prefix_append_drop.1 e1
      rw [List.length_append, ← Nat.add_assoc, hnode] at h1 h2
      refine ⟨hm, ⟨idx', p0, off, off + l.length, none⟩ :: ⟨0, q, off + l.length, off + l.length + l'.length, none⟩ :: tr', ?_, ?_⟩
      · refine .cons hidx' ((lit_accepts h0 hpk hpn).2 ⟨e2, rfl, rfl⟩) (.cons (by rw [hpars]; rfl) ((lit_accepts h0 hqk hqn).2 ⟨e3, rfl, rfl⟩) h1)
      · rw [List.length_append, ← Nat.add_assoc]
        exact SameEffect.merge cr (cr.node n hn).1 hpk hqk hpqk hpn hqn hpqn hin hnode h2
  | plain hk hrun => exact fun _ => .plain hk hrun
  | @custom p off i nm t tr m e off' hk ht hpath hterm hend ih =>
    intro _
    rw [cr.types] at ht
    obtain ⟨hm, tr', h1, h2⟩ := ih (cr.dtype i nm t ht)
    rw [h2.store []]
    exact .custom hk ht h1 ((cr.node m hm).1.symm.trans hterm) hend
  | rep hk _ ih =>
    intro hr
    obtain ⟨ha, hw⟩ := hr _ _ _ hk
    exact .rep hk (ih ha hw)
  | repNone hk => exact fun _ => .repNone hk
  | one hpath hterm hend ih =>
    intro ha hw
    obtain ⟨hm, tr', h1, h2⟩ := ih ha
    rw [h2.store []]
    exact .one h1 ((cr.node _ hm).1.symm.trans hterm) hend
  | more hpath hterm hend hsep hterm' hend' hel ih1 ih2 ih3 =>
    intro ha hw
    obtain ⟨hm, tr', h1, h2⟩ := ih1 ha
    obtain ⟨hm', tr2, h3, h4⟩ := ih2 hw
    rw [h2.store []]
    exact .more h1 ((cr.node _ hm).1.symm.trans hterm) hend h3 ((cr.node _ hm').1.symm.trans hterm') hend' (ih3 ha hw)

theorem Corr.repBwd (cr : Corr c c' D Mg) {x : NodeId} (hx : D x) {p : Parser} (hp : p ∈ (c'.node x).parsers) : RepIn D p := by
  rcases cr.bwd x hx p hp with ⟨h, _⟩ | ⟨p0, q, hmg⟩
  · exact cr.rep x hx p h
  · obtain ⟨l, l', _, _, hpqk, _⟩ := cr.mg _ _ _ _ hmg
    intro a w permit hk
    rw [hpqk] at hk; cases hk

/-- a merged literal may begin where the first one may -/
theorem Corr.mayMerge (cr : Corr c c' D Mg) (h0 : ∀ c ∈ s, c ≠ 0) {ctx : Ctx} {x : NodeId} {p q pq : Parser} (hmg : Mg x p q pq) {off : Nat}
    (h : MayAccept env ctx s pq off) : MayAccept env ctx s p off := by
  obtain ⟨l, l', hpk, hqk, hpqk, hpn, hqn, hpqn, _⟩ := cr.mg _ _ _ _ hmg
  cases h with
  | @plain _ _ r hk hrun =>
    obtain ⟨len, v⟩ := r
    rw [hpqk] at hrun
    obtain ⟨h1, _⟩ := (runLiteral_iff h0 (by rw [hpqn]; rfl)).1 hrun
    refine .plain (x := (l.length, none)) (by rw [hpk]; trivial) ?_
    rw [hpk]
    exact (runLiteral_iff h0 (by rw [hpn]; rfl)).2 ⟨(prefix_append_drop.1 h1).1, rfl, rfl⟩
  | custom hk => rw [hpqk] at hk; cases hk
  | rep hk => rw [hpqk] at hk; cases hk
  | repNone hk => rw [hpqk] at hk; cases hk
  | customNil hk => rw [hpqk] at hk; cases hk
  | repNil hk => rw [hpqk] at hk; cases hk

theorem Corr.may (cr : Corr c c' D Mg) (h0 : ∀ c ∈ s, c ≠ 0) {p : Parser} {off : Nat} (h : MayAccept env c' s p off) :
    RepIn D p → MayAccept env c s p off := by
  induction h with
  | plain hk hrun => exact fun _ => .plain hk hrun
  | @custom p off i nm t q hk ht hq hm ih =>
    intro _
    rw [cr.types] at ht
    have hd := cr.dtype i nm t ht
    have h1 := ih (cr.repBwd hd hq)
    rcases cr.bwd t hd q hq with ⟨h2, _⟩ | ⟨p0, q0, hmg⟩
    · exact .custom hk ht h2 h1
    · obtain ⟨_, _, _, _, _, _, _, _, _, _, _, _, hp0, _⟩ := cr.mg _ _ _ _ hmg
      exact .custom hk ht hp0 (cr.mayMerge h0 hmg h1)
  | @rep p off a w permit q hk hq hm ih =>
    intro hr
    obtain ⟨ha, _⟩ := hr _ _ _ hk
    have h1 := ih (cr.repBwd ha hq)
    rcases cr.bwd a ha q hq with ⟨h2, _⟩ | ⟨p0, q0, hmg⟩
    · exact .rep hk h2 h1
    · obtain ⟨_, _, _, _, _, _, _, _, _, _, _, _, hp0, _⟩ := cr.mg _ _ _ _ hmg
      exact .rep hk hp0 (cr.mayMerge h0 hmg h1)
  | repNone hk => exact fun _ => .repNone hk
  | @customNil p off i nm t hk ht hn =>
    intro _
    rw [cr.types] at ht
    exact .customNil hk ht ((cr.node t (cr.dtype i nm t ht)).1.symm.trans hn)
  | repNil hk hn =>
    intro hr
    obtain ⟨ha, _⟩ := hr _ _ _ hk
    exact .repNil hk ((cr.node _ ha).1.symm.trans hn)

theorem Corr.entry (cr : Corr c c' D Mg) {e : NodeId} (h : Entry c' e) : Entry c e ∧ D e := by
  have key : ∀ {x : NodeId} {p : Parser} {a w : NodeId} {permit : Bool}, p ∈ (c'.node x).parsers → p.kind = .repeat_ (some (a, w, permit)) →
      p ∈ (c.node x).parsers ∧ D a ∧ D w := by
    intro x p a w permit hp hk
    by_cases hx : D x
    · rcases cr.bwd x hx p hp with ⟨h1, _⟩ | ⟨p0, q, hmg⟩
      · exact ⟨h1, cr.rep x hx p h1 a w permit hk⟩
      · obtain ⟨_, _, _, _, hpqk, _⟩ := cr.mg _ _ _ _ hmg
        rw [hpqk] at hk; cases hk
    · rw [cr.dead x hx] at hp; cases hp
  cases h with
  | type h =>
    rw [cr.types] at h
    exact ⟨.type h, cr.dtype _ _ _ h⟩
  | elem hp hk =>
    obtain ⟨h1, h2, _⟩ := key hp hk
    exact ⟨.elem h1 hk, h2⟩
  | sep hp hk =>
    obtain ⟨h1, _, h2⟩ := key hp hk
    exact ⟨.sep h1 hk, h2⟩

theorem Corr.follows (cr : Corr c c' D Mg) {e n : NodeId} (h : Follows c' e n) (he : D e) : Follows c e n ∧ D n := by
  induction h with
  | refl => exact ⟨.refl _, he⟩
  | @step m p _ hp ih =>
    obtain ⟨h1, h2⟩ := ih
    rcases cr.bwd m h2 p hp with ⟨h3, h4⟩ | ⟨p0, q, hmg⟩
    · exact ⟨.step h1 h3, h4⟩
    · obtain ⟨_, _, _, _, _, _, _, _, hpars, _, hnode, hqd, hp0, _⟩ := cr.mg _ _ _ _ hmg
      rw [hnode]
      exact ⟨.step (.step h1 hp0) (by rw [hpars]; exact List.mem_singleton.2 rfl), hqd⟩

theorem one_iff_pairwise {R : Parser → Prop} {L : List Parser} :
    (∀ (i j : Nat) (p q : Parser), L[i]? = some p → L[j]? = some q → R p → R q → i = j) ↔ L.Pairwise fun p q => ¬ (R p ∧ R q) := by
  rw [List.pairwise_iff_getElem]
  constructor
  · intro h i j hi hj hlt ⟨h1, h2⟩
    have := h i j _ _ (List.getElem?_eq_getElem hi) (List.getElem?_eq_getElem hj) h1 h2
    omega
  · intro h i j p q hi hj h1 h2
    obtain ⟨hi1, rfl⟩ := List.getElem?_eq_some_iff.1 hi
    obtain ⟨hj1, rfl⟩ := List.getElem?_eq_some_iff.1 hj
    by_cases hlt : i < j
    · exact absurd ⟨h1, h2⟩ (h i j hi1 hj1 hlt)
    · by_cases hgt : j < i
      · exact absurd ⟨h2, h1⟩ (h j i hj1 hi1 hgt)
      · omega

theorem Corr.decided (cr : Corr c c' D Mg) (h0 : ∀ c ∈ s, c ≠ 0) (h : Decided env c s) : Decided env c' s where
  one n off := by
    by_cases hn : D n
    · have h1 := one_iff_pairwise (R := fun p => MayAccept env c s p off).1 (h.one n off)
      have h2 := cr.pw n hn _ (fun p q hpq => fun ⟨x, y⟩ => hpq ⟨y, x⟩) (fun p q pq r hmg hR => fun ⟨x, y⟩ => hR ⟨cr.mayMerge h0 hmg x, y⟩) h1
      intro i j p q hi hj hp hq
      exact one_iff_pairwise.2 h2 i j p q hi hj (cr.may h0 hp (cr.repBwd hn (List.mem_of_getElem? hi)))
        (cr.may h0 hq (cr.repBwd hn (List.mem_of_getElem? hj)))
    · intro i j p q hi
      rw [cr.dead n hn] at hi; simp at hi
  stop e n off he hf ht p hp hm := by
    obtain ⟨h1, h2⟩ := cr.entry he
    obtain ⟨h3, h4⟩ := cr.follows hf h2
    have ht' := (cr.node n h4).1.symm.trans ht
    have hm' := cr.may h0 hm (cr.repBwd h4 hp)
    rcases cr.bwd n h4 p hp with ⟨h5, _⟩ | ⟨p0, q, hmg⟩
    · exact h.stop e n off h1 h3 ht' p h5 hm'
    · obtain ⟨_, _, _, _, _, _, _, _, _, _, _, _, hp0, _⟩ := cr.mg _ _ _ _ hmg
      exact h.stop e n off h1 h3 ht' p0 hp0 (cr.mayMerge h0 hmg hm')
  nonempty e he := by
    obtain ⟨h1, h2⟩ := cr.entry he
    rw [(cr.node e h2).1]
    exact h.nonempty e h1

theorem Corr.noRepeat (cr : Corr c c' D Mg) (h : NoRepeat c) : NoRepeat c' := by
  intro n p hp d
  by_cases hn : D n
  · rcases cr.bwd n hn p hp with ⟨h1, _⟩ | ⟨p0, q, hmg⟩
    · exact h n p h1 d
    · obtain ⟨_, _, _, _, hpqk, _⟩ := cr.mg _ _ _ _ hmg
      rw [hpqk]; intro hc; cases hc
  · rw [cr.dead n hn] at hp; cases hp

theorem Corr.acyclic (cr : Corr c c' D Mg) {rank : NodeId → Nat} (h : Acyclic c rank) : Acyclic c' rank := by
  have key : ∀ n, ∀ p ∈ (c'.node n).parsers, p ∈ (c.node n).parsers ∨ ∃ l, p.kind = .literal (some l) ∧ rank p.node < rank n := by
    intro n p hp
    by_cases hn : D n
    · rcases cr.bwd n hn p hp with ⟨h1, _⟩ | ⟨p0, q, hmg⟩
      · exact .inl h1
      · obtain ⟨l, l', _, _, hpqk, _, _, _, hq, _, hnode, _, hp0, _⟩ := cr.mg _ _ _ _ hmg
        refine .inr ⟨_, hpqk, ?_⟩
        rw [hnode]
        exact Nat.lt_trans (h.next p0.node q (by rw [hq]; simp)) (h.next n p0 hp0)
    · rw [cr.dead n hn] at hp; cases hp
  refine ⟨fun n p hp => ?_, fun n p hp i hk nm t ht => ?_, fun n p hp a w m hk => ?_⟩
  · rcases key n p hp with h1 | ⟨_, _, h1⟩
    · exact h.next n p h1
    · exact h1
  · rcases key n p hp with h1 | ⟨_, h1, _⟩
    · exact h.type n p h1 i hk nm t (by rw [← cr.types]; exact ht)
    · rw [h1] at hk; cases hk
  · rcases key n p hp with h1 | ⟨_, h1, _⟩
    · exact h.rep n p h1 a w m hk
    · rw [h1] at hk; cases hk

end

/-- the rules of two graphs correspond (in any reading of user-defined types and repeats) -/
structure HSim (env : Env) (s : Bytes) (c c' : Ctx) : Prop where
  fwd : ∀ (slack : Prop) (tr : List NStep) (m : NodeId), Holds env c s slack (.path c.root 0 tr m s.length) → (c.node m).isTerminal = true →
    ∃ tr', Holds env c' s slack (.path c'.root 0 tr' m s.length) ∧ (c'.node m).isTerminal = true ∧ SameEffect c c' s c.root 0 tr tr'
  bwd : ∀ (slack : Prop) (tr' : List NStep) (m : NodeId), Holds env c' s slack (.path c'.root 0 tr' m s.length) → (c'.node m).isTerminal = true →
    ∃ tr, Holds env c s slack (.path c.root 0 tr m s.length) ∧ (c.node m).isTerminal = true ∧ SameEffect c c' s c.root 0 tr tr'
  root : c'.root = c.root
  types : c'.types = c.types
  opts : c'.opts = c.opts
  annots : c'.annots = c.annots
  fin : ∀ e, (c.node e).isTerminal = true → (c'.node e).isTerminal = true ∧ (c'.node e).tags = (c.node e).tags ∧
    (c'.node e).rbFile = (c.node e).rbFile ∧ (c'.node e).rbLine = (c.node e).rbLine
  dec : Decided env c s → Decided env c' s
  norep : NoRepeat c → NoRepeat c'
  acy : ∀ (rank : NodeId → Nat), Acyclic c rank → Acyclic c' rank

theorem SameEffect.refl (c : Ctx) (s : Bytes) (n : NodeId) (off : Nat) (tr : List NStep) : SameEffect c c s n off tr tr :=
  ⟨fun _ => rfl, rfl, rfl⟩

theorem SameEffect.trans {c c' c'' : Ctx} {s : Bytes} {n : NodeId} {off : Nat} {a b d : List NStep}
    (h : SameEffect c c' s n off a b) (h' : SameEffect c' c'' s n off b d) : SameEffect c c'' s n off a d :=
  ⟨fun o => (h'.store o).trans (h.store o), h'.mock.trans h.mock, h'.fst.trans h.fst⟩

theorem HSim.refl (env : Env) (s : Bytes) (c : Ctx) : HSim env s c c where
  fwd _ tr _ h ht := ⟨tr, h, ht, SameEffect.refl ..⟩
  bwd _ tr _ h ht := ⟨tr, h, ht, SameEffect.refl ..⟩
  root := rfl
  types := rfl
  opts := rfl
  annots := rfl
  fin _ h := ⟨h, rfl, rfl, rfl⟩
  dec := id
  norep := id
  acy _ := id

theorem HSim.trans {env : Env} {s : Bytes} {c c' c'' : Ctx} (h : HSim env s c c') (h' : HSim env s c' c'') : HSim env s c c'' where
  fwd slack tr m hp ht := by
    obtain ⟨t1, a1, a2, a3⟩ := h.fwd slack tr m hp ht
    obtain ⟨t2, b1, b2, b3⟩ := h'.fwd slack t1 m a1 a2
    rw [h.root] at b3
    exact ⟨t2, b1, b2, a3.trans b3⟩
  bwd slack tr m hp ht := by
    obtain ⟨t1, a1, a2, a3⟩ := h'.bwd slack tr m hp ht
    obtain ⟨t2, b1, b2, b3⟩ := h.bwd slack t1 m a1 a2
    rw [h.root] at a3
    exact ⟨t2, b1, b2, b3.trans a3⟩
  root := h'.root.trans h.root
  types := h'.types.trans h.types
  opts := h'.opts.trans h.opts
  annots := h'.annots.trans h.annots
  fin e he := by
    obtain ⟨a1, a2, a3, a4⟩ := h.fin e he
    obtain ⟨b1, b2, b3, b4⟩ := h'.fin e a1
    exact ⟨b1, b2.trans a2, b3.trans a3, b4.trans a4⟩
  dec hd := h'.dec (h.dec hd)
  norep hd := h'.norep (h.norep hd)
  acy rank hd := h'.acy rank (h.acy rank hd)

theorem HSim.ofCorr {env : Env} {s : Bytes} (h0 : ∀ c ∈ s, c ≠ 0) {c c' : Ctx} {D : NodeId → Prop} {Mg : NodeId → Parser → Parser → Parser → Prop}
    (cr : Corr c c' D Mg) : HSim env s c c' where
  fwd slack tr m hp ht := by
    have hm := cr.dterm ht
    obtain ⟨tr', h1, h2⟩ := (cr.forward h0 hp hm).1 cr.droot
    exact ⟨tr', by rw [cr.root]; exact h1, (cr.node m hm).1.trans ht, h2⟩
  bwd slack tr m hp ht := by
    rw [cr.root] at hp
    obtain ⟨hm, tr', h1, h2⟩ := cr.backward h0 hp cr.droot
    exact ⟨tr', h1, (cr.node m hm).1.symm.trans ht, h2⟩
  root := cr.root
  types := cr.types
  opts := cr.opts
  annots := cr.annots
  fin e he := by
    obtain ⟨h1, h2⟩ := cr.node e (cr.dterm he)
    exact ⟨h1.trans he, h2⟩
  dec := cr.decided h0
  norep := cr.noRepeat
  acy _ := cr.acyclic

/-! ### the elementary steps -/

theorem ref_live {b : Bld} {E : List NodeId} (hi : Inv b E) {opts : Nat} {annots : List Annot} {x : NodeId} {p : Parser}
    (hp : p ∈ ((b.toCtx opts annots).node x).parsers) {y : NodeId} (hy : y = p.node ∨ y ∈ p.kind.refs) : (b.heap y).isSome := by
  change p ∈ ((b.heap x).getD {}).parsers at hp
  cases hx : b.heap x with
  | none => rw [hx] at hp; simp at hp
  | some nd =>
    rw [hx] at hp
    refine (hi.asc x y ?_).2
    rw [refsOf_some hx]
    refine List.mem_flatMap.2 ⟨p, hp, ?_⟩
    rcases hy with rfl | hy
    · exact List.mem_cons_self ..
    · exact List.mem_cons_of_mem _ hy

theorem sort_corr {srt : Sorter} {b : Bld} {n : NodeId} {nd : Node}
    (hn : b.heap n = some nd) (opts : Nat) (annots : List Annot) :
    Corr (b.toCtx opts annots) ((b.store n { nd with parsers := srt.sort nd.parsers }).toCtx opts annots)
      (fun _ => True) (fun _ _ _ _ => False) := by
  have hnode : ∀ x, ((b.store n { nd with parsers := srt.sort nd.parsers }).toCtx opts annots).node x =
      if x = n then { nd with parsers := srt.sort nd.parsers } else (b.toCtx opts annots).node x := by
    intro x
    show (Bld.heap _ x).getD {} = _
    rw [Bld.heap_store]
    split <;> rfl
  have hold : (b.toCtx opts annots).node n = nd := by
    show (b.heap n).getD {} = nd
    rw [hn]; rfl
  have hperm : ∀ x, (((b.store n { nd with parsers := srt.sort nd.parsers }).toCtx opts annots).node x).parsers.Perm
      ((b.toCtx opts annots).node x).parsers := by
    intro x
    rw [hnode]
    split
    · rename_i hx; subst hx; rw [hold]; exact srt.perm nd.parsers
    · exact List.Perm.refl _
  refine ⟨rfl, trivial, rfl, fun _ _ _ _ => trivial, rfl, rfl, ?_, fun x hx => absurd trivial hx, fun x hx => absurd trivial hx, ?_, ?_, ?_,
    fun _ _ _ _ _ _ _ _ => ⟨trivial, trivial⟩, ?_⟩
  · intro x _
    rw [hnode]
    split
    · rename_i hx; subst hx; rw [hold]; exact ⟨rfl, rfl, rfl, rfl⟩
    · exact ⟨rfl, rfl, rfl, rfl⟩
  · intro x _ p hp; exact .inl ⟨(hperm x).mem_iff.2 hp, trivial⟩
  · intro x _ p hp; exact .inl ⟨(hperm x).mem_iff.1 hp, trivial⟩
  · intro x p q pq h; exact absurd h id
  · intro x _ R hsym _ h
    exact ((hperm x).pairwise_iff (fun {p q} => hsym p q)).2 h

theorem compact_corr {b : Bld} {E : List NodeId} (hi : Inv b E)
    {n : NodeId} {i : Nat} {nd : Node}
    {p : Parser} {vd : Node} {c : Parser} {wd : Node} {l l' : Bytes}
    (hc : Compaction b n i nd p vd c wd l l') (hroot : b.root ∈ E) (htypes : ∀ t ∈ b.types, t.2 ∈ E) (opts : Nat) (annots : List Annot) :
    Corr (b.toCtx opts annots) ((compacted b n i nd p c l l').toCtx opts annots) (fun x => x ≠ p.node)
      (fun x p' q' pq' => x = n ∧ p' = p ∧ q' = c ∧ pq' = mergedPrs p c l l') := by
  obtain ⟨hlt1, hlt2⟩ := hc.lt hi
  have hi' := compact_inv hi hc
  have hvn : p.node ≠ n := Nat.ne_of_gt hlt1
  have hlen : i < nd.parsers.length := (List.getElem?_eq_some_iff.1 hc.hp).1
  have hnode : ∀ x, ((compacted b n i nd p c l l').toCtx opts annots).node x =
      if x = p.node then {} else if x = n then { nd with parsers := nd.parsers.set i (mergedPrs p c l l') }
      else (b.toCtx opts annots).node x := by
    intro x
    show (Bld.heap _ x).getD {} = _
    unfold compacted
    rw [Bld.heap_free, Bld.heap_store]
    split
    · rfl
    · split <;> rfl
  have holdn : (b.toCtx opts annots).node n = nd := by
    show (b.heap n).getD {} = nd
    rw [hc.hn]; rfl
  have holdv : (b.toCtx opts annots).node p.node = vd := by
    show (b.heap p.node).getD {} = vd
    rw [hc.hv]; rfl
  have hnewn : ((compacted b n i nd p c l l').toCtx opts annots).node n =
      { nd with parsers := nd.parsers.set i (mergedPrs p c l l') } := by
    rw [hnode, if_neg (Ne.symm hvn), if_pos rfl]
  have hdead : (compacted b n i nd p c l l').heap p.node = none := by
    unfold compacted; rw [Bld.heap_free, if_pos rfl]
  have hlive : ∀ y, ((compacted b n i nd p c l l').heap y).isSome → y ≠ p.node := by
    rintro y h rfl
    rw [hdead] at h; cases h
  have hnoref : ∀ (x : NodeId) (r : Parser), r ∈ (((compacted b n i nd p c l l').toCtx opts annots).node x).parsers →
      ∀ y, y = r.node ∨ y ∈ r.kind.refs → y ≠ p.node :=
    fun x r hr y hy => hlive y (ref_live hi' hr hy)
  have hmi : mergedPrs p c l l' ∈ (((compacted b n i nd p c l l').toCtx opts annots).node n).parsers := by
    rw [hnewn]
    exact List.mem_of_getElem? (i := i) (by
      show (nd.parsers.set i _)[i]? = _
      rw [List.getElem?_set_self hlen])
  have hfwd : ∀ x, x ≠ p.node → ∀ r ∈ ((b.toCtx opts annots).node x).parsers,
      (r ∈ (((compacted b n i nd p c l l').toCtx opts annots).node x).parsers ∧ r.node ≠ p.node) ∨ (x = n ∧ r = p) := by
    intro x hx r hr
    by_cases hxn : x = n
    · subst hxn
      rw [holdn] at hr
      obtain ⟨j, hj⟩ := List.mem_iff_getElem?.1 hr
      by_cases hji : j = i
      · subst hji
        rw [hc.hp] at hj
        exact .inr ⟨rfl, (Option.some.inj hj).symm⟩
      · have : r ∈ (((compacted b x i nd p c l l').toCtx opts annots).node x).parsers := by
          rw [hnewn]
          exact List.mem_of_getElem? (i := j) (by
            show (nd.parsers.set i _)[j]? = _
            rw [List.getElem?_set_ne (Ne.symm hji)]
            exact hj)
        exact .inl ⟨this, hnoref _ r this _ (.inl rfl)⟩
    · have : r ∈ (((compacted b n i nd p c l l').toCtx opts annots).node x).parsers := by
        rw [hnode, if_neg hx, if_neg hxn]; exact hr
      exact .inl ⟨this, hnoref _ r this _ (.inl rfl)⟩
  refine ⟨rfl, ?_, rfl, ?_, rfl, rfl, ?_, ?_, ?_, ?_, ?_, ?_, ?_, ?_⟩
  · exact hlive _ (hi'.ext _ hroot)
  · intro j nm t ht
    exact hlive _ (hi'.ext _ (htypes (nm, t) (List.mem_of_getElem? ht)))
  · intro x hx
    rw [hnode, if_neg hx]
    split
    · rename_i hxn; subst hxn; rw [holdn]; exact ⟨rfl, rfl, rfl, rfl⟩
    · exact ⟨rfl, rfl, rfl, rfl⟩
  · intro x hx
    have : x = p.node := Classical.not_not.1 hx
    subst this; rw [holdv]; exact hc.hterm
  · intro x hx
    have : x = p.node := Classical.not_not.1 hx
    subst this; rw [hnode, if_pos rfl]
  · intro x hx r hr
    rcases hfwd x hx r hr with h | ⟨rfl, rfl⟩
    · exact .inl h
    · exact .inr ⟨c, _, rfl, rfl, rfl, rfl⟩
  · intro x hx r hr
    have hnp := hnoref x r hr _ (.inl rfl)
    by_cases hxn : x = n
    · subst hxn
      have hr' := hr
      rw [hnewn] at hr'
      rcases List.mem_or_eq_of_mem_set hr' with h | h
      · exact .inl ⟨by rw [holdn]; exact h, hnp⟩
      · subst h
        exact .inr ⟨p, c, rfl, rfl, rfl, rfl⟩
    · rw [hnode, if_neg hx, if_neg hxn] at hr
      exact .inl ⟨hr, hnp⟩
  · rintro x p' q' pq' ⟨rfl, rfl, rfl, rfl⟩
    refine ⟨l, l', hc.hk, hc.hck, rfl, hc.hname, hc.hcname, hc.hname, by rw [holdv]; exact hc.hpars, fun h => h rfl, rfl,
      Nat.ne_of_gt hlt2, by rw [holdn]; exact List.mem_of_getElem? hc.hp, hmi⟩
  · intro x hx r hr a w permit hk
    rcases hfwd x hx r hr with ⟨h, _⟩ | ⟨rfl, rfl⟩
    · exact ⟨hnoref x r h a (.inr (by rw [hk]; simp [PKind.refs])), hnoref x r h w (.inr (by rw [hk]; simp [PKind.refs]))⟩
    · rw [hc.hk] at hk; cases hk
  · intro x hx R hsym hmg h
    by_cases hxn : x = n
    · subst hxn
      rw [holdn] at h
      rw [hnewn]
      have hR : ∀ r, R p r → R (mergedPrs p c l l') r := fun r => hmg p c _ r ⟨rfl, rfl, rfl, rfl⟩
      have hpe : nd.parsers[i] = p := by
        have := hc.hp
        rw [List.getElem?_eq_getElem hlen] at this
        exact Option.some.inj this
      rw [List.pairwise_iff_getElem] at h ⊢
      intro a d ha hd hlt
      have ha' : a < nd.parsers.length := by simpa using ha
      have hd' : d < nd.parsers.length := by simpa using hd
      have h1 := h a d ha' hd' hlt
      show R ((nd.parsers.set i _)[a]'_) ((nd.parsers.set i _)[d]'_)
      rw [List.getElem_set, List.getElem_set]
      by_cases hia : i = a
      · subst hia
        rw [if_pos rfl, if_neg (Nat.ne_of_lt hlt)]
        rw [hpe] at h1
        exact hR _ h1
      · rw [if_neg hia]
        by_cases hid : i = d
        · subst hid
          rw [if_pos rfl]
          rw [hpe] at h1
          exact hsym _ _ (hR _ (hsym _ _ h1))
        · rw [if_neg hid]; exact h1
    · rw [hnode, if_neg hx, if_neg hxn]; exact h

theorem OptStep.hsim {env : Env} {s : Bytes} (h0 : ∀ c ∈ s, c ≠ 0) {srt : Sorter} {n0 : NodeId} {b b' : Bld}
    {E : List NodeId} (hi : Inv b E) (hroot : b.root ∈ E) (htypes : ∀ t ∈ b.types, t.2 ∈ E) (h : OptStep srt n0 b b') (opts : Nat)
    (annots : List Annot) : HSim env s (b.toCtx opts annots) (b'.toCtx opts annots) := by
  cases h with
  | sort h0' hn => exact HSim.ofCorr h0 (sort_corr hn opts annots)
  | compact h0' hc => exact HSim.ofCorr h0 (compact_corr hi hc hroot htypes opts annots)

theorem OptSteps.hsim {env : Env} {s : Bytes} (h0 : ∀ c ∈ s, c ≠ 0) {srt : Sorter} {n0 : NodeId} {b b' : Bld}
    {E : List NodeId} (hi : Inv b E) (hroot : b.root ∈ E) (htypes : ∀ t ∈ b.types, t.2 ∈ E) (h : OptSteps srt n0 b b') (opts : Nat)
    (annots : List Annot) : HSim env s (b.toCtx opts annots) (b'.toCtx opts annots) := by
  induction h with
  | refl b => exact HSim.refl env s _
  | head st _ ih =>
    obtain ⟨hi', _, ht, hr, _⟩ := st.frame hi
    exact (st.hsim (env := env) h0 hi hroot htypes opts annots).trans (ih hi' (by rw [hr]; exact hroot) (by rw [ht]; exact htypes))

end LN
