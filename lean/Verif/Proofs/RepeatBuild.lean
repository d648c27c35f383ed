import Verif.Spec.RepeatConf
import Verif.Proofs.Repeat
import Verif.Proofs.Trie
import Verif.Proofs.FieldConf
import Verif.Proofs.OptTotal
/- A rule with repeat fields in an empty graph becomes the chain of its fields. -/
set_option autoImplicit false
namespace LN

/-- `b'` is `b` with more nodes -/
structure Ext (b b' : Bld) : Prop where
  le : b.next ≤ b'.next
  old : ∀ m, m < b.next → b'.heap m = b.heap m
  types : b'.types = b.types
  root : b'.root = b.root
  nn : b.NoNull → b'.NoNull

theorem Ext.refl (b : Bld) : Ext b b := ⟨Nat.le_refl _, fun _ _ => rfl, rfl, rfl, id⟩
theorem Ext.trans {a b c : Bld} (h : Ext a b) (h' : Ext b c) : Ext a c :=
  ⟨Nat.le_trans h.le h'.le, fun m hm => (h'.old m (Nat.lt_of_lt_of_le hm h.le)).trans (h.old m hm), h'.types.trans h.types, h'.root.trans h.root, fun x => h'.nn (h.nn x)⟩

/-- `c` looks like `b'` on the nodes from `b.next` on -/
def Agree (b b' : Bld) (c : NodeId → Node) : Prop := ∀ m, b.next ≤ m → m < b'.next → c m = (b'.heap m).getD {}

/-- what `ln_newParser` delivers for a field -/
structure NewFld (b b' : Bld) (conf : Json) (p : Parser) (f : Fld) : Prop where
  ext : Ext b b'
  conf : p.conf = conf
  node : p.node = 0
  lit : p.kind ≠ .literal none ∧ p.kind ≠ .repeat_ none
  fld : ∀ c, Agree b b' c → FldAt c p f

/-- an empty node, which is not the end of a rule -/
def Bld.Fresh (b : Bld) (n : NodeId) : Prop := n < b.next ∧ ∃ nd, b.heap n = some nd ∧ nd.parsers = [] ∧ nd.isTerminal = false

/-- from the fresh node `n` of `b`, the graph `b'` leads by the fields `fs` to the fresh node `e` -/
structure Grown (b b' : Bld) (n e : NodeId) (fs : List Fld) : Prop where
  le : b.next ≤ b'.next
  old : ∀ m, m < b.next → m ≠ n → b'.heap m = b.heap m
  types : b'.types = b.types
  root : b'.root = b.root
  nn : b.NoNull → b'.NoNull
  fresh : b'.Fresh e
  eold : e = n ∨ b.next ≤ e
  chain : ∀ c : NodeId → Node, (∀ m, (m = n ∨ b.next ≤ m ∧ m < b'.next) → m ≠ e → c m = (b'.heap m).getD {}) →
    (c e).parsers = [] → (c e).isTerminal = true → Chain c n fs ∧ Leads c n e

/-- one field: from the fresh node `n` to the fresh node `x` -/
structure FStep (b b' : Bld) (n x : NodeId) (f : Fld) : Prop where
  le : b.next ≤ b'.next
  old : ∀ m, m < b.next → m ≠ n → b'.heap m = b.heap m
  types : b'.types = b.types
  root : b'.root = b.root
  nn : b.NoNull → b'.NoNull
  fresh : b'.Fresh x
  xnew : b.next ≤ x
  fld : ∀ c : NodeId → Node, (∀ m, (m = n ∨ b.next ≤ m ∧ m < b'.next) → m ≠ x → c m = (b'.heap m).getD {}) →
    ∃ p, (c n).parsers = [p] ∧ (c n).isTerminal = false ∧ FldAt c p f ∧ p.node = x

theorem FldAt.setNode {c : NodeId → Node} {p : Parser} {f : Fld} (h : FldAt c p f) (n : NodeId) : FldAt c { p with node := n } f := by
  cases f with
  | plain k nm => rw [FldAt] at h ⊢; exact h
  | rep nm el sep permit => rw [FldAt] at h ⊢; exact h

section
variable {env : Env}

theorem addInstance_fresh {rec : AddRec} {b b1 : Bld} {c : Json} {p : Parser} {f : Fld} {dag : NodeId} (hd : b.Fresh dag)
    (hnew : newParser env rec b c = .ok (b1, some p)) (hf : NewFld b b1 c p f) :
    ∃ b2, addInstance env rec b c dag 0 = .ok (b2, some b1.next) ∧ FStep b b2 dag b1.next f := by
  obtain ⟨hlt, nd, hnd, hpar, hterm⟩ := hd
  have hlt1 : dag < b1.next := Nat.lt_of_lt_of_le hlt hf.ext.le
  have hne : dag ≠ b1.next := Nat.ne_of_lt hlt1
  have h1 : b1.heap dag = some nd := by rw [hf.ext.old _ hlt, hnd]
  have hl : b1.load dag = .ok nd := by simp [Bld.load, h1]
  have hl1 : b1.newPDAG.1.load dag = .ok nd := by simp [Bld.load, Bld.newPDAG, h1, hne]
  refine ⟨b1.append dag nd p, ?_, ?_⟩
  · unfold addInstance
    rw [hnew]
    simp only [R.ok_bind', hl, hpar, List.find?_nil]
    rw [if_pos trivial]
    simp only [R.ok_bind', hl1]
    rfl
  · refine ⟨?_, ?_, hf.ext.types, hf.ext.root, ?_, ?_, hf.ext.le, ?_⟩
    · exact Nat.le_succ_of_le hf.ext.le
    · intro m hm hmn
      have : m ≠ b1.next := Nat.ne_of_lt (Nat.lt_of_lt_of_le hm hf.ext.le)
      simp only [Bld.append, Bld.store, Bld.newPDAG, if_neg hmn, if_neg this]
      exact hf.ext.old m hm
    · intro hnn n x hx q hq
      simp only [Bld.append, Bld.store, Bld.newPDAG] at hx
      split at hx
      · cases hx
        simp only [addEntry, hpar, List.nil_append] at hq
        rw [if_neg (by simp), List.mem_singleton] at hq
        subst hq
        exact hf.lit
      · split at hx
        · cases hx; cases hq
        · exact hf.ext.nn hnn n x hx q hq
    · refine ⟨Nat.lt_succ_self _, {}, ?_, rfl, rfl⟩
      simp only [Bld.append, Bld.store, Bld.newPDAG, if_neg hne.symm, if_true]
    · intro c hc
      have hcd : c dag = addEntry nd { p with node := b1.next } := by
        rw [hc dag (.inl rfl) hne]
        simp only [Bld.append, Bld.store, if_true, Option.getD_some]
      refine ⟨{ p with node := b1.next }, ?_, ?_, ?_, rfl⟩
      · rw [hcd]; simp [addEntry, hpar]
      · rw [hcd]; simp [addEntry, hterm]
      · refine (hf.fld c ?_).setNode _
        intro m h2 h3
        have hm1 : m ≠ b1.next := Nat.ne_of_lt h3
        have hm2 : m ≠ dag := Nat.ne_of_gt (Nat.lt_of_lt_of_le hlt h2)
        rw [hc m (.inr ⟨h2, Nat.lt_succ_of_lt h3⟩) hm1]
        simp only [Bld.append, Bld.store, Bld.newPDAG, if_neg hm1, if_neg hm2]

theorem Grown.cons {b b1 b' : Bld} {n x e : NodeId} {f : Fld} {fs : List Fld} (hn : n < b.next) (h : FStep b b1 n x f) (ht : Grown b1 b' x e fs) :
    Grown b b' n e (f :: fs) := by
  have hb1 := h.le
  have hx := h.xnew
  have hxlt : x < b1.next := h.fresh.1
  have hee : b.next ≤ e := by
    rcases ht.eold with h' | h'
    · rw [h']; exact hx
    · exact Nat.le_trans hb1 h'
  have hen : n ≠ e := Nat.ne_of_lt (Nat.lt_of_lt_of_le hn hee)
  refine ⟨Nat.le_trans hb1 ht.le, ?_, ht.types.trans h.types, ht.root.trans h.root, fun x => ht.nn (h.nn x), ht.fresh, .inr hee, ?_⟩
  · intro m hm hmn
    rw [ht.old m (Nat.lt_of_lt_of_le hm hb1) (Nat.ne_of_lt (Nat.lt_of_lt_of_le hm hx)), h.old m hm hmn]
  · intro c hc he1 he2
    have hold : ∀ m, (m = n ∨ b.next ≤ m ∧ m < b1.next) → m ≠ x → c m = (b1.heap m).getD {} := by
      intro m hm hmx
      have hml : m < b1.next := by
        rcases hm with rfl | hm
        · exact Nat.lt_of_lt_of_le hn hb1
        · exact hm.2
      have hme : m ≠ e := by
        rcases ht.eold with h' | h'
        · rw [h']; exact hmx
        · exact Nat.ne_of_lt (Nat.lt_of_lt_of_le hml h')
      rw [hc m (hm.imp id fun hm => ⟨hm.1, Nat.lt_of_lt_of_le hm.2 ht.le⟩) hme, ht.old m hml hmx]
    have htail : Chain c x fs ∧ Leads c x e := by
      refine ht.chain c ?_ he1 he2
      intro m hm hme
      refine hc m (.inr ?_) hme
      rcases hm with rfl | hm
      · exact ⟨hx, Nat.lt_of_lt_of_le hxlt ht.le⟩
      · exact ⟨Nat.le_trans hb1 hm.1, hm.2⟩
    obtain ⟨p, h1, h2, h3, h4⟩ := h.fld c hold
    rw [Chain]
    exact ⟨⟨p, h1, h2, h3, by rw [h4]; exact htail.1⟩, .step h1 (by rw [h4]; exact htail.2)⟩

theorem Grown.refl {b : Bld} {n : NodeId} (h : b.Fresh n) : Grown b b n n [] := by
  refine ⟨Nat.le_refl _, fun _ _ _ => rfl, rfl, rfl, id, h, .inl rfl, fun c _ h1 h2 => ?_⟩
  rw [Chain]; exact ⟨⟨h1, h2⟩, .stop h1⟩

/-- the fields are constructed as they should -/
def Builds (env : Env) (c : Json) (f : Fld) : Prop :=
  ∀ (n : Nat) (b : Bld), c.depth ≤ n + 1 → ∃ b' p, newParser env (addF env n) b c = .ok (b', some p) ∧ NewFld b b' c p f

theorem FieldOf.obj {c : Json} {f : Fld} (h : FieldOf env c f) : ∃ o ty, c = .obj o ∧ (c.ptr (bs! "type")).bind (strOf env) = some ty ∧ ty ≠ bs! "alternative" := by
  cases h with
  | plain h _ =>
    obtain ⟨o, ty, h1, h2, h3, _⟩ := confField_spec h
    exact ⟨o, ty, h1, h2, h3⟩
  | rep hty => exact ⟨_, _, rfl, hty, by decide⟩

inductive AllBuild (env : Env) : List Json → List Fld → Prop where
  | nil : AllBuild env [] []
  | cons {c : Json} {f : Fld} {cs : List Json} {fs : List Fld} (hf : FieldOf env c f) (h : Builds env c f) (t : AllBuild env cs fs) : AllBuild env (c :: cs) (f :: fs)

theorem addParsersLoop_grown {n : Nat} : ∀ {cs : List Json} {fs : List Fld}, AllBuild env cs fs → 
    (∀ c ∈ cs, c.depth ≤ n + 1) → ∀ {b : Bld} {dag : NodeId} (pn : NodeId), b.Fresh dag →
    ∃ b' e pn', addParsersLoop env (addF env n) false cs b dag 0 pn = .ok (b', some (e, pn')) ∧ Grown b b' dag e fs := by
  intro cs
  induction cs with
  | nil =>
    intro fs h _ b dag pn hd
    cases h
    exact ⟨b, dag, pn, by simp [addParsersLoop], Grown.refl hd⟩
  | cons c cs ih =>
    intro fs h hdep b dag pn hd
    cases h with
    | @cons _ f _ fs h hb t =>
    obtain ⟨b1, p, h1, h2⟩ := hb n b (hdep c (List.mem_cons_self ..))
    obtain ⟨b2, h3, h4⟩ := addInstance_fresh hd h1 h2
    obtain ⟨b', e, pn', h5, h6⟩ := ih t (fun c hc => hdep c (List.mem_cons_of_mem _ hc)) b1.next h4.fresh
    refine ⟨b', e, pn', ?_, Grown.cons hd.1 h4 h6⟩
    obtain ⟨o, ty, rfl, _⟩ := h.obj
    simp only [addParsersLoop, h3, R.ok_bind', Bool.false_eq_true, if_false]
    exact h5

theorem Listed.depth {v : Json} {cs : List Json} (h : Listed v cs) : ∀ c ∈ cs, c.depth ≤ v.depth := by
  cases h with
  | list l =>
    intro c hc
    have := depthArr_mem _ c hc
    simp only [Json.depth]; omega
  | one o => intro c hc; rw [List.mem_singleton] at hc; rw [hc]; exact Nat.le_refl _

theorem addF_grown {n : Nat} {v : Json} {cs : List Json} {fs : List Fld} (hv : Listed v cs) (h : AllBuild env cs fs) (hdep : v.depth ≤ n) {b : Bld} {dag : NodeId} (hd : b.Fresh dag) :
    ∃ b' e pn', addF env n b dag false v 0 = .ok (b', some (e, pn')) ∧ Grown b b' dag e fs := by
  obtain ⟨k, rfl⟩ : ∃ k, n = k + 1 := ⟨n - 1, by have := depth_pos v; omega⟩
  unfold addF addStep
  cases hv with
  | list l =>
    have : ∀ c ∈ cs, c.depth ≤ k + 1 := fun c hc => Nat.le_trans (Listed.depth (.list cs) c hc) hdep
    exact addParsersLoop_grown h this 0 hd
  | one o =>
    cases h with
    | @cons _ f _ fs h hb t =>
    cases t
    obtain ⟨o', ty, h0, hty, hne⟩ := h.obj
    obtain ⟨b1, p, h1, h2⟩ := hb k b hdep
    obtain ⟨b2, h3, h4⟩ := addInstance_fresh hd h1 h2
    dsimp only
    rw [hty]
    dsimp only
    rw [if_neg hne, h3]
    exact ⟨b2, b1.next, b1.next, rfl, Grown.cons hd.1 h4 (Grown.refl h4.fresh)⟩

/-- the sub-graph of a repeat field -/
theorem subGraph_chain {n : Nat} {v : Json} {cs : List Json} {fs : List Fld} (hv : Listed v cs) (h : AllBuild env cs fs) (hdep : v.depth ≤ n) (b : Bld) :
    ∃ b' a, subGraph (addF env n) b v = .ok (b', a, true) ∧ Ext b b' ∧ ∀ c, Agree b b' c → Chain c a fs := by
  have hfr : b.newPDAG.1.Fresh b.next := ⟨Nat.lt_succ_self _, {}, by simp [Bld.newPDAG], rfl, rfl⟩
  obtain ⟨b1, e, pn, h1, g⟩ := addF_grown hv h hdep hfr
  obtain ⟨hlt, nd, hnd, hp, ht⟩ := g.fresh
  have he : b.next ≤ e := by
    rcases g.eold with h' | h'
    · rw [h']; exact Nat.le_refl _
    · exact Nat.le_trans (Nat.le_succ _) h'
  have hl : b1.load e = .ok nd := by simp [Bld.load, hnd]
  refine ⟨b1.store e { nd with isTerminal := true }, b.next, ?_, ⟨?_, ?_, ?_, ?_, ?_⟩, ?_⟩
  · unfold subGraph
    show (addF env n b.newPDAG.1 b.next false v 0).bind _ = _
    rw [h1]
    simp only [R.ok_bind', hl]
  · exact Nat.le_trans (Nat.le_succ _) g.le
  · intro m hm
    have h1 : m ≠ e := Nat.ne_of_lt (Nat.lt_of_lt_of_le hm he)
    have h2 : m ≠ b.next := Nat.ne_of_lt hm
    simp only [Bld.store, if_neg h1]
    rw [g.old m (Nat.lt_succ_of_lt hm) h2]
    simp only [Bld.newPDAG, if_neg h2]
  · exact g.types
  · exact g.root
  · intro hnn
    have h1 : b1.NoNull := by
      refine g.nn ?_
      intro m x hx q hq
      simp only [Bld.newPDAG] at hx
      split at hx
      · cases hx; cases hq
      · exact hnn m x hx q hq
    intro m x hx q hq
    simp only [Bld.store] at hx
    split at hx
    · cases hx; rw [hp] at hq; cases hq
    · exact h1 m x hx q hq
  · intro c hc
    have hce : c e = { nd with isTerminal := true } := by
      rw [hc e he hlt]; simp [Bld.store]
    refine (g.chain c ?_ (by rw [hce]; exact hp) (by rw [hce])).1
    intro m hm hme
    have hm' : b.next ≤ m ∧ m < b1.next := by
      rcases hm with rfl | hm
      · exact ⟨Nat.le_refl _, Nat.lt_of_lt_of_le (Nat.lt_succ_self _) g.le⟩
      · exact ⟨Nat.le_of_succ_le hm.1, hm.2⟩
    rw [hc m hm'.1 hm'.2]
    simp only [Bld.store, if_neg hme]

/-- state of the constructor: what has been built so far -/
structure RepState (b0 b : Bld) (d : RepeatData) (el sep : List Fld) (permit : Bool) : Prop where
  ext : Ext b0 b
  go : d.stop = false
  par : ∀ a, d.parser = some a → ∀ c, Agree b0 b c → Chain c a el
  whl : ∀ w, d.while_ = some w → ∀ c, Agree b0 b c → Chain c w sep
  perm : d.permit = true → permit = true

theorem Agree.mono {b0 b b' : Bld} (h : Ext b b') {c : NodeId → Node} (hc : Agree b0 b' c) : Agree b0 b c := by
  intro m h1 h2
  rw [hc m h1 (Nat.lt_of_lt_of_le h2 h.le), h.old m h2]

theorem Agree.tail {b0 b b' : Bld} (h : Ext b0 b) {c : NodeId → Node} (hc : Agree b0 b' c) : Agree b b' c :=
  fun m h1 h2 => hc m (Nat.le_trans h.le h1) h2

theorem chkDot {ce : Json} {es : List Json} (h : Listed ce es)
    (hdot : es.length ≤ 1 ∨ ∀ x ∈ es, (x.ptr (bs! "name")).bind (strOf env) ≠ some (bs! ".")) : chkNoDupeDot env ce = true := by
  cases h with
  | one o => rfl
  | list =>
    unfold chkNoDupeDot
    simp only [Bool.not_eq_eq_eq_not, Bool.not_true, Bool.and_eq_false_iff, decide_eq_false_iff_not, Nat.not_lt]
    refine hdot.imp id fun h => ?_
    rw [List.any_eq_false]
    intro x hx
    simpa using h x hx

theorem boolOf_flag {x : Json} {permit : Bool} (h : flagOf x = some permit) : boolOf env x = permit := by
  cases x with
  | str s => cases s <;> simpa [flagOf, boolOf] using h
  | int n =>
    have h : decide (n ≠ 0) = permit := by simpa only [flagOf, Option.some.injEq] using h
    rw [← h]
    unfold boolOf
    by_cases e : n = 0
    · subst e; rfl
    · rw [decide_eq_true e]
      exact bne_iff_ne.2 e
  | dbl r => simp [flagOf] at h
  | _ => simpa [flagOf, boolOf] using h

theorem foldRepeat_ok {n : Nat} {ce cs : Json} {es ss : List Json} {el sep : List Fld} {permit : Bool}
    (hce : Listed ce es) (hcs : Listed cs ss) (hel : AllBuild env es el) (hsep : AllBuild env ss sep)
    (hde : ce.depth ≤ n) (hds : cs.depth ≤ n)
    (hdot : es.length ≤ 1 ∨ ∀ x ∈ es, (x.ptr (bs! "name")).bind (strOf env) ≠ some (bs! ".")) (b0 : Bld) :
    ∀ (o : Obj) {b : Bld} {d : RepeatData}, RepState b0 b d el sep permit → (d.parser.isSome ∨ Obj.get o (bs! "parser") = some ce) →
      (d.while_.isSome ∨ Obj.get o (bs! "while") = some cs) → (∀ m ∈ o, IsPermit m.1 → flagOf m.2 = some permit) →
      (permit = true → d.permit = true ∨ ∃ m ∈ o, IsPermit m.1) →
      ∃ b' a w, foldMembers (repeatParam env (addF env n)) o (b, d) = .ok (b', { parser := some a, while_ := some w, permit := permit, stop := false }) ∧
        Ext b0 b' ∧ (∀ c, Agree b0 b' c → Chain c a el) ∧ (∀ c, Agree b0 b' c → Chain c w sep) := by
  intro o
  induction o with
  | nil =>
    intro b d st h1 h2 _ h4
    obtain ⟨p, w, pm, stop⟩ := d
    have hgo := st.go
    cases p with
    | none => simp [Obj.get] at h1
    | some a =>
    cases w with
    | none => simp [Obj.get] at h2
    | some w =>
    dsimp only at hgo
    subst hgo
    have : pm = permit := by
      cases pm with
      | true => exact (st.perm rfl).symm
      | false =>
        cases permit with
        | false => rfl
        | true => simp at h4
    subst this
    exact ⟨b, a, w, rfl, st.ext, st.par a rfl, st.whl w rfl⟩
  | cons m tl ih =>
    intro b d st h1 h2 h3 h4
    obtain ⟨k, x⟩ := m
    have h3' : ∀ m ∈ tl, IsPermit m.1 → flagOf m.2 = some permit := fun m hm => h3 m (List.mem_cons_of_mem _ hm)
    unfold foldMembers repeatParam
    simp only [st.go, Bool.false_eq_true, if_false]
    by_cases hk : k = bs! "parser"
    · subst hk
      rw [if_pos rfl]
      have hg2 : d.while_.isSome ∨ Obj.get tl (bs! "while") = some cs := by
        refine h2.imp id fun h => ?_
        unfold Obj.get at h
        rwa [if_neg (by decide)] at h
      have hg4 : permit = true → d.permit = true ∨ ∃ m ∈ tl, IsPermit m.1 := by
        intro hp
        refine (h4 hp).imp id ?_
        rintro ⟨m, hm, hi⟩
        rcases List.mem_cons.1 hm with rfl | hm
        · exact absurd hi (by unfold IsPermit; dsimp only; decide)
        · exact ⟨m, hm, hi⟩
      cases hp : d.parser with
      | some a =>
        simp only [Option.isSome_some, if_true, R.ok_bind']
        exact ih st (.inl (by rw [hp]; rfl)) hg2 h3' hg4
      | none =>
        rw [hp] at h1
        have hx : x = ce := by
          rcases h1 with h1 | h1
          · cases h1
          · unfold Obj.get at h1; rw [if_pos rfl] at h1; cases h1; rfl
        subst hx
        obtain ⟨b1, a, e1, e2, e3⟩ := subGraph_chain hce hel hde b
        simp only [Option.isSome_none, Bool.false_eq_true, if_false, chkDot hce hdot, Bool.not_true, e1, R.ok_bind']
        refine ih ⟨st.ext.trans e2, rfl, ?_, ?_, st.perm⟩ (.inl rfl) hg2 h3' hg4
        · intro a' ha c hc
          cases ha
          exact e3 c (hc.tail st.ext)
        · intro w hw c hc
          exact st.whl w hw c (hc.mono e2)
    rw [if_neg hk]
    have hg1 : d.parser.isSome ∨ Obj.get tl (bs! "parser") = some ce := by
      refine h1.imp id fun h => ?_
      unfold Obj.get at h
      rwa [if_neg hk] at h
    by_cases hw : k = bs! "while"
    · subst hw
      rw [if_pos rfl]
      have hg4 : permit = true → d.permit = true ∨ ∃ m ∈ tl, IsPermit m.1 := by
        intro hp
        refine (h4 hp).imp id ?_
        rintro ⟨m, hm, hi⟩
        rcases List.mem_cons.1 hm with rfl | hm
        · exact absurd hi (by unfold IsPermit; dsimp only; decide)
        · exact ⟨m, hm, hi⟩
      cases hp : d.while_ with
      | some a =>
        simp only [Option.isSome_some, if_true, R.ok_bind']
        exact ih st hg1 (.inl (by rw [hp]; rfl)) h3' hg4
      | none =>
        rw [hp] at h2
        have hx : x = cs := by
          rcases h2 with h2 | h2
          · cases h2
          · unfold Obj.get at h2; rw [if_pos rfl] at h2; cases h2; rfl
        subst hx
        obtain ⟨b1, a, e1, e2, e3⟩ := subGraph_chain hcs hsep hds b
        simp only [Option.isSome_none, Bool.false_eq_true, if_false, Bool.not_true, e1, R.ok_bind']
        refine ih ⟨st.ext.trans e2, rfl, ?_, ?_, st.perm⟩ hg1 (.inl rfl) h3' hg4
        · intro w hw c hc
          exact st.par w hw c (hc.mono e2)
        · intro a' ha c hc
          cases ha
          exact e3 c (hc.tail st.ext)
    rw [if_neg hw]
    have hg2 : d.while_.isSome ∨ Obj.get tl (bs! "while") = some cs := by
      refine h2.imp id fun h => ?_
      unfold Obj.get at h
      rwa [if_neg hw] at h
    by_cases hi : lower k = bs! "option.permitmismatchinparser"
    · have hx : boolOf env x = permit := boolOf_flag (h3 (k, x) (List.mem_cons_self ..) hi)
      rw [if_pos hi]
      simp only [R.ok_bind', hx]
      refine ih ⟨st.ext, rfl, st.par, st.whl, fun h => h⟩ hg1 hg2 h3' fun h => .inl h
    · rw [if_neg hi]
      simp only [R.ok_bind']
      refine ih st hg1 hg2 h3' fun hp => (h4 hp).imp id ?_
      rintro ⟨m, hm, hi'⟩
      rcases List.mem_cons.1 hm with rfl | hm
      · exact absurd hi' hi
      · exact ⟨m, hm, hi'⟩

theorem builds_plain {c : Json} {p : Parser} (h : confField env [] c = some p) (hlit : p.kind ≠ .literal none) : Builds env c (.plain p.kind p.name) := by
  intro n b _
  obtain ⟨o, ty, h1, h2, h3, h4, h5, h6, h7, _⟩ := confField_spec h
  obtain ⟨_, _, _, _, _, _, _, _, _, h8⟩ := confField_spec (confField_types h b.types)
  refine ⟨b, p, h8 _ b rfl, Ext.refl b, h4, h5, ⟨hlit, fun e => ?_⟩, fun c _ => ?_⟩
  · have := h7 rfl
    rw [e] at this
    exact this
  rw [FldAt]
  exact ⟨rfl, rfl, h7 rfl⟩

theorem builds_rep {o : Obj} {ce cs : Json} {es ss : List Json} {el sep : List Fld} {permit : Bool}
      (hty : ((Json.obj o).ptr (bs! "type")).bind (strOf env) = some (bs! "repeat"))
      (hpar : Obj.get o (bs! "parser") = some ce) (hwhile : Obj.get o (bs! "while") = some cs)
      (hce : Listed ce es) (hcs : Listed cs ss) (hel : AllBuild env es el) (hsep : AllBuild env ss sep)
      (he : el ≠ []) (hs : sep ≠ []) (hun : ∀ f ∈ sep, f.name = none)
      (hdot : es.length ≤ 1 ∨ ∀ x ∈ es, (x.ptr (bs! "name")).bind (strOf env) ≠ some (bs! "."))
      (hpermit : ∀ m ∈ o, IsPermit m.1 → flagOf m.2 = some permit) (hgiven : permit = true → ∃ m ∈ o, IsPermit m.1) :
      Builds env (.obj o) (.rep (confName env (.obj o)) el sep permit) := by
  intro n b hdep
  have hk : ∀ k : Bytes, k ≠ bs! "type" → k ≠ bs! "priority" → k ≠ bs! "name" →
      Obj.get (confRest env (.obj o)) k = Obj.get o k := by
    intro k h1 h2 h3
    unfold confRest
    exact get_filter (fun v => by simp [h1, h2, h3])
  have hpk : ∀ {k : Bytes}, IsPermit k → k ≠ bs! "type" ∧ k ≠ bs! "priority" ∧ k ≠ bs! "name" := by
    intro k hi
    refine ⟨?_, ?_, ?_⟩ <;> · rintro rfl; exact absurd hi (by unfold IsPermit; decide)
  have hd : ∀ {k : Bytes} {v : Json}, Obj.get o k = some v → v.depth ≤ n := by
    intro k v hv
    have := depthObj_mem o k v (get_mem hv)
    simp only [Json.depth] at hdep
    omega
  obtain ⟨b', a, w, h1, h2, h3, h4⟩ := foldRepeat_ok (permit := permit) hce hcs hel hsep (hd hpar) (hd hwhile) hdot b (confRest env (.obj o)) (b := b) (d := {})
    ⟨Ext.refl b, rfl, (fun a h => by cases h), (fun a h => by cases h), (fun h => by cases h)⟩
    (.inr (by rw [hk _ (by decide) (by decide) (by decide), hpar])) (.inr (by rw [hk _ (by decide) (by decide) (by decide), hwhile]))
    (fun m hm => hpermit m (List.mem_filter.1 hm).1)
    (fun h => .inr (by
      obtain ⟨m, hm, hi⟩ := hgiven h
      obtain ⟨k1, k2, k3⟩ := hpk hi
      exact ⟨m, List.mem_filter.2 ⟨hm, by simp [k1, k2, k3]⟩, hi⟩))
  obtain ⟨pp, hpp⟩ : ∃ pp, parserPrio (bs! "repeat") = some pp := ⟨_, rfl⟩
  refine ⟨b', { kind := .repeat_ (some (a, w, permit)), node := 0, prio := prioOf (confPrio env (.obj o)) pp, name := confName env (.obj o), conf := .obj o }, ?_,
    h2, rfl, rfl, by simp, ?_⟩
  · unfold newParser
    rw [hty]
    dsimp only
    rw [if_neg (by decide), hpp]
    dsimp only
    rw [if_pos rfl]
    unfold ctorRepeat
    rw [h1]
    rfl
  · intro c hc
    rw [FldAt]
    exact ⟨a, w, rfl, rfl, h3 c hc, h4 c hc, he, hs, hun⟩

mutual
theorem FieldOf.builds {c : Json} {f : Fld} : FieldOf env c f → Builds env c f
  | .plain h hlit => builds_plain h hlit
  | .rep hty hpar hwhile hce hcs hel hsep he hs hun hdot hpermit hgiven =>
    builds_rep hty hpar hwhile hce hcs hel.builds hsep.builds he hs hun hdot hpermit hgiven
theorem FieldsOf.builds {cs : List Json} {fs : List Fld} : FieldsOf env cs fs → AllBuild env cs fs
  | .nil => .nil
  | .cons h t => .cons h h.builds t.builds
end

/-- the parsers of a rule at the main level -/
theorem addSeq_grown : ∀ {cs : List Json} {fs : List Fld}, FieldsOf env cs fs → ∀ {b : Bld} {dag : NodeId}, b.Fresh dag →
    ∃ b' e, addSeq env cs b dag = .ok (b', some e) ∧ Grown b b' dag e fs := by
  intro cs
  induction cs with
  | nil => intro fs h b dag hd; cases h; exact ⟨b, dag, rfl, Grown.refl hd⟩
  | cons c cs ih =>
    intro fs h b dag hd
    cases h with
    | @cons _ f _ fs h t =>
    obtain ⟨d, hdep⟩ : ∃ d, c.depth = d + 1 := ⟨c.depth - 1, by have := depth_pos c; omega⟩
    obtain ⟨o, ty, h0, hty, hne⟩ := h.obj
    obtain ⟨b1, p, h1, h2⟩ := h.builds d b (by omega)
    obtain ⟨b2, h3, h4⟩ := addInstance_fresh hd h1 h2
    obtain ⟨b', e, h5, h6⟩ := ih t h4.fresh
    refine ⟨b', e, ?_, Grown.cons hd.1 h4 h6⟩
    rw [addSeq]
    unfold addParser
    rw [hdep]
    unfold addF addStep
    subst h0
    dsimp only
    rw [hty]
    dsimp only
    rw [if_neg hne, h3]
    simp only [R.ok_bind', Option.map_some]
    exact h5

/-- A rule added to an empty graph: the graph is the chain of its fields. -/
theorem addSamp_chain {cs : List Json} {fs : List Fld} (h : FieldsOf env cs fs) (tags : Option (List Bytes)) (file : Bytes) (line : Nat) {b : Bld} (hb : b.Fresh b.root)
    (hnn : b.NoNull) :
    ∃ b' e, addSamp env b b.root cs true tags file line = .ok b' ∧ b'.root = b.root ∧ b'.types = b.types ∧ b'.NoNull ∧
      Chain (fun m => (b'.heap m).getD {}) b.root fs ∧ Leads (fun m => (b'.heap m).getD {}) b.root e ∧
      ∃ nd, b'.heap e = some nd ∧ nd.isTerminal = true ∧ nd.tags = tags ∧ nd.rbFile = some file ∧ nd.rbLine = line := by
  obtain ⟨b1, e, h1, g⟩ := addSeq_grown h hb
  obtain ⟨hlt, nd, hnd, hp, ht⟩ := g.fresh
  have hl : b1.load e = .ok nd := by simp [Bld.load, hnd]
  obtain ⟨nd', hnd'⟩ : ∃ nd', nd' = { nd with isTerminal := true, tags := tags, rbFile := some file, rbLine := line } := ⟨_, rfl⟩
  have hc := g.chain (fun m => ((b1.store e nd').heap m).getD {}) (by
    intro m hm hme
    simp only [Bld.store, if_neg hme]) (by simp [Bld.store, hnd', hp]) (by simp [Bld.store, hnd'])
  refine ⟨b1.store e nd', e, ?_, g.root, g.types, ?_, hc.1, hc.2, nd', ?_, ?_⟩
  · unfold addSamp
    rw [h1]
    simp only [R.ok_bind', hl, if_true, hnd']
  · have h1 := g.nn hnn
    intro m x hx q hq
    simp only [Bld.store] at hx
    split at hx
    · cases hx; rw [hnd'] at hq; dsimp only at hq; rw [hp] at hq; cases hq
    · exact h1 m x hx q hq
  · simp [Bld.store]
  · subst hnd'; exact ⟨rfl, rfl, rfl, rfl⟩

end
end LN
