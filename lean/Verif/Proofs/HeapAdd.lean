import Verif.Proofs.HeapDel
/-
Adding parsers keeps the ownership invariant, never touches freed memory and only extends the
graph (C18, C19).
-/
set_option autoImplicit false
namespace LN

/-- `b'` extends `b`: every node stays, its alternatives are a prefix of the new ones, it stays
terminal -/
structure Grow (b b' : Bld) : Prop where
  next : b.next ≤ b'.next
  types : b'.types = b.types
  root : b'.root = b.root
  wrapped : b'.wrapped = false → b.wrapped = false
  keep : ∀ m nd, b.heap m = some nd → ∃ nd', b'.heap m = some nd' ∧
    (b'.wrapped = false → nd.parsers <+: nd'.parsers) ∧
    (nd.isTerminal = true → nd'.isTerminal = true)

theorem Grow.refl (b : Bld) : Grow b b :=
  ⟨Nat.le_refl _, rfl, rfl, id, fun _ nd h => ⟨nd, h, fun _ => List.prefix_refl _, id⟩⟩

theorem Grow.trans {b b' b'' : Bld} (h : Grow b b') (h' : Grow b' b'') : Grow b b'' := by
  refine ⟨Nat.le_trans h.next h'.next, h'.types.trans h.types, h'.root.trans h.root,
    fun hw => h.wrapped (h'.wrapped hw), ?_⟩
  intro m nd hm
  obtain ⟨nd', h1, h2, h3⟩ := h.keep m nd hm
  obtain ⟨nd'', h4, h5, h6⟩ := h'.keep m nd' h1
  exact ⟨nd'', h4, fun hw => (h2 (h'.wrapped hw)).trans (h5 hw), fun ht => h6 (h3 ht)⟩

theorem Grow.live {b b' : Bld} (h : Grow b b') {m : NodeId} (hm : (b.heap m).isSome) :
    (b'.heap m).isSome := by
  obtain ⟨nd, hnd⟩ := Option.isSome_iff_exists.1 hm
  obtain ⟨nd', h1, _⟩ := h.keep m nd hnd
  rw [h1]; rfl

theorem Grow.new {b : Bld} (h : b.heap b.next = none) : Grow b b.newPDAG.1 := by
  refine ⟨Nat.le_succ _, rfl, rfl, id, ?_⟩
  intro m nd hm
  refine ⟨nd, ?_, fun _ => List.prefix_refl _, id⟩
  show (if m = b.next then some ({} : Node) else b.heap m) = some nd
  rw [if_neg]; exact hm
  intro he; subst he; rw [h] at hm; cases hm

theorem Grow.store {b : Bld} {n : NodeId} {nd nd' : Node} (hn : b.heap n = some nd)
    (hp : nd.parsers <+: nd'.parsers) (ht : nd.isTerminal = true → nd'.isTerminal = true) :
    Grow b (b.store n nd') := by
  refine ⟨Nat.le_refl _, rfl, rfl, id, ?_⟩
  intro m nd₁ hm
  by_cases hmn : m = n
  · subst hmn
    rw [hn] at hm; cases hm
    exact ⟨nd', by simp [Bld.store], fun _ => hp, ht⟩
  · exact ⟨nd₁, by simp [Bld.store, hmn, hm], fun _ => List.prefix_refl _, id⟩

theorem Grow.attach {b : Bld} {dag : NodeId} {nd : Node} (hn : b.heap dag = some nd) (p : Parser) :
    Grow b { b.store dag (addEntry nd p) with
             wrapped := b.wrapped || decide (nd.parsers.length + 1 = 256) } := by
  refine ⟨Nat.le_refl _, rfl, rfl, ?_, ?_⟩
  · intro hw
    have hw' : (b.wrapped || decide (nd.parsers.length + 1 = 256)) = false := hw
    rw [Bool.or_eq_false_iff] at hw'; exact hw'.1
  · intro m nd₁ hm
    by_cases hmn : m = dag
    · subst hmn
      rw [hn] at hm; cases hm
      refine ⟨addEntry nd p, by simp [Bld.store], ?_, fun h => h⟩
      intro hw
      have hw' : (b.wrapped || decide (nd.parsers.length + 1 = 256)) = false := hw
      rw [Bool.or_eq_false_iff] at hw'
      have : ¬ nd.parsers.length + 1 = 256 := by simpa using hw'.2
      simp [addEntry, this]
    · exact ⟨nd₁, by simp [Bld.store, hmn, hm], fun _ => List.prefix_refl _, id⟩

/-- deleting something newer than `b` -/
theorem Grow.frame {b b' b'' : Bld} {E : List NodeId} (h0 : Inv b E) (h : Grow b b')
    (hf : Frame b' b'' b.next) : Grow b b'' := by
  refine ⟨by rw [hf.next]; exact h.next, hf.types.trans h.types, hf.root.trans h.root,
    fun hw => h.wrapped (by rw [← hf.wrapped]; exact hw), ?_⟩
  intro m nd hm
  obtain ⟨nd', h1, h2, h3⟩ := h.keep m nd hm
  refine ⟨nd', ?_, fun hw => h2 (by rw [← hf.wrapped]; exact hw), h3⟩
  rw [hf.older m (h0.range m nd hm).2, h1]

/-- a valid value of `nextnode` when working on `dag` -/
def NextOk (b : Bld) (dag n : NodeId) : Prop := n = 0 ∨ ((b.heap n).isSome ∧ dag < n ∧ 0 < dag)

theorem NextOk.grow {b b' : Bld} {dag n : NodeId} (h : NextOk b dag n) (g : Grow b b') :
    NextOk b' dag n := by
  rcases h with h | ⟨h1, h2⟩
  · exact .inl h
  · exact .inr ⟨g.live h1, h2⟩

/-- what `ln_pdagAddParserInternal` guarantees for configurations of depth at most `d` -/
def RecOk (rec : AddRec) (d : Nat) : Prop :=
  ∀ (b : Bld) (E : List NodeId) (dag : NodeId) (alt : Bool) (conf : Json) (next : NodeId),
    conf.depth ≤ d → Inv b E → (dag = 0 ∨ (b.heap dag).isSome) → NextOk b dag next →
    Mem (fun (x : Bld × Option (NodeId × NodeId)) => Inv x.1 E ∧ Grow b x.1 ∧
      ∀ y, x.2 = some y → (y.1 = 0 ∨ (x.1.heap y.1).isSome) ∧ NextOk x.1 dag y.2)
      (rec b dag alt conf next)

theorem depthObj_mem : ∀ (o : Obj) (k : Bytes) (v : Json), (k, v) ∈ o → v.depth ≤ Json.depthObj o
  | [], _, _, h => by cases h
  | (k', v') :: tl, k, v, h => by
    simp only [Json.depthObj]
    rcases List.mem_cons.1 h with h | h
    · cases h; exact Nat.le_max_left _ _
    · exact Nat.le_trans (depthObj_mem tl k v h) (Nat.le_max_right _ _)

theorem depthArr_mem : ∀ (l : List Json) (v : Json), v ∈ l → v.depth ≤ Json.depthArr l
  | [], _, h => by cases h
  | v' :: tl, v, h => by
    simp only [Json.depthArr]
    rcases List.mem_cons.1 h with h | h
    · cases h; exact Nat.le_max_left _ _
    · exact Nat.le_trans (depthArr_mem tl v h) (Nat.le_max_right _ _)

theorem depth_members {conf : Json} {d : Nat} (h : conf.depth ≤ d + 1) {k : Bytes} {v : Json}
    (hm : (k, v) ∈ conf.members) : v.depth ≤ d := by
  cases conf with
  | obj o =>
    simp only [Json.depth] at h
    exact Nat.le_trans (depthObj_mem o k v hm) (by omega)
  | _ => simp [Json.members] at hm

theorem get_mem : ∀ (o : Obj) (k : Bytes) (v : Json), Obj.get o k = some v → (k, v) ∈ o
  | [], _, _, h => by simp [Obj.get] at h
  | (k', v') :: tl, k, v, h => by
    unfold Obj.get at h
    by_cases hk : k' = k
    · rw [if_pos hk] at h; cases h; subst hk; exact List.mem_cons_self ..
    · rw [if_neg hk] at h; exact List.mem_cons_of_mem _ (get_mem tl k v h)

theorem ptr_mem {conf : Json} {k : Bytes} {v : Json} (h : conf.ptr k = some v) :
    (k, v) ∈ conf.members := by
  unfold Json.ptr at h
  have h1 : conf.member k = some v := by
    split at h
    · cases h
    · exact h
  cases conf with
  | obj o => exact get_mem o k v h1
  | _ => simp [Json.member] at h1

/-! ### `repeat` -/

/-- one sub-graph -/
theorem subGraph_ok {rec : AddRec} {d : Nat} (hrec : RecOk rec d) {b : Bld} {E : List NodeId}
    {v : Json} (hv : v.depth ≤ d) (h : Inv b E) :
    Mem (fun (x : Bld × NodeId × Bool) => Inv x.1 (x.2.1 :: E) ∧ Grow b x.1 ∧ b.next ≤ x.2.1)
      (subGraph rec b v) := by
  unfold subGraph
  obtain ⟨h1, h2⟩ := h.newNode
  have g1 := Grow.new h.fresh_none
  show Mem _ ((rec b.newPDAG.1 b.next false v 0).bind _)
  refine Mem.bind (hrec b.newPDAG.1 (b.next :: E) b.next false v 0 hv h1 (.inr (by rw [h2]; rfl)) (.inl rfl)) ?_
  rintro ⟨b2, r⟩ ⟨h3, g2, h4⟩
  dsimp only at h3 g2 h4 ⊢
  cases r with
  | none => exact ⟨h3, g1.trans g2, Nat.le_refl _⟩
  | some y =>
    obtain ⟨e, n⟩ := y
    dsimp only
    refine Mem.bind (Mem.nd (h4 _ rfl).1) ?_
    intro nd hnd
    exact ⟨h3.flags hnd rfl rfl, (g1.trans g2).trans (Grow.store hnd (List.prefix_refl _) (fun _ => rfl)),
      Nat.le_refl _⟩

/-- the references held by the data of `repeat` under construction -/
def RepeatData.refs (d : RepeatData) : List NodeId := d.parser.toList ++ d.while_.toList

theorem repeatFold_ok {env : Env} {rec : AddRec} {d : Nat} (hrec : RecOk rec d) {b0 : Bld}
    {E : List NodeId} :
    ∀ (o : Obj), (∀ k v, (k, v) ∈ o → v.depth ≤ d) → ∀ (b : Bld) (dt : RepeatData),
      Inv b (dt.refs ++ E) → Grow b0 b → (∀ r ∈ dt.refs, b0.next ≤ r) →
      Mem (fun (x : Bld × RepeatData) => Inv x.1 (x.2.refs ++ E) ∧ Grow b0 x.1 ∧
        ∀ r ∈ x.2.refs, b0.next ≤ r) (foldMembers (repeatParam env rec) o (b, dt)) := by
  intro o
  induction o with
  | nil => intro _ b dt h g hr; exact ⟨h, g, hr⟩
  | cons m tl ih =>
    obtain ⟨k, v⟩ := m
    intro ho b dt h g hr
    have hv := ho k v (List.mem_cons_self ..)
    have ih' := ih (fun k v hm => ho k v (List.mem_cons_of_mem _ hm))
    unfold foldMembers
    refine Mem.bind (P := fun (x : Bld × RepeatData) => Inv x.1 (x.2.refs ++ E) ∧ Grow b0 x.1 ∧
        ∀ r ∈ x.2.refs, b0.next ≤ r) ?_ ?_
    · unfold repeatParam
      dsimp only
      by_cases hs : dt.stop = true
      · rw [if_pos hs]; exact ⟨h, g, hr⟩
      rw [if_neg hs]
      by_cases hk : k = bs! "parser"
      · rw [if_pos hk]
        by_cases hp : dt.parser.isSome = true
        · rw [if_pos hp]; exact ⟨h, g, hr⟩
        rw [if_neg hp]
        by_cases hc : (!chkNoDupeDot env v) = true
        · rw [if_pos hc]; exact ⟨h, g, hr⟩
        rw [if_neg hc]
        refine Mem.bind (subGraph_ok hrec hv h) ?_
        rintro ⟨b1, n, ok⟩ ⟨h1, g1, h2⟩
        dsimp only at h1 g1 h2 ⊢
        have hpn : dt.parser = none := by simpa using hp
        refine ⟨?_, g.trans g1, ?_⟩
        · refine h1.perm ?_
          simp [RepeatData.refs, hpn]
        · intro r hrm
          simp only [RepeatData.refs, Option.toList_some, List.mem_append, List.mem_singleton] at hrm
          rcases hrm with rfl | hrm
          · exact Nat.le_trans g.next h2
          · exact hr r (by simp [RepeatData.refs, hrm])
      rw [if_neg hk]
      by_cases hk : k = bs! "while"
      · rw [if_pos hk]
        by_cases hp : dt.while_.isSome = true
        · rw [if_pos hp]; exact ⟨h, g, hr⟩
        rw [if_neg hp]
        refine Mem.bind (subGraph_ok hrec hv h) ?_
        rintro ⟨b1, n, ok⟩ ⟨h1, g1, h2⟩
        dsimp only at h1 g1 h2 ⊢
        have hpn : dt.while_ = none := by simpa using hp
        refine ⟨?_, g.trans g1, ?_⟩
        · refine h1.perm ?_
          simp only [RepeatData.refs, hpn, Option.toList_none, List.append_nil, Option.toList_some]
          rw [List.append_assoc]
          exact List.perm_middle.symm
        · intro r hrm
          simp only [RepeatData.refs, Option.toList_some, List.mem_append, List.mem_singleton] at hrm
          rcases hrm with hrm | rfl
          · exact hr r (by simp [RepeatData.refs, hrm])
          · exact Nat.le_trans g.next h2
      rw [if_neg hk]
      by_cases hk : lower k = bs! "option.permitmismatchinparser"
      · rw [if_pos hk]; exact ⟨h, g, hr⟩
      · rw [if_neg hk]; exact ⟨h, g, hr⟩
    · rintro ⟨b1, dt1⟩ ⟨h1, g1, hr1⟩
      exact ih' b1 dt1 h1 g1 hr1

theorem ctorRepeat_ok {env : Env} {rec : AddRec} {d : Nat} (hrec : RecOk rec d) {b : Bld}
    {E : List NodeId} {o : Obj} (ho : ∀ k v, (k, v) ∈ o → v.depth ≤ d) (h : Inv b E) :
    Mem (fun (x : Bld × PKind) => Inv x.1 (x.2.refs ++ E) ∧ Grow b x.1 ∧ ∀ r ∈ x.2.refs, b.next ≤ r)
      (ctorRepeat env rec b o) := by
  unfold ctorRepeat
  refine Mem.bind (repeatFold_ok hrec (b0 := b) o ho b {} h (Grow.refl b) (by simp [RepeatData.refs])) ?_
  rintro ⟨b1, dt⟩ ⟨h1, g1, hr⟩
  dsimp only at h1 g1 hr ⊢
  have one : ∀ n, b.next ≤ n → Inv b1 (n :: E) →
      Mem (fun (x : Bld × PKind) => Inv x.1 (x.2.refs ++ E) ∧ Grow b x.1 ∧ ∀ r ∈ x.2.refs, b.next ≤ r)
        ((pdagDelete b1 n).bind fun b => .ok (b, .repeat_ none)) := by
    intro n hn hi
    obtain ⟨b2, h2, h3, h4⟩ := pdagDelete_ok hi
    rw [h2]
    exact ⟨h3, Grow.frame h g1 (h4.weaken hn), by simp [PKind.refs]⟩
  cases hp : dt.parser with
  | none =>
    cases hw : dt.while_ with
    | none =>
      dsimp only
      simp only [RepeatData.refs, hp, hw] at h1
      exact ⟨h1, g1, by simp [PKind.refs]⟩
    | some w =>
      dsimp only
      simp only [RepeatData.refs, hp, hw] at h1 hr
      exact one w (hr w (by simp)) h1
  | some p =>
    cases hw : dt.while_ with
    | none =>
      dsimp only
      simp only [RepeatData.refs, hp, hw] at h1 hr
      exact one p (hr p (by simp)) h1
    | some w =>
      dsimp only
      simp only [RepeatData.refs, hp, hw] at h1 hr
      exact ⟨h1, g1, hr⟩

/-! ### constructors other than that of `repeat` -/

theorem Mem.ite {α : Type} {P : α → Prop} {c : Prop} [Decidable c] {x y : R α} (hx : Mem P x)
    (hy : Mem P y) : Mem P (if c then x else y) := by split <;> assumption

theorem needStr_mem (env : Env) (j : Json) : Mem (fun _ => True) (needStr env j) := by
  unfold needStr
  split
  · trivial
  · simp [Mem]

theorem foldMembers_mem {α : Type} {f : α → Bytes → Json → R α}
    (hf : ∀ d k v, Mem (fun _ => True) (f d k v)) :
    ∀ (o : Obj) (d : α), Mem (fun _ => True) (foldMembers f o d)
  | [], d => trivial
  | (k, v) :: tl, d => Mem.bind (hf d k v) fun a _ => foldMembers_mem hf tl a

theorem otherParam_mem {α : Type} (env : Env) (d : α) (k : Bytes) (v : Json) :
    Mem (fun _ => True) (otherParam env d k v) := by
  unfold otherParam
  exact Mem.ite (Mem.bind (needStr_mem env v) fun _ _ => trivial) trivial

theorem numFmt_mem (env : Env) (d : Fmt) (v : Json) : Mem (fun _ => True) (numFmt env d v) := by
  unfold numFmt
  refine Mem.bind (needStr_mem env v) fun _ _ => ?_
  exact Mem.ite trivial (Mem.ite trivial trivial)

theorem ctorDate_mem (env : Env) (o : Obj) : Mem (fun _ => True) (ctorDate env o) := by
  unfold ctorDate
  refine foldMembers_mem (fun d k v => ?_) o _
  refine Mem.ite (Mem.bind (needStr_mem env v) fun _ _ => ?_) (otherParam_mem ..)
  exact Mem.ite trivial (Mem.ite trivial (Mem.ite trivial trivial))

theorem ctorNumber_mem (env : Env) (o : Obj) : Mem (fun _ => True) (ctorNumber env o) := by
  unfold ctorNumber
  refine foldMembers_mem (fun d k v => ?_) o _
  exact Mem.ite trivial (Mem.ite (Mem.bind (numFmt_mem ..) fun _ _ => trivial) (otherParam_mem ..))

theorem ctorFloat_mem (env : Env) (o : Obj) : Mem (fun _ => True) (ctorFloat env o) := by
  unfold ctorFloat
  refine foldMembers_mem (fun d k v => ?_) o _
  exact Mem.ite (numFmt_mem ..) (otherParam_mem ..)

theorem ctorHexNumber_mem (env : Env) (o : Obj) : Mem (fun _ => True) (ctorHexNumber env o) := by
  unfold ctorHexNumber
  refine foldMembers_mem (fun d k v => ?_) o _
  exact Mem.ite trivial (Mem.ite (Mem.bind (numFmt_mem ..) fun _ _ => trivial) (otherParam_mem ..))

theorem ctorStr_mem (env : Env) (k : Bytes) (o : Obj) : Mem (fun _ => True) (ctorStr env k o) := by
  unfold ctorStr
  split
  · trivial
  · exact Mem.bind (needStr_mem ..) fun _ _ => trivial

theorem ctorLEA_mem (env : Env) (o : Obj) : Mem (fun _ => True) (ctorLEA env o) := by
  unfold ctorLEA
  refine Mem.bind (foldMembers_mem (fun d k v => ?_) o _) fun _ _ => trivial
  refine Mem.ite trivial (Mem.ite (Mem.bind (needStr_mem ..) fun s _ => ?_) trivial)
  split <;> trivial

theorem addPermitted_mem (p : UInt8 → Bool) (s : Bytes) : Mem (fun _ => True) (addPermitted p s) := by
  unfold addPermitted
  exact Mem.ite (by simp [Mem]) trivial

theorem permElem_mem (env : Env) (p : UInt8 → Bool) (k : Bytes) (v : Json) :
    Mem (fun _ => True) (permElem env p k v) := by
  unfold permElem
  refine Mem.ite ?_ (Mem.ite (Mem.bind (needStr_mem ..) fun s _ => ?_) trivial)
  · split
    · trivial
    · exact addPermitted_mem ..
  · exact Mem.ite trivial (Mem.ite trivial (Mem.ite trivial (Mem.ite trivial trivial)))

theorem permArr_mem (env : Env) : ∀ (l : List Json) (p : UInt8 → Bool),
    Mem (fun _ => True) (permArr env l p)
  | [], _ => trivial
  | e :: tl, p => Mem.bind (foldMembers_mem (permElem_mem env) _ _) fun a _ => permArr_mem env tl a

theorem ctorPermitted_mem (env : Env) (v : Json) : Mem (fun _ => True) (ctorPermitted env v) := by
  unfold ctorPermitted
  split
  · exact addPermitted_mem ..
  · exact permArr_mem ..
  · trivial

theorem stringParam_mem (env : Env) (d : DataString) (k : Bytes) (v : Json) :
    Mem (fun _ => True) (stringParam env d k v) := by
  unfold stringParam
  refine Mem.ite (Mem.bind (needStr_mem ..) fun s _ => ?_) (Mem.ite (Mem.bind (needStr_mem ..) fun s _ => ?_)
    (Mem.ite (Mem.bind (needStr_mem ..) fun s _ => trivial) (Mem.ite (Mem.bind (needStr_mem ..) fun s _ => trivial)
    (Mem.ite (Mem.bind (ctorPermitted_mem ..) fun s _ => trivial)
      (Mem.ite (Mem.bind (needStr_mem ..) fun s _ => ?_) trivial)))))
  · exact Mem.ite trivial (Mem.ite trivial (Mem.ite trivial trivial))
  · exact Mem.ite trivial (Mem.ite trivial (Mem.ite trivial (Mem.ite trivial trivial)))
  · exact Mem.ite trivial (Mem.ite trivial trivial)

theorem ctorString_mem (env : Env) (o : Obj) : Mem (fun _ => True) (ctorString env o) := by
  unfold ctorString
  refine Mem.bind (foldMembers_mem (fun d k v => ?_) o _) fun _ _ => trivial
  cases d with
  | none => trivial
  | some d => exact stringParam_mem ..

theorem construct_ok (env : Env) (ty : Bytes) (o : Obj) :
    Mem (fun k => k.refs = []) (construct env ty o) := by
  unfold construct
  repeat' first
    | refine Mem.ite (P := fun k : PKind => k.refs = []) ?_ ?_
    | exact Mem.bind (ctorStr_mem ..) fun _ _ => rfl
    | exact Mem.bind (ctorDate_mem ..) fun _ _ => rfl
    | exact Mem.bind (ctorNumber_mem ..) fun _ _ => rfl
    | exact Mem.bind (ctorFloat_mem ..) fun _ _ => rfl
    | exact Mem.bind (ctorHexNumber_mem ..) fun _ _ => rfl
    | exact Mem.bind (ctorLEA_mem ..) fun _ _ => rfl
    | exact Mem.bind (ctorString_mem ..) fun _ _ => rfl
    | (show PKind.refs _ = []; rfl)

/-! ### adding a parser instance -/

theorem newParser_ok {env : Env} {rec : AddRec} {d : Nat} (hrec : RecOk rec d) {b : Bld}
    {E : List NodeId} {conf : Json} (hd : conf.depth ≤ d + 1) (h : Inv b E) :
    Mem (fun (x : Bld × Option Parser) => Grow b x.1 ∧
      (x.2 = none → Inv x.1 E) ∧ ∀ p, x.2 = some p → Inv x.1 (p.kind.refs ++ E) ∧ p.conf = conf ∧
        ∀ r ∈ p.kind.refs, b.next ≤ r) (newParser env rec b conf) := by
  have none_ok : Mem (fun (x : Bld × Option Parser) => Grow b x.1 ∧
      (x.2 = none → Inv x.1 E) ∧ ∀ p, x.2 = some p → Inv x.1 (p.kind.refs ++ E) ∧ p.conf = conf ∧
        ∀ r ∈ p.kind.refs, b.next ≤ r) (R.ok (b, none)) :=
    ⟨Grow.refl b, fun _ => h, fun p hp => by cases hp⟩
  unfold newParser
  split
  · exact none_ok
  · rename_i ty hty
    dsimp only
    split
    · split
      · exact none_ok
      · refine ⟨Grow.refl b, ⟨(fun hh => by cases hh), ?_⟩⟩
        intro p hp
        cases hp
        exact ⟨h, rfl, by simp [PKind.refs]⟩
    · split
      · exact none_ok
      · rename_i pp hpp
        split
        · refine Mem.bind (ctorRepeat_ok hrec (b := b) (E := E) ?_ h) ?_
          · intro k v hm
            unfold confRest at hm
            exact depth_members hd ((List.mem_filter.1 hm).1)
          · rintro ⟨b1, k⟩ ⟨h1, g1, hr⟩
            refine ⟨g1, ⟨(fun hh => by cases hh), ?_⟩⟩
            intro p hp
            cases hp
            exact ⟨h1, rfl, hr⟩
        · refine Mem.bind (construct_ok env ty _) ?_
          intro k hk
          refine ⟨Grow.refl b, ⟨(fun hh => by cases hh), ?_⟩⟩
          intro p hp
          cases hp
          dsimp only
          rw [hk]
          exact ⟨h, rfl, by simp⟩

theorem addInstance_ok {env : Env} {rec : AddRec} {d : Nat} (hrec : RecOk rec d) {b : Bld}
    {E : List NodeId} {conf : Json} {dag next : NodeId} (hd : conf.depth ≤ d + 1) (h : Inv b E)
    (hdag : dag = 0 ∨ (b.heap dag).isSome) (hnext : NextOk b dag next) :
    Mem (fun (x : Bld × Option NodeId) => Inv x.1 E ∧ Grow b x.1 ∧
      ∀ n, x.2 = some n → (x.1.heap n).isSome ∧ dag < n ∧ 0 < dag)
      (addInstance env rec b conf dag next) := by
  unfold addInstance
  refine Mem.bind (newParser_ok hrec hd h) ?_
  rintro ⟨b1, p⟩ ⟨g1, hnone, hsome⟩
  dsimp only at g1 hnone hsome ⊢
  cases p with
  | none => exact ⟨hnone rfl, g1, fun n hn => by cases hn⟩
  | some p =>
    obtain ⟨h1, _, hr⟩ := hsome p rfl
    dsimp only
    refine Mem.bind (Mem.nd (b := b1) (n := dag) (hdag.imp id g1.live)) ?_
    intro nd hnd
    have hpos : 0 < dag := (h1.range _ _ hnd).1
    have hlive : (b.heap dag).isSome := by
      rcases hdag with h0 | h0
      · exact absurd h0 (Nat.ne_of_gt hpos)
      · exact h0
    have hlt : dag < b.next := (h.live_pos hlive).2
    split
    · rename_i q hq
      have hqm : q ∈ nd.parsers := List.mem_of_find?_eq_some hq
      obtain ⟨b2, h2, h3, h4⟩ := pdagDelete_list p.kind.refs b1 E b.next h1 hr
      unfold deleteData
      rw [h2]
      refine ⟨h3, Grow.frame h g1 h4, ?_⟩
      intro n hn
      cases hn
      have h5 : q.node ∈ b2.refsOf dag := by
        unfold Bld.refsOf
        rw [h4.older dag hlt, hnd]
        exact List.mem_flatMap.2 ⟨q, hqm, List.mem_cons_self ..⟩
      exact ⟨(h3.asc _ _ h5).2, (h3.asc _ _ h5).1, hpos⟩
    · -- new entry
      refine Mem.bind (P := fun (x : Bld × NodeId) => Inv x.1 (x.2 :: (p.kind.refs ++ E)) ∧
        Grow b1 x.1 ∧ dag < x.2) ?_ ?_
      · by_cases hn : next = 0
        · rw [if_pos hn]
          exact ⟨h1.newNode.1, Grow.new h1.fresh_none, Nat.lt_of_lt_of_le hlt g1.next⟩
        · rw [if_neg hn]
          rcases hnext with h0 | ⟨hl, hlt2, _⟩
          · exact absurd h0 hn
          · refine Mem.bind (Mem.nd (.inr (g1.live hl))) ?_
            intro nx hnx
            exact ⟨h1.incr hnx, Grow.store hnx (List.prefix_refl _) id, hlt2⟩
      · rintro ⟨b2, nx⟩ ⟨h2, g2, hltn⟩
        dsimp only at h2 g2 hltn ⊢
        refine Mem.bind (Mem.nd (.inr (g2.live (g1.live hlive)))) ?_
        intro nd2 hnd2
        have h3 := Inv.attach (p := { p with node := nx }) (E := E) h2 hnd2 (by
          intro r hrm
          rcases List.mem_cons.1 hrm with rfl | hrm
          · exact hltn
          · exact Nat.lt_of_lt_of_le hlt (hr r hrm))
        have g3 := Grow.attach hnd2 { p with node := nx }
        refine ⟨h3, (g1.trans g2).trans g3, ?_⟩
        intro n hn
        cases hn
        refine ⟨?_, hltn, hpos⟩
        have : (b2.heap nx).isSome := h2.ext nx (List.mem_cons_self ..)
        exact g3.live this

theorem addParsersLoop_ok {env : Env} {rec : AddRec} {d : Nat} (hrec : RecOk rec d) {E : List NodeId}
    {alt : Bool} : ∀ (l : List Json), (∀ c ∈ l, c.depth ≤ d) → ∀ (b : Bld) (dag0 dag next pn : NodeId),
      Inv b E → (dag = 0 ∨ ((b.heap dag).isSome ∧ dag0 ≤ dag ∧ 0 < dag0)) → NextOk b dag next →
      NextOk b dag0 pn →
      Mem (fun (x : Bld × Option (NodeId × NodeId)) => Inv x.1 E ∧ Grow b x.1 ∧
        ∀ y, x.2 = some y → (y.1 = 0 ∨ (x.1.heap y.1).isSome) ∧ NextOk x.1 dag0 y.2)
        (addParsersLoop env rec alt l b dag next pn) := by
  intro l
  induction l with
  | nil =>
    intro _ b dag0 dag next pn h hdag hnext hpn
    refine ⟨h, Grow.refl b, ?_⟩
    intro y hy
    cases hy
    refine ⟨?_, hpn⟩
    dsimp only
    split
    · exact hnext.imp id (·.1)
    · exact hdag.imp id (·.1)
  | cons c cs ih =>
    intro hdep b dag0 dag next pn h hdag hnext hpn
    have hc := hdep c (List.mem_cons_self ..)
    unfold addParsersLoop
    refine Mem.bind (P := fun (x : Bld × Option NodeId) => Inv x.1 E ∧ Grow b x.1 ∧
      ∀ n, x.2 = some n → NextOk x.1 dag n) ?_ ?_
    · have inst : Mem (fun (x : Bld × Option NodeId) => Inv x.1 E ∧ Grow b x.1 ∧
          ∀ n, x.2 = some n → NextOk x.1 dag n) (addInstance env rec b c dag next) :=
        (addInstance_ok hrec (Nat.le_succ_of_le hc) h (hdag.imp id (·.1)) hnext).mono
          fun x hx => ⟨hx.1, hx.2.1, fun n hn => .inr (hx.2.2 n hn)⟩
      split
      · rename_i l'
        refine Mem.bind (hrec b E dag alt _ next hc h (hdag.imp id (·.1)) hnext) ?_
        rintro ⟨b1, r⟩ ⟨h1, g1, hr⟩
        refine ⟨h1, g1, ?_⟩
        intro n hn
        dsimp only at hn
        rw [Option.map_eq_some_iff] at hn
        obtain ⟨y, hy, rfl⟩ := hn
        exact (hr y hy).2
      · exact inst
    · rintro ⟨b1, r⟩ ⟨h1, g1, hr⟩
      dsimp only at h1 g1 hr ⊢
      cases r with
      | none => exact ⟨h1, g1, fun y hy => by cases hy⟩
      | some nx =>
        dsimp only
        have hnx := hr nx rfl
        have hdep' : ∀ c ∈ cs, c.depth ≤ d := fun c hc => hdep c (List.mem_cons_of_mem _ hc)
        by_cases ha : alt = true
        · rw [if_pos ha]
          refine (ih hdep' b1 dag0 dag nx pn h1 (hdag.imp id fun hh => ⟨g1.live hh.1, hh.2⟩) hnx
            (hpn.grow g1)).mono ?_
          intro x hx
          exact ⟨hx.1, g1.trans hx.2.1, hx.2.2⟩
        · rw [if_neg ha]
          have hnew : nx = 0 ∨ ((b1.heap nx).isSome ∧ dag0 < nx ∧ 0 < dag0) := by
            rcases hnx with h0 | ⟨h2, h3, h4⟩
            · exact .inl h0
            · rcases hdag with h0 | ⟨_, h5, h6⟩
              · exact absurd h0 (Nat.ne_of_gt h4)
              · exact .inr ⟨h2, Nat.lt_of_le_of_lt h5 h3, h6⟩
          refine (ih hdep' b1 dag0 nx 0 nx h1 (hnew.imp id fun hh => ⟨hh.1, Nat.le_of_lt hh.2.1, hh.2.2⟩)
            (.inl rfl) hnew).mono ?_
          intro x hx
          exact ⟨hx.1, g1.trans hx.2.1, hx.2.2⟩

theorem addStep_ok {env : Env} {rec : AddRec} {d : Nat} (hrec : RecOk rec d) :
    RecOk (addStep env rec) (d + 1) := by
  intro b E dag alt conf next hdep h hdag hnext
  have hloop : ∀ (l : List Json) (m : Bool), (∀ c ∈ l, c.depth ≤ d) →
      Mem (fun (x : Bld × Option (NodeId × NodeId)) => Inv x.1 E ∧ Grow b x.1 ∧
        ∀ y, x.2 = some y → (y.1 = 0 ∨ (x.1.heap y.1).isSome) ∧ NextOk x.1 dag y.2)
        (addParsersLoop env rec m l b dag next next) := by
    intro l m hl
    refine addParsersLoop_ok hrec l hl b dag dag next next h ?_ hnext hnext
    rcases hdag with h0 | h0
    · exact .inl h0
    · exact .inr ⟨h0, Nat.le_refl _, (h.live_pos h0).1⟩
  unfold addStep
  split
  · rename_i o
    split
    · simp [Mem]
    · rename_i ty hty
      split
      · split
        · rename_i l hl
          refine Mem.bind (hloop l true ?_) (fun x hx => hx)
          intro c hc
          have h1 := depth_members hdep (ptr_mem hl)
          simp only [Json.depth] at h1
          exact Nat.le_trans (depthArr_mem l c hc) (by omega)
        · exact ⟨h, Grow.refl b, fun y hy => by cases hy⟩
      · refine Mem.bind (addInstance_ok hrec hdep h hdag hnext) ?_
        rintro ⟨b1, r⟩ ⟨h1, g1, hr⟩
        refine ⟨h1, g1, ?_⟩
        intro y hy
        dsimp only at hy
        rw [Option.map_eq_some_iff] at hy
        obtain ⟨n, hn, rfl⟩ := hy
        have h2 := hr n hn
        refine ⟨?_, .inr h2⟩
        dsimp only
        split
        · exact hdag.imp id g1.live
        · exact .inr h2.1
  · rename_i l
    refine hloop l false ?_
    intro c hc
    simp only [Json.depth] at hdep
    exact Nat.le_trans (depthArr_mem l c hc) (by omega)
  · exact ⟨h, Grow.refl b, fun y hy => by cases hy⟩

theorem depth_pos (j : Json) : 0 < j.depth := by cases j <;> simp [Json.depth]

theorem addF_ok (env : Env) : ∀ d, RecOk (addF env d) d
  | 0 => by
    intro b E dag alt conf next hdep
    have := depth_pos conf
    omega
  | d + 1 => addStep_ok (addF_ok env d)

theorem addParser_ok {env : Env} {b : Bld} {E : List NodeId} {dag : NodeId} {conf : Json}
    (h : Inv b E) (hdag : dag = 0 ∨ (b.heap dag).isSome) :
    Mem (fun (x : Bld × Option NodeId) => Inv x.1 E ∧ Grow b x.1 ∧
      ∀ n, x.2 = some n → (n = 0 ∨ (x.1.heap n).isSome)) (addParser env b dag conf) := by
  unfold addParser
  refine Mem.bind (addF_ok env conf.depth b E dag false conf 0 (Nat.le_refl _) h hdag (.inl rfl)) ?_
  rintro ⟨b1, r⟩ ⟨h1, g1, hr⟩
  refine ⟨h1, g1, ?_⟩
  intro n hn
  dsimp only at hn
  rw [Option.map_eq_some_iff] at hn
  obtain ⟨y, hy, rfl⟩ := hn
  exact (hr y hy).1

theorem addSeq_ok {env : Env} {E : List NodeId} : ∀ (cs : List Json) (b : Bld) (dag : NodeId),
    Inv b E → (dag = 0 ∨ (b.heap dag).isSome) →
    Mem (fun (x : Bld × Option NodeId) => Inv x.1 E ∧ Grow b x.1 ∧
      ∀ n, x.2 = some n → (n = 0 ∨ (x.1.heap n).isSome)) (addSeq env cs b dag)
  | [], b, dag, h, hd => ⟨h, Grow.refl b, fun n hn => by cases hn; exact hd⟩
  | c :: cs, b, dag, h, hd => by
    unfold addSeq
    refine Mem.bind (addParser_ok h hd) ?_
    rintro ⟨b1, r⟩ ⟨h1, g1, hr⟩
    cases r with
    | none => exact ⟨h1, g1, fun n hn => by cases hn⟩
    | some n =>
      refine (addSeq_ok cs b1 n h1 (hr n rfl)).mono ?_
      intro x hx
      exact ⟨hx.1, g1.trans hx.2.1, hx.2.2⟩

theorem addSamp_ok {env : Env} {E : List NodeId} {b : Bld} {dag : NodeId} {cs : List Json}
    {complete : Bool} {tags : Option (List Bytes)} {file : Bytes} {line : Nat} (h : Inv b E)
    (hd : dag = 0 ∨ (b.heap dag).isSome) :
    Mem (fun x => Inv x E ∧ Grow b x) (addSamp env b dag cs complete tags file line) := by
  unfold addSamp
  refine Mem.bind (addSeq_ok cs b dag h hd) ?_
  rintro ⟨b1, r⟩ ⟨h1, g1, hr⟩
  cases r with
  | none => exact ⟨h1, g1⟩
  | some e =>
    dsimp only
    split
    · refine Mem.bind (Mem.nd (hr e rfl)) ?_
      intro nd hnd
      exact ⟨h1.flags hnd rfl rfl, g1.trans (Grow.store hnd (List.prefix_refl _) (fun _ => rfl))⟩
    · exact ⟨h1, g1⟩

end LN
