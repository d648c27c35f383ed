import Verif.Proofs.SepHist
import Verif.Spec.Report
/- Without `alternative`, no node is referred to twice: the graphs are trees. -/
set_option autoImplicit false
namespace LN

/-- every node is referred to once -/
def Single (b : Bld) : Prop := ∀ n nd, b.heap n = some nd → nd.refcnt ≤ 1

section
variable {b : Bld}

theorem Single.store (h : Single b) {n : NodeId} {nd : Node} (hr : nd.refcnt ≤ 1) : Single (b.store n nd) := by
  intro m md hm
  rw [Bld.heap_store] at hm
  split at hm
  · cases hm; exact hr
  · exact h m md hm

theorem Single.free (h : Single b) (n : NodeId) : Single (b.free n) := by
  intro m md hm
  rw [Bld.heap_free] at hm
  split at hm
  · cases hm
  · exact h m md hm

theorem Single.new (h : Single b) : Single b.newPDAG.1 := by
  intro m md hm
  unfold Bld.newPDAG at hm
  dsimp only at hm
  split at hm
  · cases hm; exact Nat.le_refl 1
  · exact h m md hm

theorem Single.load (h : Single b) {n : NodeId} {nd : Node} (e : b.load n = .ok nd) : nd.refcnt ≤ 1 := by
  unfold Bld.load at e
  split at e
  · cases e; rename_i hh; exact h n _ hh
  · split at e <;> cases e

theorem Single.foldlM {α : Type} {f : Bld → α → R Bld} (hf : ∀ b b' a, Single b → f b a = .ok b' → Single b') :
    ∀ (l : List α) (b b' : Bld), Single b → l.foldlM f b = .ok b' → Single b'
  | [], b, b', h, e => by cases e; exact h
  | a :: l, b, b', h, e => by
    rw [List.foldlM_cons] at e
    obtain ⟨b1, h1, h2⟩ := R.bind_eq_ok.1 e
    exact Single.foldlM hf l b1 b' (hf b b1 a h h1) h2

theorem Single.deleteF : ∀ (f : Nat) (b b' : Bld) (n : NodeId), Single b → deleteF f b n = .ok b' → Single b'
  | 0, _, _, _, _, e => by cases e
  | f + 1, b, b', n, h, e => by
    unfold LN.deleteF at e
    split at e
    · cases e; exact h
    · obtain ⟨nd, h1, h2⟩ := R.bind_eq_ok.1 e
      split at h2
      · cases h2; exact h.store (Nat.le_trans (Nat.sub_le ..) (h.load h1))
      · exact Single.foldlM (fun b b' a hb he => Single.deleteF f b b' a hb he) _ _ _ (h.free n) h2

theorem Single.delete {b' : Bld} {n : NodeId} (h : Single b) (e : pdagDelete b n = .ok b') : Single b' := Single.deleteF _ b b' n h e

theorem Single.deleteData {b' : Bld} {k : PKind} (h : Single b) (e : deleteData b k = .ok b') : Single b' :=
  Single.foldlM (fun _ _ _ hb he => hb.delete he) _ _ _ h e

theorem NoAlt.member {env : Env} {conf : Json} (h : NoAlt env conf) {k : Bytes} {v : Json} (hm : (k, v) ∈ conf.members) : NoAlt env v := by
  cases conf with
  | obj o => exact fun x hx => h x (.inObj hm hx)
  | _ => simp [Json.members] at hm

def RecSingle (env : Env) (rec : AddRec) : Prop :=
  ∀ (b b' : Bld) (dag : NodeId) (conf : Json) (r : Option (NodeId × NodeId)), Single b → NoAlt env conf →
    rec b dag false conf 0 = .ok (b', r) → Single b'

theorem subGraph_single {env : Env} {rec : AddRec} (hr : RecSingle env rec) {v : Json} {x : Bld × NodeId × Bool} (h : Single b) (hv : NoAlt env v)
    (e : subGraph rec b v = .ok x) : Single x.1 := by
  unfold subGraph at e
  obtain ⟨⟨b1, r⟩, h1, h2⟩ := R.bind_eq_ok.1 e
  have h3 := hr _ _ _ _ _ h.new hv h1
  dsimp only at h2
  split at h2
  · cases h2; exact h3
  · obtain ⟨nd, h5, h6⟩ := R.bind_eq_ok.1 h2
    cases h6
    exact h3.store (h3.load h5 :)

theorem repeatParam_single {env : Env} {rec : AddRec} (hr : RecSingle env rec) {d : RepeatData} {k : Bytes} {v : Json} {x : Bld × RepeatData}
    (h : Single b) (hv : NoAlt env v) (e : repeatParam env rec (b, d) k v = .ok x) : Single x.1 := by
  unfold repeatParam at e
  dsimp only at e
  split at e
  · cases e; exact h
  split at e
  · split at e
    · cases e; exact h
    split at e
    · cases e; exact h
    · obtain ⟨y, h1, h2⟩ := R.bind_eq_ok.1 e
      cases h2; exact subGraph_single hr h hv h1
  split at e
  · split at e
    · cases e; exact h
    · obtain ⟨y, h1, h2⟩ := R.bind_eq_ok.1 e
      cases h2; exact subGraph_single hr h hv h1
  split at e
  · cases e; exact h
  · cases e; exact h

theorem repeatFold_single {env : Env} {rec : AddRec} (hr : RecSingle env rec) : ∀ (o : Obj) (_ : ∀ k v, (k, v) ∈ o → NoAlt env v) (b : Bld) (d : RepeatData)
    (x : Bld × RepeatData), Single b → foldMembers (repeatParam env rec) o (b, d) = .ok x → Single x.1
  | [], _, b, d, x, h, e => by cases e; exact h
  | (k, v) :: o, hv, b, d, x, h, e => by
    obtain ⟨⟨b1, d1⟩, h1, h2⟩ := R.bind_eq_ok.1 e
    exact repeatFold_single hr o (fun k' v' hm => hv k' v' (List.mem_cons_of_mem _ hm)) b1 d1 x
      (repeatParam_single hr h (hv k v (List.mem_cons_self ..)) h1) h2

theorem ctorRepeat_single {env : Env} {rec : AddRec} (hr : RecSingle env rec) {o : Obj} (ho : ∀ k v, (k, v) ∈ o → NoAlt env v) {x : Bld × PKind}
    (h : Single b) (e : ctorRepeat env rec b o = .ok x) : Single x.1 := by
  unfold ctorRepeat at e
  obtain ⟨⟨b1, d⟩, h1, h2⟩ := R.bind_eq_ok.1 e
  have h3 := repeatFold_single hr o ho b {} _ h h1
  dsimp only at h2
  split at h2
  · cases h2; exact h3
  · obtain ⟨b2, h4, h5⟩ := R.bind_eq_ok.1 h2
    cases h5; exact h3.delete h4
  · obtain ⟨b2, h4, h5⟩ := R.bind_eq_ok.1 h2
    cases h5; exact h3.delete h4
  · cases h2; exact h3

theorem newParser_single {env : Env} {rec : AddRec} (hr : RecSingle env rec) {conf : Json} (hc : NoAlt env conf) {x : Bld × Option Parser}
    (h : Single b) (e : newParser env rec b conf = .ok x) : Single x.1 := by
  unfold newParser at e
  split at e
  · cases e; exact h
  dsimp only at e
  split at e
  · split at e
    · cases e; exact h
    · cases e; exact h
  split at e
  · cases e; exact h
  split at e
  · obtain ⟨⟨b1, k⟩, h1, h2⟩ := R.bind_eq_ok.1 e
    cases h2
    refine ctorRepeat_single hr (fun k v hm => ?_) h h1
    unfold confRest at hm
    exact hc.member (List.mem_filter.1 hm).1
  · obtain ⟨k, h1, h2⟩ := R.bind_eq_ok.1 e
    cases h2; exact h

theorem addInstance_single {env : Env} {rec : AddRec} (hr : RecSingle env rec) {conf : Json} (hc : NoAlt env conf) {dag : NodeId} {x : Bld × Option NodeId}
    (h : Single b) (e : addInstance env rec b conf dag 0 = .ok x) : Single x.1 := by
  unfold addInstance at e
  obtain ⟨⟨b1, p⟩, h1, h2⟩ := R.bind_eq_ok.1 e
  have h3 := newParser_single hr hc h h1
  dsimp only at h2 h3
  split at h2
  · cases h2; exact h3
  · rename_i p
    obtain ⟨nd, h4, h5⟩ := R.bind_eq_ok.1 h2
    split at h5
    · obtain ⟨b2, h6, h7⟩ := R.bind_eq_ok.1 h5
      cases h7
      exact h3.deleteData h6
    · rw [if_pos rfl] at h5
      obtain ⟨y, h8, h5⟩ := R.bind_eq_ok.1 h5
      cases h8
      obtain ⟨nd', h9, h10⟩ := R.bind_eq_ok.1 h5
      cases h10
      have h11 : Single (b1.newPDAG.1.store dag (addEntry nd' { p with node := b1.newPDAG.2 })) := h3.new.store (h3.new.load h9 :)
      exact h11

theorem addParsersLoop_single {env : Env} {rec : AddRec} (hr : RecSingle env rec) : ∀ (l : List Json) (_ : ∀ c ∈ l, NoAlt env c) (b : Bld)
    (dag pn : NodeId) (x : Bld × Option (NodeId × NodeId)), Single b →
    addParsersLoop env rec false l b dag 0 pn = .ok x → Single x.1
  | [], _, b, dag, pn, x, h, e => by
    unfold addParsersLoop at e
    cases e
    exact h
  | c :: cs, hc, b, dag, pn, x, h, e => by
    unfold addParsersLoop at e
    obtain ⟨⟨b1, r⟩, h1, h2⟩ := R.bind_eq_ok.1 e
    have h3 : Single b1 := by
      split at h1
      · obtain ⟨⟨b2, r2⟩, h4, h5⟩ := R.bind_eq_ok.1 h1
        cases h5
        exact hr _ _ _ _ _ h (hc _ (List.mem_cons_self ..)) h4
      · exact addInstance_single hr (hc _ (List.mem_cons_self ..)) h h1
    dsimp only at h2
    split at h2
    · cases h2; exact h3
    · rename_i m
      exact addParsersLoop_single hr cs (fun c' hm => hc c' (List.mem_cons_of_mem _ hm)) b1 m m x h3 h2

theorem addStep_single {env : Env} {rec : AddRec} (hr : RecSingle env rec) : RecSingle env (addStep env rec) := by
  intro b b' dag conf r h hc e
  unfold addStep at e
  split at e
  · split at e
    · cases e
    · rename_i ty hty
      split at e
      · rename_i hal
        exact (hc _ .refl (by rw [hty, hal])).elim
      · obtain ⟨⟨b1, r1⟩, h1, h2⟩ := R.bind_eq_ok.1 e
        cases h2
        exact addInstance_single hr hc h h1
  · exact addParsersLoop_single hr _ (fun c hm x hx => hc x (.inArr hm hx)) _ _ _ _ h e
  · cases e; exact h

theorem addF_single (env : Env) : ∀ f, RecSingle env (addF env f)
  | 0 => fun _ _ _ _ _ _ _ e => by cases e
  | f + 1 => addStep_single (addF_single env f)

theorem addSeq_single {env : Env} : ∀ (cs : List Json) (_ : ∀ c ∈ cs, NoAlt env c) (b : Bld) (dag : NodeId) (x : Bld × Option NodeId), Single b →
    addSeq env cs b dag = .ok x → Single x.1
  | [], _, b, dag, x, h, e => by cases e; exact h
  | c :: cs, hc, b, dag, x, h, e => by
    unfold addSeq at e
    obtain ⟨⟨b1, r⟩, h1, h2⟩ := R.bind_eq_ok.1 e
    unfold addParser at h1
    obtain ⟨⟨b2, r2⟩, h3, h4⟩ := R.bind_eq_ok.1 h1
    cases h4
    have h5 := addF_single env _ _ _ _ _ _ h (hc c (List.mem_cons_self ..)) h3
    dsimp only at h2
    split at h2
    · cases h2; exact h5
    · exact addSeq_single cs (fun c' hm => hc c' (List.mem_cons_of_mem _ hm)) b1 _ x h5 h2

theorem addSamp_single {env : Env} {dag : NodeId} {cs : List Json} {complete : Bool} {tags : Option (List Bytes)} {file : Bytes} {line : Nat}
    {b' : Bld} (h : Single b) (hc : ∀ c ∈ cs, NoAlt env c) (e : addSamp env b dag cs complete tags file line = .ok b') : Single b' := by
  unfold addSamp at e
  obtain ⟨⟨b1, r⟩, h1, h2⟩ := R.bind_eq_ok.1 e
  have h3 := addSeq_single cs hc b dag _ h h1
  dsimp only at h2 h3
  split at h2
  · cases h2; exact h3
  · split at h2
    · obtain ⟨nd, h5, h6⟩ := R.bind_eq_ok.1 h2
      cases h6
      exact h3.store (h3.load h5 :)
    · cases h2; exact h3

end

theorem OptSteps.single {srt : Sorter} {n0 : NodeId} {b b' : Bld} (h : Single b) (s : OptSteps srt n0 b b') : Single b' := by
  induction s with
  | refl => exact h
  | head h1 _ ih =>
    refine ih ?_
    cases h1 with
    | sort h0 hn => exact h.store (h _ _ hn :)
    | compact h0 hc =>
      refine Single.free (Single.store h ?_) _
      have h1 := h _ _ hc.hn
      exact h1

theorem runOps_single {env : Env} {srt : Sorter} {ops : List BOp} (ho : ∀ op ∈ ops, op.NoAlt env) {b : Bld} (h : runOps env srt ops = .ok b) : Single b := by
  have loop : ∀ (ops : List BOp) (_ : ∀ op ∈ ops, op.NoAlt env) (b b' : Bld), Inv b b.ctxRefs → Single b →
      ops.foldlM (BOp.run env srt) b = .ok b' → Single b' := by
    intro ops
    induction ops with
    | nil => intro _ b b' _ ha e; cases e; exact ha
    | cons op ops ih =>
      intro ho b b' hi ha e
      rw [List.foldlM_cons] at e
      obtain ⟨b1, h1, h2⟩ := R.bind_eq_ok.1 e
      refine ih (fun o hm => ho o (List.mem_cons_of_mem _ hm)) b1 b' ((BOp.run_ok hi op).ok_of h1).1 ?_ h2
      have hop := ho op (List.mem_cons_self ..)
      cases op with
      | rule confs complete tags file line => exact addSamp_single ha hop h1
      | typeDef name confs complete tags file line =>
        have e : LN.addSamp env (findTypeAdd b name).1 (findTypeAdd b name).2 confs complete tags file line = .ok b1 := h1
        refine addSamp_single ?_ hop e
        unfold findTypeAdd
        split
        · exact ha
        · exact ha.new
      | optimize =>
        exact ((pdagOptimize_ok (E := b.ctxRefs) (srt := srt) hi (List.mem_cons_self ..) (fun t ht =>
          List.mem_cons_of_mem _ (List.mem_map.2 ⟨t, ht, rfl⟩))).ok_of h1).single ha
  refine loop ops ho initBld b initBld_inv ?_ h
  intro n nd hn
  unfold initBld Bld.newPDAG at hn
  dsimp only at hn
  split at hn
  · cases hn; exact Nat.le_refl 1
  · cases hn

/-! ### trees -/

theorem LeadsTo.snoc {fs : NodeId → List Parser} {n m : NodeId} (h : LeadsTo fs n m) : n = m ∨ ∃ x, LeadsTo fs n x ∧ ∃ p ∈ fs x, p.node = m := by
  induction h with
  | refl n => exact .inl rfl
  | step hp t ih =>
    rcases ih with e | ⟨x, hx, q, hq, e⟩
    · exact .inr ⟨_, .refl _, _, hp, e⟩
    · exact .inr ⟨x, .step hp hx, q, hq, e⟩

/-- two ways to a node: one contains the other -/
theorem LeadsTo.linear {fs : NodeId → List Parser} (hu : ∀ x y p q, p ∈ fs x → q ∈ fs y → p.node = q.node → x = y)
    {a k : NodeId} (h : LeadsTo fs a k) : ∀ {c : NodeId}, LeadsTo fs c k → LeadsTo fs a c ∨ LeadsTo fs c a := by
  have key : ∀ {c k : NodeId}, LeadsTo fs c k → ∀ {a : NodeId}, LeadsTo fs a k → LeadsTo fs a c ∨ LeadsTo fs c a := by
    intro c k hc
    induction hc with
    | refl n => intro a ha; exact .inl ha
    | @step n p m hp t ih =>
      intro a ha
      rcases ih ha with h1 | h1
      · rcases h1.snoc with e | ⟨x, hx, q, hq, e⟩
        · rw [e]; exact .inr (.step hp (.refl _))
        · rw [hu n x p q hp hq e.symm]; exact .inl hx
      · exact .inr (.step hp h1)
  intro c hc
  exact key hc h

theorem count_two {l : List NodeId} {f : Nat → List NodeId} : ∀ (k : Nat) {i j : Nat} {x : NodeId}, i < j → j < k → x ∈ f i → x ∈ f j →
    2 ≤ ((List.range k).flatMap f).count x
  | 0, _, _, _, _, h, _, _ => by omega
  | k + 1, i, j, x, hij, hj, hi', hj' => by
    rw [List.range_succ, List.flatMap_append, List.count_append, List.flatMap_singleton]
    by_cases e : j = k
    · subst e
      have h1 : 0 < (f j).count x := List.count_pos_iff.2 hj'
      have h2 : 0 < ((List.range j).flatMap f).count x := List.count_pos_iff.2 (List.mem_flatMap.2 ⟨i, List.mem_range.2 hij, hi'⟩)
      omega
    · have := count_two (l := l) k hij (by omega) hi' hj'
      omega

theorem count_one {f : Nat → List NodeId} (k : Nat) {i : Nat} {x : NodeId} (hi : i < k) : (f i).count x ≤ ((List.range k).flatMap f).count x := by
  induction k with
  | zero => omega
  | succ k ih =>
    rw [List.range_succ, List.flatMap_append, List.count_append, List.flatMap_singleton]
    by_cases e : i = k
    · subst e; omega
    · have := ih (by omega); omega

theorem fields_refs {b : Bld} {n : NodeId} {p : Parser} (h : p ∈ b.fieldsAt n) : ∃ nd, b.heap n = some nd ∧ b.fieldsAt n = nd.parsers ∧ p.node ∈ b.refsOf n := by
  unfold Bld.fieldsAt at h ⊢
  unfold Bld.refsOf
  cases hn : b.heap n with
  | none => rw [hn] at h; cases h
  | some nd =>
    rw [hn] at h
    exact ⟨nd, rfl, rfl, List.mem_flatMap.2 ⟨p, h, List.mem_cons_self ..⟩⟩

theorem Single.unique {b : Bld} {E : List NodeId} (hi : Inv b E) (hs : Single b) (x y : NodeId) (p q : Parser) (hp : p ∈ b.fieldsAt x)
    (hq : q ∈ b.fieldsAt y) (e : p.node = q.node) : x = y := by
  obtain ⟨nx, hx, _, hpr⟩ := fields_refs hp
  obtain ⟨ny, hy, _, hqr⟩ := fields_refs hq
  rw [← e] at hqr
  have hl := (hi.asc x _ hpr).2
  obtain ⟨nd, hnd⟩ := Option.isSome_iff_exists.1 hl
  have h1 := (hi.cnt _ _ hnd).1
  have h2 := hs _ _ hnd
  have hxl := (hi.range _ _ hx).2
  have hyl := (hi.range _ _ hy).2
  rcases Nat.lt_trichotomy x y with h | h | h
  · have := count_two (l := []) (f := b.refsOf) b.next h hyl hpr hqr
    unfold Bld.allRefs at h1
    exact absurd (Nat.le_trans this (Nat.le_trans (Nat.le_add_right ..) (Nat.le_trans h1 h2))) (by decide)
  · exact h
  · have := count_two (l := []) (f := b.refsOf) b.next h hxl hqr hpr
    unfold Bld.allRefs at h1
    exact absurd (Nat.le_trans this (Nat.le_trans (Nat.le_add_right ..) (Nat.le_trans h1 h2))) (by decide)

theorem Single.pairwise {b : Bld} {E : List NodeId} (hi : Inv b E) (hs : Single b) (n : NodeId) : (b.fieldsAt n).Pairwise fun p q => p.node ≠ q.node := by
  have key : ∀ (l : List Parser), (∀ x, (l.flatMap Parser.refs).count x ≤ 1) → l.Pairwise fun p q => p.node ≠ q.node := by
    intro l
    induction l with
    | nil => intro _; exact .nil
    | cons p l ih =>
      intro h
      rw [List.pairwise_cons]
      refine ⟨fun q hq e => ?_, ih fun x => ?_⟩
      · have h1 := h p.node
        rw [List.flatMap_cons, List.count_append] at h1
        have h2 : 0 < p.refs.count p.node := List.count_pos_iff.2 (List.mem_cons_self ..)
        have h3 : 0 < (l.flatMap Parser.refs).count p.node := List.count_pos_iff.2 (List.mem_flatMap.2 ⟨q, hq, by rw [e]; exact List.mem_cons_self ..⟩)
        omega
      · have h1 := h x
        rw [List.flatMap_cons, List.count_append] at h1
        omega
  cases hn : b.heap n with
  | none => unfold Bld.fieldsAt; rw [hn]; exact .nil
  | some nd =>
    have e : b.fieldsAt n = nd.parsers := by unfold Bld.fieldsAt; rw [hn]; rfl
    rw [e]
    refine key _ fun x => ?_
    have hr : b.refsOf n = nd.parsers.flatMap Parser.refs := by unfold Bld.refsOf; rw [hn]
    rw [← hr]
    by_cases hx : x ∈ b.refsOf n
    · obtain ⟨xd, hxd⟩ := Option.isSome_iff_exists.1 (hi.asc n x hx).2
      have h1 := (hi.cnt _ _ hxd).1
      have h2 := hs _ _ hxd
      have h3 := count_one (f := b.refsOf) b.next (x := x) (hi.range _ _ hn).2
      unfold Bld.allRefs at h1
      omega
    · rw [List.count_eq_zero_of_not_mem hx]; exact Nat.zero_le 1

theorem Single.tree {b : Bld} {E : List NodeId} (hi : Inv b E) (hs : Single b) (n : NodeId) : TreeAt b.fieldsAt n := by
  intro m _
  have hu := hs.unique hi
  have asc : ∀ {a c : NodeId}, LeadsTo b.fieldsAt a c → (a : Nat) ≤ c := fun h => h.le (asc_fieldsAt hi)
  refine (List.Pairwise.and_mem.1 (hs.pairwise hi m)).imp fun {p q} ⟨hp, hq, hne⟩ k hk hk' => ?_
  have one : ∀ (p q : Parser), p ∈ b.fieldsAt m → q ∈ b.fieldsAt m → p.node ≠ q.node → ¬ LeadsTo b.fieldsAt p.node q.node := by
    intro p q hp hq hne h
    rcases h.snoc with e | ⟨x, hx, r, hr, e⟩
    · exact hne e
    · have := hu x m r q hr hq e
      subst this
      exact Nat.lt_irrefl _ (Nat.lt_of_lt_of_le (asc_fieldsAt hi x p hp).1 (asc hx))
  rcases hk.linear hu hk' with h | h
  · exact one p q hp hq hne h
  · exact one q p hq hp (Ne.symm hne) h

/-- without `alternative` every graph is a tree -/
theorem runOps_tree {env : Env} {srt : Sorter} {ops : List BOp} (ho : ∀ op ∈ ops, op.NoAlt env) {b : Bld} (h : runOps env srt ops = .ok b) (n : NodeId) :
    TreeAt b.fieldsAt n :=
  (runOps_single ho h).tree ((runOps_inv (env := env) (srt := srt) ops).ok_of h) n

mutual
/-- test for `NoAlt` -/
def noAltB (env : Env) : Json → Bool
  | .arr l => noAltL env l
  | .obj o => decide (((Json.obj o).ptr (bs! "type")).bind (strOf env) ≠ some (bs! "alternative")) && noAltO env o
  | _ => true
def noAltL (env : Env) : List Json → Bool
  | [] => true
  | c :: l => noAltB env c && noAltL env l
def noAltO (env : Env) : List (Bytes × Json) → Bool
  | [] => true
  | (_, c) :: o => noAltB env c && noAltO env o
end

theorem not_type {env : Env} {c : Json} (h : c.ptr (bs! "type") = none) : (c.ptr (bs! "type")).bind (strOf env) ≠ some (bs! "alternative") := by
  rw [h]; intro e; cases e

theorem noAlt_atom {env : Env} {c : Json} (ho : ∀ o, c ≠ .obj o) (ha : ∀ l, c ≠ .arr l) : NoAlt env c := by
  intro v hv
  cases hv with
  | refl =>
    refine not_type ?_
    unfold Json.ptr
    split
    · rfl
    · cases c <;> first | rfl | exact (ho _ rfl).elim
  | inArr hm h => exact (ha _ rfl).elim
  | inObj hm h => exact (ho _ rfl).elim

mutual
theorem noAltB_ok {env : Env} : ∀ (c : Json), noAltB env c = true → NoAlt env c
  | .arr l, h => by
    intro v hv
    cases hv with
    | refl => exact not_type (by unfold Json.ptr; split <;> rfl)
    | inArr hm h' => exact noAltL_ok l h _ hm v h'
  | .obj o, h => by
    unfold noAltB at h
    rw [Bool.and_eq_true] at h
    intro v hv
    cases hv with
    | refl => exact of_decide_eq_true h.1
    | inObj hm h' => exact noAltO_ok o h.2 _ _ hm v h'
  | .null, _ => noAlt_atom (by simp) (by simp)
  | .bool _, _ => noAlt_atom (by simp) (by simp)
  | .int _, _ => noAlt_atom (by simp) (by simp)
  | .dbl _, _ => noAlt_atom (by simp) (by simp)
  | .str _, _ => noAlt_atom (by simp) (by simp)
theorem noAltL_ok {env : Env} : ∀ (l : List Json), noAltL env l = true → ∀ c ∈ l, NoAlt env c
  | [], _, _, hm => by cases hm
  | c :: l, h, d, hm => by
    unfold noAltL at h
    rw [Bool.and_eq_true] at h
    rcases List.mem_cons.1 hm with e | hm
    · rw [e]; exact noAltB_ok c h.1
    · exact noAltL_ok l h.2 d hm
theorem noAltO_ok {env : Env} : ∀ (o : List (Bytes × Json)), noAltO env o = true → ∀ k c, (k, c) ∈ o → NoAlt env c
  | [], _, _, _, hm => by cases hm
  | (k', c) :: o, h, k, d, hm => by
    unfold noAltO at h
    rw [Bool.and_eq_true] at h
    rcases List.mem_cons.1 hm with e | hm
    · cases e; exact noAltB_ok c h.1
    · exact noAltO_ok o h.2 k d hm
end

/-- test for `BOp.NoAlt` -/
def BOp.noAltB (env : Env) : BOp → Bool
  | .rule confs .. => noAltL env confs
  | .typeDef _ confs .. => noAltL env confs
  | .optimize => true

theorem BOp.noAltB_ok {env : Env} (op : BOp) (h : op.noAltB env = true) : op.NoAlt env := by
  cases op with
  | rule confs => exact noAltL_ok confs h
  | typeDef _ confs => exact noAltL_ok confs h
  | optimize => trivial

end LN
