import Verif.Proofs.Report
import Verif.Proofs.HeapOpt
/-
The graphs of the types and the main graph have no nodes in common.
-/
set_option autoImplicit false
namespace LN

/-- the fields of the nodes in `C` stay in `C`, those of other nodes outside; only nodes allocated so far are in `C` -/
structure Split (C : NodeId → Prop) (b : Bld) : Prop where
  iff : ∀ n, ∀ p ∈ b.fieldsAt n, (C n ↔ C p.node)
  old : ∀ m : NodeId, C m → m < b.next
  pos : ¬ C 0

section
variable {C : NodeId → Prop} {b : Bld}

theorem fieldsAt_store (b : Bld) (n : NodeId) (nd : Node) (m : NodeId) :
    (b.store n nd).fieldsAt m = if m = n then nd.parsers else b.fieldsAt m := by
  unfold Bld.fieldsAt Bld.store
  dsimp only
  split <;> rfl

theorem fieldsAt_free (b : Bld) (n m : NodeId) : (b.free n).fieldsAt m = if m = n then [] else b.fieldsAt m := by
  unfold Bld.fieldsAt Bld.free
  dsimp only
  split <;> rfl

theorem fieldsAt_new (b : Bld) (m : NodeId) : b.newPDAG.1.fieldsAt m = if m = b.next then [] else b.fieldsAt m := by
  unfold Bld.fieldsAt Bld.newPDAG
  dsimp only
  split <;> rfl

theorem load_fieldsAt {n : NodeId} {nd : Node} (h : b.load n = .ok nd) : b.fieldsAt n = nd.parsers := by
  unfold Bld.load at h
  unfold Bld.fieldsAt
  cases hb : b.heap n with
  | none => rw [hb] at h; dsimp only at h; split at h <;> cases h
  | some x => rw [hb] at h; cases h; rfl

theorem Split.store (h : Split C b) {n : NodeId} {nd : Node} (hp : ∀ p ∈ nd.parsers, (C n ↔ C p.node)) : Split C (b.store n nd) where
  iff m p hm := by
    rw [fieldsAt_store] at hm
    split at hm
    · rename_i e; subst e; exact hp p hm
    · exact h.iff m p hm
  old := h.old
  pos := h.pos

theorem Split.free (h : Split C b) (n : NodeId) : Split C (b.free n) where
  iff m p hm := by
    rw [fieldsAt_free] at hm
    split at hm
    · cases hm
    · exact h.iff m p hm
  old := h.old
  pos := h.pos

theorem Split.new (h : Split C b) : Split C b.newPDAG.1 ∧ ¬ C b.newPDAG.2 where
  left := {
    iff := fun m p hm => by
      rw [fieldsAt_new] at hm
      split at hm
      · cases hm
      · exact h.iff m p hm
    old := fun m hm => Nat.lt_succ_of_lt (h.old m hm)
    pos := h.pos }
  right hc := Nat.lt_irrefl _ (h.old _ hc)

/-- a list of state changes each of which keeps the property keeps it -/
theorem Split.foldlM {α : Type} {f : Bld → α → R Bld} (hf : ∀ b b' a, Split C b → f b a = .ok b' → Split C b') :
    ∀ (l : List α) (b b' : Bld), Split C b → l.foldlM f b = .ok b' → Split C b'
  | [], b, b', h, e => by cases e; exact h
  | a :: l, b, b', h, e => by
    rw [List.foldlM_cons] at e
    obtain ⟨b1, h1, h2⟩ := R.bind_eq_ok.1 e
    exact Split.foldlM hf l b1 b' (hf b b1 a h h1) h2

theorem Split.deleteF : ∀ (f : Nat) (b b' : Bld) (n : NodeId), Split C b → deleteF f b n = .ok b' → Split C b'
  | 0, _, _, _, _, e => by cases e
  | f + 1, b, b', n, h, e => by
    unfold LN.deleteF at e
    split at e
    · cases e; exact h
    · obtain ⟨nd, h1, h2⟩ := R.bind_eq_ok.1 e
      split at h2
      · cases h2
        refine h.store fun p hp => h.iff n p ?_
        rw [load_fieldsAt h1]; exact hp
      · exact Split.foldlM (fun b b' a hb he => Split.deleteF f b b' a hb he) _ _ _ (h.free n) h2

theorem Split.delete {b' : Bld} {n : NodeId} (h : Split C b) (e : pdagDelete b n = .ok b') : Split C b' := Split.deleteF _ b b' n h e

theorem Split.deleteData {b' : Bld} {k : PKind} (h : Split C b) (e : deleteData b k = .ok b') : Split C b' :=
  Split.foldlM (fun _ _ _ hb he => hb.delete he) _ _ _ h e

/-- what adding fields outside of `C` is expected to do -/
def RecSplit (C : NodeId → Prop) (rec : AddRec) : Prop :=
  ∀ (b b' : Bld) (dag : NodeId) (alt : Bool) (conf : Json) (next : NodeId) (r : Option (NodeId × NodeId)), Split C b → ¬ C dag → ¬ C next →
    rec b dag alt conf next = .ok (b', r) → Split C b' ∧ ∀ y, r = some y → ¬ C y.1 ∧ ¬ C y.2

theorem subGraph_split {rec : AddRec} (hr : RecSplit C rec) {v : Json} {x : Bld × NodeId × Bool} (h : Split C b)
    (e : subGraph rec b v = .ok x) : Split C x.1 := by
  unfold subGraph at e
  obtain ⟨⟨b1, r⟩, h1, h2⟩ := R.bind_eq_ok.1 e
  obtain ⟨h3, h4⟩ := hr _ _ _ _ _ _ _ h.new.1 h.new.2 h.pos h1
  dsimp only at h2
  split at h2
  · cases h2; exact h3
  · obtain ⟨nd, h5, h6⟩ := R.bind_eq_ok.1 h2
    cases h6
    refine h3.store fun p hp => h3.iff _ p ?_
    rw [load_fieldsAt h5]; exact hp

theorem repeatParam_split {env : Env} {rec : AddRec} (hr : RecSplit C rec) {d : RepeatData} {k : Bytes} {v : Json} {x : Bld × RepeatData}
    (h : Split C b) (e : repeatParam env rec (b, d) k v = .ok x) : Split C x.1 := by
  unfold repeatParam at e
  dsimp only at e
  split at e
  · cases e; exact h
  split at e
  · split at e
    · cases e; exact h
    split at e
    · cases e; exact h
    · obtain ⟨y, h1, h2⟩ := R.bind_eq_ok.1 e
      cases h2; exact subGraph_split hr h h1
  split at e
  · split at e
    · cases e; exact h
    · obtain ⟨y, h1, h2⟩ := R.bind_eq_ok.1 e
      cases h2; exact subGraph_split hr h h1
  split at e
  · cases e; exact h
  · cases e; exact h

theorem repeatFold_split {env : Env} {rec : AddRec} (hr : RecSplit C rec) : ∀ (o : Obj) (b : Bld) (d : RepeatData) (x : Bld × RepeatData),
    Split C b → foldMembers (repeatParam env rec) o (b, d) = .ok x → Split C x.1
  | [], b, d, x, h, e => by cases e; exact h
  | (k, v) :: o, b, d, x, h, e => by
    obtain ⟨⟨b1, d1⟩, h1, h2⟩ := R.bind_eq_ok.1 e
    exact repeatFold_split hr o b1 d1 x (repeatParam_split hr h h1) h2

theorem ctorRepeat_split {env : Env} {rec : AddRec} (hr : RecSplit C rec) {o : Obj} {x : Bld × PKind}
    (h : Split C b) (e : ctorRepeat env rec b o = .ok x) : Split C x.1 := by
  unfold ctorRepeat at e
  obtain ⟨⟨b1, d⟩, h1, h2⟩ := R.bind_eq_ok.1 e
  have h3 := repeatFold_split hr o b {} _ h h1
  dsimp only at h2
  split at h2
  · cases h2; exact h3
  · obtain ⟨b2, h4, h5⟩ := R.bind_eq_ok.1 h2
    cases h5; exact h3.delete h4
  · obtain ⟨b2, h4, h5⟩ := R.bind_eq_ok.1 h2
    cases h5; exact h3.delete h4
  · cases h2; exact h3

theorem newParser_split {env : Env} {rec : AddRec} (hr : RecSplit C rec) {conf : Json} {x : Bld × Option Parser}
    (h : Split C b) (e : newParser env rec b conf = .ok x) : Split C x.1 := by
  unfold newParser at e
  split at e
  · cases e; exact h
  dsimp only at e
  split at e
  · split at e
    · cases e; exact h
    · cases e; exact h
  split at e
  · cases e; exact h
  split at e
  · obtain ⟨⟨b1, k⟩, h1, h2⟩ := R.bind_eq_ok.1 e
    cases h2; exact ctorRepeat_split hr h h1
  · obtain ⟨k, h1, h2⟩ := R.bind_eq_ok.1 e
    cases h2; exact h

theorem addEntry_mem {nd : Node} {p q : Parser} (h : q ∈ (addEntry nd p).parsers) : q ∈ nd.parsers ∨ q = p := by
  unfold addEntry at h
  dsimp only at h
  split at h
  · cases h
  · rcases List.mem_append.1 h with h | h
    · exact .inl h
    · exact .inr (List.mem_singleton.1 h)

theorem addInstance_split {env : Env} {rec : AddRec} (hr : RecSplit C rec) {conf : Json} {dag next : NodeId} {x : Bld × Option NodeId}
    (h : Split C b) (hd : ¬ C dag) (hn : ¬ C next) (e : addInstance env rec b conf dag next = .ok x) :
    Split C x.1 ∧ ∀ m, x.2 = some m → ¬ C m := by
  unfold addInstance at e
  obtain ⟨⟨b1, p⟩, h1, h2⟩ := R.bind_eq_ok.1 e
  have h3 := newParser_split hr h h1
  dsimp only at h2 h3
  split at h2
  · cases h2; exact ⟨h3, fun _ h => by cases h⟩
  · rename_i p
    obtain ⟨nd, h4, h5⟩ := R.bind_eq_ok.1 h2
    split at h5
    · rename_i q hq
      obtain ⟨b2, h6, h7⟩ := R.bind_eq_ok.1 h5
      cases h7
      refine ⟨h3.deleteData h6, fun m hm => ?_⟩
      cases hm
      have := h3.iff dag q (by rw [load_fieldsAt h4]; exact List.mem_of_find?_eq_some hq)
      exact fun h => hd (this.2 h)
    · obtain ⟨⟨b2, m⟩, h6, h7⟩ := R.bind_eq_ok.1 h5
      have h8 : Split C b2 ∧ ¬ C m := by
        split at h6
        · cases h6; exact h3.new
        · obtain ⟨nx, h9, h10⟩ := R.bind_eq_ok.1 h6
          cases h10
          refine ⟨h3.store fun p hp => h3.iff _ p ?_, hn⟩
          rw [load_fieldsAt h9]; exact hp
      obtain ⟨nd', h9, h10⟩ := R.bind_eq_ok.1 h7
      cases h10
      refine ⟨?_, fun _ h => by cases h; exact h8.2⟩
      have h11 : Split C (b2.store dag (addEntry nd' { p with node := m })) := by
        refine h8.1.store fun q hq => ?_
        rcases addEntry_mem hq with hq | hq
        · exact h8.1.iff dag q (by rw [load_fieldsAt h9]; exact hq)
        · subst hq; exact ⟨fun h => (hd h).elim, fun h => (h8.2 h).elim⟩
      exact ⟨h11.iff, h11.old, h11.pos⟩

theorem addParsersLoop_split {env : Env} {rec : AddRec} (hr : RecSplit C rec) {alt : Bool} : ∀ (l : List Json) (b : Bld) (dag next pn : NodeId)
    (x : Bld × Option (NodeId × NodeId)), Split C b → ¬ C dag → ¬ C next → ¬ C pn →
    addParsersLoop env rec alt l b dag next pn = .ok x → Split C x.1 ∧ ∀ y, x.2 = some y → ¬ C y.1 ∧ ¬ C y.2
  | [], b, dag, next, pn, x, h, hd, hn, hp, e => by
    unfold addParsersLoop at e
    cases e
    refine ⟨h, fun y hy => ?_⟩
    cases hy
    dsimp only
    refine ⟨?_, hp⟩
    split
    · exact hn
    · exact hd
  | c :: cs, b, dag, next, pn, x, h, hd, hn, hp, e => by
    unfold addParsersLoop at e
    obtain ⟨⟨b1, r⟩, h1, h2⟩ := R.bind_eq_ok.1 e
    have h3 : Split C b1 ∧ ∀ m, r = some m → ¬ C m := by
      split at h1
      · obtain ⟨⟨b2, r2⟩, h4, h5⟩ := R.bind_eq_ok.1 h1
        cases h5
        obtain ⟨h6, h7⟩ := hr _ _ _ _ _ _ _ h hd hn h4
        refine ⟨h6, fun m hm => ?_⟩
        cases r2 with
        | none => cases hm
        | some y => cases hm; exact (h7 y rfl).2
      · exact addInstance_split hr h hd hn h1
    dsimp only at h2
    split at h2
    · cases h2; exact ⟨h3.1, fun _ h => by cases h⟩
    · rename_i m
      have hm := h3.2 m rfl
      split at h2
      · exact addParsersLoop_split hr cs b1 dag m pn x h3.1 hd hm hp h2
      · exact addParsersLoop_split hr cs b1 m 0 m x h3.1 hm h.pos hm h2

theorem addStep_split {env : Env} {rec : AddRec} (hr : RecSplit C rec) : RecSplit C (addStep env rec) := by
  intro b b' dag alt conf next r h hd hn e
  unfold addStep at e
  split at e
  · split at e
    · cases e
    · split at e
      · split at e
        · obtain ⟨⟨b1, r1⟩, h1, h2⟩ := R.bind_eq_ok.1 e
          cases h2
          exact addParsersLoop_split hr _ _ _ _ _ _ h hd hn hn h1
        · cases e; exact ⟨h, fun _ h => by cases h⟩
      · obtain ⟨⟨b1, r1⟩, h1, h2⟩ := R.bind_eq_ok.1 e
        cases h2
        obtain ⟨h3, h4⟩ := addInstance_split hr h hd hn h1
        refine ⟨h3, fun y hy => ?_⟩
        cases r1 with
        | none => cases hy
        | some m =>
          cases hy
          dsimp only
          refine ⟨?_, h4 m rfl⟩
          split
          · exact hd
          · exact h4 m rfl
  · exact addParsersLoop_split hr _ _ _ _ _ _ h hd hn hn e
  · cases e; exact ⟨h, fun _ h => by cases h⟩

theorem addF_split (env : Env) : ∀ f, RecSplit C (addF env f)
  | 0 => fun _ _ _ _ _ _ _ _ _ _ e => by cases e
  | f + 1 => addStep_split (addF_split env f)

theorem addSeq_split {env : Env} : ∀ (cs : List Json) (b : Bld) (dag : NodeId) (x : Bld × Option NodeId), Split C b → ¬ C dag →
    addSeq env cs b dag = .ok x → Split C x.1 ∧ ∀ m, x.2 = some m → ¬ C m
  | [], b, dag, x, h, hd, e => by cases e; exact ⟨h, fun m hm => by cases hm; exact hd⟩
  | c :: cs, b, dag, x, h, hd, e => by
    unfold addSeq at e
    obtain ⟨⟨b1, r⟩, h1, h2⟩ := R.bind_eq_ok.1 e
    unfold addParser at h1
    obtain ⟨⟨b2, r2⟩, h3, h4⟩ := R.bind_eq_ok.1 h1
    cases h4
    obtain ⟨h5, h6⟩ := addF_split env _ _ _ _ _ _ _ _ h hd h.pos h3
    dsimp only at h2
    split at h2
    · cases h2; exact ⟨h5, fun _ h => by cases h⟩
    · rename_i m hm
      cases r2 with
      | none => cases hm
      | some y => cases hm; exact addSeq_split cs b1 y.1 x h5 (h6 y rfl).1 h2

theorem addSamp_split {env : Env} {dag : NodeId} {cs : List Json} {complete : Bool} {tags : Option (List Bytes)} {file : Bytes} {line : Nat}
    {b' : Bld} (h : Split C b) (hd : ¬ C dag) (e : addSamp env b dag cs complete tags file line = .ok b') : Split C b' := by
  unfold addSamp at e
  obtain ⟨⟨b1, r⟩, h1, h2⟩ := R.bind_eq_ok.1 e
  obtain ⟨h3, h4⟩ := addSeq_split cs b dag _ h hd h1
  dsimp only at h2 h3
  split at h2
  · cases h2; exact h3
  · split at h2
    · obtain ⟨nd, h5, h6⟩ := R.bind_eq_ok.1 h2
      cases h6
      refine h3.store fun p hp => h3.iff _ p ?_
      rw [load_fieldsAt h5]; exact hp
    · cases h2; exact h3

end
end LN
