import Mathlib.Data.List.Forall2
import Verif.Proofs.Doc
/-
Adding rules with alternatives: fields of an alternative lead to one common node.
-/
set_option autoImplicit false
namespace LN

section
variable {env : Env}

/-- one configuration is chosen at each place -/
def Chosen (items : List (List Json)) (cs : List Json) : Prop := List.Forall₂ (fun I c => c ∈ I) items cs

/-- nodes are labelled with what was offered on the way to them; `P`: what the rules offer -/
structure ATrie (env : Env) (P : List (List Json) → Prop) (b : Bld) (lab : NodeId → List (List Json)) : Prop where
  plain : PlainGraph env b
  edge : ∀ (n : NodeId) (nd : Node), b.heap n = some nd → ∀ q ∈ nd.parsers, ∃ I, q.conf ∈ I ∧ lab q.node = lab n ++ [I] ∧ P (lab q.node)
  uniq : ∀ (n : NodeId) (nd : Node), b.heap n = some nd → ∀ q ∈ nd.parsers, ∀ q' ∈ nd.parsers, lab q.node = lab q'.node → q.node = q'.node

/-- at no point is there a choice of more than 255 different fields -/
def NarrowP (P : List (List Json) → Prop) : Prop :=
  ∀ (L : List (List Json)) (ts : List Json), ts.Nodup → (∀ t ∈ ts, ∃ I, t ∈ I ∧ P (L ++ [I])) → ts.length ≤ 255

/-- alternatives are complete -/
def AFull (b : Bld) (lab : NodeId → List (List Json)) : Prop :=
  ∀ (n : NodeId) (nd : Node), b.heap n = some nd → ∀ q ∈ nd.parsers, ∀ I, lab q.node = lab n ++ [I] → ∀ c ∈ I, ∃ q' ∈ nd.parsers, q'.conf = c

theorem addInstance_plain {rec : AddRec} {b : Bld} {dag next : NodeId} {nd : Node} {c : Json} {p : Parser}
    (hp : confField env b.types c = some p) (hn : b.heap dag = some nd) {q : Parser} (hf : nd.parsers.find? (fun q => q.conf = c) = some q) :
    addInstance env rec b c dag next = .ok (b, some q.node) := by
  obtain ⟨o, ty, rfl, hty, halt, hconf, hnode, hrefs, _, hnew⟩ := confField_spec hp
  have hl : b.load dag = .ok nd := by simp [Bld.load, hn]
  unfold addInstance
  rw [hnew _ b rfl]
  simp only [R.ok_bind', hl, hconf]
  rw [hf]
  dsimp only
  unfold deleteData
  rw [hrefs]
  rfl

theorem addInstance_new {b : Bld} {dag next : NodeId} {nd : Node} {c : Json} {p : Parser}
    (hp : confField env b.types c = some p) (hn : b.heap dag = some nd) (hne : dag ≠ b.next)
    (hnx : next = 0 ∨ (next ≠ 0 ∧ (b.heap next).isSome ∧ next ≠ dag)) (hlt : nd.parsers.length < 255)
    (hf : nd.parsers.find? (fun q => q.conf = c) = none) :
    ∃ b' e ndE, (∀ rec, addInstance env rec b c dag next = .ok (b', some e)) ∧
      (∀ m, b'.heap m = if m = dag then some { nd with parsers := nd.parsers ++ [{ p with node := e }] } else if m = e then some ndE else b.heap m) ∧
      b'.wrapped = b.wrapped ∧ b'.types = b.types ∧ b'.root = b.root ∧
      ((next = 0 ∧ e = b.next ∧ ndE = {}) ∨ (next ≠ 0 ∧ e = next ∧ ∃ nx, b.heap next = some nx ∧ ndE.parsers = nx.parsers ∧ ndE.isTerminal = nx.isTerminal ∧
        ndE.mark = nx.mark)) := by
  obtain ⟨o, ty, rfl, hty, halt, hconf, hnode, hrefs, _, hnew⟩ := confField_spec hp
  have hl : b.load dag = .ok nd := by simp [Bld.load, hn]
  have hl1 : b.newPDAG.1.load dag = .ok nd := by simp [Bld.load, Bld.newPDAG, hn, hne]
  have hae : ∀ e : NodeId, addEntry nd { p with node := e } = { nd with parsers := nd.parsers ++ [{ p with node := e }] } := by
    intro e
    have : ¬ nd.parsers.length + 1 = 256 := by omega
    simp [addEntry, this]
  have hd : decide (nd.parsers.length + 1 = 256) = false := by simp; omega
  rcases hnx with rfl | ⟨h0, hnx, hnd⟩
  · refine ⟨{ b.newPDAG.1.store dag { nd with parsers := nd.parsers ++ [{ p with node := b.next }] } with wrapped := b.wrapped }, b.next, {}, ?_, fun m => rfl, rfl, rfl, rfl,
      .inl ⟨rfl, rfl, rfl⟩⟩
    intro rec
    unfold addInstance
    rw [hnew _ b rfl]
    simp only [R.ok_bind', hl, hconf, hf, if_true, hl1]
    show R.ok (_, some b.next) = _
    rw [show b.newPDAG.2 = b.next from rfl, ← hconf, hae, hd, Bool.or_false]
    rfl
  · obtain ⟨nx, hnx⟩ := Option.isSome_iff_exists.1 hnx
    have hl2 : b.load next = .ok nx := by simp [Bld.load, hnx]
    have hl3 : (b.store next { nx with refcnt := nx.refcnt + 1 }).load dag = .ok nd := by
      simp [Bld.load, Bld.heap_store, Ne.symm hnd, hn]
    refine ⟨{ (b.store next { nx with refcnt := nx.refcnt + 1 }).store dag { nd with parsers := nd.parsers ++ [{ p with node := next }] } with wrapped := b.wrapped },
      next, { nx with refcnt := nx.refcnt + 1 }, ?_, fun m => rfl, rfl, rfl, rfl, .inr ⟨h0, rfl, nx, hnx, rfl, rfl, rfl⟩⟩
    intro rec
    unfold addInstance
    rw [hnew _ b rfl]
    simp only [R.ok_bind', hl, hconf, hf, if_neg h0, hl2, hl3]
    rw [← hconf, hae, hd, Bool.or_false]
    rfl

/-- how a graph changes when an item is added at `dag` -/
structure AChg (b b' : Bld) (lab lab' : NodeId → List (List Json)) (dag : NodeId) (I : List Json) (k : Nat) : Prop where
  grow : Grow b b'
  wr : b'.wrapped = false
  same : ∀ n, (b.heap n).isSome → lab' n = lab n
  others : ∀ n nd', b'.heap n = some nd' → n ≠ dag → nd'.parsers = [] ∨ ∃ nd, b.heap n = some nd ∧ nd.parsers = nd'.parsers
  here : ∀ nd', b'.heap dag = some nd' → ∀ q ∈ nd'.parsers, (∃ nd, b.heap dag = some nd ∧ q ∈ nd.parsers) ∨ lab' q.node = lab dag ++ [I]
  term : ∀ n nd', b'.heap n = some nd' → nd'.isTerminal = true → ∃ nd, b.heap n = some nd ∧ nd.isTerminal = true ∧ nd.mark = nd'.mark
  plenO : ∀ m, m ≠ dag → b'.plen m = b.plen m
  plenH : b'.plen dag ≤ b.plen dag + k

theorem AChg.refl {b : Bld} (hw : b.wrapped = false) (lab : NodeId → List (List Json)) (dag : NodeId) (I : List Json) (k : Nat) : AChg b b lab lab dag I k :=
  ⟨Grow.refl b, hw, fun _ _ => rfl, fun n nd' h _ => .inr ⟨nd', h, rfl⟩, fun nd' h q hq => .inl ⟨nd', h, hq⟩, fun n nd' h1 h2 => ⟨nd', h1, h2, rfl⟩, fun _ _ => rfl, Nat.le_add_right _ _⟩

theorem AChg.trans {b b' b'' : Bld} {lab lab' lab'' : NodeId → List (List Json)} {dag : NodeId} {I : List Json} {k k' : Nat}
    (hlive : (b.heap dag).isSome) (ha : ∀ n nd, b'.heap n = some nd → ∀ q ∈ nd.parsers, (b'.heap q.node).isSome)
    (h : AChg b b' lab lab' dag I k) (h' : AChg b' b'' lab' lab'' dag I k') : AChg b b'' lab lab'' dag I (k + k') := by
  refine ⟨h.grow.trans h'.grow, h'.wr, ?_, ?_, ?_, ?_, ?_, ?_⟩
  · intro n hn; rw [h'.same n (h.grow.live hn), h.same n hn]
  · intro n nd' hn hne
    rcases h'.others n nd' hn hne with h1 | ⟨nd1, h1, h2⟩
    · exact .inl h1
    · rcases h.others n nd1 h1 hne with h3 | ⟨nd0, h3, h4⟩
      · exact .inl (h2 ▸ h3)
      · exact .inr ⟨nd0, h3, h4.trans h2⟩
  · intro nd' hn q hq
    rcases h'.here nd' hn q hq with ⟨nd1, h1, h2⟩ | h1
    · rcases h.here nd1 h1 q h2 with h3 | h3
      · exact .inl h3
      · exact .inr (by rw [h'.same _ (ha _ _ h1 q h2)]; exact h3)
    · exact .inr (by rw [h1, h.same _ hlive])
  · intro n nd' hn ht
    obtain ⟨nd1, h1, h2, h3⟩ := h'.term n nd' hn ht
    obtain ⟨nd0, h4, h5, h6⟩ := h.term n nd1 h1 h2
    exact ⟨nd0, h4, h5, h6.trans h3⟩
  · intro m hm; rw [h'.plenO m hm, h.plenO m hm]
  · have := h.plenH
    have := h'.plenH
    omega

theorem inv_edge {b : Bld} {E : List NodeId} (hi : Inv b E) {n : NodeId} {nd : Node} (hn : b.heap n = some nd) {q : Parser} (hq : q ∈ nd.parsers) :
    n < q.node ∧ (b.heap q.node).isSome := by
  refine hi.asc n q.node ?_
  unfold Bld.refsOf
  rw [hn]
  exact List.mem_flatMap.2 ⟨q, hq, List.mem_cons_self ..⟩

/-- one field of an alternative -/
theorem addInst_atrie {P : List (List Json) → Prop} {b : Bld} {E : List NodeId} {lab : NodeId → List (List Json)} {dag next : NodeId} {c : Json} {I : List Json}
    (hi : Inv b E) (ht : ATrie env P b lab) (hd : (b.heap dag).isSome) {p : Parser} (hc : confField env [] c = some p)
    (hcI : c ∈ I) (hPI : P (lab dag ++ [I])) (happ : ∀ J, P (lab dag ++ [J]) → c ∈ J → J = I)
    (hw : b.wrapped = false) (hnar : NarrowP P)
    (hnext : (next = 0 ∧ ∀ nd, b.heap dag = some nd → ∀ q ∈ nd.parsers, lab q.node = lab dag ++ [I] → ∃ q' ∈ nd.parsers, q'.conf = c) ∨
      ((b.heap next).isSome ∧ dag < next ∧ lab next = lab dag ++ [I] ∧ ∀ nd, b.heap dag = some nd → ∀ q ∈ nd.parsers, lab q.node = lab dag ++ [I] → q.node = next)) :
    ∃ b' e lab', (∀ rec, addInstance env rec b c dag next = .ok (b', some e)) ∧ Inv b' E ∧ ATrie env P b' lab' ∧ AChg b b' lab lab' dag I 1 ∧
      (∃ nd q, b'.heap dag = some nd ∧ nd.parsers.find? (fun q => q.conf = c) = some q ∧ q.node = e) ∧
      (b'.heap e).isSome ∧ dag < e ∧ lab' e = lab dag ++ [I] ∧ (∀ nd, b'.heap dag = some nd → ∀ q ∈ nd.parsers, lab' q.node = lab dag ++ [I] → q.node = e) ∧
      (next ≠ 0 → e = next) := by
  obtain ⟨nd, hn⟩ := Option.isSome_iff_exists.1 hd
  have hr := hi.range _ _ hn
  have hne : dag ≠ b.next := Nat.ne_of_lt hr.2
  have hcb : confField env b.types c = some p := confField_types hc b.types
  cases hf : nd.parsers.find? (fun q => decide (q.conf = c)) with
  | some q =>
    have hqm : q ∈ nd.parsers := List.mem_of_find?_eq_some hf
    have hqc : q.conf = c := by simpa using List.find?_some hf
    obtain ⟨h1, h2⟩ := inv_edge hi hn hqm
    obtain ⟨J, hJ, hlab, hPJ⟩ := ht.edge _ _ hn q hqm
    have hJI : J = I := happ J (by rw [← hlab]; exact hPJ) (by rw [← hqc]; exact hJ)
    subst hJI
    refine ⟨b, q.node, lab, fun rec => addInstance_plain hcb hn hf, hi, ht, AChg.refl hw _ _ _ _, ⟨nd, q, hn, hf, rfl⟩, h2, h1, hlab, ?_, ?_⟩
    · intro nd' hn' q' hq' hl
      rw [hn] at hn'; cases hn'
      exact ht.uniq _ _ hn q' hq' q hqm (hl.trans hlab.symm)
    · intro h0
      rcases hnext with ⟨h, _⟩ | ⟨_, _, _, h⟩
      · exact absurd h h0
      · exact h nd hn q hqm hlab
  | none =>
    have hplt : nd.parsers.length < 255 := by
      have := hnar (lab dag) (c :: nd.parsers.map (·.conf)) (List.nodup_cons.2 ⟨fun hm => by
          obtain ⟨q, hq, hqc⟩ := List.mem_map.1 hm
          have := List.find?_eq_none.1 hf q hq
          simp [hqc] at this, ht.plain.dist _ _ hn⟩) (by
        intro k hk
        rcases List.mem_cons.1 hk with rfl | hk
        · exact ⟨I, hcI, hPI⟩
        · obtain ⟨q, hq, rfl⟩ := List.mem_map.1 hk
          obtain ⟨J, j1, j2, j3⟩ := ht.edge _ _ hn q hq
          exact ⟨J, j1, by rw [← j2]; exact j3⟩)
      rw [List.length_cons, List.length_map] at this
      omega
    have hnx : next = 0 ∨ (next ≠ 0 ∧ (b.heap next).isSome ∧ next ≠ dag) := by
      rcases hnext with ⟨h, _⟩ | ⟨h1, h2, _⟩
      · exact .inl h
      · exact .inr ⟨Nat.ne_of_gt (Nat.lt_of_le_of_lt (Nat.zero_le _) h2), h1, Nat.ne_of_gt h2⟩
    obtain ⟨b', e, ndE, heq, hheap, hwr, hty, hrt, hcase⟩ := addInstance_new hcb hn hne hnx hplt hf
    have hmem := addInstance_ok (env := env) (conf := c) (addF_ok env c.depth) (Nat.le_succ _) hi (.inr hd) (next := next) (by
      rcases hnext with ⟨h, _⟩ | ⟨h1, h2, _⟩
      · exact .inl h
      · exact .inr ⟨h1, h2, hr.1⟩)
    obtain ⟨hi', g', hres⟩ := hmem.ok_of (heq (addF env c.depth))
    dsimp only at hi' g' hres
    obtain ⟨helive, hde, _⟩ := hres e rfl
    obtain ⟨o, ty, _, _, _, hpc, hp0, _, _, _⟩ := confField_spec hc
    have hed : e ≠ dag := Nat.ne_of_gt hde
    have hfresh := hi.fresh_none
    -- no entry has this label unless it leads to `e`
    have hnoI : ∀ q ∈ nd.parsers, lab q.node = lab dag ++ [I] → q.node = e := by
      intro q hq hl
      rcases hcase with ⟨h0, _, _⟩ | ⟨h0, he, _⟩
      · rcases hnext with ⟨_, h⟩ | ⟨_, h, _⟩
        · obtain ⟨q', h1, h2⟩ := h nd hn q hq hl
          have := List.find?_eq_none.1 hf q' h1
          exact absurd h2 (by simpa using this)
        · rw [h0] at h; exact absurd h (Nat.not_lt_zero _)
      · rcases hnext with ⟨h, _⟩ | ⟨_, _, _, h⟩
        · exact absurd h h0
        · rw [he]; exact h nd hn q hq hl
    obtain ⟨lab', hlab', hlabE⟩ : ∃ lab' : NodeId → List (List Json), (∀ n, (b.heap n).isSome → lab' n = lab n) ∧ lab' e = lab dag ++ [I] := by
      refine ⟨fun n => if n = e then lab dag ++ [I] else lab n, ?_, if_pos rfl⟩
      intro n hnl
      dsimp only
      by_cases h : n = e
      · rw [if_pos h]
        rcases hcase with ⟨_, he, _⟩ | ⟨h0, he, _⟩
        · rw [h, he, hfresh] at hnl; cases hnl
        · rcases hnext with ⟨h1, _⟩ | ⟨_, _, h1, _⟩
          · exact absurd h1 h0
          · rw [h, he, h1]
      · rw [if_neg h]
    have hpars : ∀ n nd', b'.heap n = some nd' → n ≠ dag → nd'.parsers = [] ∨ ∃ nd, b.heap n = some nd ∧ nd.parsers = nd'.parsers := by
      intro n nd' h hnd
      rw [hheap, if_neg hnd] at h
      by_cases h2 : n = e
      · rw [if_pos h2] at h
        cases h
        rcases hcase with ⟨_, _, rfl⟩ | ⟨_, he, nx, h3, h4, _⟩
        · exact .inl rfl
        · exact .inr ⟨nx, by rw [h2, he]; exact h3, h4.symm⟩
      · rw [if_neg h2] at h
        exact .inr ⟨nd', h, rfl⟩
    obtain ⟨pe, hpe⟩ : ∃ pe, pe = { p with node := e } := ⟨_, rfl⟩
    have hpec : pe.conf = c := by rw [hpe]; exact hpc
    have hpen : pe.node = e := by rw [hpe]
    have hpef : confField env [] pe.conf = some { pe with node := 0 } := by
      rw [hpec, hc, hpe]
      obtain ⟨k, nn, pr, nm, cf⟩ := p
      dsimp only at hp0 hpc ⊢
      subst hp0
      rw [hpc]
    have hdag : b'.heap dag = some { nd with parsers := nd.parsers ++ [pe] } := by rw [hheap, if_pos rfl, hpe]
    have hdagq : ∀ nd', b'.heap dag = some nd' → ∀ q ∈ nd'.parsers, q ∈ nd.parsers ∨ q = pe := by
      intro nd' h q hq
      rw [hdag] at h
      cases h
      rcases List.mem_append.1 hq with h | h
      · exact .inl h
      · exact .inr (List.mem_singleton.1 h)
    have hlq : ∀ n nd, b.heap n = some nd → ∀ q ∈ nd.parsers, lab' q.node = lab q.node := fun n nd h q hq => hlab' _ (inv_edge hi h hq).2
    refine ⟨b', e, lab', heq, hi', ⟨⟨?_, ?_⟩, ?_, ?_⟩, ⟨g', hwr.trans hw, hlab', hpars, ?_, ?_, ?_, ?_⟩, ⟨_, pe, hdag, ?_, hpen⟩, helive, hde, hlabE, ?_, ?_⟩
    · intro n nd' h q hq
      by_cases h1 : n = dag
      · subst h1
        rcases hdagq nd' h q hq with h2 | rfl
        · exact ht.plain.field _ _ hn q h2
        · exact hpef
      · rcases hpars n nd' h h1 with h2 | ⟨nd0, h2, h3⟩
        · rw [h2] at hq; cases hq
        · exact ht.plain.field n nd0 h2 q (h3 ▸ hq)
    · intro n nd' h
      by_cases h1 : n = dag
      · subst h1
        rw [hdag] at h
        cases h
        rw [List.map_append, List.nodup_append]
        refine ⟨ht.plain.dist _ _ hn, by simp, ?_⟩
        intro a ha x hx
        simp only [List.map_cons, List.map_nil, List.mem_singleton] at hx
        subst hx
        obtain ⟨q, hq, rfl⟩ := List.mem_map.1 ha
        have := List.find?_eq_none.1 hf q hq
        rw [hpec]
        simpa using this
      · rcases hpars n nd' h h1 with h2 | ⟨nd0, h2, h3⟩
        · rw [h2]; exact List.nodup_nil
        · rw [← h3]; exact ht.plain.dist n nd0 h2
    · intro n nd' h q hq
      have old : ∀ nd0, b.heap n = some nd0 → q ∈ nd0.parsers → ∃ J, q.conf ∈ J ∧ lab' q.node = lab' n ++ [J] ∧ P (lab' q.node) := by
        intro nd0 h2 h3
        obtain ⟨J, g1, g2, g3⟩ := ht.edge n nd0 h2 q h3
        rw [hlq n nd0 h2 q h3, hlab' n (by rw [h2]; rfl)]
        exact ⟨J, g1, g2, g3⟩
      by_cases h1 : n = dag
      · subst h1
        rcases hdagq nd' h q hq with h2 | rfl
        · exact old nd hn h2
        · refine ⟨I, by rw [hpec]; exact hcI, ?_, ?_⟩
          · rw [hpen, hlabE, hlab' _ hd]
          · rw [hpen, hlabE]; exact hPI
      · rcases hpars n nd' h h1 with h2 | ⟨nd0, h2, h3⟩
        · rw [h2] at hq; cases hq
        · exact old nd0 h2 (h3 ▸ hq)
    · intro n nd' h q hq q' hq' hl
      by_cases h1 : n = dag
      · subst h1
        rcases hdagq nd' h q hq with h2 | rfl <;> rcases hdagq nd' h q' hq' with h3 | rfl
        · rw [hlq _ _ hn q h2, hlq _ _ hn q' h3] at hl
          exact ht.uniq _ _ hn q h2 q' h3 hl
        · rw [hpen, hlabE, hlq _ _ hn q h2] at hl
          rw [hpen]; exact hnoI q h2 hl
        · rw [hpen, hlabE, hlq _ _ hn q' h3] at hl
          rw [hpen]; exact (hnoI q' h3 hl.symm).symm
        · rfl
      · rcases hpars n nd' h h1 with h2 | ⟨nd0, h2, h3⟩
        · rw [h2] at hq; cases hq
        · rw [← h3] at hq hq'
          rw [hlq _ _ h2 q hq, hlq _ _ h2 q' hq'] at hl
          exact ht.uniq _ _ h2 q hq q' hq' hl
    · intro nd' h q hq
      rcases hdagq nd' h q hq with h2 | rfl
      · exact .inl ⟨nd, hn, h2⟩
      · exact .inr (by rw [hpen, hlabE])
    · intro n nd' h htm
      rw [hheap] at h
      by_cases h1 : n = dag
      · subst h1
        rw [if_pos rfl] at h
        cases h
        exact ⟨nd, hn, htm, rfl⟩
      · rw [if_neg h1] at h
        by_cases h2 : n = e
        · rw [if_pos h2] at h
          cases h
          rcases hcase with ⟨_, _, rfl⟩ | ⟨_, he, nx, h3, h4, h5, h6⟩
          · cases htm
          · exact ⟨nx, by rw [h2, he]; exact h3, by rw [← h5]; exact htm, h6.symm⟩
        · rw [if_neg h2] at h
          exact ⟨nd', h, htm, rfl⟩
    · intro m hm
      unfold Bld.plen
      rw [hheap, if_neg hm]
      by_cases h2 : m = e
      · rw [if_pos h2]
        rcases hcase with ⟨_, he, rfl⟩ | ⟨_, he, nx, h3, h4, _⟩
        · rw [h2, he, hfresh]; rfl
        · rw [h2, he, h3]; simp [h4]
      · rw [if_neg h2]
    · unfold Bld.plen
      rw [hdag, hn]
      simp
    · show List.find? _ (nd.parsers ++ [pe]) = _
      rw [List.find?_append, hf]
      simp [hpec]
    · intro nd' h q hq hl
      rcases hdagq nd' h q hq with h2 | rfl
      · rw [hlq _ _ hn q h2] at hl; exact hnoI q h2 hl
      · exact hpen
    · intro h0
      rcases hcase with ⟨h, _⟩ | ⟨_, he, _⟩
      · exact absurd h h0
      · exact he

/-- the other fields of an alternative -/
theorem addLoop_atrie {P : List (List Json) → Prop} {E : List NodeId} {lab : NodeId → List (List Json)} {dag next : NodeId} {I : List Json} : ∀ (cs : List Json) {b : Bld},
    Inv b E → ATrie env P b lab → (b.heap dag).isSome → (∀ c ∈ cs, c ∈ I ∧ ∃ p, confField env [] c = some p) →
    P (lab dag ++ [I]) → (∀ c ∈ cs, ∀ J, P (lab dag ++ [J]) → c ∈ J → J = I) →
    b.wrapped = false → NarrowP P →
    (b.heap next).isSome → dag < next → lab next = lab dag ++ [I] → (∀ nd, b.heap dag = some nd → ∀ q ∈ nd.parsers, lab q.node = lab dag ++ [I] → q.node = next) →
    ∃ b' lab', (∀ rec pn, addParsersLoop env rec true cs b dag next pn = .ok (b', some (next, pn))) ∧ Inv b' E ∧ ATrie env P b' lab' ∧
      AChg b b' lab lab' dag I cs.length ∧
      (∀ c ∈ cs, ∃ nd q, b'.heap dag = some nd ∧ nd.parsers.find? (fun q => q.conf = c) = some q ∧ q.node = next)
  | [], b, hi, ht, hd, _, _, _, hw, _, _, _, _, _ => ⟨b, lab, fun _ _ => rfl, hi, ht, AChg.refl hw _ _ _ _, fun c hc => by cases hc⟩
  | c :: cs, b, hi, ht, hd, hcs, hPI, happ, hw, hlen, hnl, hdn, hln, hun => by
    obtain ⟨hcI, p, hp⟩ := hcs c (List.mem_cons_self ..)
    obtain ⟨b1, e1, lab1, h1, hi1, ht1, hg1, ⟨nd1, q1, hn1, hf1, hq1⟩, hl1, hd1, hle1, hu1, he1⟩ :=
      addInst_atrie hi ht hd hp hcI hPI (happ c (List.mem_cons_self ..)) hw hlen (.inr ⟨hnl, hdn, hln, hun⟩)
    have he1 : e1 = next := he1 (Nat.ne_of_gt (Nat.lt_of_le_of_lt (Nat.zero_le _) hdn))
    subst he1
    have hsd : lab1 dag = lab dag := hg1.same dag hd
    obtain ⟨b2, lab2, h2, hi2, ht2, hg2, hf2⟩ := addLoop_atrie (lab := lab1) (I := I) cs hi1 ht1 (hg1.grow.live hd) (fun x hx => hcs x (List.mem_cons_of_mem _ hx)) (by rw [hsd]; exact hPI)
      (by rw [hsd]; exact fun x hx => happ x (List.mem_cons_of_mem _ hx)) hg1.wr hlen hl1 hd1 (by rw [hsd]; exact hle1) (by rw [hsd]; exact hu1)
    refine ⟨b2, lab2, ?_, hi2, ht2, ?_, ?_⟩
    · intro rec pn
      have hobj : ∃ o, c = .obj o := by
        obtain ⟨o, ty, h, _⟩ := confField_spec hp
        exact ⟨o, h⟩
      obtain ⟨o, rfl⟩ := hobj
      unfold addParsersLoop
      dsimp only
      rw [h1 rec, R.ok_bind']
      exact h2 rec pn
    · have := hg1.trans hd (fun n nd hn q hq => (inv_edge hi1 hn hq).2) hg2
      rw [List.length_cons, Nat.add_comm]
      exact this
    · intro x hx
      rcases List.mem_cons.1 hx with rfl | hx
      · obtain ⟨nd', hn', hpre, _⟩ := hg2.grow.keep _ _ hn1
        exact ⟨nd', q1, hn', find?_prefix (hpre hg2.wr) hf1, hq1⟩
      · exact hf2 x hx

/-- a place of a rule: the configuration which stands there, and the fields it offers -/
structure AItem where
  conf : Json
  choices : List Json

structure AItem.OK (env : Env) (it : AItem) : Prop where
  some_ : it.choices ≠ []
  fields : ∀ c ∈ it.choices, ∃ p, confField env [] c = some p
  conf : it.choices = [it.conf] ∨ ∃ o, it.conf = .obj o ∧ ((Json.obj o).ptr (bs! "type")).bind (strOf env) = some (bs! "alternative") ∧
    (Json.obj o).ptr (bs! "parser") = some (.arr it.choices)

theorem addParser_alt {b : Bld} {dag : NodeId} {o : Obj} {l : List Json} (hty : ((Json.obj o).ptr (bs! "type")).bind (strOf env) = some (bs! "alternative"))
    (hp : (Json.obj o).ptr (bs! "parser") = some (.arr l)) : ∃ rec, addParser env b dag (.obj o) =
      (addParsersLoop env rec true l b dag 0 0).bind fun x => .ok (x.1, x.2.map (·.1)) := by
  obtain ⟨d, hd⟩ : ∃ d, (Json.obj o).depth = d + 1 := ⟨Json.depthObj o, by simp only [Json.depth]⟩
  obtain ⟨rec, hrec⟩ : ∃ rec, addF env (d + 1) = addStep env rec := ⟨addF env d, rfl⟩
  refine ⟨rec, ?_⟩
  unfold addParser
  rw [hd, hrec]
  unfold addStep
  dsimp only
  rw [hty]
  dsimp only
  rw [if_pos rfl, hp]
  dsimp only
  cases addParsersLoop env rec true l b dag 0 0 <;> rfl

theorem addParser_one {b : Bld} {dag : NodeId} {c : Json} {p : Parser} (hp : confField env [] c = some p) {x : Bld × NodeId}
    (h : ∀ rec, addInstance env rec b c dag 0 = .ok (x.1, some x.2)) : addParser env b dag c = .ok (x.1, some x.2) := by
  obtain ⟨o, ty, rfl, hty, halt, _⟩ := confField_spec hp
  unfold addParser
  obtain ⟨d, hd⟩ : ∃ d, (Json.obj o).depth = d + 1 := ⟨Json.depthObj o, by simp only [Json.depth]⟩
  rw [hd]
  unfold addF addStep
  dsimp only
  rw [hty]
  dsimp only
  rw [if_neg halt, h]
  rfl

theorem AFull.chg {P : List (List Json) → Prop} {b b' : Bld} {E : List NodeId} {lab lab' : NodeId → List (List Json)} {dag : NodeId} {I : List Json} {k : Nat} (hi : Inv b E)
    (hd : (b.heap dag).isSome) (hf : AFull b lab) (h : AChg b b' lab lab' dag I k) (hall : ∀ c ∈ I, ∃ nd q, b'.heap dag = some nd ∧ q ∈ nd.parsers ∧ q.conf = c) : AFull b' lab' := by
  intro n nd' hn q hq J hl c hc
  by_cases h1 : n = dag
  · subst h1
    rw [h.same _ hd] at hl
    have viaI : J = I → ∃ q' ∈ nd'.parsers, q'.conf = c := by
      rintro rfl
      obtain ⟨nd, q', g1, g2, g3⟩ := hall c hc
      rw [hn] at g1; cases g1
      exact ⟨q', g2, g3⟩
    rcases h.here nd' hn q hq with ⟨nd, h2, h3⟩ | h2
    · rw [h.same _ (inv_edge hi h2 h3).2] at hl
      obtain ⟨q', g1, g2⟩ := hf _ _ h2 q h3 J hl c hc
      obtain ⟨nd'', k1, k2, _⟩ := h.grow.keep _ _ h2
      rw [hn] at k1; cases k1
      exact ⟨q', (k2 h.wr).subset g1, g2⟩
    · refine viaI ?_
      rw [h2] at hl
      have := List.append_cancel_left hl
      injection this with this
      exact this.symm
  · rcases h.others n nd' hn h1 with h2 | ⟨nd, h2, h3⟩
    · rw [h2] at hq; cases hq
    · rw [← h3] at hq ⊢
      rw [h.same _ (inv_edge hi h2 hq).2, h.same n (by rw [h2]; rfl)] at hl
      exact hf n nd h2 q hq J hl c hc

/-- one place of a rule -/
theorem addItem_atrie {P : List (List Json) → Prop} {b : Bld} {E : List NodeId} {lab : NodeId → List (List Json)} {dag : NodeId} {it : AItem} (hok : it.OK env)
    (hi : Inv b E) (ht : ATrie env P b lab) (hfull : AFull b lab) (hd : (b.heap dag).isSome)
    (hPI : P (lab dag ++ [it.choices])) (happ : ∀ c ∈ it.choices, ∀ J, P (lab dag ++ [J]) → c ∈ J → J = it.choices)
    (hw : b.wrapped = false) (hlen : NarrowP P) :
    ∃ b' e lab', addParser env b dag it.conf = .ok (b', some e) ∧ Inv b' E ∧ ATrie env P b' lab' ∧ AFull b' lab' ∧
      AChg b b' lab lab' dag it.choices it.choices.length ∧
      (∀ c ∈ it.choices, ∃ nd q, b'.heap dag = some nd ∧ nd.parsers.find? (fun q => q.conf = c) = some q ∧ q.node = e) ∧
      (b'.heap e).isSome ∧ dag < e ∧ lab' e = lab dag ++ [it.choices] := by
  obtain ⟨conf, choices⟩ := it
  dsimp only at *
  cases choices with
  | nil => exact absurd rfl hok.some_
  | cons c cs =>
    obtain ⟨p, hp⟩ := hok.fields c (List.mem_cons_self ..)
    obtain ⟨b1, e1, lab1, h1, hi1, ht1, hg1, ⟨nd1, q1, hn1, hf1, hq1⟩, hl1, hd1, hle1, hu1, _⟩ :=
      addInst_atrie (next := 0) hi ht hd hp (List.mem_cons_self ..) hPI (happ c (List.mem_cons_self ..)) hw hlen
        (.inl ⟨rfl, fun nd hn q hq hl => hfull _ _ hn q hq _ hl c (List.mem_cons_self ..)⟩)
    have hsd : lab1 dag = lab dag := hg1.same dag hd
    obtain ⟨b2, lab2, h2, hi2, ht2, hg2, hf2⟩ := addLoop_atrie (lab := lab1) (I := c :: cs) cs hi1 ht1 (hg1.grow.live hd)
      (fun x hx => ⟨List.mem_cons_of_mem _ hx, hok.fields x (List.mem_cons_of_mem _ hx)⟩) (by rw [hsd]; exact hPI)
      (by rw [hsd]; exact fun x hx => happ x (List.mem_cons_of_mem _ hx)) hg1.wr hlen hl1 hd1 (by rw [hsd]; exact hle1) (by rw [hsd]; exact hu1)
    have hchg : AChg b b2 lab lab2 dag (c :: cs) (c :: cs).length := by
      have := hg1.trans hd (fun n nd hn q hq => (inv_edge hi1 hn hq).2) hg2
      rw [List.length_cons, Nat.add_comm]
      exact this
    have hfind : ∀ x ∈ c :: cs, ∃ nd q, b2.heap dag = some nd ∧ nd.parsers.find? (fun q => q.conf = x) = some q ∧ q.node = e1 := by
      intro x hx
      rcases List.mem_cons.1 hx with rfl | hx
      · obtain ⟨nd', hn', hpre, _⟩ := hg2.grow.keep _ _ hn1
        exact ⟨nd', q1, hn', find?_prefix (hpre hg2.wr) hf1, hq1⟩
      · exact hf2 x hx
    refine ⟨b2, e1, lab2, ?_, hi2, ht2, hfull.chg (P := P) hi hd hchg ?_, hchg, hfind, hg2.grow.live hl1, hd1, ?_⟩
    · obtain ⟨o, ty, hobj, _⟩ := confField_spec hp
      have hloop : ∀ rec, addParsersLoop env rec true (c :: cs) b dag 0 0 = .ok (b2, some (e1, 0)) := by
        intro rec
        subst hobj
        unfold addParsersLoop
        dsimp only
        rw [h1 rec, R.ok_bind']
        exact h2 rec 0
      rcases hok.conf with hc | ⟨o', hc, hty, hpa⟩
      · dsimp only at hc
        injection hc with h3 h4
        subst h3; subst h4
        have hb : b2 = b1 := by
          have := h2 (addF env 0) 0
          unfold addParsersLoop at this
          cases this
          rfl
        subst hb
        exact addParser_one (x := (b2, e1)) hp h1
      · dsimp only at hc
        subst hc
        obtain ⟨rec, hr⟩ := addParser_alt (b := b) (dag := dag) hty hpa
        rw [hr, hloop]
        rfl
    · intro x hx
      obtain ⟨nd, q, g1, g2, _⟩ := hfind x hx
      exact ⟨nd, q, g1, List.mem_of_find?_eq_some g2, by simpa using List.find?_some g2⟩
    · rw [hg2.same _ hl1]; exact hle1

/-- the places of a rule, one after the other -/
theorem addSeq_atrie {P : List (List Json) → Prop} {E : List NodeId} : ∀ (its : List AItem) {b : Bld} {lab : NodeId → List (List Json)} {dag : NodeId},
    (∀ it ∈ its, it.OK env) → Inv b E → ATrie env P b lab → AFull b lab → (b.heap dag).isSome →
    (∀ x I y, its.map (·.choices) = x ++ I :: y → P (lab dag ++ x ++ [I])) →
    (∀ L I J, P (L ++ [I]) → P (L ++ [J]) → (∃ c, c ∈ I ∧ c ∈ J) → I = J) →
    b.wrapped = false → NarrowP P →
    ∃ b' e lab', addSeq env (its.map (·.conf)) b dag = .ok (b', some e) ∧ Inv b' E ∧ ATrie env P b' lab' ∧ AFull b' lab' ∧ Grow b b' ∧ b'.wrapped = false ∧
      (∀ n, (b.heap n).isSome → lab' n = lab n) ∧ (b'.heap e).isSome ∧ dag ≤ e ∧ lab' e = lab dag ++ its.map (·.choices) ∧
      (∀ cs, Chosen (its.map (·.choices)) cs → FWalk b' dag cs e) ∧
      (∀ n nd', b'.heap n = some nd' → nd'.isTerminal = true → ∃ nd, b.heap n = some nd ∧ nd.isTerminal = true ∧ nd.mark = nd'.mark)
  | [], b, lab, dag, _, hi, ht, hfu, hd, _, _, hw, _ => by
    refine ⟨b, dag, lab, rfl, hi, ht, hfu, Grow.refl b, hw, fun _ _ => rfl, hd, Nat.le_refl _, by simp, ?_, fun n nd' h1 h2 => ⟨nd', h1, h2, rfl⟩⟩
    intro cs hcs
    cases hcs
    exact .nil _
  | it :: its, b, lab, dag, hok, hi, ht, hfu, hd, hP, happ, hw, hlen => by
    have hit := hok it (List.mem_cons_self ..)
    have hPI : P (lab dag ++ [it.choices]) := by
      have := hP [] it.choices _ rfl
      rw [List.append_nil] at this
      exact this
    obtain ⟨b1, e1, lab1, h1, hi1, ht1, hfu1, hg1, hf1, hl1, hd1, hle1⟩ := addItem_atrie hit hi ht hfu hd hPI
      (fun c hc J hJ hcJ => happ _ _ _ hJ hPI ⟨c, hcJ, hc⟩) hw hlen
    obtain ⟨b2, e2, lab2, h2, hi2, ht2, hfu2, g2, hw2, hs2, hl2, hd2, hle2, hwk2, htm2⟩ := addSeq_atrie its (lab := lab1) (fun x hx => hok x (List.mem_cons_of_mem _ hx)) hi1 ht1 hfu1 hl1 (by
        intro x I y hxy
        rw [hle1]
        have := hP (it.choices :: x) I y (by rw [List.map_cons, hxy]; rfl)
        simpa using this) happ hg1.wr hlen
    refine ⟨b2, e2, lab2, ?_, hi2, ht2, hfu2, hg1.grow.trans g2, hw2, ?_, hl2, Nat.le_trans (Nat.le_of_lt hd1) hd2, ?_, ?_, ?_⟩
    · rw [List.map_cons]
      unfold addSeq
      rw [h1]
      exact h2
    · intro n hn; rw [hs2 n (hg1.grow.live hn), hg1.same n hn]
    · rw [hle2, hle1, List.append_assoc]; rfl
    · intro cs hcs
      rw [List.map_cons] at hcs
      cases hcs with
      | @cons _ c _ cs hc htl =>
        obtain ⟨nd, q, g1, g3, rfl⟩ := hf1 c hc
        obtain ⟨nd', hn', hpre, _⟩ := g2.keep _ _ g1
        exact .cons hn' (find?_prefix (hpre hw2) g3) (hwk2 cs htl)
    · intro n nd' h htm
      obtain ⟨nd, h3, h4, h5⟩ := htm2 n nd' h htm
      obtain ⟨nd0, h6, h7, h8⟩ := hg1.term n nd h3 h4
      exact ⟨nd0, h6, h7, h8.trans h5⟩

end
end LN
