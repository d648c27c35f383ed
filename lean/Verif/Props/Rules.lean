import Verif.Proofs.Trie
import Verif.Props.Optimize
/-
C19: rules add up. C55: duplicate rules. C62: type definitions.
-/
set_option autoImplicit false
namespace LN

theorem FWalk.keep {b b' : Bld} (k : ∀ m nd, b.heap m = some nd → ∃ nd', b'.heap m = some nd' ∧
      nd.parsers <+: nd'.parsers ∧ (nd.isTerminal = true → nd'.isTerminal = true))
    {n : NodeId} {cs : List Json} {m : NodeId} (h : FWalk b n cs m) : FWalk b' n cs m := by
  induction h with
  | nil n => exact .nil n
  | cons hn hq _ ih =>
    obtain ⟨nd', h1, h2, _⟩ := k _ _ hn
    exact .cons h1 (find?_prefix h2 hq) ih

def Rule.toOp (r : Rule) : BOp := .rule r.confs r.complete r.tags r.file r.line

def Def.toOp (d : Def) : BOp :=
  match d.type with
  | none => d.rule.toOp
  | some t => .typeDef t d.rule.confs d.rule.complete d.rule.tags d.rule.file d.rule.line

/-- the start node of the main rule base or of a type -/
def Bld.start (b : Bld) : Option Bytes → Option NodeId
  | none => some b.root
  | some t => (b.types.find? fun x => x.1 = t).map (·.2)

/-- label of start nodes -/
def mark : Option Bytes → Json
  | none => .null
  | some t => .str t

theorem mark_inj {a b : Option Bytes} (h : mark a = mark b) : a = b := by
  cases a <;> cases b <;> simp_all [mark]

/-- the graph consists of the tries of the definitions -/
structure IsTrie (env : Env) (ts : List (Bytes × NodeId)) (b : Bld) (lab : NodeId → List Json) (ds : List Def) : Prop where
  inv : Inv b b.ctxRefs
  pre : ∃ l, b.types = ts ++ l
  start : ∀ t n, b.start t = some n → lab n = [mark t]
  trie : Trie env ts b lab
  term : ∀ n nd, b.heap n = some nd → nd.isTerminal = true →
    ∃ d ∈ ds, d.rule.complete = true ∧ mark d.type :: d.rule.confs = lab n
  walk : b.wrapped = false → ∀ d ∈ ds, d.rule.complete = true → ∃ n e nd, b.start d.type = some n ∧
    FWalk b n d.rule.confs e ∧ b.heap e = some nd ∧ nd.isTerminal = true
  tag : b.wrapped = false → ∀ n nd, b.heap n = some nd → nd.isTerminal = true → ∃ (i : Nat) (d : Def) (n0 : NodeId), ds[i]? = some d ∧
    d.rule.complete = true ∧ b.start d.type = some n0 ∧ FWalk b n0 d.rule.confs n ∧
    nd.mark = (d.rule.tags, some d.rule.file, d.rule.line) ∧
    ∀ (j : Nat) (d' : Def), i < j → ds[j]? = some d' → d'.type = d.type → d'.rule.confs = d.rule.confs → d'.rule.complete = false
  known : ∀ d ∈ ds, ∃ n, b.start d.type = some n
  used : ∀ n nd, b.heap n = some nd → ∀ q ∈ nd.parsers, ∃ d ∈ ds, ∃ x, lab n = mark d.type :: x ∧ x ++ [q.conf] <+: d.rule.confs
  plen : ∀ m, b.plen m ≤ ds.length
  wr : NarrowDefs ds → b.wrapped = false
  tnd : (b.types.map (·.1)).Nodup
  goes : b.wrapped = false → ∀ d ∈ ds, ∃ n e, b.start d.type = some n ∧ FWalk b n d.rule.confs e

theorem isTrie_init (env : Env) : IsTrie env [] initBld (fun _ => [.null]) [] := by
  have hheap : ∀ n nd, initBld.heap n = some nd → nd = {} := by
    intro n nd h
    change (if n = 1 then some ({} : Node) else none) = some nd at h
    split at h
    · cases h; rfl
    · cases h
  refine ⟨initBld_inv, ⟨[], rfl⟩, ?_, ⟨?_, ?_⟩, ?_, ?_, ?_, ?_, ?_, ?_, fun _ => rfl, List.nodup_nil, fun _ _ hd => absurd hd (List.not_mem_nil)⟩
  · intro t n h
    cases t with
    | none => rfl
    | some t => cases h
  · intro n nd h q hq
    rw [hheap n nd h] at hq; cases hq
  · intro n nd h
    rw [hheap n nd h]; exact List.nodup_nil
  · intro n nd h ht
    rw [hheap n nd h] at ht; cases ht
  · intro _ r hr; cases hr
  · intro _ n nd h ht
    rw [hheap n nd h] at ht; cases ht
  · intro d hd; cases hd
  · intro n nd h q hq
    rw [hheap n nd h] at hq; cases hq
  · intro m
    unfold Bld.plen
    cases hm : initBld.heap m with
    | none => simp
    | some nd => rw [hheap m nd hm]; simp

theorem start_live {b : Bld} (hi : Inv b b.ctxRefs) {t : Option Bytes} {n : NodeId} (h : b.start t = some n) :
    (b.heap n).isSome := by
  cases t with
  | none => cases h; exact hi.ext _ (List.mem_cons_self ..)
  | some t =>
    unfold Bld.start at h
    rw [Option.map_eq_some_iff] at h
    obtain ⟨x, hx, rfl⟩ := h
    exact hi.ext _ (List.mem_cons_of_mem _ (List.mem_map.2 ⟨x, List.mem_of_find?_eq_some hx, rfl⟩))

theorem start_congr {b b' : Bld} (hr : b'.root = b.root) (ht : b'.types = b.types) (t : Option Bytes) :
    b'.start t = b.start t := by
  cases t <;> simp [Bld.start, hr, ht]

/-- the node a definition works on is there -/
theorem isTrie_start {env : Env} {ts : List (Bytes × NodeId)} {b : Bld} {lab : NodeId → List Json} {ds : List Def} (h : IsTrie env ts b lab ds)
    (d : Def) : ∃ b0 lab0 n, IsTrie env ts b0 lab0 ds ∧ b0.start d.type = some n ∧
      ∀ srt, d.toOp.run env srt b =
        addSamp env b0 n d.rule.confs d.rule.complete d.rule.tags d.rule.file d.rule.line := by
  cases hd : d.type with
  | none => exact ⟨b, lab, b.root, h, rfl, fun srt => by unfold Def.toOp; rw [hd]; rfl⟩
  | some t =>
    cases hf : b.types.find? (fun x => x.1 = t) with
    | some x =>
      refine ⟨b, lab, x.2, h, by simp [Bld.start, hf], fun srt => ?_⟩
      unfold Def.toOp
      rw [hd]
      show addSamp env (findTypeAdd b t).1 (findTypeAdd b t).2 _ _ _ _ _ = _
      unfold findTypeAdd
      rw [hf]
    | none =>
      let b0 : Bld := { b.newPDAG.1 with types := b.newPDAG.1.types ++ [(t, b.newPDAG.2)] }
      let lab0 : NodeId → List Json := fun n => if n = b.next then [mark (some t)] else lab n
      have hfresh := h.inv.fresh_none
      have hheap : ∀ m, b0.heap m = if m = b.next then some {} else b.heap m := fun m => rfl
      have hlive : ∀ m, (b.heap m).isSome → b0.heap m = b.heap m ∧ lab0 m = lab m := by
        intro m hm
        have : m ≠ b.next := by rintro rfl; rw [hfresh] at hm; cases hm
        exact ⟨by rw [hheap, if_neg this], if_neg this⟩
      have hstart : ∀ u n, b.start u = some n → b0.start u = some n := by
        intro u n hu
        cases u with
        | none => exact hu
        | some u =>
          unfold Bld.start at hu ⊢
          rw [Option.map_eq_some_iff] at hu ⊢
          obtain ⟨x, hx, rfl⟩ := hu
          refine ⟨x, ?_, rfl⟩
          show (b.types ++ [(t, b.next)]).find? _ = some x
          rw [List.find?_append, hx]; rfl
      have htnd : (b0.types.map (·.1)).Nodup := by
        show ((b.types ++ [(t, b.next)]).map (·.1)).Nodup
        rw [List.map_append, List.nodup_append]
        refine ⟨h.tnd, by simp, ?_⟩
        intro a ha c hc
        obtain ⟨x, hx, rfl⟩ := List.mem_map.1 ha
        simp only [List.map_cons, List.map_nil, List.mem_singleton] at hc
        subst hc
        have := List.find?_eq_none.1 hf x hx
        simpa using this
      refine ⟨b0, lab0, b.next, ?_, ?_, fun srt => ?_⟩
      · refine ⟨?_, by obtain ⟨l, hl⟩ := h.pre; exact ⟨l ++ [(t, b.next)], by show b.types ++ [(t, b.next)] = _; rw [hl, List.append_assoc]⟩,
          ?_, ⟨?_, ?_⟩, ?_, ?_, ?_, ?_, ?_, ?_, h.wr, htnd, ?_⟩
        · have h3 : Inv b.newPDAG.1 (b.root :: (b.types.map (·.2) ++ [b.newPDAG.2])) :=
            h.inv.newNode.1.perm (by
              rw [Bld.ctxRefs, ← List.cons_append]
              exact (List.perm_append_singleton _ _).symm)
          obtain ⟨hpos, hrange, hasc, hext, hcnt, hexact⟩ := h3
          have he : b0.ctxRefs = b.root :: (b.types.map (·.2) ++ [b.newPDAG.2]) := by
            simp [b0, Bld.ctxRefs, Bld.newPDAG]
          rw [he]
          exact ⟨hpos, hrange, hasc, hext, hcnt, hexact⟩
        · intro u n hu
          cases u with
          | none =>
            have hu' : b.start none = some n := hu
            rw [(hlive n (start_live h.inv hu')).2]
            exact h.start none n hu'
          | some u =>
            by_cases hu0 : ∃ n', b.start (some u) = some n'
            · obtain ⟨n', hn'⟩ := hu0
              have := hstart _ _ hn'
              rw [hu] at this; cases this
              rw [(hlive n (start_live h.inv hn')).2]
              exact h.start _ n hn'
            · unfold Bld.start at hu hu0
              rw [Option.map_eq_some_iff] at hu
              obtain ⟨x, hx, rfl⟩ := hu
              change (b.types ++ [(t, b.next)]).find? _ = some x at hx
              cases hfu : b.types.find? (fun x => decide (x.1 = u)) with
              | some y => exact absurd ⟨y.2, by simp [hfu]⟩ hu0
              | none =>
                rw [List.find?_append, hfu] at hx
                simp only [Option.none_or, List.find?_cons, List.find?_nil] at hx
                by_cases htu : t = u
                · subst htu
                  simp at hx
                  subst hx
                  exact if_pos rfl
                · simp [htu] at hx
        · intro n nd hn q hq
          rw [hheap] at hn
          by_cases he : n = b.next
          · rw [if_pos he] at hn; cases hn; cases hq
          · rw [if_neg he] at hn
            obtain ⟨e1, e2⟩ := h.trie.edge n nd hn q hq
            refine ⟨?_, e2⟩
            rw [(hlive n (by rw [hn]; rfl)).2, (hlive q.node ?_).2, e1]
            refine (h.inv.asc n _ ?_).2
            unfold Bld.refsOf
            rw [hn]
            exact List.mem_flatMap.2 ⟨q, hq, List.mem_cons_self ..⟩
        · intro n nd hn
          rw [hheap] at hn
          by_cases he : n = b.next
          · rw [if_pos he] at hn; cases hn; exact List.nodup_nil
          · rw [if_neg he] at hn
            exact h.trie.dist n nd hn
        · intro n nd hn ht
          rw [hheap] at hn
          by_cases he : n = b.next
          · rw [if_pos he] at hn; cases hn; cases ht
          · rw [if_neg he] at hn
            rw [(hlive n (by rw [hn]; rfl)).2]
            exact h.term n nd hn ht
        · intro hw d' hd' hc
          obtain ⟨n, e, nd, a1, a2, a3, a4⟩ := h.walk hw d' hd' hc
          refine ⟨n, e, nd, hstart _ _ a1, ?_, ?_, a4⟩
          · refine a2.keep fun m nd hm => ⟨nd, ?_, List.prefix_refl _, id⟩
            rw [(hlive m (by rw [hm]; rfl)).1]; exact hm
          · rw [(hlive e (by rw [a3]; rfl)).1]; exact a3
        · intro hw n nd hn ht
          rw [hheap] at hn
          by_cases he : n = b.next
          · rw [if_pos he] at hn; cases hn; cases ht
          · rw [if_neg he] at hn
            obtain ⟨i, d', n0, a1, a2, a3, a4, a5⟩ := h.tag hw n nd hn ht
            refine ⟨i, d', n0, a1, a2, hstart _ _ a3, ?_, a5⟩
            refine a4.keep fun m nd hm => ⟨nd, ?_, List.prefix_refl _, id⟩
            rw [(hlive m (by rw [hm]; rfl)).1]; exact hm
        · intro d' hd'
          obtain ⟨n, hn⟩ := h.known d' hd'
          exact ⟨n, hstart _ _ hn⟩
        · intro n nd hn q hq
          rw [hheap] at hn
          by_cases he : n = b.next
          · rw [if_pos he] at hn; cases hn; cases hq
          · rw [if_neg he] at hn
            rw [(hlive n (by rw [hn]; rfl)).2]
            exact h.used n nd hn q hq
        · intro m
          have : b0.plen m = b.plen m := by
            unfold Bld.plen
            rw [hheap]
            by_cases he : m = b.next
            · rw [if_pos he, he, hfresh]; rfl
            · rw [if_neg he]
          rw [this]; exact h.plen m
        · intro hw d' hd'
          obtain ⟨n, e, a1, a2⟩ := h.goes hw d' hd'
          refine ⟨n, e, hstart _ _ a1, ?_⟩
          refine a2.keep fun m nd hm => ⟨nd, ?_, List.prefix_refl _, id⟩
          rw [(hlive m (by rw [hm]; rfl)).1]; exact hm
      · show ((b.types ++ [(t, b.next)]).find? _).map _ = _
        rw [List.find?_append, hf]
        simp
      · unfold Def.toOp
        rw [hd]
        show addSamp env (findTypeAdd b t).1 (findTypeAdd b t).2 _ _ _ _ _ = _
        unfold findTypeAdd
        rw [hf]
        rfl

/-- adding a definition to its trie -/
theorem isTrie_at {env : Env} {ts : List (Bytes × NodeId)} {b0 : Bld} {lab0 : NodeId → List Json} {ds : List Def}
    (h : IsTrie env ts b0 lab0 ds) {d : Def} {n0 : NodeId} (hn0 : b0.start d.type = some n0)
    (hr : ∀ c ∈ d.rule.confs, ∃ p, confField env ts c = some p) :
    ∃ b' lab', addSamp env b0 n0 d.rule.confs d.rule.complete d.rule.tags d.rule.file d.rule.line = .ok b' ∧
      b'.types = b0.types ∧ IsTrie env ts b' lab' (ds ++ [d]) := by
  have hlive0 := start_live h.inv hn0
  obtain ⟨b1, e, lab1, h1, hi1, g1, ht1, hw1, hl1, hle, hd1, hge, htm1, hp1, hp1', hwr1, hnew1⟩ :=
    addSeq_trie d.rule.confs h.inv h.pre h.trie hlive0 hr
  have hctx : b0.ctxRefs = b1.ctxRefs := by rw [Bld.ctxRefs, Bld.ctxRefs, g1.root, g1.types]
  have hst : ∀ t, b1.start t = b0.start t := start_congr g1.root g1.types
  have hlstart : ∀ t n, b1.start t = some n → lab1 n = [mark t] := by
    intro t n hn
    rw [hst] at hn
    rw [hl1 n (start_live h.inv hn)]
    exact h.start t n hn
  have hlen : ∀ m, b1.plen m ≤ (ds ++ [d]).length := by
    intro m
    have := hp1' m
    have := h.plen m
    rw [List.length_append, List.length_singleton]
    omega
  have hwr : NarrowDefs (ds ++ [d]) → b1.wrapped = false := by
    intro hl
    rcases hwr1 (h.wr (hl.mono fun x hx => List.mem_append_left _ hx)) with h2 | ⟨ks, c, x, k1, k2, k3, k4, k5⟩
    · exact h2
    · exfalso
      have := hl d.type x (c :: ks) (List.nodup_cons.2 ⟨k3, k1⟩) (by
        intro k hk
        rcases List.mem_cons.1 hk with rfl | hk
        · exact ⟨_, mem_ofType.2 ⟨d, by simp, rfl, rfl⟩, k4⟩
        · obtain ⟨n, nd, q, a1, a2, rfl, a4⟩ := k5 k hk
          obtain ⟨d', b1, x', b2, b3⟩ := h.used n nd a1 q a2
          rw [h.start _ _ hn0, List.singleton_append] at a4
          rw [a4] at b2
          injection b2 with b4 b5
          subst b5
          exact ⟨_, mem_ofType.2 ⟨d', List.mem_append_left _ b1, (mark_inj b4).symm, rfl⟩, b3⟩)
      rw [List.length_cons] at this
      omega
  have hknown : ∀ d' ∈ ds ++ [d], ∃ n, b1.start d'.type = some n := by
    intro d' hd'
    rw [hst]
    rcases List.mem_append.1 hd' with h2 | h2
    · exact h.known d' h2
    · rw [List.mem_singleton] at h2
      subst h2
      exact ⟨n0, hn0⟩
  have hpre : ∃ l, b1.types = ts ++ l := by rw [g1.types]; exact h.pre
  have hused : ∀ n nd, b1.heap n = some nd → ∀ q ∈ nd.parsers, ∃ d' ∈ ds ++ [d], ∃ x, lab1 n = mark d'.type :: x ∧
      x ++ [q.conf] <+: d'.rule.confs := by
    intro n nd hn q hq
    rcases hnew1 n nd hn q hq with ⟨nd0, h2, h3⟩ | ⟨x, h2, h3⟩
    · obtain ⟨d', h4, x, h5, h6⟩ := h.used n nd0 h2 q h3
      exact ⟨d', List.mem_append_left _ h4, x, by rw [hl1 n (by rw [h2]; rfl)]; exact h5, h6⟩
    · refine ⟨d, by simp, x, ?_, h3⟩
      rw [h2, h.start _ _ hn0]; rfl
  rw [h.start _ _ hn0, List.singleton_append] at hle
  have oldterm : ∀ n nd, b1.heap n = some nd → nd.isTerminal = true →
      ∃ d' ∈ ds, d'.rule.complete = true ∧ mark d'.type :: d'.rule.confs = lab1 n := by
    intro n nd hn ht
    obtain ⟨nd0, h2, h3, _⟩ := htm1 n nd hn ht
    obtain ⟨r', h4, h5, h6⟩ := h.term n nd0 h2 h3
    exact ⟨r', h4, h5, by rw [h6, hl1 n (by rw [h2]; rfl)]⟩
  have oldwalk : b1.wrapped = false → ∀ d' ∈ ds, d'.rule.complete = true → ∃ n e nd, b1.start d'.type = some n ∧
      FWalk b1 n d'.rule.confs e ∧ b1.heap e = some nd ∧ nd.isTerminal = true := by
    intro hw d' hr' hc
    obtain ⟨n', e', nd, h0, h2, h3, h4⟩ := h.walk (g1.wrapped hw) d' hr' hc
    obtain ⟨nd', h5, _, h6⟩ := g1.keep _ _ h3
    exact ⟨n', e', nd', by rw [hst]; exact h0, h2.grow g1 hw, h5, h6 h4⟩
  have hgoes : b1.wrapped = false → ∀ d' ∈ ds ++ [d], ∃ n e, b1.start d'.type = some n ∧ FWalk b1 n d'.rule.confs e := by
    intro hw d' hd'
    rcases List.mem_append.1 hd' with h2 | h2
    · obtain ⟨n', e', h0, h2⟩ := h.goes (g1.wrapped hw) d' h2
      exact ⟨n', e', by rw [hst]; exact h0, h2.grow g1 hw⟩
    · rw [List.mem_singleton] at h2
      subst h2
      exact ⟨n0, e, by rw [hst]; exact hn0, hw1 hw⟩
  have oldtag : b1.wrapped = false → ∀ n nd, b1.heap n = some nd → nd.isTerminal = true → ∃ (i : Nat) (d' : Def) (n0' : NodeId), ds[i]? = some d' ∧
      d'.rule.complete = true ∧ b1.start d'.type = some n0' ∧ FWalk b1 n0' d'.rule.confs n ∧
      nd.mark = (d'.rule.tags, some d'.rule.file, d'.rule.line) ∧
      ∀ (j : Nat) (d'' : Def), i < j → ds[j]? = some d'' → d''.type = d'.type → d''.rule.confs = d'.rule.confs → d''.rule.complete = false := by
    intro hw n nd hn ht
    obtain ⟨nd0, h2, h3, h4⟩ := htm1 n nd hn ht
    obtain ⟨i, d', n0', a1, a2, a3, a4, a5, a6⟩ := h.tag (g1.wrapped hw) n nd0 h2 h3
    exact ⟨i, d', n0', a1, a2, by rw [hst]; exact a3, a4.grow g1 hw, h4.symm.trans a5, a6⟩
  have hsnoc : ∀ (i : Nat) (d' : Def), (ds ++ [d])[i]? = some d' → (i < ds.length ∧ ds[i]? = some d') ∨ (i = ds.length ∧ d' = d) := by
    intro i d' hi
    by_cases hlt : i < ds.length
    · rw [List.getElem?_append_left hlt] at hi; exact .inl ⟨hlt, hi⟩
    · rw [List.getElem?_append_right (by omega)] at hi
      by_cases h0 : i - ds.length = 0
      · rw [h0] at hi; cases hi; exact .inr ⟨by omega, rfl⟩
      · obtain ⟨k, hk⟩ := Nat.exists_eq_succ_of_ne_zero h0
        rw [hk] at hi; cases hi
  by_cases hc : d.rule.complete = true
  · obtain ⟨nd, hnd⟩ := Option.isSome_iff_exists.1 hd1
    let nd' : Node := { nd with isTerminal := true, tags := d.rule.tags, rbFile := some d.rule.file, rbLine := d.rule.line }
    have hrun : addSamp env b0 n0 d.rule.confs d.rule.complete d.rule.tags d.rule.file d.rule.line = .ok (b1.store e nd') := by
      unfold addSamp
      rw [h1, hc]
      simp [Bld.load, hnd, R.bind, nd']
    have hheap : ∀ m, (b1.store e nd').heap m = if m = e then some nd' else b1.heap m := fun m => rfl
    have g2 : Grow b1 (b1.store e nd') := Grow.store hnd (List.prefix_refl _) (fun _ => rfl)
    have hst2 : ∀ t, (b1.store e nd').start t = b1.start t := start_congr rfl rfl
    refine ⟨_, lab1, hrun, g1.types, ?_, hpre, ?_, ⟨?_, ?_⟩, ?_, ?_, ?_, ?_, ?_, ?_, hwr, by show (b1.types.map (·.1)).Nodup; rw [g1.types]; exact h.tnd,
      fun hw d' hd' => by
        obtain ⟨n', e', k1, k2⟩ := hgoes hw d' hd'
        exact ⟨n', e', by rw [hst2]; exact k1, k2.grow g2 hw⟩⟩
    · have : (b1.store e nd').ctxRefs = b0.ctxRefs := hctx.symm
      rw [this]
      exact hi1.flags hnd rfl rfl
    · intro t n hn; rw [hst2] at hn; exact hlstart t n hn
    · intro n ndx hn q hq
      rw [hheap] at hn
      by_cases hne : n = e
      · subst hne
        rw [if_pos rfl] at hn
        cases hn
        exact ht1.edge n nd hnd q hq
      · rw [if_neg hne] at hn
        exact ht1.edge n ndx hn q hq
    · intro n ndx hn
      rw [hheap] at hn
      by_cases hne : n = e
      · rw [if_pos hne] at hn
        cases hn
        exact ht1.dist e nd hnd
      · rw [if_neg hne] at hn
        exact ht1.dist n ndx hn
    · intro n ndx hn ht
      rw [hheap] at hn
      by_cases hne : n = e
      · subst hne
        exact ⟨d, by simp, hc, hle.symm⟩
      · rw [if_neg hne] at hn
        obtain ⟨r', h2, h3⟩ := oldterm n ndx hn ht
        exact ⟨r', List.mem_append_left _ h2, h3⟩
    · intro hw d' hr' hc'
      rcases List.mem_append.1 hr' with h2 | h2
      · obtain ⟨n', e', ndx, h0, h3, h4, h5⟩ := oldwalk hw d' h2 hc'
        obtain ⟨ndy, h6, _, h7⟩ := g2.keep _ _ h4
        exact ⟨n', e', ndy, by rw [hst2]; exact h0, h3.grow g2 hw, h6, h7 h5⟩
      · rw [List.mem_singleton] at h2
        subst h2
        exact ⟨n0, e, nd', by rw [hst2, hst]; exact hn0, (hw1 hw).grow g2 hw, by rw [hheap, if_pos rfl], rfl⟩
    · intro hw n ndx hn ht
      have hw0 := (hw1 hw).grow g2 hw
      rw [hheap] at hn
      by_cases hne : n = e
      · subst hne
        rw [if_pos rfl] at hn
        cases hn
        refine ⟨ds.length, d, n0, by simp, hc, by rw [hst2, hst]; exact hn0, hw0, rfl, ?_⟩
        intro j d' hj hd'
        rcases hsnoc j d' hd' with ⟨h2, _⟩ | ⟨h2, _⟩
        · omega
        · omega
      · rw [if_neg hne] at hn
        obtain ⟨i, d', n0', a1, a2, a3, a4, a5, a6⟩ := oldtag hw n ndx hn ht
        have hil : i < ds.length := (List.getElem?_eq_some_iff.1 a1).1
        refine ⟨i, d', n0', by rw [List.getElem?_append_left hil]; exact a1, a2, by rw [hst2]; exact a3, a4.grow g2 hw, a5, ?_⟩
        intro j d'' hj hd'' ht' hcf
        rcases hsnoc j d'' hd'' with ⟨_, h3⟩ | ⟨_, rfl⟩
        · exact a6 j d'' hj h3 ht' hcf
        · have hn' : b1.start d''.type = some n0' := by rw [ht']; exact a3
          rw [hst, hn0] at hn'
          cases hn'
          rw [← hcf] at a4
          exact absurd ((a4.grow g2 hw).functional hw0) hne
    · intro d' hd'; rw [hst2]; exact hknown d' hd'
    · intro n ndx hn q hq
      rw [hheap] at hn
      by_cases hne : n = e
      · subst hne
        rw [if_pos rfl] at hn
        cases hn
        exact hused n nd hnd q hq
      · rw [if_neg hne] at hn
        exact hused n ndx hn q hq
    · intro m
      have : (b1.store e nd').plen m = b1.plen m := by
        unfold Bld.plen
        rw [hheap]
        by_cases hne : m = e
        · subst hne; rw [if_pos rfl, hnd]; rfl
        · rw [if_neg hne]
      rw [this]; exact hlen m
  · have hc' : d.rule.complete = false := by simpa using hc
    have hrun : addSamp env b0 n0 d.rule.confs d.rule.complete d.rule.tags d.rule.file d.rule.line = .ok b1 := by
      unfold addSamp
      rw [h1, hc']
      rfl
    refine ⟨b1, lab1, hrun, g1.types, ?_, hpre, hlstart, ht1, ?_, ?_, ?_, hknown, hused, hlen, hwr, by rw [g1.types]; exact h.tnd, hgoes⟩
    · rw [← hctx]; exact hi1
    · intro n nd hn ht
      obtain ⟨r', h2, h3⟩ := oldterm n nd hn ht
      exact ⟨r', List.mem_append_left _ h2, h3⟩
    · intro hw r' hr' hcr
      rcases List.mem_append.1 hr' with h2 | h2
      · exact oldwalk hw r' h2 hcr
      · rw [List.mem_singleton] at h2
        subst h2
        exact absurd hcr hc
    · intro hw n nd hn ht
      obtain ⟨i, d', n0', a1, a2, a3, a4, a5, a6⟩ := oldtag hw n nd hn ht
      have hil : i < ds.length := (List.getElem?_eq_some_iff.1 a1).1
      refine ⟨i, d', n0', by rw [List.getElem?_append_left hil]; exact a1, a2, a3, a4, a5, ?_⟩
      intro j d'' hj hd'' ht' hcf
      rcases hsnoc j d'' hd'' with ⟨_, h3⟩ | ⟨_, rfl⟩
      · exact a6 j d'' hj h3 ht' hcf
      · exact hc'

theorem isTrie_def {env : Env} {ts : List (Bytes × NodeId)} {srt : Sorter} {b : Bld} {lab : NodeId → List Json} {ds : List Def}
    (h : IsTrie env ts b lab ds) {d : Def} (hr : d.rule.Plain env) :
    ∃ b' lab', d.toOp.run env srt b = .ok b' ∧ IsTrie env ts b' lab' (ds ++ [d]) := by
  obtain ⟨b0, lab0, n0, h, hn0, hrunEq⟩ := isTrie_start h d
  obtain ⟨b', lab', h1, _, h2⟩ := isTrie_at h hn0 (fun c hc => by
    obtain ⟨p, hp⟩ := hr c hc
    exact ⟨p, confField_types hp ts⟩)
  exact ⟨b', lab', by rw [hrunEq srt]; exact h1, h2⟩

theorem isTrie_defs {env : Env} {srt : Sorter} : ∀ (ds : List Def) {b : Bld} {lab : NodeId → List Json} {ds0 : List Def},
    IsTrie env [] b lab ds0 → (∀ d ∈ ds, d.rule.Plain env) →
    ∃ b' lab', (ds.map Def.toOp).foldlM (BOp.run env srt) b = .ok b' ∧ IsTrie env [] b' lab' (ds0 ++ ds) := by
  intro ds
  induction ds with
  | nil => intro b lab ds0 h _; exact ⟨b, lab, rfl, by rw [List.append_nil]; exact h⟩
  | cons r ds ih =>
    intro b lab ds0 h hp
    obtain ⟨b1, lab1, h1, h2⟩ := isTrie_def (srt := srt) h (hp r (List.mem_cons_self ..))
    obtain ⟨b2, lab2, h3, h4⟩ := ih h2 fun r' hr' => hp r' (List.mem_cons_of_mem _ hr')
    refine ⟨b2, lab2, ?_, by rw [List.append_assoc] at h4; exact h4⟩
    rw [List.map_cons, List.foldlM_cons, h1]
    exact h3

/-- paths from a start node are the definitions for it -/
theorem isTrie_paths {env : Env} {b : Bld} {lab : NodeId → List Json} {ds : List Def} (h : IsTrie env [] b lab ds)
    (hw : b.wrapped = false) {t : Option Bytes} {n : NodeId} (hn : b.start t = some n) (s : Bytes) (off off' : Nat)
    (opts : Nat) (annots : List Annot) :
    (∃ tr m, Path env (b.toCtx opts annots) s n off tr m off' ∧ ((b.toCtx opts annots).node m).isTerminal = true) ↔
    ∃ d ∈ ds, d.type = t ∧ d.rule.complete = true ∧ Accepts env s d.rule.confs off off' := by
  constructor
  · rintro ⟨tr, m, hp, ht⟩
    obtain ⟨cs, h1, h2⟩ := accepts_of_path h.trie hp
    rw [h.start t n hn, List.singleton_append] at h1
    change ((b.heap m).getD {}).isTerminal = true at ht
    cases hm : b.heap m with
    | none => rw [hm] at ht; cases ht
    | some nd =>
      rw [hm] at ht
      obtain ⟨r, h3, h4, h5⟩ := h.term m nd hm ht
      rw [h1] at h5
      injection h5 with h6 h7
      exact ⟨r, h3, mark_inj h6, h4, by rw [h7]; exact h2⟩
  · rintro ⟨r, hr, rfl, hc, ha⟩
    obtain ⟨n', e, nd, h0, h1, h2, h3⟩ := h.walk hw r hr hc
    rw [hn] at h0; cases h0
    obtain ⟨tr, h4⟩ := path_of_accepts h.trie opts annots h1 ha
    refine ⟨tr, e, h4, ?_⟩
    show ((b.heap e).getD {}).isTerminal = true
    rw [h2]; exact h3

/-- matching the main rule base is matching one of its rules -/
theorem isTrie_matches {env : Env} {b : Bld} {lab : NodeId → List Json} {ds : List Def} (h : IsTrie env [] b lab ds)
    (hw : b.wrapped = false) (s : Bytes) (opts : Nat) (annots : List Annot) :
    (∃ tr, Matches env (b.toCtx opts annots) s false b.root 0 tr) ↔
      ∃ d ∈ ds, d.type = none ∧ d.rule.MatchesMsg env s := by
  have := isTrie_paths h hw (t := none) rfl s 0 s.length opts annots
  rw [show (∃ d ∈ ds, d.type = none ∧ d.rule.MatchesMsg env s) ↔
    ∃ d ∈ ds, d.type = none ∧ d.rule.complete = true ∧ Accepts env s d.rule.confs 0 s.length from Iff.rfl, ← this]
  constructor
  · rintro ⟨tr, m, off', hp, ht, he⟩
    rcases he with he | rfl
    · cases he
    · exact ⟨tr, m, hp, ht⟩
  · rintro ⟨tr, m, hp, ht⟩
    exact ⟨tr, m, s.length, hp, ht, .inr rfl⟩

section
variable {env : Env} {srt : Sorter} {b : Bld} {opts : Nat} {annots : List Annot} {s : Bytes}

/-- **C19** (plain fields, at no point more than 255 different ways to go on, one load) Loading rules and types succeeds, and the loaded rule
base matches a message exactly if one of the rules does, whatever the order in which they were
added; every message. -/
theorem C19_union_partial (ds : List Def) (hp : ∀ d ∈ ds, d.rule.Plain env) (hlen : NarrowDefs ds) :
    ∃ b, runOps env srt (ds.map Def.toOp) = .ok b ∧
      ∀ (opts : Nat) (annots : List Annot) (s : Bytes) (fuel : Nat) (stats : NodeId → Stats) (json0 : Obj) (res : Res),
        normalize env fuel (b.toCtx opts annots) stats s json0 = .ok res →
        (res.ok = true ↔ ∃ d ∈ ds, d.type = none ∧ d.rule.MatchesMsg env s) := by
  obtain ⟨b, lab, h1, h2⟩ := isTrie_defs (srt := srt) ds (isTrie_init env) hp
  rw [List.nil_append] at h2
  refine ⟨b, h1, ?_⟩
  intro opts annots s fuel stats json0 res h
  rw [← isTrie_matches h2 (h2.wr hlen) s opts annots]
  rcases normalize_cases (h2.trie.flat opts annots) h with ⟨hok, tr, e, hm, _⟩ | ⟨hno, hnone, _⟩
  · exact ⟨fun _ => ⟨tr, hm⟩, fun _ => hok⟩
  · refine ⟨fun h1 => (by rw [hno] at h1; cases h1), fun ⟨tr, hm⟩ => absurd hm (hnone tr)⟩

/-- **C19** the same for the optimised graph, as `ln_loadSamples` leaves it behind (messages without
NUL) -/
theorem C19_union_optimised_partial (ds : List Def) (hp : ∀ d ∈ ds, d.rule.Plain env) (hlen : NarrowDefs ds)
    (hb : runOps env srt (ds.map Def.toOp ++ [.optimize]) = .ok b) (h0 : ∀ c ∈ s, c ≠ 0)
    {fuel : Nat} {stats : NodeId → Stats} {json0 : Obj} {res : Res}
    (h : normalize env fuel (b.toCtx opts annots) stats s json0 = .ok res) :
    res.ok = true ↔ ∃ d ∈ ds, d.type = none ∧ d.rule.MatchesMsg env s := by
  obtain ⟨b1, lab, h1, h2⟩ := isTrie_defs (srt := srt) ds (isTrie_init env) hp
  rw [List.nil_append] at h2
  have hopt : pdagOptimize srt b1 = .ok b := by
    unfold runOps at hb
    rw [Ex.foldlM_append, h1] at hb
    change ([BOp.optimize].foldlM (BOp.run env srt) b1) = _ at hb
    rw [List.foldlM_cons] at hb
    obtain ⟨b2, h3, h4⟩ := R.bind_eq_ok.1 hb
    cases h4
    exact h3
  rw [← isTrie_matches h2 (h2.wr hlen) s opts annots]
  exact (C17_optimise_meaning_partial h1 hopt (h2.trie.flat opts annots) h0 h).1

/-- **C62** (definitions of plain fields) A user-defined type is the union of its definitions, wherever
they stand in the rule base and whatever stands between: the graph of the type has a match of the
text between `off` and `off'` exactly if one of the definitions accepts it. -/
theorem C62_type_is_union_partial (ds : List Def) (hp : ∀ d ∈ ds, d.rule.Plain env) (hlen : NarrowDefs ds)
    (hb : runOps env srt (ds.map Def.toOp) = .ok b) (t : Bytes) (ht : ∃ d ∈ ds, d.type = some t) :
    ∃ i n, findType b t = some i ∧ (b.toCtx opts annots).types[i]? = some (t, n) ∧
      ∀ (s : Bytes) (off off' : Nat),
        (∃ tr m, Path env (b.toCtx opts annots) s n off tr m off' ∧
          ((b.toCtx opts annots).node m).isTerminal = true) ↔
        ∃ d ∈ ds, d.type = some t ∧ d.rule.complete = true ∧ Accepts env s d.rule.confs off off' := by
  obtain ⟨b1, lab, h1, h2⟩ := isTrie_defs (srt := srt) ds (isTrie_init env) hp
  rw [List.nil_append] at h2
  unfold runOps at hb
  rw [h1] at hb
  cases hb
  obtain ⟨d, hd, hdt⟩ := ht
  obtain ⟨n, hn⟩ := h2.known d hd
  rw [hdt] at hn
  have hn' := hn
  unfold Bld.start at hn'
  rw [Option.map_eq_some_iff] at hn'
  obtain ⟨x, hx, rfl⟩ := hn'
  have hxt : x.1 = t := by simpa using List.find?_some hx
  rw [List.find?_eq_some_iff_getElem] at hx
  obtain ⟨_, i, hi, hxi, hlt⟩ := hx
  refine ⟨i, x.2, ?_, ?_, fun s off off' => isTrie_paths h2 (h2.wr hlen) hn s off off' opts annots⟩
  · unfold findType
    rw [List.findIdx?_eq_some_iff_getElem]
    refine ⟨hi, by rw [hxi]; simpa using hxt, fun j hj => ?_⟩
    have := hlt j hj
    simpa using this
  · show b.types[i]? = some (t, x.2)
    rw [List.getElem?_eq_getElem hi, hxi, ← hxt]

end

/-- the operation uses plain fields only -/
def BOp.Plain (env : Env) : BOp → Prop
  | .rule confs _ _ _ _ => ∀ c ∈ confs, ∃ p, confField env [] c = some p
  | .typeDef _ confs _ _ _ _ => ∀ c ∈ confs, ∃ p, confField env [] c = some p
  | .optimize => True

/-- everything but the optimiser only extends the graph -/
theorem BOp.run_grow {env : Env} {srt : Sorter} {b b' : Bld} (hi : Inv b b.ctxRefs) {op : BOp}
    (hop : op ≠ .optimize) (h : op.run env srt b = .ok b') :
    b.next ≤ b'.next ∧ b'.root = b.root ∧ (∃ l, b'.types = b.types ++ l) ∧ (b'.wrapped = false → b.wrapped = false) ∧
    ∀ m nd, b.heap m = some nd → ∃ nd', b'.heap m = some nd' ∧
      (b'.wrapped = false → nd.parsers <+: nd'.parsers) ∧ (nd.isTerminal = true → nd'.isTerminal = true) := by
  cases op with
  | optimize => exact absurd rfl hop
  | rule confs complete tags file line =>
    obtain ⟨_, g⟩ := (addSamp_ok (env := env) (cs := confs) (complete := complete) (tags := tags) (file := file)
      (line := line) hi (.inr (hi.ext b.root (List.mem_cons_self ..)))).ok_of h
    exact ⟨g.next, g.root, ⟨[], by rw [g.types, List.append_nil]⟩, g.wrapped, g.keep⟩
  | typeDef name confs complete tags file line =>
    change addSamp env (findTypeAdd b name).1 (findTypeAdd b name).2 confs complete tags file line = .ok b' at h
    unfold findTypeAdd at h
    cases hf : b.types.find? (fun t => t.1 = name) with
    | some t =>
      rw [hf] at h
      dsimp only at h
      have hl : (b.heap t.2).isSome := hi.ext _ (List.mem_cons_of_mem _
        (List.mem_map.2 ⟨t, List.mem_of_find?_eq_some hf, rfl⟩))
      obtain ⟨_, g⟩ := (addSamp_ok (env := env) (cs := confs) (complete := complete) (tags := tags) (file := file)
        (line := line) hi (.inr hl)).ok_of h
      exact ⟨g.next, g.root, ⟨[], by rw [g.types, List.append_nil]⟩, g.wrapped, g.keep⟩
    | none =>
      rw [hf] at h
      dsimp only at h
      have h1 := hi.newNode
      have g0 := Grow.new hi.fresh_none
      have h2 : Inv { b.newPDAG.1 with types := b.newPDAG.1.types ++ [(name, b.newPDAG.2)] } (b.next :: b.ctxRefs) := by
        obtain ⟨⟨hpos, hrange, hasc, hext, hcnt, hexact⟩, _⟩ := h1
        exact ⟨hpos, hrange, hasc, hext, hcnt, hexact⟩
      obtain ⟨_, g⟩ := (addSamp_ok (env := env) (cs := confs) (complete := complete) (tags := tags) (file := file)
        (line := line) h2 (.inr (by
          show (if b.next = b.next then some ({} : Node) else _).isSome
          rw [if_pos rfl]; rfl))).ok_of h
      refine ⟨Nat.le_trans g0.next g.next, g.root, ⟨[(name, b.next)], g.types⟩, g.wrapped, ?_⟩
      intro m nd hm
      obtain ⟨nd', h3, h4, h5⟩ := g0.keep m nd hm
      obtain ⟨nd'', h6, h7, h8⟩ := g.keep m nd' h3
      exact ⟨nd'', h6, fun hw => (h4 (g.wrapped hw)).trans (h7 hw), fun ht => h8 (h5 ht)⟩

theorem BOp.run_allFlat {env : Env} {srt : Sorter} {b b' : Bld} (hi : Inv b b.ctxRefs) {op : BOp}
    (hf : b.AllFlat) (hp : op.Plain env) (h : op.run env srt b = .ok b') : b'.AllFlat := by
  cases op with
  | optimize =>
    have ho : OptSteps srt 0 b b' := by
      refine (pdagOptimize_ok (E := b.ctxRefs) (srt := srt) hi (List.mem_cons_self ..) ?_).ok_of h
      intro t ht
      exact List.mem_cons_of_mem _ (List.mem_map.2 ⟨t, ht, rfl⟩)
    exact Bld.AllFlat.of_flat (ho.flat hi 0 [] (hf.flat 0 []))
  | rule confs complete tags file line =>
    exact addSamp_allFlat hi hf (hi.ext b.root (List.mem_cons_self ..)) hp h
  | typeDef name confs complete tags file line =>
    change addSamp env (findTypeAdd b name).1 (findTypeAdd b name).2 confs complete tags file line = .ok b' at h
    unfold findTypeAdd at h
    cases hfd : b.types.find? (fun t => t.1 = name) with
    | some t =>
      rw [hfd] at h
      dsimp only at h
      exact addSamp_allFlat hi hf (hi.ext _ (List.mem_cons_of_mem _
        (List.mem_map.2 ⟨t, List.mem_of_find?_eq_some hfd, rfl⟩))) hp h
    | none =>
      rw [hfd] at h
      dsimp only at h
      have h2 : Inv { b.newPDAG.1 with types := b.newPDAG.1.types ++ [(name, b.newPDAG.2)] } (b.next :: b.ctxRefs) := by
        obtain ⟨⟨hpos, hrange, hasc, hext, hcnt, hexact⟩, _⟩ := hi.newNode
        exact ⟨hpos, hrange, hasc, hext, hcnt, hexact⟩
      refine addSamp_allFlat h2 ?_ ?_ hp h
      · intro n nd hn q hq
        change (if n = b.next then some ({} : Node) else b.heap n) = some nd at hn
        by_cases he : n = b.next
        · rw [if_pos he] at hn; cases hn; cases hq
        · rw [if_neg he] at hn
          exact hf n nd hn q hq
      · show (if b.next = b.next then some ({} : Node) else _).isSome
        rw [if_pos rfl]; rfl

/-- a graph extended as in `BOp.run_grow` keeps every path -/
theorem path_grow {env : Env} {b b' : Bld} {s : Bytes} {opts opts' : Nat} {annots annots' : List Annot}
    (keep : ∀ m nd, b.heap m = some nd → ∃ nd', b'.heap m = some nd' ∧ nd.parsers <+: nd'.parsers ∧
      (nd.isTerminal = true → nd'.isTerminal = true)) {n : NodeId} {off : Nat} {tr : List Step} {m : NodeId} {off' : Nat}
    (h : Path env (b.toCtx opts annots) s n off tr m off') : Path env (b'.toCtx opts' annots') s n off tr m off' := by
  induction h with
  | nil n off => exact .nil n off
  | @cons n off idx p len v tr m off' hidx hacc _ ih =>
    refine .cons ?_ hacc ih
    change ((b.heap n).getD {}).parsers[idx]? = some p at hidx
    show ((b'.heap n).getD {}).parsers[idx]? = some p
    cases hn : b.heap n with
    | none => rw [hn] at hidx; simp at hidx
    | some nd =>
      rw [hn] at hidx
      obtain ⟨nd', h1, ⟨t, ht⟩, _⟩ := keep n nd hn
      rw [h1]
      simp only [Option.getD_some] at hidx ⊢
      rw [← ht]
      have hl : idx < nd.parsers.length := (List.getElem?_eq_some_iff.1 hidx).1
      rw [List.getElem?_append_left hl]
      exact hidx

theorem foldOps_keeps {env : Env} {srt : Sorter} {s : Bytes} (h0 : ∀ c ∈ s, c ≠ 0) (opts : Nat) (annots : List Annot) :
    ∀ (ops : List BOp) {b b' : Bld}, Inv b b.ctxRefs → ops.foldlM (BOp.run env srt) b = .ok b' → b'.wrapped = false →
    (∃ tr, Matches env (b.toCtx opts annots) s false b.root 0 tr) →
    ∃ tr, Matches env (b'.toCtx opts annots) s false b'.root 0 tr := by
  intro ops
  induction ops with
  | nil => intro b b' _ h _ hm; cases h; exact hm
  | cons op ops ih =>
    intro b b' hi h hw hm
    rw [List.foldlM_cons] at h
    obtain ⟨b1, h1, h2⟩ := R.bind_eq_ok.1 h
    have hi1 := (BOp.run_ok (env := env) (srt := srt) hi op).ok_of h1
    have hw1 : b1.wrapped = false := by
      clear ih h hm hi
      have : ∀ (ops : List BOp) (b b' : Bld), Inv b b.ctxRefs → ops.foldlM (BOp.run env srt) b = .ok b' →
          b'.wrapped = false → b.wrapped = false := by
        intro ops
        induction ops with
        | nil => intro b b' _ h hw; cases h; exact hw
        | cons op ops ih =>
          intro b b' hi h hw
          rw [List.foldlM_cons] at h
          obtain ⟨b1, h1, h2⟩ := R.bind_eq_ok.1 h
          have hi1 := (BOp.run_ok (env := env) (srt := srt) hi op).ok_of h1
          exact hi1.2 (ih b1 b' hi1.1 h2 hw)
      exact this ops b1 b' hi1.1 h2 hw
    refine ih hi1.1 h2 hw ?_
    by_cases hop : op = .optimize
    · subst hop
      have ho : OptSteps srt 0 b b1 := by
        refine (pdagOptimize_ok (E := b.ctxRefs) (srt := srt) hi (List.mem_cons_self ..) ?_).ok_of h1
        intro t ht
        exact List.mem_cons_of_mem _ (List.mem_map.2 ⟨t, ht, rfl⟩)
      obtain ⟨rel, sim⟩ := ho.sim (env := env) h0 hi (List.mem_cons_self ..) opts annots
      obtain ⟨tr, hm⟩ := hm
      obtain ⟨tr', hrel⟩ := sim.fwd tr hm
      exact ⟨tr', sim.right _ _ hrel⟩
    · obtain ⟨_, hroot, _, _, keep⟩ := BOp.run_grow hi hop h1
      obtain ⟨tr, m, off', hp, ht, he⟩ := hm
      have keep' : ∀ m nd, b.heap m = some nd → ∃ nd', b1.heap m = some nd' ∧ nd.parsers <+: nd'.parsers ∧
          (nd.isTerminal = true → nd'.isTerminal = true) := by
        intro m nd hm
        obtain ⟨nd', a1, a2, a3⟩ := keep m nd hm
        exact ⟨nd', a1, a2 hw1, a3⟩
      refine ⟨tr, m, off', ?_, ?_, he⟩
      · rw [hroot]; exact path_grow keep' hp
      · change ((b.heap m).getD {}).isTerminal = true at ht
        show ((b1.heap m).getD {}).isTerminal = true
        cases hn : b.heap m with
        | none => rw [hn] at ht; cases ht
        | some nd =>
          rw [hn] at ht
          obtain ⟨nd', a1, _, a3⟩ := keep' m nd hn
          rw [a1]; exact a3 ht

theorem foldOps_allFlat {env : Env} {srt : Sorter} : ∀ (ops : List BOp) {b b' : Bld}, Inv b b.ctxRefs → b.AllFlat →
    (∀ op ∈ ops, op.Plain env) → ops.foldlM (BOp.run env srt) b = .ok b' → b'.AllFlat := by
  intro ops
  induction ops with
  | nil => intro b b' _ hf _ h; cases h; exact hf
  | cons op ops ih =>
    intro b b' hi hf hp h
    rw [List.foldlM_cons] at h
    obtain ⟨b1, h1, h2⟩ := R.bind_eq_ok.1 h
    have hi1 := (BOp.run_ok (env := env) (srt := srt) hi op).ok_of h1
    exact ih hi1.1 (BOp.run_allFlat hi hf (hp op (List.mem_cons_self ..)) h1)
      (fun op' h' => hp op' (List.mem_cons_of_mem _ h')) h2

theorem initBld_allFlat : initBld.AllFlat := by
  intro n nd h q hq
  change (if n = 1 then some ({} : Node) else none) = some nd at h
  split at h
  · cases h; cases hq
  · cases h

/-- **C19** (plain fields, messages without NUL) A message that matches goes on matching however
many rules, types and loads (each with an optimiser run) follow, as long as no node receives 256
parsers. -/
theorem C19_keeps_matching_partial {env : Env} {srt : Sorter} {ops ops' : List BOp} {b b' : Bld}
    (hp : ∀ op ∈ ops ++ ops', op.Plain env) (hb : runOps env srt ops = .ok b)
    (hb' : runOps env srt (ops ++ ops') = .ok b') (hw : b'.wrapped = false) {s : Bytes} (h0 : ∀ c ∈ s, c ≠ 0)
    {opts opts' : Nat} {annots annots' : List Annot}
    {fuel fuel' : Nat} {stats stats' : NodeId → Stats} {json0 json0' : Obj} {res res' : Res}
    (h : normalize env fuel (b.toCtx opts annots) stats s json0 = .ok res)
    (h' : normalize env fuel' (b'.toCtx opts' annots') stats' s json0' = .ok res')
    (hok : res.ok = true) : res'.ok = true := by
  have hi := (runOps_inv (env := env) (srt := srt) ops).ok_of hb
  have hf := foldOps_allFlat ops initBld_inv initBld_allFlat (fun op h => hp op (List.mem_append_left _ h)) hb
  have hf' := foldOps_allFlat (ops ++ ops') initBld_inv initBld_allFlat hp hb'
  have hfold : ops'.foldlM (BOp.run env srt) b = .ok b' := by
    unfold runOps at hb' hb
    rw [Ex.foldlM_append, hb] at hb'
    exact hb'
  rcases normalize_cases (hf.flat opts annots) h with ⟨_, tr, e, hm, _⟩ | ⟨hno, _⟩
  · have := foldOps_keeps h0 opts' annots' ops' hi hfold hw ⟨tr, ?_⟩
    · obtain ⟨tr', hm'⟩ := this
      rcases normalize_cases (hf'.flat opts' annots') h' with ⟨hok', _⟩ | ⟨_, hnone, _⟩
      · exact hok'
      · exact absurd hm' (hnone tr')
    · obtain ⟨m, off', h1, h2, h3⟩ := hm
      refine ⟨m, off', ?_, h2, h3⟩
      exact path_grow (b := b) (fun m nd hm => ⟨nd, hm, List.prefix_refl _, id⟩) h1
  · rw [hno] at hok; cases hok

/-! ### C55 -/

/-- adding operations other than optimising keeps what can be followed -/
theorem foldOps_walk {env : Env} {srt : Sorter} : ∀ (ops : List BOp) {b b' : Bld}, Inv b b.ctxRefs →
    (∀ op ∈ ops, op ≠ .optimize) → ops.foldlM (BOp.run env srt) b = .ok b' → b'.wrapped = false →
    b.wrapped = false ∧ b'.root = b.root ∧ (∃ l, b'.types = b.types ++ l) ∧
    ∀ m nd, b.heap m = some nd → ∃ nd', b'.heap m = some nd' ∧ nd.parsers <+: nd'.parsers ∧
      (nd.isTerminal = true → nd'.isTerminal = true) := by
  intro ops
  induction ops with
  | nil =>
    intro b b' _ _ h hw; cases h
    exact ⟨hw, rfl, ⟨[], (List.append_nil _).symm⟩, fun m nd hm => ⟨nd, hm, List.prefix_refl _, id⟩⟩
  | cons op ops ih =>
    intro b b' hi hop h hw
    rw [List.foldlM_cons] at h
    obtain ⟨b1, h1, h2⟩ := R.bind_eq_ok.1 h
    have hi1 := (BOp.run_ok (env := env) (srt := srt) hi op).ok_of h1
    obtain ⟨hw1, hr1, ⟨l, hl⟩, k1⟩ := ih hi1.1 (fun op' h' => hop op' (List.mem_cons_of_mem _ h')) h2 hw
    obtain ⟨_, hr, ⟨l', hl'⟩, hwm, k⟩ := BOp.run_grow hi (hop op (List.mem_cons_self ..)) h1
    refine ⟨hwm hw1, hr1.trans hr, ⟨l' ++ l, by rw [hl, hl', List.append_assoc]⟩, ?_⟩
    intro m nd hm
    obtain ⟨nd1, a1, a2, a3⟩ := k m nd hm
    obtain ⟨nd2, a4, a5, a6⟩ := k1 m nd1 a1
    exact ⟨nd2, a4, (a2 hw1).trans a5, fun ht => a6 (a3 ht)⟩

/-- what a repeated rule does to the graph -/
theorem duplicate_effect {env : Env} {srt : Sorter} {b b1 b2 b3 : Bld} (hi : Inv b b.ctxRefs) {r r' : Rule} {ops : List BOp}
    (hc : r.complete = true) (hc' : r'.complete = true) (hconf : r'.confs = r.confs)
    (hs : ∀ c ∈ r.confs, ∃ p, confField env b.types c = some p)
    (h1 : r.toOp.run env srt b = .ok b1) (hop : ∀ op ∈ ops, op ≠ .optimize)
    (h2 : ops.foldlM (BOp.run env srt) b1 = .ok b2) (hw : b2.wrapped = false)
    (h3 : r'.toOp.run env srt b2 = .ok b3) :
    ∃ e nd, b2.heap e = some nd ∧ nd.isTerminal = true ∧
      b3 = b2.store e { nd with isTerminal := true, tags := r'.tags, rbFile := some r'.file, rbLine := r'.line } ∧
      (ops = [] → nd.tags = r.tags ∧ nd.rbFile = some r.file ∧ nd.rbLine = r.line) := by
  have hroot : (b.heap b.root).isSome := hi.ext _ (List.mem_cons_self ..)
  obtain ⟨ba, e, ha, hia, ga, hea, hwa⟩ := addSeq_walk r.confs hi hroot hs
  obtain ⟨nde, hnde⟩ := Option.isSome_iff_exists.1 hea
  have hb1 : b1 = ba.store e { nde with isTerminal := true, tags := r.tags, rbFile := some r.file, rbLine := r.line } := by
    change addSamp env b b.root r.confs r.complete r.tags r.file r.line = _ at h1
    unfold addSamp at h1
    rw [ha, hc] at h1
    have : ba.load e = .ok nde := by simp [Bld.load, hnde]
    simp only [R.bind, this, if_true] at h1
    exact (R.ok.inj h1).symm
  have hi1 := ((BOp.run_ok (env := env) (srt := srt) hi r.toOp).ok_of h1).1
  obtain ⟨hw1, hr2, ⟨l, hl⟩, k⟩ := foldOps_walk ops hi1 hop h2 hw
  have hi2 : Inv b2 b2.ctxRefs := (foldOps_ok ops b1 hi1).ok_of h2
  have hba : ba.wrapped = false := by rw [hb1] at hw1; exact hw1
  have g1 : Grow ba b1 := by rw [hb1]; exact Grow.store hnde (List.prefix_refl _) (fun _ => rfl)
  have hroot1 : b1.root = b.root := g1.root.trans ga.root
  have hwalk : FWalk b2 b2.root r'.confs e := by
    rw [hr2, hroot1, hconf]
    exact ((hwa hba).grow g1 hw1).keep k
  have htypes : b2.types = b.types ++ l := by rw [hl, g1.types, ga.types]
  have hseq : addSeq env r'.confs b2 b2.root = .ok (b2, some e) := by
    refine addSeq_fwalk hi2 ?_ hwalk
    rw [hconf]
    intro c hcm
    obtain ⟨p, hp⟩ := hs c hcm
    exact ⟨p, by rw [htypes]; exact confField_append hp l⟩
  have he1 : b1.heap e = some { nde with isTerminal := true, tags := r.tags, rbFile := some r.file, rbLine := r.line } := by
    rw [hb1]; simp [Bld.store]
  obtain ⟨nd, hnd, _, hterm⟩ := k e _ he1
  refine ⟨e, nd, hnd, hterm rfl, ?_, ?_⟩
  · change addSamp env b2 b2.root r'.confs r'.complete r'.tags r'.file r'.line = _ at h3
    unfold addSamp at h3
    rw [hseq, hc'] at h3
    have : b2.load e = .ok nd := by simp [Bld.load, hnd]
    simp only [R.bind, this, if_true] at h3
    exact (R.ok.inj h3).symm
  · rintro rfl
    cases h2
    rw [he1] at hnd
    cases hnd
    exact ⟨rfl, rfl, rfl⟩

theorem store_same {b : Bld} {e : NodeId} {nd : Node} (h : b.heap e = some nd) : b.store e nd = b := by
  unfold Bld.store
  have : (fun m => if m = e then some nd else b.heap m) = b.heap := by
    funext m
    split
    · rename_i hm; rw [hm, h]
    · rfl
  rw [this]

/-- **C55** (fields other than `alternative` and `repeat`, before the optimiser runs) Giving a rule twice has the same
effect as giving it once: after any history, loading the rule a second time leaves the whole context as it is. -/
theorem C55_same_rule_twice_partial {env : Env} {srt : Sorter} {ops : List BOp} {b b1 : Bld} {r : Rule}
    (hb : runOps env srt ops = .ok b) (hc : r.complete = true)
    (hs : ∀ c ∈ r.confs, ∃ p, confField env b.types c = some p)
    (h1 : runOps env srt (ops ++ [r.toOp]) = .ok b1) (hw : b1.wrapped = false) :
    runOps env srt (ops ++ [r.toOp, r.toOp]) = .ok b1 := by
  have hi := (runOps_inv (env := env) (srt := srt) ops).ok_of hb
  unfold runOps at hb h1 ⊢
  rw [Ex.foldlM_append, hb] at h1 ⊢
  change [r.toOp].foldlM (BOp.run env srt) b = .ok b1 at h1
  show [r.toOp, r.toOp].foldlM (BOp.run env srt) b = .ok b1
  rw [List.foldlM_cons] at h1 ⊢
  obtain ⟨b1', h2, h3⟩ := R.bind_eq_ok.1 h1
  cases h3
  rw [h2]
  show [r.toOp].foldlM (BOp.run env srt) b1 = .ok b1
  rw [List.foldlM_cons]
  have hi1 := ((BOp.run_ok (env := env) (srt := srt) hi r.toOp).ok_of h2).1
  -- the second run succeeds: it follows the first
  have hroot : (b.heap b.root).isSome := hi.ext _ (List.mem_cons_self ..)
  obtain ⟨ba, e, ha, hia, ga, hea, hwa⟩ := addSeq_walk r.confs hi hroot hs
  obtain ⟨nde, hnde⟩ := Option.isSome_iff_exists.1 hea
  let nd' : Node := { nde with isTerminal := true, tags := r.tags, rbFile := some r.file, rbLine := r.line }
  have hb1 : b1 = ba.store e nd' := by
    change addSamp env b b.root r.confs r.complete r.tags r.file r.line = _ at h2
    unfold addSamp at h2
    rw [ha, hc] at h2
    have : ba.load e = .ok nde := by simp [Bld.load, hnde]
    simp only [R.bind, this, if_true] at h2
    exact (R.ok.inj h2).symm
  have hba : ba.wrapped = false := by rw [hb1] at hw; exact hw
  have g1 : Grow ba b1 := by rw [hb1]; exact Grow.store hnde (List.prefix_refl _) (fun _ => rfl)
  have hwalk : FWalk b1 b1.root r.confs e := by
    rw [g1.root, ga.root]
    exact (hwa hba).grow g1 hw
  have hseq : addSeq env r.confs b1 b1.root = .ok (b1, some e) := by
    refine addSeq_fwalk hi1 ?_ hwalk
    rw [g1.types, ga.types]; exact hs
  have he1 : b1.heap e = some nd' := by
    rw [hb1]; simp [Bld.store]
  have : r.toOp.run env srt b1 = .ok b1 := by
    show addSamp env b1 b1.root r.confs r.complete r.tags r.file r.line = _
    unfold addSamp
    rw [hseq, hc]
    have hl : b1.load e = .ok nd' := by simp [Bld.load, he1]
    simp only [R.bind, hl, if_true]
    exact congrArg R.ok (store_same he1)
  rw [this]; rfl

/-- **C55** A rule given again after other rules and types, possibly with other tags: the same
messages match, those which do not yield the same event, and for those which do the same fields
are extracted (`o`), so that the events can differ in tags, annotations and the location of the
rule only. -/
theorem C55_duplicate_rule_partial {env : Env} {srt : Sorter} {ops ops' : List BOp} {b b2 b3 : Bld} {r r' : Rule}
    (hb : runOps env srt ops = .ok b) (hc : r.complete = true) (hc' : r'.complete = true) (hconf : r'.confs = r.confs)
    (hs : ∀ c ∈ r.confs, ∃ p, confField env b.types c = some p) (hop : ∀ op ∈ ops', op ≠ .optimize)
    (h2 : runOps env srt (ops ++ [r.toOp] ++ ops') = .ok b2) (hw : b2.wrapped = false)
    (h3 : runOps env srt (ops ++ [r.toOp] ++ ops' ++ [r'.toOp]) = .ok b3)
    {opts : Nat} {annots : List Annot} {s : Bytes} {fuel : Nat} {stats : NodeId → Stats} {json0 : Obj} {res res' : Res}
    (h : normalize env fuel (b2.toCtx opts annots) stats s json0 = .ok res)
    (h' : normalize env fuel (b3.toCtx opts annots) stats s json0 = .ok res') :
    res'.ok = res.ok ∧ (res.ok = false → res'.json = res.json) ∧
    (res.ok = true → res'.json = res.json ∨ ∃ rule e o, finishMatch (b2.toCtx opts annots) s rule e o = .ok res.json ∧
      finishMatch (b3.toCtx opts annots) s rule e o = .ok res'.json) := by
  have hi := (runOps_inv (env := env) (srt := srt) ops).ok_of hb
  have h3' : r'.toOp.run env srt b2 = .ok b3 := by
    unfold runOps at h3 h2
    rw [Ex.foldlM_append, h2] at h3
    change [r'.toOp].foldlM (BOp.run env srt) b2 = .ok b3 at h3
    rw [List.foldlM_cons] at h3
    obtain ⟨b3', h4, h5⟩ := R.bind_eq_ok.1 h3
    cases h5
    exact h4
  have h12 : ∃ b1, r.toOp.run env srt b = .ok b1 ∧ ops'.foldlM (BOp.run env srt) b1 = .ok b2 := by
    unfold runOps at hb h2
    rw [List.append_assoc, Ex.foldlM_append, hb] at h2
    change ([r.toOp] ++ ops').foldlM (BOp.run env srt) b = .ok b2 at h2
    rw [List.singleton_append, List.foldlM_cons] at h2
    exact R.bind_eq_ok.1 h2
  obtain ⟨b1, h1, h2'⟩ := h12
  obtain ⟨e, nd, hnd, hterm, rfl, _⟩ := duplicate_effect hi hc hc' hconf hs h1 hop h2' hw h3'
  have hheap : ∀ (nd' : Node) m, (b2.store e nd').heap m = if m = e then some nd' else b2.heap m := fun _ m => rfl
  have sg : SameShape (b2.toCtx opts annots)
      ((b2.store e { nd with isTerminal := true, tags := r'.tags, rbFile := some r'.file, rbLine := r'.line }).toCtx
        opts annots) := by
    refine ⟨?_, ?_, rfl, rfl, rfl, rfl⟩
    · intro n
      show (((b2.store e _).heap n).getD {}).parsers = ((b2.heap n).getD {}).parsers
      rw [hheap]
      by_cases hn : n = e
      · subst hn; rw [if_pos rfl, hnd]; rfl
      · rw [if_neg hn]
    · intro n
      show (((b2.store e _).heap n).getD {}).isTerminal = ((b2.heap n).getD {}).isTerminal
      rw [hheap]
      by_cases hn : n = e
      · subst hn; rw [if_pos rfl, hnd]; exact hterm.symm
      · rw [if_neg hn]
  unfold normalize at h h'
  rw [sg.normRec env s fuel, sg.root] at h'
  obtain ⟨x, hx, hh⟩ := R.bind_eq_ok.1 h
  obtain ⟨x', hx', hh'⟩ := R.bind_eq_ok.1 h'
  rw [hx] at hx'
  cases hx'
  dsimp only at hh hh'
  cases hm : x.matched with
  | false =>
    rw [hm] at hh hh'
    rw [hh] at hh'
    cases hh'
    exact ⟨rfl, fun _ => rfl, fun _ => .inl rfl⟩
  | true =>
    rw [hm] at hh hh'
    cases he : x.endNode with
    | none => rw [he] at hh; cases hh
    | some en =>
      rw [he] at hh hh'
      dsimp only at hh hh'
      rw [sg.term en] at hh'
      by_cases ht : ((b2.toCtx opts annots).node en).isTerminal = true
      · rw [if_pos ht] at hh hh'
        obtain ⟨o1, a1, a2⟩ := R.bind_eq_ok.1 hh
        obtain ⟨o2, a3, a4⟩ := R.bind_eq_ok.1 hh'
        cases a2; cases a4
        exact ⟨rfl, fun h => (by cases h), fun _ => .inr ⟨_, _, _, a1, a3⟩⟩
      · rw [if_neg ht] at hh hh'
        rw [hh] at hh'
        cases hh'
        exact ⟨rfl, fun _ => rfl, fun _ => .inl rfl⟩

/-! ### C62 -/

/-- **C62** Type definitions accumulate: a type keeps its number and its graph whatever is loaded
later, and a definition of an existing type extends that graph instead of replacing it. -/
theorem C62_types_accumulate_partial {env : Env} {srt : Sorter} {ops ops' : List BOp} {b b' : Bld}
    (hb : runOps env srt ops = .ok b) (hb' : runOps env srt (ops ++ ops') = .ok b') :
    ∃ l, b'.types = b.types ++ l := by
  have hi := (runOps_inv (env := env) (srt := srt) ops).ok_of hb
  have hfold : ops'.foldlM (BOp.run env srt) b = .ok b' := by
    unfold runOps at hb' hb
    rw [Ex.foldlM_append, hb] at hb'
    exact hb'
  clear hb hb'
  induction ops' generalizing b with
  | nil => cases hfold; exact ⟨[], (List.append_nil _).symm⟩
  | cons op ops' ih =>
    rw [List.foldlM_cons] at hfold
    obtain ⟨b1, h1, h2⟩ := R.bind_eq_ok.1 hfold
    have hi1 := ((BOp.run_ok (env := env) (srt := srt) hi op).ok_of h1).1
    obtain ⟨l, hl⟩ := ih hi1 h2
    by_cases hop : op = .optimize
    · subst hop
      have ho : OptSteps srt 0 b b1 := by
        refine (pdagOptimize_ok (E := b.ctxRefs) (srt := srt) hi (List.mem_cons_self ..) ?_).ok_of h1
        intro t ht
        exact List.mem_cons_of_mem _ (List.mem_map.2 ⟨t, ht, rfl⟩)
      obtain ⟨_, _, h4, _⟩ := ho.frame hi
      exact ⟨l, by rw [hl, h4]⟩
    · obtain ⟨_, _, ⟨l', hl'⟩, _⟩ := BOp.run_grow hi hop h1
      exact ⟨l' ++ l, by rw [hl, hl', List.append_assoc]⟩

/-! ### concrete cases and violations -/

namespace Ex

def ruleOf (confs : List Json) : Rule := { confs := confs, file := bs! "rb", line := 1 }

theorem litConf_field (env : Env) (t : Bytes) : confField env [] (litConf t) = some (litP t 0) := by
  unfold confField
  have h1 : (litConf t).ptr (bs! "type") = some (.str (bs! "literal")) := rfl
  have h2 : confName env (litConf t) = none := rfl
  have h3 : confRest env (litConf t) = [(bs! "text", .str t)] := by
    unfold confRest; rw [h2]; rfl
  have h4 : strOf env (.str (bs! "literal")) = some (bs! "literal") := rfl
  have h5 : parserPrio (bs! "literal") = some 4 := by decide
  have h6 : construct env (bs! "literal") [(bs! "text", .str t)] = .ok (.literal (some (cstr t))) := by
    unfold construct
    rw [if_pos rfl]
    rfl
  show (match ((litConf t).ptr (bs! "type")).bind (strOf env) with
    | none => none
    | some ty => _) = _
  rw [h1, h3]
  simp only [Option.bind, h4, h5, h6]
  rfl

theorem litConf_plain (env : Env) (t : Bytes) : ∃ p, confField env [] (litConf t) = some p :=
  ⟨_, litConf_field env t⟩

/-- rules and types used below: `a%n:number%`, `ab`, `type=@t:x`, `type=@t:yz` -/
def defs : List Def := [
  { rule := ruleOf [litConf (bs! "a"), fieldConf (bs! "n") (bs! "number")] },
  { type := some (bs! "@t"), rule := ruleOf [litConf (bs! "x")] },
  { rule := ruleOf [litConf (bs! "a"), litConf (bs! "b")] },
  { type := some (bs! "@t"), rule := ruleOf [litConf (bs! "y"), litConf (bs! "z")] }]

/-- the hypotheses of `C19_union_partial` hold -/
example : (∀ d ∈ defs, d.rule.Plain env) ∧ NarrowDefs defs := by
  refine ⟨?_, .of_length (by decide)⟩
  have hn : ∃ p, confField env [] (fieldConf (bs! "n") (bs! "number")) = some p := by
    have : (confField env [] (fieldConf (bs! "n") (bs! "number"))).isSome = true := by decide +kernel
    exact Option.isSome_iff_exists.1 this
  intro d hd c hc
  simp only [defs, ruleOf, List.mem_cons, List.not_mem_nil, or_false] at hd
  rcases hd with rfl | rfl | rfl | rfl <;> simp only [List.mem_cons, List.not_mem_nil, or_false] at hc <;>
    rcases hc with rfl | rfl <;> first | exact litConf_plain _ _ | exact hn

/-- both rules match, nothing else -/
example : ((runMsg (defs.map Def.toOp) 0 (bs! "a17")) = .ok (true, [(bs! "n", .str (bs! "17"))])) ∧
    ((runMsg (defs.map Def.toOp) 0 (bs! "ab")) = .ok (true, [])) ∧
    (match runMsg (defs.map Def.toOp ++ [.optimize]) 0 (bs! "a") with | .ok (false, _) => true | _ => false) = true := by
  decide +kernel

/-- two loads, each ending with an optimiser run -/
def twoLoads : List BOp := [(ruleOf [litConf (bs! "a"), litConf (bs! "b")]).toOp, .optimize,
  (ruleOf [litConf (bs! "a"), litConf (bs! "c")]).toOp, .optimize]

/-- `C19_keeps_matching_partial` applies to two loads; "ab" goes on matching -/
example : runMsg (twoLoads.take 2) 0 (bs! "ab") = .ok (true, []) ∧
    runMsg twoLoads 0 (bs! "ab") = .ok (true, []) := by decide +kernel
example : ∀ op ∈ twoLoads, op.Plain env := by
  intro op hop
  simp only [twoLoads, ruleOf, Rule.toOp, List.mem_cons, List.not_mem_nil, or_false] at hop
  rcases hop with rfl | rfl | rfl | rfl
  · intro c hc
    simp only [List.mem_cons, List.not_mem_nil, or_false] at hc
    rcases hc with rfl | rfl <;> exact litConf_plain _ _
  · trivial
  · intro c hc
    simp only [List.mem_cons, List.not_mem_nil, or_false] at hc
    rcases hc with rfl | rfl <;> exact litConf_plain _ _
  · trivial

end Ex

namespace Ex

/-- 256 rules of one byte each -/
def defs256 : List Def := (List.range 256).map fun i => { rule := ruleOf [litConf [UInt8.ofNat i]] }

theorem defs256_toOp : defs256.map Def.toOp = manyRules := by
  unfold defs256 manyRules
  rw [List.map_map]
  rfl

/-- the first node is empty afterwards -/
theorem many_empty (env : Env) (srt : Sorter) : ∃ b nd, runOps env srt manyRules = .ok b ∧ b.root = 1 ∧ b.heap 1 = some nd ∧ nd.parsers = [] := by
  obtain ⟨b, h1, h2⟩ := many_all env srt 255 (by omega)
  obtain ⟨nd, hn, _, hps⟩ := h2.tab
  have hne : (1 : NodeId) ≠ b.next := by rw [h2.next]; decide
  have h3 := addSamp_lit env b 1 nd [UInt8.ofNat 255] (bs! "rb") 1 hn hne (by rw [hps]; exact many_find 255 (by omega))
  refine ⟨({ b.newPDAG.1.store 1 (addEntry nd (litP [UInt8.ofNat 255] b.next)) with
          wrapped := b.wrapped || decide (nd.parsers.length + 1 = 256) }.store b.next
        { isTerminal := true, rbFile := some (bs! "rb"), rbLine := 1 }), addEntry nd (litP [UInt8.ofNat 255] b.next), ?_, ?_, ?_, ?_⟩
  · unfold runOps manyRules
    rw [show (256 : Nat) = 255 + 1 from rfl, List.range_succ, List.map_append, foldlM_append, h1]
    show ([litRule [UInt8.ofNat 255]].foldlM (BOp.run env srt) b) = _
    rw [List.foldlM_cons]
    show (addSamp env b b.root [litConf [UInt8.ofNat 255]] true none (bs! "rb") 1).bind _ = _
    rw [h2.root, h3]; rfl
  · exact h2.root
  · show (if (1 : NodeId) = b.next then some _ else if (1 : NodeId) = 1 then some _ else (b.newPDAG.1).heap 1) = _
    rw [if_neg hne, if_pos rfl]
  · have hlen : (nd.parsers ++ [litP [UInt8.ofNat 255] b.next]).length = 256 := by rw [hps]; simp
    show (if (nd.parsers ++ [litP [UInt8.ofNat 255] b.next]).length = 256 then [] else _) = _
    rw [if_pos hlen]

end Ex

/-- **C19 violated** where rules go on in 256 different ways (so the bound of `NarrowDefs` is sharp): the number of fields of a node is kept in 8 bits. After
256 rules with different beginnings nothing matches any more. -/
theorem C19_many_violated (env : Env) (srt : Sorter) : ∃ ds : List Def, ds.length = 256 ∧ (∀ d ∈ ds, d.rule.Plain env) ∧
    (∃ d ∈ ds, d.type = none ∧ d.rule.MatchesMsg env (bs! "a")) ∧ ∃ b, runOps env srt (ds.map Def.toOp) = .ok b ∧
      ∀ (opts : Nat) (annots : List Annot) (fuel : Nat) (stats : NodeId → Stats) (json0 : Obj) (res : Res),
        normalize env fuel (b.toCtx opts annots) stats (bs! "a") json0 = .ok res → res.ok = false := by
  have hplain : ∀ d ∈ Ex.defs256, d.rule.Plain env := by
    intro d hd c hc
    obtain ⟨i, _, rfl⟩ := List.mem_map.1 hd
    rw [show c = Ex.litConf [UInt8.ofNat i] from List.mem_singleton.1 hc]
    exact Ex.litConf_plain env _
  refine ⟨Ex.defs256, by simp [Ex.defs256], hplain, ?_, ?_⟩
  · refine ⟨{ rule := Ex.ruleOf [Ex.litConf [UInt8.ofNat 97]] }, List.mem_map.2 ⟨97, List.mem_range.2 (by omega), rfl⟩, rfl, rfl, ?_⟩
    exact .cons (Ex.litConf_field env _) (len := 1) (v := none) (by rfl) (.nil _)
  · obtain ⟨b, nd, h1, hr, hn, hp⟩ := Ex.many_empty env srt
    rw [← Ex.defs256_toOp] at h1
    refine ⟨b, h1, fun opts annots fuel stats json0 res h => ?_⟩
    obtain ⟨b', lab, h1', h2⟩ := isTrie_defs (srt := srt) Ex.defs256 (isTrie_init env) hplain
    have hb : b' = b := by
      have : runOps env srt (Ex.defs256.map Def.toOp) = .ok b' := h1'
      rw [h1] at this
      cases this; rfl
    subst hb
    rcases normalize_cases (h2.trie.flat opts annots) h with ⟨_, tr, e, hm, _⟩ | ⟨hno, _⟩
    · exfalso
      obtain ⟨m, off', hpath, _, he⟩ := hm
      cases hpath with
      | nil => rcases he with he | he
               · cases he
               · exact absurd he (by decide)
      | cons hidx _ _ =>
        change ((b'.heap b'.root).getD {}).parsers[_]? = _ at hidx
        rw [hr, hn] at hidx
        change nd.parsers[_]? = _ at hidx
        rw [hp] at hidx
        cases hidx
    · exact hno

/-- C19 violated by a second load: the optimiser merged the literals of the first rule into "ab" but left the
configuration of its first character, so that the rule "ac" of the second load is taken for a
continuation of "ab": "ac" does not match, "abc" does. -/
theorem C19_second_load_violated :
    (match Ex.runMsg Ex.twoLoads 0 (bs! "ac") with | .ok (false, _) => true | _ => false) = true ∧
    Ex.runMsg Ex.twoLoads 0 (bs! "abc") = .ok (true, []) := by decide +kernel

/-- C19 violated by alternatives: after the rule `(A|B)x`, the rule `Ay` makes "By" match although neither
rule does. -/
theorem C19_alternative_violated :
    let alt : Json := .obj [(bs! "type", .str (bs! "alternative")),
      (bs! "parser", .arr [Ex.litConf (bs! "A"), Ex.litConf (bs! "B")])]
    let ops : List BOp := [(Ex.ruleOf [alt, Ex.litConf (bs! "x")]).toOp,
      (Ex.ruleOf [Ex.litConf (bs! "A"), Ex.litConf (bs! "y")]).toOp]
    Ex.runMsg ops 0 (bs! "By") = .ok (true, []) ∧
    (match Ex.runMsg (ops.take 1) 0 (bs! "By") with | .ok (false, _) => true | _ => false) = true ∧
    (match Ex.runMsg (ops.drop 1) 0 (bs! "By") with | .ok (false, _) => true | _ => false) = true := by decide +kernel

/-- C55: the repeated rule changes nothing -/
example : Ex.runMsg [(Ex.ruleOf [Ex.litConf (bs! "a"), Ex.fieldConf (bs! "n") (bs! "number")]).toOp,
    (Ex.ruleOf [Ex.litConf (bs! "a"), Ex.fieldConf (bs! "n") (bs! "number")]).toOp] 0 (bs! "a1") =
    .ok (true, [(bs! "n", .str (bs! "1"))]) := by decide +kernel

/-- C55 violated across loads: repeating the rule "ab" in a second load makes "abb" match. -/
theorem C55_second_load_violated :
    let r := (Ex.ruleOf [Ex.litConf (bs! "a"), Ex.litConf (bs! "b")]).toOp
    Ex.runMsg [r, .optimize, r, .optimize] 0 (bs! "abb") = .ok (true, []) ∧
    (match Ex.runMsg [r, .optimize] 0 (bs! "abb") with | .ok (false, _) => true | _ => false) = true := by
  decide +kernel

/-- C62 violated: the order of the lines matters; a rule which uses a type before the first definition
of the type is dropped. -/
theorem C62_order_violated :
    let t : BOp := .typeDef (bs! "@t") [Ex.litConf (bs! "x")] true none (bs! "rb") 1
    let r : BOp := (Ex.ruleOf [Ex.fieldConf (bs! "f") (bs! "@t")]).toOp
    Ex.runMsg [t, r] 0 (bs! "x") = .ok (true, [(bs! "f", .obj [])]) ∧
    (match Ex.runMsg [r, t] 0 (bs! "x") with | .ok (false, _) => true | _ => false) = true := by
  decide +kernel

end LN
