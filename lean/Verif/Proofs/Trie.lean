import Verif.Proofs.HeapAdd
import Verif.Spec.Rules
import Verif.Spec.Match
import Verif.Proofs.Narrow
/-
Adding plain rules builds a trie: the paths from the root are the prefixes of the rules.
-/
set_option autoImplicit false
namespace LN

/-- constructors yield plain parsers -/
theorem construct_flat (env : Env) (ty : Bytes) (o : Obj) {k : PKind} (h : construct env ty o = .ok k) :
    k.flat := by
  have : Mem (fun k => k.flat) (construct env ty o) := by
    unfold construct
    repeat' first
      | refine Mem.ite (P := fun k : PKind => k.flat) ?_ ?_
      | exact Mem.bind (ctorStr_mem ..) fun _ _ => trivial
      | exact Mem.bind (ctorDate_mem ..) fun _ _ => trivial
      | exact Mem.bind (ctorNumber_mem ..) fun _ _ => trivial
      | exact Mem.bind (ctorFloat_mem ..) fun _ _ => trivial
      | exact Mem.bind (ctorHexNumber_mem ..) fun _ _ => trivial
      | exact Mem.bind (ctorLEA_mem ..) fun _ _ => trivial
      | exact Mem.bind (ctorString_mem ..) fun _ _ => trivial
      | exact True.intro
  exact this.ok_of h

section
variable {env : Env}

theorem confField_spec {types : List (Bytes × NodeId)} {c : Json} {p : Parser}
    (h : confField env types c = some p) : ∃ o ty, c = .obj o ∧
      (c.ptr (bs! "type")).bind (strOf env) = some ty ∧ ty ≠ bs! "alternative" ∧ p.conf = c ∧ p.node = 0 ∧
      p.kind.refs = [] ∧ (types = [] → p.kind.flat) ∧
      ∀ (rec : AddRec) (b : Bld), b.types = types → newParser env rec b c = .ok (b, some p) := by
  unfold confField at h
  cases c with
  | obj o =>
    dsimp only at h
    cases hty : ((Json.obj o).ptr (bs! "type")).bind (strOf env) with
    | none => rw [hty] at h; cases h
    | some ty =>
      rw [hty] at h
      dsimp only at h
      by_cases hat : ty.head? = some (ch! '@')
      · rw [if_pos hat] at h
        rw [Option.map_eq_some_iff] at h
        obtain ⟨i, hi, rfl⟩ := h
        refine ⟨o, ty, rfl, rfl, ?_, rfl, rfl, rfl, ?_, ?_⟩
        · rintro rfl; exact absurd hat (by decide)
        · rintro rfl; simp at hi
        · intro rec b hb
          unfold newParser
          rw [hty]
          dsimp only
          rw [if_pos hat]
          unfold findType
          rw [hb, hi]
      · rw [if_neg hat] at h
        by_cases hre : ty = bs! "repeat"
        · rw [if_pos hre] at h; cases h
        rw [if_neg hre] at h
        cases hpp : parserPrio ty with
        | none => rw [hpp] at h; cases h
        | some pp =>
          rw [hpp] at h
          dsimp only at h
          cases hk : construct env ty (confRest env (.obj o)) with
          | ok k =>
            rw [hk] at h
            cases h
            refine ⟨o, ty, rfl, rfl, ?_, rfl, rfl, (construct_ok env ty _).ok_of hk,
              fun _ => construct_flat env ty _ hk, ?_⟩
            · rintro rfl
              have : parserPrio (bs! "alternative") = none := by decide
              rw [this] at hpp; cases hpp
            · intro rec b _
              unfold newParser
              rw [hty]
              dsimp only
              rw [if_neg hat, hpp]
              dsimp only
              rw [if_neg hre, hk]
              rfl
          | _ => rw [hk] at h; cases h
  | _ => cases h

theorem confField_types {c : Json} {p : Parser} (h : confField env [] c = some p)
    (types : List (Bytes × NodeId)) : confField env types c = some p := by
  unfold confField at h ⊢
  cases c with
  | obj o =>
    dsimp only at h ⊢
    cases hty : ((Json.obj o).ptr (bs! "type")).bind (strOf env) with
    | none => rw [hty] at h; cases h
    | some ty =>
      rw [hty] at h
      dsimp only at h ⊢
      by_cases hat : ty.head? = some (ch! '@')
      · rw [if_pos hat] at h; simp at h
      · rw [if_neg hat] at h ⊢
        exact h
  | _ => cases h

/-- types are only ever appended -/
theorem confField_append {env : Env} {c : Json} {p : Parser} {types : List (Bytes × NodeId)}
    (h : confField env types c = some p) (l : List (Bytes × NodeId)) :
    confField env (types ++ l) c = some p := by
  unfold confField at h ⊢
  cases c with
  | obj o =>
    dsimp only at h ⊢
    cases hty : ((Json.obj o).ptr (bs! "type")).bind (strOf env) with
    | none => rw [hty] at h; cases h
    | some ty =>
      rw [hty] at h
      dsimp only at h ⊢
      by_cases hat : ty.head? = some (ch! '@')
      · rw [if_pos hat] at h ⊢
        rw [Option.map_eq_some_iff] at h
        obtain ⟨i, hi, rfl⟩ := h
        rw [List.findIdx?_append, hi]; rfl
      · rw [if_neg hat] at h ⊢
        exact h
  | _ => cases h

/-- the graph after appending an entry leading to a fresh node -/
def Bld.append (b : Bld) (dag : NodeId) (nd : Node) (p : Parser) : Bld :=
  { b.newPDAG.1.store dag (addEntry nd { p with node := b.next }) with
      wrapped := b.wrapped || decide (nd.parsers.length + 1 = 256) }

/-- adding a plain field: an existing entry with the same configuration is followed, else a new
entry is appended -/
theorem addParser_plain {b : Bld} {dag : NodeId} {nd : Node} {c : Json} {p : Parser}
    (hp : confField env b.types c = some p) (hn : b.heap dag = some nd) (hne : dag ≠ b.next) :
    addParser env b dag c = match nd.parsers.find? (fun q => q.conf = c) with
      | some q => .ok (b, some q.node)
      | none => .ok (b.append dag nd p, some b.next) := by
  obtain ⟨o, ty, rfl, hty, halt, hconf, hnode, hrefs, _, hnew⟩ := confField_spec hp
  have hl : b.load dag = .ok nd := by simp [Bld.load, hn]
  have hl1 : b.newPDAG.1.load dag = .ok nd := by simp [Bld.load, Bld.newPDAG, hn, hne]
  unfold addParser
  obtain ⟨d, hd⟩ : ∃ d, (Json.obj o).depth = d + 1 := ⟨Json.depthObj o, by simp only [Json.depth]⟩
  rw [hd]
  unfold addF addStep
  dsimp only
  rw [hty]
  dsimp only
  rw [if_neg halt]
  unfold addInstance
  rw [hnew _ b rfl]
  simp only [R.ok_bind', hl, hconf]
  cases hf : nd.parsers.find? (fun q => decide (q.conf = Json.obj o)) with
  | some q =>
    dsimp only
    unfold deleteData
    rw [hrefs]
    rfl
  | none =>
    simp only [↓reduceIte, R.ok_bind', hl1]
    rw [← hconf]
    rfl

end

/-- the graph's way of following a rule: at each node the first entry with that configuration -/
inductive FWalk (b : Bld) : NodeId → List Json → NodeId → Prop where
  | nil (n : NodeId) : FWalk b n [] n
  | cons {n : NodeId} {nd : Node} {c : Json} {q : Parser} {cs : List Json} {m : NodeId}
      (hn : b.heap n = some nd) (hq : nd.parsers.find? (fun q => q.conf = c) = some q)
      (ht : FWalk b q.node cs m) : FWalk b n (c :: cs) m

theorem find?_prefix {α : Type} {f : α → Bool} {l l' : List α} {a : α} (h : l <+: l') (hf : l.find? f = some a) :
    l'.find? f = some a := by
  obtain ⟨t, rfl⟩ := h
  rw [List.find?_append, hf]; rfl

theorem FWalk.functional {b : Bld} {n : NodeId} {cs : List Json} {m m' : NodeId} (h : FWalk b n cs m) (h' : FWalk b n cs m') : m = m' := by
  induction h with
  | nil n => cases h'; rfl
  | cons hn hq _ ih =>
    cases h' with
    | cons hn' hq' ht' =>
      rw [hn] at hn'; cases hn'
      rw [hq] at hq'; cases hq'
      exact ih ht'

theorem FWalk.grow {b b' : Bld} (g : Grow b b') (hw : b'.wrapped = false) {n : NodeId} {cs : List Json} {m : NodeId}
    (h : FWalk b n cs m) : FWalk b' n cs m := by
  induction h with
  | nil n => exact .nil n
  | cons hn hq _ ih =>
    obtain ⟨nd', h1, h2, _⟩ := g.keep _ _ hn
    exact .cons h1 (find?_prefix (h2 hw) hq) ih

theorem Grow.append {b : Bld} {E : List NodeId} (hi : Inv b E) {dag : NodeId} {nd : Node}
    (hn : b.heap dag = some nd) (p : Parser) : Grow b (b.append dag nd p) := by
  have hne : dag ≠ b.next := Nat.ne_of_lt (hi.range _ _ hn).2
  have h1 := Grow.new hi.fresh_none
  have hn1 : b.newPDAG.1.heap dag = some nd := by
    show (if dag = b.next then some ({} : Node) else b.heap dag) = some nd
    rw [if_neg hne]; exact hn
  exact h1.trans (Grow.attach hn1 { p with node := b.next })

/-- rules that are in the graph add nothing -/
theorem addSeq_fwalk {env : Env} {b : Bld} {E : List NodeId} (hi : Inv b E) : ∀ {n : NodeId} {cs : List Json}
    {m : NodeId}, (∀ c ∈ cs, ∃ p, confField env b.types c = some p) → FWalk b n cs m →
    addSeq env cs b n = .ok (b, some m) := by
  intro n cs m hc h
  induction h with
  | nil n => rfl
  | cons hn hq _ ih =>
    obtain ⟨p, hp⟩ := hc _ (List.mem_cons_self ..)
    unfold addSeq
    rw [addParser_plain hp hn (Nat.ne_of_lt (hi.range _ _ hn).2), hq]
    exact ih fun c hc' => hc c (List.mem_cons_of_mem _ hc')

/-- what a node records about the rule ending there -/
def Node.mark (nd : Node) : Option (List Bytes) × Option Bytes × Nat := (nd.tags, nd.rbFile, nd.rbLine)

/-- edges of the trie; the fields use the types `ts` -/
structure Trie (env : Env) (ts : List (Bytes × NodeId)) (b : Bld) (lab : NodeId → List Json) : Prop where
  edge : ∀ (n : NodeId) (nd : Node), b.heap n = some nd → ∀ q ∈ nd.parsers, lab q.node = lab n ++ [q.conf] ∧
    confField env ts q.conf = some { q with node := 0 }
  dist : ∀ (n : NodeId) (nd : Node), b.heap n = some nd → (nd.parsers.map (·.conf)).Nodup

/-- all entries are plain fields, those of a node with different configurations -/
structure PlainGraph (env : Env) (b : Bld) : Prop where
  field : ∀ (n : NodeId) (nd : Node), b.heap n = some nd → ∀ q ∈ nd.parsers, confField env [] q.conf = some { q with node := 0 }
  dist : ∀ (n : NodeId) (nd : Node), b.heap n = some nd → (nd.parsers.map (·.conf)).Nodup

theorem Trie.plain {env : Env} {b : Bld} {lab : NodeId → List Json} (h : Trie env [] b lab) : PlainGraph env b :=
  ⟨fun n nd hn q hq => (h.edge n nd hn q hq).2, h.dist⟩

/-- number of entries of a node -/
def Bld.plen (b : Bld) (m : NodeId) : Nat := ((b.heap m).getD {}).parsers.length

theorem addParser_trie {env : Env} {ts : List (Bytes × NodeId)} {b : Bld} {E : List NodeId} {lab : NodeId → List Json} {dag : NodeId} {c : Json}
    (hi : Inv b E) (hts : ∃ l, b.types = ts ++ l) (ht : Trie env ts b lab) (hd : (b.heap dag).isSome) {p : Parser}
    (hc : confField env ts c = some p) :
    ∃ b' e lab', addParser env b dag c = .ok (b', some e) ∧ Inv b' E ∧ Grow b b' ∧ Trie env ts b' lab' ∧
      (b'.wrapped = false → ∃ nd q, b'.heap dag = some nd ∧ nd.parsers.find? (fun q => q.conf = c) = some q ∧
        q.node = e) ∧
      (∀ n, (b.heap n).isSome → lab' n = lab n) ∧ lab' e = lab dag ++ [c] ∧ (b'.heap e).isSome ∧ dag < e ∧
      (∀ n nd', b'.heap n = some nd' → nd'.isTerminal = true → ∃ nd, b.heap n = some nd ∧ nd.isTerminal = true ∧
        nd.mark = nd'.mark) ∧
      (∀ m, m ≠ dag → b'.plen m = b.plen m) ∧ b'.plen dag ≤ b.plen dag + 1 ∧
      (b.wrapped = false → b'.wrapped = false ∨ ∃ nd, b.heap dag = some nd ∧ 255 ≤ nd.parsers.length ∧ ∀ q ∈ nd.parsers, q.conf ≠ c) ∧
      (∀ n nd', b'.heap n = some nd' → ∀ q ∈ nd'.parsers, (∃ nd, b.heap n = some nd ∧ q ∈ nd.parsers) ∨ (n = dag ∧ q.conf = c)) := by
  obtain ⟨nd, hn⟩ := Option.isSome_iff_exists.1 hd
  have hr := hi.range _ _ hn
  have hne : dag ≠ b.next := Nat.ne_of_lt hr.2
  have hcb : confField env b.types c = some p := by
    obtain ⟨l, hl⟩ := hts
    rw [hl]; exact confField_append hc l
  have heq := addParser_plain hcb hn hne
  have hmem := addParser_ok (env := env) (dag := dag) (conf := c) hi (.inr hd)
  cases hf : nd.parsers.find? (fun q => decide (q.conf = c)) with
  | some q =>
    rw [hf] at heq
    have hqm : q ∈ nd.parsers := List.mem_of_find?_eq_some hf
    have hqc : q.conf = c := by simpa using List.find?_some hf
    have h5 : q.node ∈ b.refsOf dag := by
      unfold Bld.refsOf
      rw [hn]
      exact List.mem_flatMap.2 ⟨q, hqm, List.mem_cons_self ..⟩
    refine ⟨b, q.node, lab, heq, hi, Grow.refl b, ht, fun _ => ⟨nd, q, hn, hf, rfl⟩, fun _ _ => rfl, ?_,
      (hi.asc _ _ h5).2, (hi.asc _ _ h5).1, fun n nd' h1 h2 => ⟨nd', h1, h2, rfl⟩, fun _ _ => rfl, Nat.le_succ _, fun h => .inl h,
      fun n nd' h1 q hq => .inl ⟨nd', h1, hq⟩⟩
    rw [(ht.edge _ _ hn q hqm).1, hqc]
  | none =>
    rw [hf] at heq
    have h1 := hmem.ok_of heq
    dsimp only at h1
    obtain ⟨hi', g', _⟩ := h1
    obtain ⟨o, ty, _, _, _, hpc, hp0, _, _, _⟩ := confField_spec hc
    have hheap : ∀ m, (b.append dag nd p).heap m = if m = dag then some (addEntry nd { p with node := b.next })
        else if m = b.next then some {} else b.heap m := fun m => rfl
    have hfresh := hi.fresh_none
    let lab' : NodeId → List Json := fun n => if n = b.next then lab dag ++ [c] else lab n
    have hlab : ∀ n, n ≠ b.next → lab' n = lab n := fun n h => if_neg h
    have hlabd : lab' dag = lab dag := hlab _ hne
    have hlabn : lab' b.next = lab dag ++ [c] := if_pos rfl
    have hlabl : ∀ n, (b.heap n).isSome → lab' n = lab n := by
      intro n h
      refine hlab n ?_
      rintro rfl
      rw [hfresh] at h; cases h
    refine ⟨b.append dag nd p, b.next, lab', heq, hi', g', ⟨?_, ?_⟩, ?_, hlabl, hlabn, ?_, hr.2, ?_, ?_, ?_, ?_, ?_⟩
    · intro n nd' h q hq
      rw [hheap] at h
      by_cases h1 : n = dag
      · subst h1
        rw [if_pos rfl] at h
        cases h
        have hq' : q ∈ nd.parsers ++ [{ p with node := b.next }] := by
          unfold addEntry at hq
          dsimp only at hq
          split at hq
          · cases hq
          · exact hq
        rcases List.mem_append.1 hq' with h2 | h2
        · obtain ⟨e1, e2⟩ := ht.edge _ _ hn q h2
          refine ⟨?_, e2⟩
          rw [hlabd, hlabl _ ?_, e1]
          refine (hi.asc n _ ?_).2
          unfold Bld.refsOf
          rw [hn]
          exact List.mem_flatMap.2 ⟨q, h2, List.mem_cons_self ..⟩
        · rw [List.mem_singleton] at h2
          subst h2
          dsimp only
          rw [hlabn, hlabd, hpc]
          refine ⟨rfl, ?_⟩
          rw [hc]
          obtain ⟨k, nn, pr, nm, cf⟩ := p
          dsimp only at hp0 hpc
          subst hp0
          rw [hpc]
      · rw [if_neg h1] at h
        by_cases h2 : n = b.next
        · rw [if_pos h2] at h
          cases h; cases hq
        · rw [if_neg h2] at h
          obtain ⟨e1, e2⟩ := ht.edge _ _ h q hq
          refine ⟨?_, e2⟩
          rw [hlab n h2, hlabl _ ?_, e1]
          refine (hi.asc n _ ?_).2
          unfold Bld.refsOf
          rw [h]
          exact List.mem_flatMap.2 ⟨q, hq, List.mem_cons_self ..⟩
    · intro n nd' h
      rw [hheap] at h
      by_cases h1 : n = dag
      · rw [if_pos h1] at h
        cases h
        unfold addEntry
        dsimp only
        split
        · exact List.nodup_nil
        · rw [List.map_append, List.nodup_append]
          refine ⟨ht.dist _ _ hn, by simp, ?_⟩
          intro a ha x hx
          simp only [List.map_cons, List.map_nil, List.mem_singleton] at hx
          subst hx
          obtain ⟨q, hq, rfl⟩ := List.mem_map.1 ha
          have := List.find?_eq_none.1 hf q hq
          rw [hpc]
          simpa using this
      · rw [if_neg h1] at h
        by_cases h2 : n = b.next
        · rw [if_pos h2] at h
          cases h; exact List.nodup_nil
        · rw [if_neg h2] at h
          exact ht.dist _ _ h
    · intro hw
      have hlen : ¬ nd.parsers.length + 1 = 256 := by
        have : (b.wrapped || decide (nd.parsers.length + 1 = 256)) = false := hw
        rw [Bool.or_eq_false_iff] at this
        simpa using this.2
      refine ⟨_, { p with node := b.next }, by rw [hheap, if_pos rfl], ?_, rfl⟩
      have : (addEntry nd { p with node := b.next }).parsers = nd.parsers ++ [{ p with node := b.next }] := by
        simp [addEntry, hlen]
      rw [this, List.find?_append, hf]
      simp [hpc]
    · rw [hheap, if_neg (Ne.symm hne), if_pos rfl]; rfl
    · intro n nd' h htm
      rw [hheap] at h
      by_cases h1 : n = dag
      · subst h1
        rw [if_pos rfl] at h
        cases h
        exact ⟨nd, hn, htm, rfl⟩
      · rw [if_neg h1] at h
        by_cases h2 : n = b.next
        · rw [if_pos h2] at h
          cases h; cases htm
        · rw [if_neg h2] at h
          exact ⟨nd', h, htm, rfl⟩
    · intro m hm
      unfold Bld.plen
      rw [hheap, if_neg hm]
      by_cases h2 : m = b.next
      · rw [if_pos h2, h2, hfresh]; rfl
      · rw [if_neg h2]
    · unfold Bld.plen
      rw [hheap, if_pos rfl, hn]
      simp only [Option.getD_some, addEntry]
      split
      · simp
      · simp
    · intro hw
      by_cases hlt : nd.parsers.length < 255
      · left
        show (b.wrapped || decide (nd.parsers.length + 1 = 256)) = false
        rw [hw]; simp; omega
      · refine .inr ⟨nd, hn, by omega, fun q hq => ?_⟩
        have := List.find?_eq_none.1 hf q hq
        simpa using this
    · intro n nd' h q hq
      rw [hheap] at h
      by_cases h1 : n = dag
      · subst h1
        rw [if_pos rfl] at h
        cases h
        have hq' : q ∈ nd.parsers ++ [{ p with node := b.next }] := by
          unfold addEntry at hq
          dsimp only at hq
          split at hq
          · cases hq
          · exact hq
        rcases List.mem_append.1 hq' with h2 | h2
        · exact .inl ⟨nd, hn, h2⟩
        · rw [List.mem_singleton] at h2
          subst h2
          exact .inr ⟨rfl, hpc⟩
      · rw [if_neg h1] at h
        by_cases h2 : n = b.next
        · rw [if_pos h2] at h
          cases h; cases hq
        · rw [if_neg h2] at h
          exact .inl ⟨nd', h, hq⟩

theorem addSeq_trie {env : Env} {ts : List (Bytes × NodeId)} {E : List NodeId} : ∀ (cs : List Json) {b : Bld} {lab : NodeId → List Json} {dag : NodeId},
    Inv b E → (∃ l, b.types = ts ++ l) → Trie env ts b lab → (b.heap dag).isSome →
    (∀ c ∈ cs, ∃ p, confField env ts c = some p) →
    ∃ b' e lab', addSeq env cs b dag = .ok (b', some e) ∧ Inv b' E ∧ Grow b b' ∧ Trie env ts b' lab' ∧
      (b'.wrapped = false → FWalk b' dag cs e) ∧
      (∀ n, (b.heap n).isSome → lab' n = lab n) ∧ lab' e = lab dag ++ cs ∧ (b'.heap e).isSome ∧ dag ≤ e ∧
      (∀ n nd', b'.heap n = some nd' → nd'.isTerminal = true → ∃ nd, b.heap n = some nd ∧ nd.isTerminal = true ∧
        nd.mark = nd'.mark) ∧
      (∀ m, m < dag → b'.plen m = b.plen m) ∧ (∀ m, b'.plen m ≤ b.plen m + 1) ∧
      (b.wrapped = false → b'.wrapped = false ∨ ∃ (ks : List Json) (c : Json) (x : List Json), ks.Nodup ∧ 255 ≤ ks.length ∧ c ∉ ks ∧
        x ++ [c] <+: cs ∧ ∀ k ∈ ks, ∃ n nd q, b.heap n = some nd ∧ q ∈ nd.parsers ∧ q.conf = k ∧ lab n = lab dag ++ x) ∧
      (∀ n nd', b'.heap n = some nd' → ∀ q ∈ nd'.parsers, (∃ nd, b.heap n = some nd ∧ q ∈ nd.parsers) ∨
        ∃ x, lab' n = lab dag ++ x ∧ x ++ [q.conf] <+: cs) := by
  intro cs
  induction cs with
  | nil =>
    intro b lab dag hi _ ht hd _
    exact ⟨b, dag, lab, rfl, hi, Grow.refl b, ht, fun _ => .nil _, fun _ _ => rfl, by simp, hd, Nat.le_refl _,
      fun n nd' h1 h2 => ⟨nd', h1, h2, rfl⟩, fun _ _ => rfl, fun _ => Nat.le_succ _, fun h => .inl h,
      fun n nd' h1 q hq => .inl ⟨nd', h1, hq⟩⟩
  | cons c cs ih =>
    intro b lab dag hi hts ht hd hc
    obtain ⟨p, hp⟩ := hc c (List.mem_cons_self ..)
    obtain ⟨b1, e1, lab1, h1, hi1, g1, ht1, hw1, hl1, hle1, hd1, hlt1, htm1, hp1, hp1', hwr1, hnew1⟩ :=
      addParser_trie hi hts ht hd hp
    obtain ⟨b2, e2, lab2, h2, hi2, g2, ht2, hw2, hl2, hle2, hd2, hlt2, htm2, hp2, hp2', hwr2, hnew2⟩ :=
      ih (dag := e1) hi1 (by rw [g1.types]; exact hts) ht1 hd1 fun c hc' => hc c (List.mem_cons_of_mem _ hc')
    refine ⟨b2, e2, lab2, ?_, hi2, g1.trans g2, ht2, ?_, ?_, ?_, hd2, ?_, ?_, ?_, ?_, ?_, ?_⟩
    · unfold addSeq
      rw [h1]
      exact h2
    · intro hw
      obtain ⟨nd, q, hn, hq, rfl⟩ := hw1 (g2.wrapped hw)
      obtain ⟨nd', hn', hpre, _⟩ := g2.keep _ _ hn
      exact .cons hn' (find?_prefix (hpre hw) hq) (hw2 hw)
    · intro n h
      rw [hl2 n (g1.live h), hl1 n h]
    · rw [hle2, hle1, List.append_assoc]; rfl
    · exact Nat.le_trans (Nat.le_of_lt hlt1) hlt2
    · intro n nd' h htm
      obtain ⟨nd, h3, h4, h5⟩ := htm2 n nd' h htm
      obtain ⟨nd0, h6, h7, h8⟩ := htm1 n nd h3 h4
      exact ⟨nd0, h6, h7, h8.trans h5⟩
    · intro m hm
      rw [hp2 m (Nat.lt_trans hm hlt1), hp1 m (Nat.ne_of_lt hm)]
    · intro m
      by_cases hm : m = dag
      · subst hm
        rw [hp2 _ hlt1]; exact hp1'
      · rw [← hp1 m hm]; exact hp2' m
    · intro hw
      rcases hwr1 hw with h3 | ⟨nd, h3, h4, h5⟩
      · rcases hwr2 h3 with h6 | ⟨ks, c', x, h6, h7, h8, h9, h10⟩
        · exact .inl h6
        · refine .inr ⟨ks, c', c :: x, h6, h7, h8, by obtain ⟨u, hu⟩ := h9; exact ⟨u, by rw [← hu]; rfl⟩, fun k hk => ?_⟩
          obtain ⟨n, nd, q, a1, a2, a3, a4⟩ := h10 k hk
          rw [hle1] at a4
          rcases hnew1 n nd a1 q a2 with ⟨nd0, a5, a6⟩ | ⟨rfl, _⟩
          · refine ⟨n, nd0, q, a5, a6, a3, ?_⟩
            rw [← hl1 n (by rw [a5]; rfl), a4, List.append_assoc]; rfl
          · rw [hl1 _ hd] at a4
            have := congrArg List.length a4
            simp at this
      · refine .inr ⟨nd.parsers.map (·.conf), c, [], ht.dist _ _ h3, by rw [List.length_map]; exact h4, ?_, ⟨cs, rfl⟩, fun k hk => ?_⟩
        · intro hm
          obtain ⟨q, hq, hqc⟩ := List.mem_map.1 hm
          exact h5 q hq hqc
        · obtain ⟨q, hq, hqc⟩ := List.mem_map.1 hk
          exact ⟨dag, nd, q, h3, hq, hqc, by rw [List.append_nil]⟩
    · intro n nd' h q hq
      rcases hnew2 n nd' h q hq with ⟨nd1, h3, h4⟩ | ⟨x, h3, h4⟩
      · rcases hnew1 n nd1 h3 q h4 with h5 | ⟨rfl, h5⟩
        · exact .inl h5
        · refine .inr ⟨[], ?_, ?_⟩
          · rw [hl2 _ (g1.live hd), hl1 _ hd, List.append_nil]
          · rw [h5]; exact ⟨cs, rfl⟩
      · refine .inr ⟨c :: x, ?_, ?_⟩
        · rw [h3, hle1, List.append_assoc]; rfl
        · obtain ⟨u, hu⟩ := h4
          exact ⟨u, by rw [← hu]; rfl⟩

/-- every path of the trie is labelled with the fields that accept -/
theorem accepts_of_path {env : Env} {b : Bld} {lab : NodeId → List Json} (ht : Trie env [] b lab) {s : Bytes}
    {opts : Nat} {annots : List Annot} {n : NodeId} {off : Nat} {tr : List Step} {m : NodeId} {off' : Nat}
    (h : Path env (b.toCtx opts annots) s n off tr m off') :
    ∃ cs, lab m = lab n ++ cs ∧ Accepts env s cs off off' := by
  induction h with
  | nil n off => exact ⟨[], by simp, .nil _⟩
  | @cons n off idx p len v tr m off' hidx hacc _ ih =>
    obtain ⟨cs, h1, h2⟩ := ih
    change ((b.heap n).getD {}).parsers[idx]? = some p at hidx
    cases hn : b.heap n with
    | none => rw [hn] at hidx; simp at hidx
    | some nd =>
      rw [hn] at hidx
      obtain ⟨e1, e2⟩ := ht.edge n nd hn p (List.mem_of_getElem? hidx)
      refine ⟨p.conf :: cs, ?_, .cons e2 hacc h2⟩
      rw [h1, e1, List.append_assoc]; rfl

theorem path_of_accepts {env : Env} {b : Bld} {lab : NodeId → List Json} (ht : Trie env [] b lab) {s : Bytes}
    (opts : Nat) (annots : List Annot) {n : NodeId} {cs : List Json} {m : NodeId} (hw : FWalk b n cs m) :
    ∀ {off off' : Nat}, Accepts env s cs off off' → ∃ tr, Path env (b.toCtx opts annots) s n off tr m off' := by
  induction hw with
  | nil n => intro off off' h; cases h; exact ⟨[], .nil _ _⟩
  | @cons n nd c q cs m hn hq _ ih =>
    intro off off' h
    cases h with
    | @cons _ p _ _ len v _ hf hacc htail =>
      obtain ⟨tr, hp⟩ := ih htail
      have hqm : q ∈ nd.parsers := List.mem_of_find?_eq_some hq
      have hqc : q.conf = c := by simpa using List.find?_some hq
      obtain ⟨_, e2⟩ := ht.edge n nd hn q hqm
      rw [hqc, hf] at e2
      obtain ⟨i, hi⟩ := List.getElem?_of_mem hqm
      refine ⟨_, .cons (idx := i) (p := q) (len := len) (v := v) ?_ ?_ hp⟩
      · show ((b.heap n).getD {}).parsers[i]? = some q
        rw [hn]; exact hi
      · cases e2; exact hacc

theorem PlainGraph.flat {env : Env} {b : Bld} (ht : PlainGraph env b) (opts : Nat)
    (annots : List Annot) : Flat (b.toCtx opts annots) := by
  intro n p hp
  change p ∈ ((b.heap n).getD {}).parsers at hp
  cases hn : b.heap n with
  | none => rw [hn] at hp; simp at hp
  | some nd =>
    rw [hn] at hp
    obtain ⟨_, _, _, _, _, _, _, _, hflat, _⟩ := confField_spec (ht.field n nd hn p hp)
    exact hflat rfl

theorem Trie.flat {env : Env} {b : Bld} {lab : NodeId → List Json} (ht : Trie env [] b lab) (opts : Nat)
    (annots : List Annot) : Flat (b.toCtx opts annots) := ht.plain.flat opts annots

/-! ### growing any graph by plain fields -/

/-- all entries of all nodes are plain -/
def Bld.AllFlat (b : Bld) : Prop := ∀ n nd, b.heap n = some nd → ∀ q ∈ nd.parsers, q.kind.flat

theorem Bld.AllFlat.flat {b : Bld} (h : b.AllFlat) (opts : Nat) (annots : List Annot) :
    Flat (b.toCtx opts annots) := by
  intro n p hp
  change p ∈ ((b.heap n).getD {}).parsers at hp
  cases hn : b.heap n with
  | none => rw [hn] at hp; simp at hp
  | some nd => rw [hn] at hp; exact h n nd hn p hp

theorem Bld.AllFlat.of_flat {b : Bld} {opts : Nat} {annots : List Annot} (h : Flat (b.toCtx opts annots)) :
    b.AllFlat := by
  intro n nd hn q hq
  refine h n q ?_
  show q ∈ ((b.heap n).getD {}).parsers
  rw [hn]; exact hq

theorem addSeq_allFlat {env : Env} {E : List NodeId} : ∀ (cs : List Json) {b : Bld} {dag : NodeId} {x : Bld × Option NodeId},
    Inv b E → b.AllFlat → (b.heap dag).isSome → (∀ c ∈ cs, ∃ p, confField env [] c = some p) →
    addSeq env cs b dag = .ok x → x.1.AllFlat ∧ ∀ n, x.2 = some n → (x.1.heap n).isSome := by
  intro cs
  induction cs with
  | nil => intro b dag x _ hf hd _ h; cases h; exact ⟨hf, fun n hn => by cases hn; exact hd⟩
  | cons c cs ih =>
    intro b dag x hi hf hd hc h
    obtain ⟨p, hp⟩ := hc c (List.mem_cons_self ..)
    obtain ⟨nd, hn⟩ := Option.isSome_iff_exists.1 hd
    have hne : dag ≠ b.next := Nat.ne_of_lt (hi.range _ _ hn).2
    have heq := addParser_plain (confField_types hp b.types) hn hne
    have hmem := addParser_ok (env := env) (dag := dag) (conf := c) hi (.inr hd)
    have hc' : ∀ c ∈ cs, ∃ p, confField env [] c = some p := fun c hc' => hc c (List.mem_cons_of_mem _ hc')
    unfold addSeq at h
    cases hfd : nd.parsers.find? (fun q => decide (q.conf = c)) with
    | some q =>
      rw [hfd] at heq
      rw [heq] at h
      refine ih hi hf ?_ hc' h
      have hqm : q ∈ nd.parsers := List.mem_of_find?_eq_some hfd
      refine (hi.asc dag _ ?_).2
      unfold Bld.refsOf
      rw [hn]
      exact List.mem_flatMap.2 ⟨q, hqm, List.mem_cons_self ..⟩
    | none =>
      rw [hfd] at heq
      rw [heq] at h
      have h1 := hmem.ok_of heq
      dsimp only at h1
      obtain ⟨hi', g', _⟩ := h1
      have hheap : ∀ m, (b.append dag nd p).heap m = if m = dag then some (addEntry nd { p with node := b.next })
          else if m = b.next then some {} else b.heap m := fun m => rfl
      refine ih hi' ?_ ?_ hc' h
      · intro n nd' hn' q hq
        rw [hheap] at hn'
        by_cases h1 : n = dag
        · rw [if_pos h1] at hn'
          cases hn'
          have hq' : q ∈ nd.parsers ++ [{ p with node := b.next }] := by
            unfold addEntry at hq
            dsimp only at hq
            split at hq
            · cases hq
            · exact hq
          rcases List.mem_append.1 hq' with h2 | h2
          · exact hf dag nd hn q h2
          · rw [List.mem_singleton] at h2
            subst h2
            obtain ⟨_, _, _, _, _, _, _, _, hflat, _⟩ := confField_spec hp
            exact hflat rfl
        · rw [if_neg h1] at hn'
          by_cases h2 : n = b.next
          · rw [if_pos h2] at hn'; cases hn'; cases hq
          · rw [if_neg h2] at hn'
            exact hf n nd' hn' q hq
      · rw [hheap, if_neg (Ne.symm hne), if_pos rfl]; rfl

theorem addSamp_allFlat {env : Env} {E : List NodeId} {cs : List Json} {b b' : Bld} {dag : NodeId} {complete : Bool}
    {tags : Option (List Bytes)} {file : Bytes} {line : Nat}
    (hi : Inv b E) (hf : b.AllFlat) (hd : (b.heap dag).isSome) (hc : ∀ c ∈ cs, ∃ p, confField env [] c = some p)
    (h : addSamp env b dag cs complete tags file line = .ok b') : b'.AllFlat := by
  unfold addSamp at h
  have h := R.bind_eq_ok.1 h
  obtain ⟨⟨b1, r⟩, h1, h2⟩ := h
  obtain ⟨hf1, _⟩ := addSeq_allFlat cs hi hf hd hc h1
  cases r with
  | none => cases h2; exact hf1
  | some e =>
    dsimp only at h2
    split at h2
    · have h2 := R.bind_eq_ok.1 h2
      obtain ⟨nd, h3, h4⟩ := h2
      cases h4
      have hnd : b1.heap e = some nd := by
        unfold Bld.load at h3
        split at h3
        · rename_i nd0 hh; cases h3; exact hh
        · split at h3 <;> cases h3
      intro n nd' hn' q hq
      change (if n = e then some _ else b1.heap n) = some nd' at hn'
      by_cases hne : n = e
      · rw [if_pos hne] at hn'; cases hn'
        exact hf1 e nd hnd q hq
      · rw [if_neg hne] at hn'
        exact hf1 n nd' hn' q hq
    · cases h2; exact hf1

/-- after adding a rule of simple fields to any graph, it can be followed -/
theorem addSeq_walk {env : Env} {E : List NodeId} : ∀ (cs : List Json) {b : Bld} {dag : NodeId},
    Inv b E → (b.heap dag).isSome → (∀ c ∈ cs, ∃ p, confField env b.types c = some p) →
    ∃ b' e, addSeq env cs b dag = .ok (b', some e) ∧ Inv b' E ∧ Grow b b' ∧ (b'.heap e).isSome ∧
      (b'.wrapped = false → FWalk b' dag cs e) := by
  intro cs
  induction cs with
  | nil => intro b dag hi hd _; exact ⟨b, dag, rfl, hi, Grow.refl b, hd, fun _ => .nil _⟩
  | cons c cs ih =>
    intro b dag hi hd hc
    obtain ⟨p, hp⟩ := hc c (List.mem_cons_self ..)
    obtain ⟨nd, hn⟩ := Option.isSome_iff_exists.1 hd
    have hne : dag ≠ b.next := Nat.ne_of_lt (hi.range _ _ hn).2
    have heq := addParser_plain hp hn hne
    have hmem := addParser_ok (env := env) (dag := dag) (conf := c) hi (.inr hd)
    have hc' : ∀ c ∈ cs, ∃ p, confField env b.types c = some p := fun c hc' => hc c (List.mem_cons_of_mem _ hc')
    cases hfd : nd.parsers.find? (fun q => decide (q.conf = c)) with
    | some q =>
      rw [hfd] at heq
      have hqm : q ∈ nd.parsers := List.mem_of_find?_eq_some hfd
      have hql : (b.heap q.node).isSome := by
        refine (hi.asc dag _ ?_).2
        unfold Bld.refsOf
        rw [hn]
        exact List.mem_flatMap.2 ⟨q, hqm, List.mem_cons_self ..⟩
      obtain ⟨b2, e, h2, hi2, g2, he, hw⟩ := ih hi hql hc'
      refine ⟨b2, e, ?_, hi2, g2, he, ?_⟩
      · unfold addSeq; rw [heq]; exact h2
      · intro hwr
        obtain ⟨nd', a1, a2, _⟩ := g2.keep _ _ hn
        exact .cons a1 (find?_prefix (a2 hwr) hfd) (hw hwr)
    | none =>
      rw [hfd] at heq
      have h1 := hmem.ok_of heq
      dsimp only at h1
      obtain ⟨hi', g', _⟩ := h1
      have hheap : ∀ m, (b.append dag nd p).heap m = if m = dag then some (addEntry nd { p with node := b.next })
          else if m = b.next then some {} else b.heap m := fun m => rfl
      obtain ⟨b2, e, h2, hi2, g2, he, hw⟩ := ih (b := b.append dag nd p) (dag := b.next) hi'
        (by rw [hheap, if_neg (Ne.symm hne), if_pos rfl]; rfl) hc'
      refine ⟨b2, e, ?_, hi2, g'.trans g2, he, ?_⟩
      · unfold addSeq; rw [heq]; exact h2
      · intro hwr
        have hw1 := g2.wrapped hwr
        have hlen : ¬ nd.parsers.length + 1 = 256 := by
          have : (b.wrapped || decide (nd.parsers.length + 1 = 256)) = false := hw1
          rw [Bool.or_eq_false_iff] at this
          simpa using this.2
        have hpc : p.conf = c := by
          obtain ⟨_, _, _, _, _, h, _⟩ := confField_spec hp
          exact h
        have hh : (b.append dag nd p).heap dag = some (addEntry nd { p with node := b.next }) := by
          rw [hheap, if_pos rfl]
        obtain ⟨nd', a1, a2, _⟩ := g2.keep _ _ hh
        have hfe : (addEntry nd { p with node := b.next }).parsers.find? (fun q => q.conf = c) =
            some { p with node := b.next } := by
          have : (addEntry nd { p with node := b.next }).parsers = nd.parsers ++ [{ p with node := b.next }] := by
            simp [addEntry, hlen]
          rw [this, List.find?_append, hfd]
          simp [hpc]
        exact .cons a1 (find?_prefix (a2 hwr) hfe) (hw hwr)

/-! ### contexts which differ in tags and locations only -/

/-- same graph up to tags and rule locations -/
structure SameShape (c c' : Ctx) : Prop where
  parsers : ∀ n, (c'.node n).parsers = (c.node n).parsers
  term : ∀ n, (c'.node n).isTerminal = (c.node n).isTerminal
  root : c'.root = c.root
  types : c'.types = c.types
  opts : c'.opts = c.opts
  annots : c'.annots = c.annots

theorem SameShape.normRec {c c' : Ctx} (h : SameShape c c') (env : Env) (s : Bytes) :
    ∀ fuel, normRec env c' s fuel = normRec env c s fuel := by
  have hh : ∀ k, c'.has k = c.has k := fun k => by simp [Ctx.has, h.opts]
  have htp : ∀ rec fuel st offs p, tryParser env c' s rec fuel st offs p = tryParser env c s rec fuel st offs p := by
    intro rec fuel st offs p
    unfold tryParser
    rw [h.types]
  have htl : ∀ rec fuel dag offs part ps st pt json, tryLoop env c' s rec fuel dag offs part ps st pt json =
      tryLoop env c s rec fuel dag offs part ps st pt json := by
    intro rec fuel dag offs part ps
    induction ps with
    | nil => intro st pt json; rfl
    | cons p ps ih =>
      intro st pt json
      unfold tryLoop
      simp only [htp, ih, hh]
  intro fuel
  induction fuel with
  | zero => rfl
  | succ n ih =>
    unfold LN.normRec
    rw [ih]
    funext st dag offs part json
    unfold normStep
    simp only [h.parsers, h.term, htl]

end LN
