import Verif.Proofs.HeapOpt
import Verif.Spec.Ops
import Verif.Props.Examples
/-
C18: building, optimising and deleting parse graphs is memory safe, and deletion is complete.
-/
set_option autoImplicit false
namespace LN

/-- the references the context itself holds -/
def Bld.ctxRefs (b : Bld) : List NodeId := b.root :: b.types.map (·.2)

theorem initBld_inv : Inv initBld initBld.ctxRefs := by
  have h0 : Inv ({} : Bld) [] := by
    refine ⟨Nat.one_pos, ?_, ?_, ?_, ?_, ?_⟩
    all_goals intro x; simp [Bld.refsOf]
  have h1 := h0.newNode
  obtain ⟨⟨hpos, hrange, hasc, hext, hcnt, hexact⟩, _⟩ := h1
  exact ⟨hpos, hrange, hasc, hext, hcnt, hexact⟩

theorem addSamp_ctx {env : Env} {b : Bld} {dag : NodeId} {cs : List Json} {complete : Bool}
    {tags : Option (List Bytes)} {file : Bytes} {line : Nat} (h : Inv b b.ctxRefs)
    (hd : (b.heap dag).isSome) :
    Mem (fun x => Inv x x.ctxRefs ∧ (x.wrapped = false → b.wrapped = false))
      (addSamp env b dag cs complete tags file line) :=
  (addSamp_ok h (.inr hd)).mono fun x hx => by
    obtain ⟨h1, g⟩ := hx
    refine ⟨?_, g.wrapped⟩
    have : x.ctxRefs = b.ctxRefs := by rw [Bld.ctxRefs, Bld.ctxRefs, g.root, g.types]
    rw [this]; exact h1

theorem BOp.run_ok {env : Env} {srt : Sorter} {b : Bld} (h : Inv b b.ctxRefs) (op : BOp) :
    Mem (fun x => Inv x x.ctxRefs ∧ (x.wrapped = false → b.wrapped = false)) (op.run env srt b) := by
  cases op with
  | rule confs complete tags file line =>
    exact addSamp_ctx h (h.ext _ (List.mem_cons_self ..))
  | typeDef name confs complete tags file line =>
    show Mem _ (addSamp env (findTypeAdd b name).1 (findTypeAdd b name).2 confs complete tags file line)
    unfold findTypeAdd
    cases hf : b.types.find? (fun t => t.1 = name) with
    | some t =>
      refine addSamp_ctx h (h.ext _ ?_)
      exact List.mem_cons_of_mem _ (List.mem_map.2 ⟨t, List.mem_of_find?_eq_some hf, rfl⟩)
    | none =>
      have h1 := h.newNode
      have h2 : Inv { b.newPDAG.1 with types := b.newPDAG.1.types ++ [(name, b.newPDAG.2)] }
          ({ b.newPDAG.1 with types := b.newPDAG.1.types ++ [(name, b.newPDAG.2)] } : Bld).ctxRefs := by
        have h3 : Inv b.newPDAG.1 (b.root :: (b.types.map (·.2) ++ [b.newPDAG.2])) :=
          h1.1.perm (by
            rw [Bld.ctxRefs, ← List.cons_append]
            exact (List.perm_append_singleton _ _).symm)
        obtain ⟨hpos, hrange, hasc, hext, hcnt, hexact⟩ := h3
        have he : ({ b.newPDAG.1 with types := b.newPDAG.1.types ++ [(name, b.newPDAG.2)] } : Bld).ctxRefs =
            b.root :: (b.types.map (·.2) ++ [b.newPDAG.2]) := by
          simp [Bld.ctxRefs, Bld.newPDAG]
        rw [he]
        exact ⟨hpos, hrange, hasc, hext, hcnt, hexact⟩
      refine (addSamp_ctx h2 ?_).mono fun x hx => hx
      show (if b.next = b.next then some ({} : Node) else _).isSome
      rw [if_pos rfl]; rfl
  | optimize =>
    refine (pdagOptimize_ok (E := b.ctxRefs) (srt := srt) h (List.mem_cons_self ..) ?_).mono ?_
    · intro t ht
      exact List.mem_cons_of_mem _ (List.mem_map.2 ⟨t, ht, rfl⟩)
    · intro x hx
      obtain ⟨h1, _, h3, h4, h5, _⟩ := hx.frame h
      have : x.ctxRefs = b.ctxRefs := by rw [Bld.ctxRefs, Bld.ctxRefs, h3, h4]
      rw [this]
      exact ⟨h1, fun hw => by rw [← h5]; exact hw⟩

theorem foldOps_ok {env : Env} {srt : Sorter} : ∀ (ops : List BOp) (b : Bld), Inv b b.ctxRefs →
    Mem (fun x => Inv x x.ctxRefs) (ops.foldlM (BOp.run env srt) b)
  | [], b, h => h
  | op :: ops, b, h => by
    rw [List.foldlM_cons]
    exact Mem.bind (BOp.run_ok h op) fun x hx => foldOps_ok ops x hx.1

theorem runOps_inv {env : Env} {srt : Sorter} (ops : List BOp) :
    Mem (fun x => Inv x x.ctxRefs) (runOps env srt ops) := foldOps_ok ops _ initBld_inv

/-- **C18** Whatever rules and types are added in whatever order, with any number of optimiser
runs between, no operation touches a freed node or runs forever. -/
theorem C18_no_use_after_free (env : Env) (srt : Sorter) (ops : List BOp) :
    runOps env srt ops ≠ .ub .useAfterFree ∧ runOps env srt ops ≠ .oof := by
  have h := runOps_inv (env := env) (srt := srt) ops
  constructor
  · intro he; rw [he] at h; exact h rfl
  · intro he; rw [he] at h; exact h

/-- **C18** Deleting the context after such a history succeeds: no node is freed twice, none is
read after it was freed; and no node remains allocated, unless some node ever got 256
parsers (see `C18_complete_violated`). -/
theorem C18_delete_complete_partial (env : Env) (srt : Sorter) (ops : List BOp) (b : Bld)
    (h : runOps env srt ops = .ok b) :
    ∃ b', exitBld b = .ok b' ∧ (b.wrapped = false → ∀ n, b'.heap n = none) := by
  have hi := (runOps_inv (env := env) (srt := srt) ops).ok_of h
  obtain ⟨b', h1, h2, h3⟩ := pdagDelete_list b.ctxRefs b [] 0 (by rw [List.append_nil]; exact hi)
    (fun r _ => Nat.zero_le r)
  refine ⟨b', h1, fun hw => h2.empty ?_⟩
  rw [h3.wrapped]; exact hw

/-- deleting visits every node at most once: the number of nodes freed is the number of nodes
there were. (Freeing a node a second time would be a use after free in the model, as its
reference count is read first.) -/
theorem C18_second_free_detected (fuel : Nat) (b : Bld) (n : NodeId) (hn : n ≠ 0) (hf : b.heap n = none) :
    deleteF (fuel + 1) b n = .ub .useAfterFree := by
  unfold deleteF
  rw [if_neg hn]
  simp [Bld.load, hf, hn, R.bind]


/-! ### a concrete sorter and rule bases -/

def insertPrio (p : Parser) : List Parser → List Parser
  | [] => [p]
  | q :: l => if p.prio ≤ q.prio then p :: q :: l else q :: insertPrio p l

def isortPrio : List Parser → List Parser
  | [] => []
  | p :: l => insertPrio p (isortPrio l)

theorem insertPrio_perm (p : Parser) : ∀ l, (insertPrio p l).Perm (p :: l)
  | [] => .refl _
  | q :: l => by
    unfold insertPrio
    split
    · exact .refl _
    · exact ((insertPrio_perm p l).cons q).trans (.swap p q l)

theorem insertPrio_sorted (p : Parser) : ∀ l : List Parser, l.Pairwise (fun p q => p.prio ≤ q.prio) →
    (insertPrio p l).Pairwise fun p q => p.prio ≤ q.prio
  | [], _ => by simp [insertPrio]
  | q :: l, h => by
    rw [List.pairwise_cons] at h
    unfold insertPrio
    split
    · rename_i hc
      rw [List.pairwise_cons, List.pairwise_cons]
      refine ⟨?_, h⟩
      intro x hx
      rcases List.mem_cons.1 hx with rfl | hx
      · exact hc
      · exact Int.le_trans hc (h.1 x hx)
    · rename_i hc
      rw [List.pairwise_cons]
      refine ⟨?_, insertPrio_sorted p l h.2⟩
      intro x hx
      rcases List.mem_cons.1 ((insertPrio_perm p l).mem_iff.1 hx) with rfl | hx
      · omega
      · exact h.1 x hx

/-- a stable sort (what glibc's `qsort` does for arrays of this size) -/
def stableSorter : Sorter where
  sort := isortPrio
  perm := by
    intro l
    induction l with
    | nil => exact .refl _
    | cons p l ih => exact (insertPrio_perm p _).trans (ih.cons p)
  sorted := by
    intro l _
    have h : ∀ l : List Parser, (isortPrio l).Pairwise fun p q => p.prio ≤ q.prio := by
      intro l
      induction l with
      | nil => exact .nil
      | cons p l ih => exact insertPrio_sorted p _ ih
    exact h l

namespace Ex

/-- configuration of a literal parser, as built from rule text (samp.c:52-91) -/
def litConf (t : Bytes) : Json := .obj [(bs! "type", .str (bs! "literal")), (bs! "text", .str t)]
/-- configuration of a named field -/
def fieldConf (name type : Bytes) : Json := .obj [(bs! "name", .str name), (bs! "type", .str type)]

def litRule (t : Bytes) : BOp := .rule [litConf t] true none (bs! "rb") 1

/-- the parser instance a literal configuration yields -/
def litP (t : Bytes) (n : NodeId) : Parser :=
  { kind := .literal (some (cstr t)), node := n, prio := prioOf 30000 4, name := none, conf := litConf t }

theorem newParser_lit (env : Env) (rec : AddRec) (b : Bld) (t : Bytes) :
    newParser env rec b (litConf t) = .ok (b, some (litP t 0)) := by
  have h1 : (litConf t).ptr (bs! "type") = some (.str (bs! "literal")) := rfl
  have h2 : confName env (litConf t) = none := rfl
  have h3 : confRest env (litConf t) = [(bs! "text", .str t)] := by
    unfold confRest; rw [h2]; rfl
  unfold newParser
  rw [h1, h3]
  have h4 : strOf env (.str (bs! "literal")) = some (bs! "literal") := rfl
  have h5 : parserPrio (bs! "literal") = some 4 := by decide
  simp only [Option.bind, h4, h5]
  rw [h2]
  have h6 : construct env (bs! "literal") [(bs! "text", .str t)] = .ok (.literal (some (cstr t))) := by
    unfold construct
    rw [if_pos rfl]
    rfl
  rw [h6]
  rfl

theorem foldlM_append {α β : Type} (f : α → β → R α) : ∀ (l l' : List β) (a : α),
    (l ++ l').foldlM f a = (l.foldlM f a).bind fun a => l'.foldlM f a
  | [], l', a => rfl
  | x :: l, l', a => by
    rw [List.cons_append, List.foldlM_cons, List.foldlM_cons]
    cases f a x with
    | ok y => exact foldlM_append f l l' y
    | _ => rfl

/-- adding a rule which is one literal not seen before -/
theorem addSamp_lit (env : Env) (b : Bld) (dag : NodeId) (nd : Node) (t : Bytes) (f : Bytes) (ln : Nat)
    (hn : b.heap dag = some nd) (hne : dag ≠ b.next)
    (hf : nd.parsers.find? (fun q => q.conf = litConf t) = none) :
    addSamp env b dag [litConf t] true none f ln = .ok
      ({ b.newPDAG.1.store dag (addEntry nd (litP t b.next)) with
          wrapped := b.wrapped || decide (nd.parsers.length + 1 = 256) }.store b.next
        { isTerminal := true, rbFile := some f, rbLine := ln }) := by
  have hl : b.load dag = .ok nd := by simp [Bld.load, hn]
  have hl1 : b.newPDAG.1.load dag = .ok nd := by simp [Bld.load, Bld.newPDAG, hn, hne]
  have key : addParser env b dag (litConf t) = .ok
      ({ b.newPDAG.1.store dag (addEntry nd (litP t b.next)) with
          wrapped := b.wrapped || decide (nd.parsers.length + 1 = 256) }, some b.next) := by
    unfold addParser
    rw [show (litConf t).depth = 1 + 1 from rfl]
    unfold addF
    unfold addStep
    show ((addInstance env (addF env 1) b (litConf t) dag 0).bind _).bind _ = _
    unfold addInstance
    have hf' : nd.parsers.find? (fun q => decide (q.conf = (litP t 0).conf)) = none := hf
    simp only [newParser_lit, R.ok_bind', hl, hf', ↓reduceIte, hl1]
    rfl
  unfold addSamp addSeq
  rw [key]
  show (R.ok _).bind _ = _
  simp only [addSeq, R.bind]
  have : (if b.next = dag then some (addEntry nd (litP t b.next)) else
      if b.next = b.next then some ({} : Node) else b.heap b.next) = some {} := by
    rw [if_neg (fun h => hne h.symm), if_pos rfl]
  simp [Bld.load, Bld.store, Bld.newPDAG, R.bind, Ne.symm hne]

/-- 256 rules with different first literal -/
def manyRules : List BOp := (List.range 256).map fun i => litRule [UInt8.ofNat i]

/-- after `k` of these rules -/
structure Many (b : Bld) (k : Nat) : Prop where
  root : b.root = 1
  types : b.types = []
  next : b.next = k + 2
  wr : b.wrapped = false
  tab : ∃ nd, b.heap 1 = some nd ∧ nd.refcnt = 1 ∧
    nd.parsers = (List.range k).map fun i => litP [UInt8.ofNat i] (i + 2)
  two : 0 < k → (b.heap 2).isSome

theorem many_find (k : Nat) (hk : k < 256) : ((List.range k).map fun i => litP [UInt8.ofNat i] (i + 2)).find?
    (fun q => q.conf = litConf [UInt8.ofNat k]) = none := by
  rw [List.find?_eq_none]
  intro q hq
  obtain ⟨i, hi, rfl⟩ := List.mem_map.1 hq
  rw [List.mem_range] at hi
  simp only [litP, litConf, decide_eq_true_eq]
  intro h
  have h1 : UInt8.ofNat i = UInt8.ofNat k := by simpa using h
  have h2 := congrArg UInt8.toNat h1
  simp only [UInt8.toNat_ofNat'] at h2
  omega

theorem many_step (env : Env) (srt : Sorter) (b : Bld) (k : Nat) (hk : k < 255) (h : Many b k) :
    ∃ b', (litRule [UInt8.ofNat k]).run env srt b = .ok b' ∧ Many b' (k + 1) := by
  obtain ⟨nd, hn, hrc, hps⟩ := h.tab
  have hne : (1 : NodeId) ≠ b.next := by rw [h.next]; exact Nat.ne_of_lt (by omega)
  refine ⟨_, by
    show addSamp env b b.root [litConf [UInt8.ofNat k]] true none (bs! "rb") 1 = _
    rw [h.root]
    exact addSamp_lit env b 1 nd _ _ _ hn hne (by rw [hps]; exact many_find k (by omega)), ?_⟩
  have hlen : (nd.parsers ++ [litP [UInt8.ofNat k] b.next]).length = k + 1 := by rw [hps]; simp
  refine ⟨h.root, h.types, ?_, ?_, ⟨addEntry nd (litP [UInt8.ofNat k] b.next), ?_, hrc, ?_⟩, ?_⟩
  · show b.next + 1 = _; rw [h.next]
  · show (b.wrapped || decide (nd.parsers.length + 1 = 256)) = false
    rw [h.wr, hps]; simp; omega
  · show (if (1 : NodeId) = b.next then some _ else if (1 : NodeId) = 1 then some _ else (b.newPDAG.1).heap 1) = _
    rw [if_neg hne, if_pos rfl]
  · show (if (nd.parsers ++ [litP [UInt8.ofNat k] b.next]).length = 256 then [] else _) = _
    rw [hlen, if_neg (by omega), hps, h.next, List.range_succ]
    simp
  · intro _
    simp only [Bld.heap_store, Bld.newPDAG]
    by_cases h2 : (2 : NodeId) = b.next
    · rw [if_pos h2]; rfl
    · rw [if_neg h2, if_neg (by decide), if_neg h2]
      refine h.two ?_
      rw [h.next] at h2
      rcases Nat.eq_zero_or_pos k with rfl | hp
      · exact absurd rfl h2
      · exact hp

theorem many_all (env : Env) (srt : Sorter) : ∀ k, k ≤ 255 → ∃ b,
    ((List.range k).map fun i => litRule [UInt8.ofNat i]).foldlM (BOp.run env srt) initBld = .ok b ∧ Many b k
  | 0, _ => ⟨initBld, rfl, rfl, rfl, rfl, rfl, ⟨{}, rfl, rfl, rfl⟩, fun h => absurd h (by decide)⟩
  | k + 1, hk => by
    obtain ⟨b, h1, h2⟩ := many_all env srt k (by omega)
    obtain ⟨b', h3, h4⟩ := many_step env srt b k (by omega) h2
    refine ⟨b', ?_, h4⟩
    rw [List.range_succ, List.map_append, foldlM_append, h1]
    show ([litRule [UInt8.ofNat k]].foldlM (BOp.run env srt) b) = _
    rw [List.foldlM_cons, h3]
    rfl

end Ex

/-- **C18 violated** The number of parsers of a node is kept in 8 bits: after 256 rules with
different beginnings the node is empty, and deleting the context leaves nodes allocated. -/
theorem C18_complete_violated (env : Env) (srt : Sorter) : ∃ (ops : List BOp) (b b' : Bld),
    ops.length = 256 ∧ runOps env srt ops = .ok b ∧ exitBld b = .ok b' ∧ ∃ n, (b'.heap n).isSome := by
  obtain ⟨b, h1, h2⟩ := Ex.many_all env srt 255 (by omega)
  obtain ⟨nd, hn, hrc, hps⟩ := h2.tab
  have hne : (1 : NodeId) ≠ b.next := by rw [h2.next]; decide
  have h3 := Ex.addSamp_lit env b 1 nd [UInt8.ofNat 255] (bs! "rb") 1 hn hne
    (by rw [hps]; exact Ex.many_find 255 (by omega))
  let b1 : Bld := ({ b.newPDAG.1.store 1 (addEntry nd (Ex.litP [UInt8.ofNat 255] b.next)) with
          wrapped := b.wrapped || decide (nd.parsers.length + 1 = 256) }.store b.next
        { isTerminal := true, rbFile := some (bs! "rb"), rbLine := 1 })
  refine ⟨Ex.manyRules, b1, b1.free 1, by simp [Ex.manyRules], ?_, ?_, 2, ?_⟩
  · unfold runOps Ex.manyRules
    rw [show (256 : Nat) = 255 + 1 from rfl, List.range_succ, List.map_append, Ex.foldlM_append, h1]
    show ([Ex.litRule [UInt8.ofNat 255]].foldlM (BOp.run env srt) b) = _
    rw [List.foldlM_cons]
    show (addSamp env b b.root [Ex.litConf [UInt8.ofNat 255]] true none (bs! "rb") 1).bind _ = _
    rw [h2.root, h3]; rfl
  · have hheap : b1.heap 1 = some (addEntry nd (Ex.litP [UInt8.ofNat 255] b.next)) := by
      show (if (1 : NodeId) = b.next then some _ else if (1 : NodeId) = 1 then some _ else (b.newPDAG.1).heap 1) = _
      rw [if_neg hne, if_pos rfl]
    have hlen : (nd.parsers ++ [Ex.litP [UInt8.ofNat 255] b.next]).length = 256 := by rw [hps]; simp
    have hpar : (addEntry nd (Ex.litP [UInt8.ofNat 255] b.next)).parsers = [] := by
      show (if (nd.parsers ++ [Ex.litP [UInt8.ofNat 255] b.next]).length = 256 then [] else _) = _
      rw [if_pos hlen]
    have hdel : pdagDelete b1 1 = .ok (b1.free 1) := by
      unfold pdagDelete deleteF
      rw [if_neg (by decide)]
      simp only [Bld.load, hheap, R.bind]
      rw [hpar]
      rw [if_neg (by rw [show (addEntry nd (Ex.litP [UInt8.ofNat 255] b.next)).refcnt = nd.refcnt from rfl, hrc]; decide)]
      rfl
    unfold exitBld
    rw [show b1.types = [] from h2.types, show b1.root = 1 from h2.root]
    show ([1].foldlM pdagDelete b1) = _
    rw [List.foldlM_cons, hdel]; rfl
  · show (if (2 : NodeId) = 1 then none else b1.heap 2).isSome
    rw [if_neg (by decide)]
    simp only [b1, Bld.heap_store, Bld.newPDAG]
    have h22 : (2 : NodeId) ≠ b.next := by rw [h2.next]; decide
    rw [if_neg h22, if_neg (by decide), if_neg h22]
    exact h2.two (by omega)

namespace Ex

/-- a history with a user-defined type, alternatives, `repeat`, a shared prefix, a duplicate and
two optimiser runs -/
def history : List BOp := [
  .typeDef (bs! "@num") [fieldConf (bs! "n") (bs! "number")] true none (bs! "rb") 1,
  .rule [litConf (bs! "a"), litConf (bs! "b"), fieldConf (bs! "x") (bs! "@num")] true
    (some [bs! "t"]) (bs! "rb") 2,
  .rule [litConf (bs! "a"), litConf (bs! "c"), .obj [(bs! "type", .str (bs! "alternative")),
    (bs! "parser", .arr [fieldConf (bs! "w") (bs! "word"), fieldConf (bs! "n") (bs! "number")])]]
    true none (bs! "rb") 3,
  .rule [.obj [(bs! "name", .str (bs! "l")), (bs! "type", .str (bs! "repeat")),
    (bs! "parser", .arr [fieldConf (bs! "n") (bs! "number")]), (bs! "while", .arr [litConf (bs! ",")])]]
    true none (bs! "rb") 4,
  .rule [litConf (bs! "p"), litConf (bs! "q"), litConf (bs! "r")] true none (bs! "rb") 5,
  .optimize,
  .rule [litConf (bs! "a"), litConf (bs! "b"), fieldConf (bs! "x") (bs! "@num")] true
    (some [bs! "t"]) (bs! "rb") 2,
  .optimize]

/-- the history succeeds without overflow, the graph has nodes, and all of them are freed -/
example : (match runOps env stableSorter history with
    | .ok b => !b.wrapped && b.next == 17 && ((List.range b.next).filter fun n => (b.heap n).isSome).length == 14 &&
      (match exitBld b with
       | .ok b' => (List.range b.next).all fun n => (b'.heap n).isNone
       | _ => false)
    | _ => false) = true := by decide +kernel

end Ex

end LN
