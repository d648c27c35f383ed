import Verif.Proofs.Match
import Verif.Proofs.Engine
/- What `ln_normalize` does around the search. -/
namespace LN

/-! ### objects -/

@[simp] theorem Obj.get_nil (k : Bytes) : Obj.get [] k = none := rfl
theorem Obj.get_add_self (o : Obj) (k : Bytes) (v : Json) : (Obj.add o k v).get k = some v := by
  induction o with
  | nil => simp [Obj.add, Obj.get]
  | cons m o ih =>
    obtain ⟨k', v'⟩ := m
    simp only [Obj.add]
    split
    · simp [Obj.get]
    · rename_i h; simp [Obj.get, h, ih]
theorem Obj.get_add_ne (o : Obj) {k k' : Bytes} (v : Json) (h : k' ≠ k) :
    (Obj.add o k v).get k' = o.get k' := by
  induction o with
  | nil => simp [Obj.add, Obj.get, Ne.symm h]
  | cons m o ih =>
    obtain ⟨k'', v'⟩ := m
    simp only [Obj.add]
    split
    · rename_i h2
      subst h2
      simp [Obj.get, Ne.symm h]
    · simp only [Obj.get, ih]
theorem Obj.get_append (a b : Obj) (k : Bytes) :
    Obj.get (a ++ b) k = (Obj.get a k).or (Obj.get b k) := by
  induction a with
  | nil => simp
  | cons m a ih =>
    obtain ⟨k', v'⟩ := m
    simp only [List.cons_append, Obj.get, ih]
    split <;> simp

/-! ### annotations -/

/-- the operations that the annotations of these tags contain -/
def annotOpsOf (as : List Annot) (tags : List Bytes) : List AnnotOp :=
  tags.flatMap fun t => match findAnnot as t with | some a => a.ops | none => []

theorem applyOps_get {ops : List AnnotOp} {o o' : Obj} (h : applyOps ops o = .ok o') (k : Bytes) :
    (o'.get k = o.get k ∧ ∀ op ∈ ops, op.add = true → ∃ n, op.name = some n ∧ cstr n ≠ k) ∨
    ∃ op ∈ ops, op.add = true ∧ ∃ n v, op.name = some n ∧ op.value = some v ∧ cstr n = k ∧
      o'.get k = some (newString v) := by
  induction ops generalizing o with
  | nil => simp [applyOps] at h; subst h; simp
  | cons op ops ih =>
    simp only [applyOps] at h
    by_cases ha : op.add = true
    · simp only [ha, if_true] at h
      split at h
      · rename_i v n hv hn
        rcases ih h with ⟨h1, h2⟩ | ⟨op', h1, h2⟩
        · by_cases hk : cstr n = k
          · right
            refine ⟨op, by simp, ha, n, v, hn, hv, hk, ?_⟩
            rw [h1, ← hk, Obj.get_add_self]
          · left
            refine ⟨?_, ?_⟩
            · rw [h1, Obj.get_add_ne _ _ (Ne.symm hk)]
            · intro op' hop' ha'
              rcases List.mem_cons.1 hop' with rfl | hop'
              · exact ⟨n, hn, hk⟩
              · exact h2 op' hop' ha'
        · exact .inr ⟨op', by simp [h1], h2⟩
      · cases h
    · simp only [ha, Bool.false_eq_true, if_false] at h
      rcases ih h with ⟨h1, h2⟩ | ⟨op', h1, h2⟩
      · left
        refine ⟨h1, ?_⟩
        intro op' hop' ha'
        rcases List.mem_cons.1 hop' with rfl | hop'
        · exact absurd ha' ha
        · exact h2 op' hop' ha'
      · exact .inr ⟨op', by simp [h1], h2⟩

/-- `ln_annotate` seen as recursion from the last tag -/
theorem annotate_snoc (as : List Annot) (o : Obj) (ts : List Bytes) (t : Bytes) :
    annotate as o (ts ++ [t]) = (annotateTag as t o).bind fun o => annotate as o ts := by
  unfold annotate
  rw [List.reverse_append]
  simp only [List.reverse_cons, List.reverse_nil, List.nil_append, List.singleton_append,
    List.foldl_cons]
  have : ∀ (l : List Bytes) (x : R Obj),
      l.foldl (fun acc t => acc.bind fun o => annotateTag as t o) x =
      x.bind fun o => l.foldl (fun acc t => acc.bind fun o => annotateTag as t o) (.ok o) := by
    intro l
    induction l with
    | nil => intro x; cases x <;> rfl
    | cons a l ih =>
      intro x
      simp only [List.foldl_cons]
      rw [ih]
      cases x with
      | ok a' => simp only [R.ok_bind']; rw [← ih]
      | _ => rfl
  rw [this]
  rfl

theorem annotate_nil (as : List Annot) (o : Obj) : annotate as o [] = .ok o := rfl

theorem annotate_get {as : List Annot} {ts : List Bytes} {o o' : Obj}
    (h : annotate as o ts = .ok o') (k : Bytes) :
    (o'.get k = o.get k ∧
      ∀ op ∈ annotOpsOf as ts, op.add = true → ∃ n, op.name = some n ∧ cstr n ≠ k) ∨
    ∃ op ∈ annotOpsOf as ts, op.add = true ∧ ∃ n v, op.name = some n ∧ op.value = some v ∧
      cstr n = k ∧ o'.get k = some (newString v) := by
  induction hl : ts.length generalizing ts o with
  | zero =>
    have : ts = [] := List.length_eq_zero_iff.1 hl
    subst this
    rw [annotate_nil] at h; cases h
    left; simp [annotOpsOf]
  | succ n ih =>
    have hne : ts ≠ [] := by intro h0; simp [h0] at hl
    obtain ⟨ts', t, rfl⟩ : ∃ ts' t, ts = ts' ++ [t] :=
      ⟨ts.dropLast, ts.getLast hne, (List.dropLast_concat_getLast hne).symm⟩
    rw [annotate_snoc, R.bind'_eq_ok] at h
    obtain ⟨o1, h1, h2⟩ := h
    have hmem : ∀ op, op ∈ annotOpsOf as (ts' ++ [t]) ↔ op ∈ annotOpsOf as ts' ∨
        ∃ a, findAnnot as t = some a ∧ op ∈ a.ops := by
      intro op
      simp only [annotOpsOf, List.flatMap_append, List.mem_append, List.flatMap_cons,
        List.flatMap_nil, List.append_nil]
      cases findAnnot as t <;> simp
    have hlen : ts'.length = n := by simpa using hl
    rcases ih h2 hlen with ⟨h3, h4⟩ | ⟨op, h3, h4⟩
    · unfold annotateTag at h1
      cases hf : findAnnot as t with
      | none =>
        simp only [hf] at h1; cases h1
        left
        refine ⟨h3, ?_⟩
        intro op hop
        rcases (hmem op).1 hop with h5 | ⟨a, h5, _⟩
        · exact h4 op h5
        · rw [hf] at h5; cases h5
      | some a =>
        simp only [hf] at h1
        rcases applyOps_get h1 k with ⟨h5, h6⟩ | ⟨op, h5, h6, n, v, h7, h8, h9, h10⟩
        · left
          refine ⟨by rw [h3, h5], ?_⟩
          intro op hop
          rcases (hmem op).1 hop with h7 | ⟨a', h7, h8⟩
          · exact h4 op h7
          · rw [hf] at h7; cases h7; exact h6 op h8
        · right
          exact ⟨op, (hmem op).2 (.inr ⟨a, hf, h5⟩), h6, n, v, h7, h8, h9, by rw [h3, h10]⟩
    · exact .inr ⟨op, (hmem op).2 (.inl h3), h4⟩

/-! ### finishing a match -/

theorem addRuleMetadata_get {ctx : Ctx} {rule : Bytes} {e : NodeId} {o o' : Obj}
    (h : addRuleMetadata ctx rule e o = .ok o') {k : Bytes} (hk : k ≠ bs! "metadata") :
    o'.get k = o.get k := by
  unfold addRuleMetadata at h
  rw [R.bind'_eq_ok] at h
  obtain ⟨mr, _, h⟩ := h
  rw [R.bind'_eq_ok] at h
  obtain ⟨mr', _, h⟩ := h
  cases mr' with
  | none => simp at h; subst h; rfl
  | some m => simp at h; subst h; exact Obj.get_add_ne _ _ hk

theorem addRuleMetadata_off {ctx : Ctx} {rule : Bytes} {e : NodeId} {o : Obj}
    (h8 : ctx.has 0x08 = false) (h10 : ctx.has 0x10 = false) :
    addRuleMetadata ctx rule e o = .ok o := by
  simp [addRuleMetadata, metaMockup, metaLocation, h8, h10]

theorem strrev_ok {rule c : Bytes} (hs : strrev rule = .ok c) : c = rule.reverse := by
  unfold strrev at hs; split at hs
  · cases hs
  · cases hs; rfl

theorem addRuleMetadata_on {ctx : Ctx} {rule : Bytes} {e : NodeId} {o o' : Obj}
    (h : addRuleMetadata ctx rule e o = .ok o') (hopt : ctx.has 0x08 = true ∨ ctx.has 0x10 = true) :
    o'.get (bs! "metadata") = some (.obj [(bs! "rule", .obj (
      (if ctx.has 0x08 then [(bs! "mockup", newString rule.reverse)] else []) ++
      (if ctx.has 0x10 then [(bs! "location", Json.obj [
          (bs! "file", newString ((ctx.node e).rbFile.getD [])),
          (bs! "line", .int (ctx.node e).rbLine)])] else [])))]) := by
  unfold addRuleMetadata at h
  rw [R.bind'_eq_ok] at h
  obtain ⟨mr, hmr, h⟩ := h
  rw [R.bind'_eq_ok] at h
  obtain ⟨mr', hmr', h⟩ := h
  have h1 : mr = if ctx.has 0x08 then some [(bs! "mockup", newString rule.reverse)] else none := by
    unfold metaMockup at hmr
    split at hmr
    · rename_i h8
      rw [R.bind'_eq_ok] at hmr
      obtain ⟨c, hc, hmr⟩ := hmr
      rw [strrev_ok hc] at hmr
      rw [if_pos h8]; cases hmr; rfl
    · rename_i h8; rw [if_neg h8]; cases hmr; rfl
  unfold metaLocation at hmr'
  by_cases h10 : ctx.has 0x10 = true
  · rw [if_pos h10] at hmr'
    cases hf : (ctx.node e).rbFile with
    | none => simp [hf] at hmr'
    | some f =>
      simp only [hf, R.ok.injEq] at hmr'
      subst hmr'
      simp only [R.ok.injEq] at h
      rw [← h, Obj.get_add_self, h1, if_pos h10]
      by_cases h8 : ctx.has 0x08 = true <;> simp [h8, Obj.add]
  · rw [if_neg h10] at hmr'
    have h8 : ctx.has 0x08 = true := by
      rcases hopt with h | h
      · exact h
      · exact absurd h h10
    cases hmr'
    rw [if_pos h8] at h1
    subst h1
    simp only [R.ok.injEq] at h
    rw [← h, Obj.get_add_self, if_pos h8, if_neg h10]; rfl

theorem finishMatch_get {ctx : Ctx} {s rule : Bytes} {e : NodeId} {o o' : Obj}
    (h : finishMatch ctx s rule e o = .ok o') {k : Bytes} (h1 : k ≠ bs! "event.tags")
    (h2 : k ≠ bs! "originalmsg") (h3 : k ≠ bs! "metadata") :
    (o'.get k = o.get k ∧ ∀ op ∈ annotOpsOf ctx.annots ((ctx.node e).tags.getD []),
        op.add = true → ∃ n, op.name = some n ∧ cstr n ≠ k) ∨
    ∃ op ∈ annotOpsOf ctx.annots ((ctx.node e).tags.getD []), op.add = true ∧
      ∃ n v, op.name = some n ∧ op.value = some v ∧ cstr n = k ∧ o'.get k = some (newString v) := by
  unfold finishMatch at h
  rw [R.bind'_eq_ok] at h
  obtain ⟨o1, ho1, h⟩ := h
  unfold addTags at ho1
  have hg := addRuleMetadata_get h h3
  have hg' : o'.get k = o1.get k := by
    rw [hg]; split
    · exact Obj.get_add_ne _ _ h2
    · rfl
  rw [hg']
  cases ht : (ctx.node e).tags with
  | none =>
    simp only [ht, R.ok.injEq] at ho1
    subst ho1
    left; simp [annotOpsOf]
  | some ts =>
    simp only [ht] at ho1
    have := annotate_get ho1 k
    rw [Obj.get_add_ne _ _ h1] at this
    exact this

/-! ### normalize -/

/-- `u` is the furthest position any sequence of fields from the root can reach -/
def Furthest (env : Env) (ctx : Ctx) (s : Bytes) (u : Nat) : Prop :=
  (∃ tr m, Path env ctx s ctx.root 0 tr m u) ∧
  ∀ tr m off, Path env ctx s ctx.root 0 tr m off → off ≤ u

theorem firstEnd_isTerminal {ctx : Ctx} {s : Bytes} {part : Bool} {e : NodeId} :
    ∀ {tr : List Step} {n : NodeId} {off : Nat}, firstEnd ctx s part n off tr = some e →
      (ctx.node e).isTerminal = true
  | [], n, off, h => by
    simp only [firstEnd] at h
    split at h
    · cases h; rename_i hc; simp only [CanEnd, Bool.and_eq_true] at hc; exact hc.1
    · cases h
  | st :: tr, n, off, h => by
    simp only [firstEnd] at h
    split at h
    · cases h; rename_i hc; simp only [CanEnd, Bool.and_eq_true] at hc; exact hc.1
    · exact firstEnd_isTerminal h

theorem Path.firstEnd_isSome {env : Env} {ctx : Ctx} {s : Bytes} {part : Bool} {n m : NodeId}
    {off off' : Nat} {tr : List Step} (h : Path env ctx s n off tr m off')
    (ht : CanEnd ctx s part m off' = true) : (firstEnd ctx s part n off tr).isSome = true := by
  induction h with
  | nil n off => simp [firstEnd, ht]
  | cons hidx hacc htail ih =>
    simp only [firstEnd]
    split
    · rfl
    · exact ih ht

theorem Matches.firstEnd_isSome {env : Env} {ctx : Ctx} {s : Bytes} {part : Bool} {n : NodeId}
    {off : Nat} {tr : List Step} (h : Matches env ctx s part n off tr) :
    ∃ e, firstEnd ctx s part n off tr = some e := by
  obtain ⟨m, off', hp, ht, he⟩ := h
  have : CanEnd ctx s part m off' = true := by
    simp only [CanEnd, ht, Bool.true_and, Bool.or_eq_true, decide_eq_true_eq]
    exact he.symm
  exact Option.isSome_iff_exists.1 (hp.firstEnd_isSome this)

theorem normalize_cases {env : Env} {fuel : Nat} {ctx : Ctx} {stats : NodeId → Stats} {s : Bytes}
    {json0 : Obj} {res : Res} (hflat : Flat ctx)
    (h : normalize env fuel ctx stats s json0 = .ok res) :
    (res.ok = true ∧ ∃ tr e, Matches env ctx s false ctx.root 0 tr ∧
      (∀ tr', Matches env ctx s false ctx.root 0 tr' →
        TriedBefore (tr.map Step.idx) (tr'.map Step.idx)) ∧
      firstEnd ctx s false ctx.root 0 tr = some e ∧
      finishMatch ctx s (ruleAdd ctx tr) e (storeFields json0 tr) = .ok res.json) ∨
    (res.ok = false ∧ (∀ tr, ¬ Matches env ctx s false ctx.root 0 tr) ∧
      ∃ u, u ≤ s.length ∧ Furthest env ctx s u ∧
        res.json = Obj.add (Obj.add json0 (bs! "originalmsg") (.str s)) (bs! "unparsed-data")
          (newString (s.drop u))) := by
  unfold normalize at h
  rw [R.bind_eq_ok] at h
  obtain ⟨r, hr, h⟩ := h
  have hS := normRec_post hflat false fuel _ _ _ _ _ hr
  cases hm : r.matched with
  | true =>
    left
    obtain ⟨tr, h1, h2, h3, h4, h5⟩ := hS.hit hm
    obtain ⟨e, he⟩ := h1.firstEnd_isSome
    rw [he] at h3
    have ht := firstEnd_isTerminal he
    simp only [hm, h3, ht, if_true] at h
    rw [R.bind_eq_ok] at h
    obtain ⟨o, ho, h⟩ := h
    simp only [R.pure_eq, R.ok.injEq] at h
    subst h
    refine ⟨rfl, tr, e, h1, h5, he, ?_⟩
    rw [storeR_eq, R.ok.injEq] at h2
    rw [← h2] at ho
    simp only [h4, List.nil_append, Option.getD_some] at ho
    exact ho
  | false =>
    right
    obtain ⟨h1, h2, h3⟩ := hS.miss hm
    simp only [hm] at h
    rw [R.bind_eq_ok] at h
    obtain ⟨o, ho, h⟩ := h
    simp only [R.pure_eq, R.ok.injEq] at h
    subst h
    refine ⟨rfl, h3, r.st.parsedTo, ?_⟩
    unfold addUnparsedField at ho
    simp only at ho
    split at ho
    · cases ho
    · rename_i hlen
      simp only [R.ok.injEq] at ho
      refine ⟨by omega, ⟨?_, ?_⟩, ?_⟩
      · rcases hS.att with h6 | ⟨tr, m, _, hp⟩
        · rw [h6]; exact ⟨[], ctx.root, .nil _ _⟩
        · exact ⟨tr, m, hp⟩
      · intro tr m off hp
        cases tr with
        | nil => cases hp; exact Nat.zero_le _
        | cons hd tl => exact hS.far hm _ m off (by simp) hp
      · rw [← ho, h1]; rfl

end LN
