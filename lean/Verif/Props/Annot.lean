import Verif.Model.Annot
import Verif.Props.Match
/- C12: annotations. -/
namespace LN

theorem combineAnnot_ops (a add : Annot) (op : AnnotOp) :
    op ∈ (combineAnnot a add).ops ↔ op ∈ a.ops ∨ op ∈ add.ops := by
  unfold combineAnnot
  have : ∀ (l : List AnnotOp) (a : Annot),
      op ∈ (l.foldl addAnnotOp a).ops ↔ op ∈ a.ops ∨ op ∈ l := by
    intro l
    induction l with
    | nil => simp
    | cons x l ih =>
      intro a
      rw [List.foldl_cons, ih]
      simp only [addAnnotOp, List.mem_cons]
      constructor
      · rintro ((h | h) | h)
        · exact .inr (.inl h)
        · exact .inl h
        · exact .inr (.inr h)
      · rintro (h | h | h)
        · exact .inl (.inr h)
        · exact .inl (.inl h)
        · exact .inr h
  exact this _ _

theorem combineAnnot_tag (a add : Annot) : (combineAnnot a add).tag = a.tag := by
  unfold combineAnnot
  have : ∀ (l : List AnnotOp) (a : Annot), (l.foldl addAnnotOp a).tag = a.tag := by
    intro l
    induction l with
    | nil => simp
    | cons x l ih => intro a; rw [List.foldl_cons, ih]; rfl
  exact this _ _

/-- operations found for a tag -/
def opsFor (as : List Annot) (t : Bytes) : List AnnotOp :=
  match findAnnot as t with | some a => a.ops | none => []

theorem annotOpsOf_mem (as : List Annot) (tags : List Bytes) (op : AnnotOp) :
    op ∈ annotOpsOf as tags ↔ ∃ t ∈ tags, op ∈ opsFor as t := by
  simp only [annotOpsOf, List.mem_flatMap, opsFor]
  rfl

theorem opsFor_upd (a : Annot) (as : List Annot) (b : Annot) (h : findAnnot as a.tag = some b)
    (t : Bytes) (op : AnnotOp) :
    op ∈ opsFor (addAnnotToSet.upd a as) t ↔ op ∈ opsFor as t ∨ (t = a.tag ∧ op ∈ a.ops) := by
  induction as with
  | nil => simp [findAnnot] at h
  | cons c as ih =>
    simp only [addAnnotToSet.upd]
    by_cases hc : c.tag = a.tag
    · rw [if_pos hc]
      simp only [opsFor, findAnnot, combineAnnot_tag]
      by_cases ht : c.tag = t
      · simp only [ht, if_true, combineAnnot_ops]
        rw [← ht, hc]; simp
      · simp only [ht, if_false]
        constructor
        · exact .inl
        · rintro (h' | ⟨rfl, _⟩)
          · exact h'
          · exact absurd hc ht
    · rw [if_neg hc]
      have h' : findAnnot as a.tag = some b := by simpa [findAnnot, hc] using h
      simp only [opsFor, findAnnot]
      by_cases ht : c.tag = t
      · simp only [ht, if_true]
        constructor
        · exact .inl
        · rintro (h'' | ⟨rfl, _⟩)
          · exact h''
          · exact absurd ht hc
      · simp only [ht, if_false]
        exact ih h'

theorem opsFor_add (a : Annot) (as : List Annot) (t : Bytes) (op : AnnotOp) :
    op ∈ opsFor (addAnnotToSet as a) t ↔ op ∈ opsFor as t ∨ (t = a.tag ∧ op ∈ a.ops) := by
  unfold addAnnotToSet
  cases h : findAnnot as a.tag with
  | some b => exact opsFor_upd a as b h t op
  | none =>
    simp only [opsFor, findAnnot]
    by_cases ht : a.tag = t
    · subst ht; simp [h]
    · simp [ht, Ne.symm ht]

/-- Whatever the order and number of `annotate=` lines, the operations applied for a tag are
exactly those given for that tag in some line. -/
theorem C12_annotations_accumulate (l : List Annot) (t : Bytes) (op : AnnotOp) :
    op ∈ opsFor (annotSet l) t ↔ ∃ a ∈ l, a.tag = t ∧ op ∈ a.ops := by
  have : ∀ (l as : List Annot), op ∈ opsFor (l.foldl addAnnotToSet as) t ↔
      op ∈ opsFor as t ∨ ∃ a ∈ l, a.tag = t ∧ op ∈ a.ops := by
    intro l
    induction l with
    | nil => simp
    | cons x l ih =>
      intro as
      rw [List.foldl_cons, ih, opsFor_add]
      simp only [List.mem_cons, exists_eq_or_imp, or_assoc]
      constructor
      · rintro (h | ⟨h1, h2⟩ | h)
        · exact .inl h
        · exact .inr (.inl ⟨h1.symm, h2⟩)
        · exact .inr (.inr h)
      · rintro (h | ⟨h1, h2⟩ | h)
        · exact .inl h
        · exact .inr (.inl ⟨h1.symm, h2⟩)
        · exact .inr (.inr h)
  rw [annotSet, this]
  simp [opsFor, findAnnot]

/-- "the field `k` is set to `v` by an annotation for one of the tags" -/
def Annotated (lines : List Annot) (tags : List Bytes) (k v : Bytes) : Prop :=
  ∃ a ∈ lines, a.tag ∈ tags ∧ ∃ op ∈ a.ops, op.add = true ∧ op.name.map cstr = some k ∧
    op.value = some v

/-- C12: let the annotation set be the one built from the annotate lines `lines`, and let an event
with tags `tags` be finished (any rulebase).  Then every field that an annotation for one of the event's
tags adds is present, with a value some such annotation gives for it; and every field which no
annotation of the event's tags names is left as it was. (`event.tags`, `originalmsg`, `metadata`
are set by the library itself.) -/
theorem C12_annotations_exact {ctx : Ctx} {s rule : Bytes} {e : NodeId} {o o' : Obj}
    {lines : List Annot} (hset : ctx.annots = annotSet lines)
    (h : finishMatch ctx s rule e o = .ok o') (k : Bytes)
    (h1 : k ≠ bs! "event.tags") (h2 : k ≠ bs! "originalmsg") (h3 : k ≠ bs! "metadata") :
    ((∃ v, Annotated lines ((ctx.node e).tags.getD []) k v) →
      ∃ v, Annotated lines ((ctx.node e).tags.getD []) k v ∧ o'.get k = some (newString v)) ∧
    ((¬ ∃ v, Annotated lines ((ctx.node e).tags.getD []) k v) → o'.get k = o.get k) := by
  have hmem : ∀ op, op ∈ annotOpsOf ctx.annots ((ctx.node e).tags.getD []) ↔
      ∃ a ∈ lines, a.tag ∈ (ctx.node e).tags.getD [] ∧ op ∈ a.ops := by
    intro op
    rw [annotOpsOf_mem, hset]
    simp only [C12_annotations_accumulate]
    constructor
    · rintro ⟨t, ht, a, ha, rfl, hop⟩; exact ⟨a, ha, ht, hop⟩
    · rintro ⟨a, ha, ht, hop⟩; exact ⟨a.tag, ht, a, ha, rfl, hop⟩
  rcases finishMatch_get h h1 h2 h3 with ⟨h5, h6⟩ | ⟨op, h5, h6, n, v, h7, h8, h9, h10⟩
  · refine ⟨?_, fun _ => h5⟩
    rintro ⟨v, a, ha, ht, op, hop, hadd, hn, hv⟩
    obtain ⟨n, hn', hne⟩ := h6 op ((hmem op).2 ⟨a, ha, ht, hop⟩) hadd
    rw [hn'] at hn
    simp at hn
    exact absurd hn hne
  · obtain ⟨a, ha, ht, hop⟩ := (hmem op).1 h5
    have : Annotated lines ((ctx.node e).tags.getD []) k v :=
      ⟨a, ha, ht, op, hop, h6, by rw [h7, ← h9]; rfl, h8⟩
    exact ⟨fun _ => ⟨v, this, h10⟩, fun hn => absurd ⟨v, this⟩ hn⟩

/-- two lines for the same tag, one for another: both fields of `t` are added -/
example : ∃ o', finishMatch { Ex.ctx1 with opts := 0, annots := annotSet [
      ⟨bs! "num", [⟨true, some (bs! "a"), some (bs! "1")⟩]⟩,
      ⟨bs! "oth", [⟨true, some (bs! "c"), some (bs! "3")⟩]⟩,
      ⟨bs! "num", [⟨true, some (bs! "b"), some (bs! "2")⟩]⟩] } (bs! "a 12") [] 2 [] = .ok o' ∧
    o' = [(bs! "event.tags", .arr [.str (bs! "num")]), (bs! "b", .str (bs! "2")),
      (bs! "a", .str (bs! "1"))] := ⟨_, rfl, rfl⟩

end LN
