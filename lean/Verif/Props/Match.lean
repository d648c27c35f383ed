import Verif.Proofs.Finish
import Verif.Props.Examples
/-
C01-C05, C09-C11, C13: matching, for rulebases made of plain fields (no user-defined types, no
`repeat`; hypothesis `Flat`).  `normalize env fuel ctx stats s json0 = .ok res` says that
`ln_normalize` on message `s` finished without undefined behaviour; `res.ok` is "returned 0".
-/
namespace LN

variable {env : Env} {fuel : Nat} {ctx : Ctx} {stats : NodeId → Stats} {s : Bytes}
  {json0 : Obj} {res : Res}

/-! ### C01 -/

/-- C01: success means that some rule matches the complete message, and every member of the
result not owned by tags, annotations, metadata or original message comes from placing exactly
the values that rule's fields extracted. (Not covered: user-defined types and repeat.) -/
theorem C01_match_is_real_partial (hflat : Flat ctx)
    (h : normalize env fuel ctx stats s json0 = .ok res) (hok : res.ok = true) :
    ∃ tr m, Path env ctx s ctx.root 0 tr m s.length ∧ (ctx.node m).isTerminal = true ∧
      ∃ e, firstEnd ctx s false ctx.root 0 tr = some e ∧
      ∀ k, k ≠ bs! "event.tags" → k ≠ bs! "originalmsg" → k ≠ bs! "metadata" →
        (∀ op ∈ annotOpsOf ctx.annots ((ctx.node e).tags.getD []), op.name.map cstr ≠ some k) →
        res.json.get k = Obj.get (storeFields json0 tr) k := by
  rcases normalize_cases hflat h with ⟨_, tr, e, ⟨m, off', hp, ht, he⟩, _, hfe, hfin⟩ | ⟨h1, _⟩
  · rcases he with he | he
    · cases he
    · subst he
      refine ⟨tr, m, hp, ht, e, hfe, ?_⟩
      intro k h1 h2 h3 h4
      rcases finishMatch_get hfin h1 h2 h3 with ⟨h5, _⟩ | ⟨op, h5, _, n, v, h6, _, h7, _⟩
      · exact h5
      · exact absurd (by rw [h6, ← h7]; rfl) (h4 op h5)
  · rw [hok] at h1; cases h1

/-- Without special field names, what is placed are exactly the extracted fields, appended to the
object passed in. -/
theorem C01_plain_fields (json0 : Obj) (tr : List Step) (h : ∀ st ∈ tr, st.Plain) :
    storeFields json0 tr = json0 ++ extracted tr := by
  induction tr with
  | nil => simp [storeFields, extracted]
  | cons st tr ih =>
    have h1 := h st (by simp)
    have h2 := ih (fun st' hst' => h st' (by simp [hst']))
    have h3 : storeFields json0 (st :: tr) = place (storeFields json0 tr) st.field.name st.value := rfl
    rw [h3, h2]
    have h4 : extracted (st :: tr) = extracted tr ++
        (st.field.name.map fun nm => (nm, st.value.getD .null)).toList := by
      simp only [extracted, List.reverse_cons, List.filterMap_append]
      cases hn : st.field.name <;> simp [hn]
    rw [h4]
    unfold place
    cases hn : st.field.name with
    | none => simp
    | some nm =>
      have hnd : nm ≠ bs! "." := by intro h5; exact h1.1 (by rw [hn, h5])
      simp only
      rw [if_neg hnd]
      have h6 : unwrapDotDot (st.value.getD .null) = st.value.getD .null := by
        unfold unwrapDotDot
        split
        · rename_i k x hv
          split
          · rename_i hk
            subst hk
            cases hv' : st.value with
            | none => rw [hv'] at hv; cases hv
            | some v => rw [hv'] at hv; simp at hv; exact absurd (by rw [hv', hv]) (h1.2 x)
          · rfl
        · rfl
      rw [h6]; simp

/-- The extracted text of consecutive fields tiles the message: each field starts where the
previous one ended, the first at 0 and the last ends at the end of the message. -/
theorem C01_fields_tile {n m : NodeId} {off off' : Nat} {tr : List Step}
    (h : Path env ctx s n off tr m off') :
    off' = off + (tr.map Step.len).sum ∧
    ∀ i (hi : i < tr.length), tr[i].start = off + ((tr.take i).map Step.len).sum := by
  induction h with
  | nil n off => simp
  | cons hidx hacc htail ih =>
    refine ⟨by simp [ih.1]; omega, ?_⟩
    intro i hi
    cases i with
    | zero => simp
    | succ i =>
      simp only [List.getElem_cons_succ, List.take_succ_cons, List.map_cons, List.sum_cons]
      rw [ih.2 i (by simpa using hi)]; omega

example : ∃ res, normalize Ex.env 5 Ex.ctx1 Ex.stats0 (bs! "a 12") [] = .ok res ∧ res.ok = true ∧
    Flat Ex.ctx1 := ⟨_, rfl, rfl, Ex.flat1⟩

/-! ### C02 -/

/-- C02: a message is matched iff some rule of the rulebase matches it; backtracking loses
nothing. -/
theorem C02_complete_partial (hflat : Flat ctx)
    (h : normalize env fuel ctx stats s json0 = .ok res) :
    res.ok = true ↔ ∃ tr m, Path env ctx s ctx.root 0 tr m s.length ∧
      (ctx.node m).isTerminal = true := by
  constructor
  · intro hok
    obtain ⟨tr, m, hp, ht, _⟩ := C01_match_is_real_partial hflat h hok
    exact ⟨tr, m, hp, ht⟩
  · rintro ⟨tr, m, hp, ht⟩
    rcases normalize_cases hflat h with ⟨h1, _⟩ | ⟨_, h1, _⟩
    · exact h1
    · exact absurd ⟨m, s.length, hp, ht, .inr rfl⟩ (h1 tr)

/-- a case which needs backtracking: `12x` is no number, the second alternative matches -/
example : Ex.obs (normalize Ex.env 5 { Ex.ctx1 with opts := 0 } Ex.stats0 (bs! "a 12x") []) =
    .ok (true, [(bs! "w", .str (bs! "12x")),
      (bs! "event.tags", .arr [.str (bs! "wrd"), .str (bs! "x")])]) := rfl

/-! ### C03 -/

/-- C03: the rule selected is the first in the order in which the alternatives are listed in the
nodes (which is by priority once the graph is sorted, see `C03_sorted_alternatives`). -/
theorem C03_first_alternative_wins_partial (hflat : Flat ctx)
    (h : normalize env fuel ctx stats s json0 = .ok res) (hok : res.ok = true) :
    ∃ tr e, Matches env ctx s false ctx.root 0 tr ∧
      firstEnd ctx s false ctx.root 0 tr = some e ∧
      finishMatch ctx s (ruleAdd ctx tr) e (storeFields json0 tr) = .ok res.json ∧
      ∀ tr', Matches env ctx s false ctx.root 0 tr' →
        TriedBefore (tr.map Step.idx) (tr'.map Step.idx) := by
  rcases normalize_cases hflat h with ⟨_, tr, e, h1, h2, h3, h4⟩ | ⟨h1, _⟩
  · exact ⟨tr, e, h1, h3, h4, h2⟩
  · rw [hok] at h1; cases h1

/-- the order is total on the rules that match, so the selected rule is unique -/
theorem C03_order_antisymm : ∀ {a b : List Nat}, TriedBefore a b → TriedBefore b a → a = b
  | [], [], _, _ => rfl
  | [], _ :: _, h, _ => by simp [TriedBefore] at h
  | _ :: _, [], _, h => by simp [TriedBefore] at h
  | a :: as, b :: bs, h, h' => by
    simp only [TriedBefore] at h h'
    rcases h with h | ⟨h1, h2⟩
    · rcases h' with h' | ⟨h1', _⟩ <;> omega
    · rcases h' with h' | ⟨_, h2'⟩
      · omega
      · rw [h1, C03_order_antisymm h2 h2']

/-- both alternatives match "a 12"; the number (first) wins -/
example : ∃ tr tr', Matches Ex.env Ex.ctx1 (bs! "a 12") false 0 0 tr ∧
    Matches Ex.env Ex.ctx1 (bs! "a 12") false 0 0 tr' ∧ tr.map Step.idx = [0, 0] ∧
    tr'.map Step.idx = [0, 1] := by
  refine ⟨[_, _], [_, _], ⟨2, 4, .cons (idx := 0) rfl rfl (.cons (idx := 0) rfl rfl (.nil _ _)), rfl, .inr rfl⟩,
    ⟨3, 4, .cons (idx := 0) rfl rfl (.cons (idx := 1) rfl rfl (.nil _ _)), rfl, .inr rfl⟩, rfl, rfl⟩

/-! ### C04, C05 -/

/-- C04: without a match the result consists of the object passed in plus the complete message and
a suffix of it; no extracted field leaks. -/
theorem C04_nonmatch_intact_partial (hflat : Flat ctx)
    (h : normalize env fuel ctx stats s [] = .ok res) (hno : res.ok = false) :
    ∃ u, u ≤ s.length ∧ res.json =
      [(bs! "originalmsg", .str s), (bs! "unparsed-data", newString (s.drop u))] := by
  rcases normalize_cases hflat h with ⟨h1, _⟩ | ⟨_, _, u, hu, _, h2⟩
  · rw [hno] at h1; cases h1
  · exact ⟨u, hu, h2⟩

/-- C05: unparsed-data starts at the furthest position any sequence of fields from the root can
reach. -/
theorem C05_unparsed_furthest_partial (hflat : Flat ctx)
    (h : normalize env fuel ctx stats s json0 = .ok res) (hno : res.ok = false) :
    ∃ u, (∃ tr m, Path env ctx s ctx.root 0 tr m u) ∧
      (∀ tr m off, Path env ctx s ctx.root 0 tr m off → off ≤ u) ∧
      res.json.get (bs! "unparsed-data") = some (newString (s.drop u)) ∧
      res.json.get (bs! "originalmsg") = some (.str s) := by
  rcases normalize_cases hflat h with ⟨h1, _⟩ | ⟨_, _, u, hu, ⟨h3, h4⟩, h2⟩
  · rw [hno] at h1; cases h1
  · refine ⟨u, h3, h4, ?_, ?_⟩
    · rw [h2, Obj.get_add_self]
    · rw [h2, Obj.get_add_ne _ _ (by decide), Obj.get_add_self]

example : ∃ res, normalize Ex.env 5 Ex.ctx1 Ex.stats0 (bs! "a 12 b") [] = .ok res ∧ res.ok = false ∧
    res.json = [(bs! "originalmsg", .str (bs! "a 12 b")), (bs! "unparsed-data", .str (bs! " b"))] :=
  ⟨_, rfl, rfl, rfl⟩

/-! ### C09 -/

/-- C09 (placement): fields without a name contribute nothing. -/
theorem C09_unnamed_contribute_nothing (json0 : Obj) (tr : List Step) :
    storeFields json0 tr = storeFields json0 (tr.filter fun st => st.field.name.isSome) := by
  induction tr with
  | nil => rfl
  | cons st tr ih =>
    have h3 : ∀ t, storeFields json0 (st :: t) = place (storeFields json0 t) st.field.name st.value :=
      fun _ => rfl
    rw [h3, ih]
    cases hn : st.field.name with
    | none => simp [hn, place]
    | some nm => simp [hn, h3]

theorem foldl_add_get (ms : Obj) (o : Obj) (k : Bytes) (h : ∀ m ∈ ms, m.1 ≠ k) :
    Obj.get (ms.foldl (fun o m => Obj.add o m.1 m.2) o) k = o.get k := by
  induction ms generalizing o with
  | nil => rfl
  | cons m ms ih =>
    rw [List.foldl_cons, ih _ (fun m' hm' => h m' (by simp [hm'])),
      Obj.get_add_ne _ _ (Ne.symm (h m (by simp)))]

theorem storeFields_get (json0 : Obj) (tr : List Step) (k : Bytes)
    (hcon : ¬ ((∃ st ∈ tr, st.field.name = some k) ∨
        (∃ st ∈ tr, st.field.name = some (bs! ".") ∧ ∃ ms, st.value = some (.obj ms) ∧
          ∃ m ∈ ms, m.1 = k))) : Obj.get (storeFields json0 tr) k = json0.get k := by
  induction tr with
  | nil => rfl
  | cons st tr ih =>
    have hrec := ih (fun hc => hcon (by
      rcases hc with ⟨st', hm, hx⟩ | ⟨st', hm, hx⟩
      · exact .inl ⟨st', by simp [hm], hx⟩
      · exact .inr ⟨st', by simp [hm], hx⟩))
    have h3 : storeFields json0 (st :: tr) =
      place (storeFields json0 tr) st.field.name st.value := rfl
    rw [h3]
    have hnk : st.field.name ≠ some k := fun hx => hcon (.inl ⟨st, by simp, hx⟩)
    unfold place
    cases hn : st.field.name with
    | none => exact hrec
    | some nm =>
      have hne : nm ≠ k := fun hx => hnk (by rw [hn, hx])
      have happ : ∀ v, Obj.get (storeFields json0 tr ++ [(nm, v)]) k = json0.get k := by
        intro v
        rw [Obj.get_append, hrec]
        simp [Obj.get, hne]
      simp only
      split
      · rename_i hdot
        split
        · rename_i ms hv
          rw [foldl_add_get, hrec]
          intro m hm hmk
          exact hcon (.inr ⟨st, by simp, by rw [hn, hdot], ms, hv, m, hm, hmk⟩)
        · exact happ _
      · exact happ _

/-- C09: every member of the result that was not there before comes from a named field (or the
members of the object of a field named `.`), an annotation, or is one of the reserved members. -/
theorem C09_only_named_fields_show_partial (hflat : Flat ctx)
    (h : normalize env fuel ctx stats s json0 = .ok res) (hok : res.ok = true) :
    ∃ tr e, Matches env ctx s false ctx.root 0 tr ∧
      firstEnd ctx s false ctx.root 0 tr = some e ∧
      ∀ k, res.json.get k ≠ json0.get k →
        k = bs! "event.tags" ∨ k = bs! "originalmsg" ∨ k = bs! "metadata" ∨
        (∃ op ∈ annotOpsOf ctx.annots ((ctx.node e).tags.getD []), op.name.map cstr = some k) ∨
        (∃ st ∈ tr, st.field.name = some k) ∨
        (∃ st ∈ tr, st.field.name = some (bs! ".") ∧ ∃ ms, st.value = some (.obj ms) ∧
          ∃ m ∈ ms, m.1 = k) := by
  rcases normalize_cases hflat h with ⟨_, tr, e, h1, _, h3, h4⟩ | ⟨h1, _⟩
  · refine ⟨tr, e, h1, h3, ?_⟩
    intro k hk
    by_cases k1 : k = bs! "event.tags"
    · exact .inl k1
    by_cases k2 : k = bs! "originalmsg"
    · exact .inr (.inl k2)
    by_cases k3 : k = bs! "metadata"
    · exact .inr (.inr (.inl k3))
    right; right; right
    rcases finishMatch_get h4 k1 k2 k3 with ⟨h5, _⟩ | ⟨op, h5, _, n, v, h6, _, h7, _⟩
    · right
      rw [h5] at hk
      apply Classical.byContradiction
      intro hcon
      exact hk (storeFields_get json0 tr k hcon)
    · exact .inl ⟨op, h5, by rw [h6, ← h7]; rfl⟩
  · rw [hok] at h1; cases h1

/-- the literal of `Ex.ctx1` is unnamed and leaves no trace; the number field does -/
example : ∃ res, normalize Ex.env 5 { Ex.ctx1 with opts := 0 } Ex.stats0 (bs! "a 7") [] = .ok res ∧
    res.json = [(bs! "n", .str (bs! "7")), (bs! "event.tags", .arr [.str (bs! "num")]),
      (bs! "kind", .str (bs! "numeric"))] := ⟨_, rfl, rfl⟩

/-! ### C10 -/

/-- C10: what the code stores for a field is what the documentation says: `.` merges the members
of an object, a compound with the single member `..` is replaced by that member, every other
value is added unchanged under the name, unnamed fields not at all. -/
theorem C10_placement_documented (o : Obj) (name : Option Bytes) (value : Option Json) :
    fixJSON (some o) name value = .ok (some (
      match name with
      | none => o
      | some nm =>
        if nm = bs! "." then
          match value with
          | some (.obj ms) => ms.foldl (fun o m => Obj.add o m.1 m.2) o
          | v => o ++ [(nm, v.getD .null)]
        else
          match value with
          | some (.obj [(k, x)]) => if k = bs! ".." then o ++ [(nm, x)] else o ++ [(nm, .obj [(k, x)])]
          | v => o ++ [(nm, v.getD .null)])) := by
  rw [fixJSON_eq]
  unfold place
  cases name with
  | none => rfl
  | some nm =>
    simp only
    split
    · rfl
    · cases value with
      | none => rfl
      | some v =>
        cases v with
        | obj ms =>
          match ms with
          | [] => rfl
          | [(k, v)] =>
            simp only [unwrapDotDot, Option.getD_some]
            split <;> rfl
          | _ :: _ :: _ => rfl
        | _ => rfl

example : fixJSON (some [(bs! "x", .int 1)]) (some (bs! ".")) (some (.obj [(bs! "a", .int 2), (bs! "x", .int 3)]))
    = .ok (some [(bs! "x", .int 3), (bs! "a", .int 2)]) := rfl
example : fixJSON (some []) (some (bs! "f")) (some (.obj [(bs! "..", .int 2)]))
    = .ok (some [(bs! "f", .int 2)]) := rfl

/-! ### C11 -/

theorem addTags_tags {ctx : Ctx} {e : NodeId} {o o' : Obj} (h : addTags ctx e o = .ok o')
    (hann : ∀ op ∈ annotOpsOf ctx.annots ((ctx.node e).tags.getD []),
      op.name.map cstr ≠ some (bs! "event.tags")) :
    o'.get (bs! "event.tags") = match (ctx.node e).tags with
      | some ts => some (.arr (ts.map Json.str))
      | none => o.get (bs! "event.tags") := by
  unfold addTags at h
  cases ht : (ctx.node e).tags with
  | none => simp only [ht, R.ok.injEq] at h; subst h; rfl
  | some ts =>
    simp only [ht] at h
    simp only [ht, Option.getD_some] at hann
    rcases annotate_get h (bs! "event.tags") with ⟨h5, _⟩ | ⟨op, h5, _, n, v, h6, _, h7, _⟩
    · rw [h5, Obj.get_add_self]
    · exact absurd (by rw [h6, ← h7]; rfl) (hann op h5)

theorem finishMatch_tags {ctx : Ctx} {s rule : Bytes} {e : NodeId} {o o' : Obj}
    (h : finishMatch ctx s rule e o = .ok o')
    (hann : ∀ op ∈ annotOpsOf ctx.annots ((ctx.node e).tags.getD []),
      op.name.map cstr ≠ some (bs! "event.tags")) :
    o'.get (bs! "event.tags") = match (ctx.node e).tags with
      | some ts => some (.arr (ts.map Json.str))
      | none => o.get (bs! "event.tags") := by
  unfold finishMatch at h
  rw [R.bind'_eq_ok] at h
  obtain ⟨o1, h1, h⟩ := h
  rw [addRuleMetadata_get h (by decide), ← addTags_tags h1 hann]
  split
  · exact Obj.get_add_ne _ _ (by decide)
  · rfl

/-- if every field of the rule but the first starts before the end of the message, only the last
node of the path can be an end -/
theorem firstEnd_last {n m : NodeId} {off : Nat} {tr : List Step}
    (hp : Path env ctx s n off tr m s.length) (ht : (ctx.node m).isTerminal = true)
    (hne : ∀ st ∈ tr, st.start < s.length) :
    firstEnd ctx s false n off tr = some m := by
  generalize hend : s.length = L at hp
  induction hp with
  | nil n off => subst hend; simp [firstEnd, CanEnd, ht]
  | cons hidx hacc htail ih =>
    rename_i n off idx p len v tr m off'
    have h0 := hne ⟨idx, p, off, len, v⟩ (by simp)
    simp only at h0
    have : CanEnd ctx s false n off = false := by
      simp [CanEnd]; intro _; omega
    simp only [firstEnd, this, Bool.false_eq_true, if_false]
    exact ih ht (fun st hst => hne st (by simp [hst])) hend

/-- C11: if the fields of the matching rule all start before the end of the message, event.tags
consists of exactly the tags of this rule (unless an annotation sets event.tags itself), and is not
touched if the rule has none.  Missing: rules whose last fields match the empty text at the end of the
message (see `C11_tags_of_other_rule_violated`), user-defined types, repeat. -/
theorem C11_tags_of_matched_rule_partial (hflat : Flat ctx)
    (h : normalize env fuel ctx stats s json0 = .ok res) (hok : res.ok = true) :
    ∃ tr m, Path env ctx s ctx.root 0 tr m s.length ∧ (ctx.node m).isTerminal = true ∧
      ((∀ st ∈ tr, st.start < s.length) →
       (∀ op ∈ annotOpsOf ctx.annots ((ctx.node m).tags.getD []),
          op.name.map cstr ≠ some (bs! "event.tags")) →
       res.json.get (bs! "event.tags") = match (ctx.node m).tags with
        | some ts => some (.arr (ts.map Json.str))
        | none => Obj.get (storeFields json0 tr) (bs! "event.tags")) := by
  rcases normalize_cases hflat h with ⟨_, tr, e, ⟨m, off', hp, ht, he⟩, _, h3, h4⟩ | ⟨h1, _⟩
  · rcases he with he | he
    · cases he
    subst he
    refine ⟨tr, m, hp, ht, ?_⟩
    intro hst hann
    have := firstEnd_last hp ht hst
    rw [h3, Option.some.injEq] at this
    subst this
    exact finishMatch_tags h4 hann
  · rw [hok] at h1; cases h1

example : ∃ res, normalize Ex.env 5 Ex.ctx1 Ex.stats0 (bs! "a b") [] = .ok res ∧ res.ok = true ∧
    res.json.get (bs! "event.tags") = some (.arr [.str (bs! "wrd"), .str (bs! "x")]) :=
  ⟨_, rfl, rfl, rfl⟩

/-- rules `rule=a:x` and `rule=b:x%r:rest%` -/
def Ex.ctxTags : Ctx where
  node := fun n => match n with
    | 0 => { parsers := [Ex.lit (bs! "x") 1] }
    | 1 => { isTerminal := true, tags := some [bs! "a"], parsers := [
        { kind := .rest, node := 2, prio := 255, name := some (bs! "r"), conf := .null }] }
    | 2 => { isTerminal := true, tags := some [bs! "b"] }
    | _ => {}
  root := 0

/-- C11 is violated: the result carries the field extracted by rule `b` and the tags of rule
`a`. -/
theorem C11_tags_of_other_rule_violated :
    Ex.obs (normalize Ex.env 5 Ex.ctxTags Ex.stats0 (bs! "x") []) =
      .ok (true, [(bs! "r", .str []), (bs! "event.tags", .arr [.str (bs! "a")])]) := rfl

/-! ### C13 -/

theorem ruleAdd_on {ctx : Ctx} (h : ctx.has 0x08 = true) (tr : List Step) :
    (ruleAdd ctx tr).reverse = mockup tr := by simp [ruleAdd, h]

/-- C13: with the options set, metadata is exactly the mockup of the matching rule and file and
line of the rule found (the first rule that can end along the path, cf. C11).  Missing: user-defined
types, repeat. -/
theorem C13_metadata_partial (hflat : Flat ctx)
    (h : normalize env fuel ctx stats s json0 = .ok res) (hok : res.ok = true)
    (hopt : ctx.has 0x08 = true ∨ ctx.has 0x10 = true) :
    ∃ tr e, Matches env ctx s false ctx.root 0 tr ∧
      firstEnd ctx s false ctx.root 0 tr = some e ∧
      res.json.get (bs! "metadata") = some (.obj [(bs! "rule", .obj (
        (if ctx.has 0x08 then [(bs! "mockup", newString (mockup tr))] else []) ++
        (if ctx.has 0x10 then [(bs! "location", Json.obj [
            (bs! "file", newString ((ctx.node e).rbFile.getD [])),
            (bs! "line", .int (ctx.node e).rbLine)])] else [])))]) := by
  rcases normalize_cases hflat h with ⟨_, tr, e, h1, _, h3, h4⟩ | ⟨h1, _⟩
  · refine ⟨tr, e, h1, h3, ?_⟩
    unfold finishMatch at h4
    rw [R.bind'_eq_ok] at h4
    obtain ⟨o1, _, h4⟩ := h4
    rw [addRuleMetadata_on h4 hopt]
    by_cases h8 : ctx.has 0x08 = true
    · simp only [h8, ruleAdd_on h8]
    · simp [h8]
  · rw [hok] at h1; cases h1

/-- C13: without the options no metadata is added (any rulebase). -/
theorem C13_no_option_no_metadata {rule : Bytes} {e : NodeId} {o o' : Obj}
    (h8 : ctx.has 0x08 = false) (h10 : ctx.has 0x10 = false)
    (h : finishMatch ctx s rule e o = .ok o')
    (hann : ∀ op ∈ annotOpsOf ctx.annots ((ctx.node e).tags.getD []),
      op.name.map cstr ≠ some (bs! "metadata")) :
    o'.get (bs! "metadata") = o.get (bs! "metadata") := by
  unfold finishMatch at h
  rw [R.bind'_eq_ok] at h
  obtain ⟨o1, h1, h⟩ := h
  rw [addRuleMetadata_off h8 h10, R.ok.injEq] at h
  have : o'.get (bs! "metadata") = o1.get (bs! "metadata") := by
    rw [← h]; split
    · exact Obj.get_add_ne _ _ (by decide)
    · rfl
  rw [this]
  unfold addTags at h1
  cases ht : (ctx.node e).tags with
  | none => simp only [ht, R.ok.injEq] at h1; rw [h1]
  | some ts =>
    simp only [ht] at h1
    simp only [ht, Option.getD_some] at hann
    rcases annotate_get h1 (bs! "metadata") with ⟨h5, _⟩ | ⟨op, h5, _, n, v, h6, _, h7, _⟩
    · rw [h5, Obj.get_add_ne _ _ (by decide)]
    · exact absurd (by rw [h6, ← h7]; rfl) (hann op h5)

example : ∃ res, normalize Ex.env 5 Ex.ctx1 Ex.stats0 (bs! "a 12") [] = .ok res ∧ res.ok = true ∧
    res.json.get (bs! "metadata") = some (.obj [(bs! "rule", .obj [
      (bs! "mockup", .str (bs! "a %n:number%")),
      (bs! "location", .obj [(bs! "file", .str (bs! "rb")), (bs! "line", .int 1)])])]) :=
  ⟨_, rfl, rfl, rfl⟩

end LN
