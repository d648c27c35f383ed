import Verif.Props.Nested
import Verif.Proofs.FieldConf
import Verif.Proofs.HeapAdd
import Verif.Proofs.OptSort
import Verif.Props.Samp
import Verif.Props.Build
import Verif.Spec.Report
/- C16: what becomes of malformed descriptions of repeat fields. -/
set_option autoImplicit false
namespace LN

/-- a list of several fields one of which is named `.` -/
def DotAmongSeveral (env : Env) (v : Json) : Prop :=
  ∃ l, v = .arr l ∧ 1 < l.length ∧ ∃ x ∈ l, (x.ptr (bs! "name")).bind (strOf env) = some (bs! ".")

theorem DotAmongSeveral.chk {env : Env} {v : Json} (h : DotAmongSeveral env v) : chkNoDupeDot env v = false := by
  obtain ⟨l, rfl, h1, x, hx, hn⟩ := h
  unfold chkNoDupeDot
  simp only [Bool.not_eq_eq_eq_not, Bool.not_false, Bool.and_eq_true, decide_eq_true_eq, List.any_eq_true]
  exact ⟨h1, x, hx, by simp [hn]⟩

theorem foldRepeat_dot {env : Env} {rec : AddRec} {v : Json} (hv : DotAmongSeveral env v) :
    ∀ (o : Obj) {s s' : Bld × RepeatData}, s.2.parser = none → (s.2.stop = true ∨ Obj.get o (bs! "parser") = some v) →
      foldMembers (repeatParam env rec) o s = .ok s' → s'.2.parser = none := by
  intro o
  induction o with
  | nil =>
    intro s s' h1 h2 h
    cases h; exact h1
  | cons m tl ih =>
    intro s s' h1 h2 h
    obtain ⟨k, x⟩ := m
    obtain ⟨b, d⟩ := s
    unfold foldMembers at h
    obtain ⟨s1, h3, h4⟩ := R.bind_eq_ok.1 h
    dsimp only at h1 h2
    unfold repeatParam at h3
    dsimp only at h3
    by_cases hs : d.stop = true
    · rw [if_pos hs] at h3
      cases h3
      exact ih h1 (.inl hs) h4
    rw [if_neg hs] at h3
    rcases h2 with h2 | h2
    · exact absurd h2 hs
    by_cases hk : k = bs! "parser"
    · rw [if_pos hk, h1] at h3
      unfold Obj.get at h2
      rw [if_pos hk] at h2
      cases h2
      simp only [Option.isSome_none, Bool.false_eq_true, if_false, hv.chk, Bool.not_false, if_true] at h3
      cases h3
      exact ih rfl (.inl rfl) h4
    · rw [if_neg hk] at h3
      unfold Obj.get at h2
      rw [if_neg hk] at h2
      by_cases hw : k = bs! "while"
      · rw [if_pos hw] at h3
        split at h3
        · cases h3; exact ih h1 (.inr h2) h4
        · obtain ⟨⟨b1, n, ok⟩, h5, h6⟩ := R.bind_eq_ok.1 h3
          cases h6
          exact ih h1 (.inr h2) h4
      · rw [if_neg hw] at h3
        split at h3 <;> · cases h3; exact ih h1 (.inr h2) h4

theorem foldRepeat_noParser {env : Env} {rec : AddRec} : ∀ (o : Obj) {s s' : Bld × RepeatData}, s.2.parser = none → Obj.get o (bs! "parser") = none →
    foldMembers (repeatParam env rec) o s = .ok s' → s'.2.parser = none := by
  intro o
  induction o with
  | nil => intro s s' h1 _ h; cases h; exact h1
  | cons m tl ih =>
    intro s s' h1 h2 h
    obtain ⟨k, x⟩ := m
    obtain ⟨b, d⟩ := s
    unfold foldMembers at h
    obtain ⟨s1, h3, h4⟩ := R.bind_eq_ok.1 h
    unfold Obj.get at h2
    by_cases hk : k = bs! "parser"
    · rw [if_pos hk] at h2; cases h2
    rw [if_neg hk] at h2
    refine ih ?_ h2 h4
    unfold repeatParam at h3
    dsimp only at h3 h1
    rw [if_neg hk] at h3
    split at h3
    · cases h3; exact h1
    split at h3
    · split at h3
      · cases h3; exact h1
      · obtain ⟨⟨b1, n, ok⟩, h5, h6⟩ := R.bind_eq_ok.1 h3
        cases h6; exact h1
    · split at h3 <;> · cases h3; exact h1

theorem foldRepeat_noWhile {env : Env} {rec : AddRec} : ∀ (o : Obj) {s s' : Bld × RepeatData}, s.2.while_ = none → Obj.get o (bs! "while") = none →
    foldMembers (repeatParam env rec) o s = .ok s' → s'.2.while_ = none := by
  intro o
  induction o with
  | nil => intro s s' h1 _ h; cases h; exact h1
  | cons m tl ih =>
    intro s s' h1 h2 h
    obtain ⟨k, x⟩ := m
    obtain ⟨b, d⟩ := s
    unfold foldMembers at h
    obtain ⟨s1, h3, h4⟩ := R.bind_eq_ok.1 h
    unfold Obj.get at h2
    by_cases hk : k = bs! "while"
    · rw [if_pos hk] at h2; cases h2
    rw [if_neg hk] at h2
    refine ih ?_ h2 h4
    unfold repeatParam at h3
    dsimp only at h3 h1
    split at h3
    · cases h3; exact h1
    split at h3
    · split at h3
      · cases h3; exact h1
      · split at h3
        · cases h3; exact h1
        · obtain ⟨⟨b1, n, ok⟩, h5, h6⟩ := R.bind_eq_ok.1 h3
          cases h6; exact h1
    · split at h3 <;> · cases h3; exact h1

/-- descriptions of repeat fields which are errors: `parser` or `while` is missing, or a field named `.` is not alone -/
def MalformedRepeat (env : Env) (o : Obj) : Prop :=
  ((Json.obj o).ptr (bs! "type")).bind (strOf env) = some (bs! "repeat") ∧
    (Obj.get o (bs! "parser") = none ∨ Obj.get o (bs! "while") = none ∨ ∃ v, Obj.get o (bs! "parser") = some v ∧ DotAmongSeveral env v)

theorem MalformedRepeat.kind {env : Env} {rec : AddRec} {b b' : Bld} {o : Obj} {p : Parser} (hm : MalformedRepeat env o)
    (h : newParser env rec b (.obj o) = .ok (b', some p)) : p.kind = .repeat_ none := by
  obtain ⟨hty, hm⟩ := hm
  unfold newParser at h
  rw [hty] at h
  dsimp only at h
  rw [if_neg (by decide), show parserPrio (bs! "repeat") = some _ from rfl] at h
  dsimp only at h
  rw [if_pos rfl] at h
  obtain ⟨⟨b1, k⟩, h1, h2⟩ := R.bind_eq_ok.1 h
  cases h2
  dsimp only
  unfold ctorRepeat at h1
  obtain ⟨⟨b2, d⟩, h3, h4⟩ := R.bind_eq_ok.1 h1
  have hgp : Obj.get (confRest env (.obj o)) (bs! "parser") = Obj.get o (bs! "parser") := by
    unfold confRest
    rw [get_filter (fun v => by simp [show bs! "parser" ≠ bs! "type" from by decide, show bs! "parser" ≠ bs! "priority" from by decide,
      show bs! "parser" ≠ bs! "name" from by decide])]
    rfl
  have hgw : Obj.get (confRest env (.obj o)) (bs! "while") = Obj.get o (bs! "while") := by
    unfold confRest
    rw [get_filter (fun v => by simp [show bs! "while" ≠ bs! "type" from by decide, show bs! "while" ≠ bs! "priority" from by decide,
      show bs! "while" ≠ bs! "name" from by decide])]
    rfl
  have hn : d.parser = none ∨ d.while_ = none := by
    rcases hm with hm | hm | ⟨v, hv, hm⟩
    · exact .inl (foldRepeat_noParser _ (s := (b, {})) rfl (hgp.trans hm) h3)
    · exact .inr (foldRepeat_noWhile _ (s := (b, {})) rfl (hgw.trans hm) h3)
    · exact .inl (foldRepeat_dot hm _ (s := (b, {})) rfl (.inr (hgp.trans hv)) h3)
  dsimp only at h4
  cases hp : d.parser with
  | none =>
    rw [hp] at h4
    cases hw : d.while_ with
    | none => rw [hw] at h4; cases h4; rfl
    | some w =>
      rw [hw] at h4
      dsimp only at h4
      obtain ⟨b3, _, h5⟩ := R.bind_eq_ok.1 h4
      cases h5; rfl
  | some x =>
    rcases hn with hn | hn
    · rw [hp] at hn; cases hn
    · rw [hp, hn] at h4
      dsimp only at h4
      obtain ⟨b3, _, h5⟩ := R.bind_eq_ok.1 h4
      cases h5; rfl

/-- **C16 is violated** for malformed descriptions (documented to be errors): they are not rejected: `ln_newParser` delivers an entry all the same, and trying this
field, on whatever message and at whatever position, would dereference a null pointer. It does not come to this: see `C16_malformed_load_violated`. -/
theorem C16_malformed_repeat_violated {env : Env} {rec : AddRec} {b b' : Bld} {o : Obj} {p : Parser} (hm : MalformedRepeat env o)
    (h : newParser env rec b (.obj o) = .ok (b', some p)) :
    ∀ (ctx : Ctx) (s : Bytes) (nrec : Rec) (fuel : Nat) (st : Npb) (offs : Nat),
      tryParser env ctx s nrec fuel st offs p = .ub .nullDeref := by
  intro ctx s nrec fuel st offs
  unfold tryParser
  rw [hm.kind h]

/-- `v` describes no field: it is neither an object nor a list, or its type is none of the documented ones (nor user-defined) -/
def NoField (env : Env) (v : Json) : Prop :=
  ((∀ o, v ≠ .obj o) ∧ ∀ l, v ≠ .arr l) ∨
    ∃ o ty, v = .obj o ∧ ((Json.obj o).ptr (bs! "type")).bind (strOf env) = some ty ∧
      ty.head? ≠ some (ch! '@') ∧ ty ≠ bs! "alternative" ∧ ty ∉ typeNames

theorem parserPrio_unknown {ty : Bytes} (h : ty ∉ typeNames) : parserPrio ty = none := by
  unfold parserPrio
  rw [Option.map_eq_none_iff, List.find?_eq_none]
  intro e he h1
  have h1 := of_decide_eq_true h1
  subst h1
  have : ∀ e ∈ parserTable, e.1 ∈ typeNames := by decide
  exact h (this e he)

theorem NoField.add {env : Env} {v : Json} (h : NoField env v) (rec : AddRec) (b : Bld) (n next : NodeId) (alt : Bool) :
    addStep env rec b n alt v next = .ok (b, none) := by
  rcases h with ⟨h1, h2⟩ | ⟨o, ty, rfl, h1, h2, h3, h4⟩
  · unfold addStep
    cases v with
    | obj o => exact absurd rfl (h1 o)
    | arr l => exact absurd rfl (h2 l)
    | _ => rfl
  · unfold addStep
    dsimp only
    rw [h1]
    dsimp only
    rw [if_neg h3]
    unfold addInstance newParser
    rw [h1]
    dsimp only
    rw [if_neg h2, parserPrio_unknown h4]
    rfl

theorem NoField.chk {env : Env} {v : Json} (h : NoField env v) : chkNoDupeDot env v = true := by
  unfold chkNoDupeDot
  rcases h with ⟨_, h2⟩ | ⟨o, ty, rfl, _⟩
  · cases v with
    | arr l => exact absurd rfl (h2 l)
    | _ => rfl
  · rfl

theorem foldRepeat_stop {env : Env} {rec : AddRec} : ∀ (o : Obj) {s s' : Bld × RepeatData}, s.2.stop = true →
    foldMembers (repeatParam env rec) o s = .ok s' → s' = s := by
  intro o
  induction o with
  | nil => intro s s' _ h; cases h; rfl
  | cons m tl ih =>
    intro s s' h1 h
    obtain ⟨k, x⟩ := m
    obtain ⟨b, d⟩ := s
    unfold foldMembers at h
    unfold repeatParam at h
    dsimp only at h h1
    rw [if_pos h1] at h
    exact ih h1 h

theorem foldRepeat_first {env : Env} {rec : AddRec} {k : Bytes} {v : Json} (hk : k = bs! "parser" ∨ k = bs! "while") (hv : NoField env v)
    (post : Obj) : ∀ (pre : Obj) {s s' : Bld × RepeatData}, s.2.parser = none → s.2.while_ = none →
      (∀ m ∈ pre, m.1 ≠ bs! "parser" ∧ m.1 ≠ bs! "while") →
      foldMembers (repeatParam env (addStep env rec)) (pre ++ (k, v) :: post) s = .ok s' → s'.2.parser = none ∨ s'.2.while_ = none := by
  intro pre
  induction pre with
  | nil =>
    intro s s' h1 h2 _ h
    obtain ⟨b, d⟩ := s
    dsimp only at h1 h2
    rw [List.nil_append] at h
    unfold foldMembers at h
    obtain ⟨s1, h3, h4⟩ := R.bind_eq_ok.1 h
    unfold repeatParam at h3
    dsimp only at h3
    by_cases hs : d.stop = true
    · rw [if_pos hs] at h3
      cases h3
      rw [foldRepeat_stop post hs h4]
      exact .inl h1
    rw [if_neg hs] at h3
    unfold subGraph at h3
    rcases hk with rfl | rfl
    · rw [if_pos rfl, h1, hv.chk] at h3
      dsimp only [Option.isSome, Bool.not_true] at h3
      rw [if_neg (by decide), if_neg (by decide), hv.add] at h3
      cases h3
      rw [foldRepeat_stop post rfl h4]
      exact .inr h2
    · rw [if_neg (by decide), if_pos rfl, h2] at h3
      dsimp only [Option.isSome] at h3
      rw [if_neg (by decide), hv.add] at h3
      cases h3
      rw [foldRepeat_stop post rfl h4]
      exact .inl h1
  | cons m tl ih =>
    intro s s' h1 h2 h3 h
    obtain ⟨k', x⟩ := m
    obtain ⟨b, d⟩ := s
    rw [List.cons_append] at h
    unfold foldMembers at h
    obtain ⟨s1, h4, h5⟩ := R.bind_eq_ok.1 h
    have hm := h3 (k', x) (List.mem_cons_self ..)
    have : s1.2.parser = none ∧ s1.2.while_ = none := by
      unfold repeatParam at h4
      dsimp only at h4 h1 h2
      rw [if_neg hm.1, if_neg hm.2] at h4
      split at h4
      · cases h4; exact ⟨h1, h2⟩
      split at h4 <;> · cases h4; exact ⟨h1, h2⟩
    exact ih this.1 this.2 (fun m hm => h3 m (List.mem_cons_of_mem _ hm)) h5

/-- **C16 is violated** when what is to be repeated, or (if it is given first) the condition, describes no field: this is reported, but the repeat field
is made all the same, and would, like the ones of `C16_malformed_repeat_violated`, dereference a null pointer (it crashes loading by `C16_malformed_load_violated`). -/
theorem C16_unknown_inner_violated {env : Env} {rec : AddRec} {b b' : Bld} {pre post : Obj} {k : Bytes} {v : Json} {p : Parser}
    (hty : ((Json.obj (pre ++ (k, v) :: post)).ptr (bs! "type")).bind (strOf env) = some (bs! "repeat"))
    (hk : k = bs! "parser" ∨ k = bs! "while") (hpre : ∀ m ∈ pre, m.1 ≠ bs! "parser" ∧ m.1 ≠ bs! "while") (hv : NoField env v)
    (h : newParser env (addStep env rec) b (.obj (pre ++ (k, v) :: post)) = .ok (b', some p)) :
    p.kind = .repeat_ none ∧ ∀ (ctx : Ctx) (s : Bytes) (nrec : Rec) (fuel : Nat) (st : Npb) (offs : Nat),
      tryParser env ctx s nrec fuel st offs p = .ub .nullDeref := by
  have hkind : p.kind = .repeat_ none := by
    unfold newParser at h
    rw [hty] at h
    dsimp only at h
    rw [if_neg (by decide), show parserPrio (bs! "repeat") = some _ from rfl] at h
    dsimp only at h
    rw [if_pos rfl] at h
    obtain ⟨⟨b1, kd⟩, h1, h2⟩ := R.bind_eq_ok.1 h
    cases h2
    dsimp only
    unfold ctorRepeat at h1
    obtain ⟨⟨b2, d⟩, h3, h4⟩ := R.bind_eq_ok.1 h1
    have hkeep : (k ≠ bs! "type" ∧ k ≠ bs! "priority") ∧ k ≠ bs! "name" := by rcases hk with rfl | rfl <;> decide
    have hn : d.parser = none ∨ d.while_ = none := by
      unfold confRest at h3
      rw [show (Json.obj (pre ++ (k, v) :: post)).members = pre ++ (k, v) :: post from rfl, List.filter_append, List.filter_cons_of_pos (by simp [hkeep])] at h3
      exact foldRepeat_first hk hv _ _ (s := (b, {})) rfl rfl (fun m hm => hpre m (List.mem_filter.1 hm).1) h3
    dsimp only at h4
    cases hp : d.parser with
    | none =>
      rw [hp] at h4
      cases hw : d.while_ with
      | none => rw [hw] at h4; cases h4; rfl
      | some w =>
        rw [hw] at h4
        dsimp only at h4
        obtain ⟨b3, _, h5⟩ := R.bind_eq_ok.1 h4
        cases h5; rfl
    | some x =>
      rcases hn with hn | hn
      · rw [hp] at hn; cases hn
      · rw [hp, hn] at h4
        dsimp only at h4
        obtain ⟨b3, _, h5⟩ := R.bind_eq_ok.1 h4
        cases h5; rfl
  refine ⟨hkind, fun ctx s nrec fuel st offs => ?_⟩
  unfold tryParser
  rw [hkind]

/-- `{"type":"repeat","while":{"type":"literl","text":","},"parser":{"type":"word"}}` -/
def Ex.badWhile : Obj := [(bs! "type", .str (bs! "repeat")), (bs! "while", .obj [(bs! "type", .str (bs! "literl")), (bs! "text", .str (bs! ","))]),
  (bs! "parser", .obj [(bs! "type", .str (bs! "word"))])]

example : NoField Ex.env (.obj [(bs! "type", .str (bs! "literl")), (bs! "text", .str (bs! ","))]) ∧
    ((newParser Ex.env (addStep Ex.env (addF Ex.env 4)) initBld (.obj Ex.badWhile)).bind fun x => .ok x.2.isSome) = .ok true :=
  ⟨.inr ⟨_, bs! "literl", rfl, by decide +kernel, by decide, by decide, by decide⟩, by decide +kernel⟩

theorem OptSteps.keepsBad {srt : Sorter} {n0 : NodeId} {b b' : Bld} {E : List NodeId} (hi : Inv b E) (h : OptSteps srt n0 b b') (hroot : b.root ∈ E)
    {k : PKind} (hk0 : ∀ l, k ≠ .literal (some l)) (hx : ∃ nd, b.heap b.root = some nd ∧ ∃ p ∈ nd.parsers, p.kind = k) :
    ∃ nd, b'.heap b'.root = some nd ∧ ∃ p ∈ nd.parsers, p.kind = k := by
  induction h with
  | refl => exact hx
  | head s _ ih =>
    obtain ⟨hi', _, _, hr, _⟩ := s.frame hi
    refine ih hi' (by rw [hr]; exact hroot) ?_
    obtain ⟨nd', hnd'⟩ := Option.isSome_iff_exists.1 (hi'.ext _ hroot)
    rw [hr]
    refine ⟨nd', hnd', ?_⟩
    obtain ⟨nd, hnd, p, hp, hk⟩ := hx
    rcases s.heap_cases hi _ nd' hnd' with h1 | ⟨nd1, h1, rfl⟩ | ⟨i, nd1, p1, vd, c, wd, l, l', hc, rfl⟩
    · rw [hnd] at h1; cases h1; exact ⟨p, hp, hk⟩
    · rw [hnd] at h1; cases h1; exact ⟨p, (srt.perm _).mem_iff.2 hp, hk⟩
    · have := hc.hn
      rw [hnd] at this
      cases this
      refine ⟨p, ?_, hk⟩
      obtain ⟨j, hj⟩ := List.getElem?_of_mem hp
      refine List.mem_of_getElem? (i := j) ?_
      rw [List.getElem?_set]
      split
      · rename_i e
        subst e
        rw [hc.hp] at hj
        cases hj
        rw [hc.hk] at hk; exact (hk0 _ hk.symm).elim
      · exact hj

theorem foldUnit_ub {α : Type} {f : α → R Unit} : ∀ (l : List α), l.foldlM (fun _ x => f x) () = .ok () → ∀ x ∈ l, f x = .ok ()
  | [], _, x, hx => by cases hx
  | y :: l, h, x, hx => by
    rw [List.foldlM_cons] at h
    obtain ⟨u, h1, h2⟩ := R.bind_eq_ok.1 h
    rcases List.mem_cons.1 hx with rfl | hx
    · exact h1
    · exact foldUnit_ub l h2 x hx

/-- **C16 is violated** for malformed descriptions: whatever was loaded before, a rule which begins with a malformed repeat field or literal makes loading crash (at the end
of loading the nodes are given names and the graph is walked through, whether or not it is printed). -/
theorem C16_malformed_load_violated {env : Env} {srt : Sorter} {ops : List BOp} {b : Bld} (hb : runOps env srt ops = .ok b)
    {nd : Node} (hn : b.heap b.root = some nd) {p : Parser} (hp : p ∈ nd.parsers) (hk : p.kind = .repeat_ none ∨ p.kind = .literal none) :
    ∃ k, runOps env srt (ops ++ [.optimize]) = .ub k := by
  have hi := (runOps_inv (env := env) (srt := srt) ops).ok_of hb
  have hroot : b.root ∈ b.ctxRefs := List.mem_cons_self ..
  have htypes : ∀ t ∈ b.types, t.2 ∈ b.ctxRefs := fun t ht => List.mem_cons_of_mem _ (List.mem_map.2 ⟨t, ht, rfl⟩)
  have hm := pdagOptimize_ok (srt := srt) hi hroot htypes
  have hrun : runOps env srt (ops ++ [.optimize]) = pdagOptimize srt b := by
    unfold runOps at hb ⊢
    rw [foldlM_append_R, hb]
    show (pdagOptimize srt b).bind _ = _
    cases pdagOptimize srt b <;> rfl
  rw [hrun]
  cases ho : pdagOptimize srt b with
  | ub k => exact ⟨k, rfl⟩
  | fail => rw [ho] at hm; exact hm.elim
  | oof => rw [ho] at hm; exact hm.elim
  | ok b' =>
    exfalso
    have hs := hm.ok_of ho
    unfold pdagOptimize at ho
    obtain ⟨b1, h1, h2⟩ := R.bind_eq_ok.1 ho
    obtain ⟨u0, h0, h2⟩ := R.bind_eq_ok.1 h2
    obtain ⟨u, h3, h4⟩ := R.bind_eq_ok.1 h2
    cases h4
    rcases hk with hk | hk
    · obtain ⟨nd', hnd', q, hq, hqk⟩ := hs.keepsBad hi hroot (k := .repeat_ none) (fun _ h => by cases h) ⟨nd, hn, p, hp, hk⟩
      unfold displayAll at h3
      have h5 := foldUnit_ub (f := fun n => displayF (b'.next + 1) b' n) _ h3 b'.root (List.mem_append_right _ (List.mem_cons_self ..))
      unfold displayF at h5
      obtain ⟨nd2, h6, h7⟩ := R.bind_eq_ok.1 h5
      unfold Bld.load at h6
      rw [hnd'] at h6
      cases h6
      have h8 := foldUnit_ub (f := fun p => _) _ h7 q hq
      simp only [hqk] at h8
      cases h8
    · obtain ⟨nd', hnd', q, hq, hqk⟩ := hs.keepsBad hi hroot (k := .literal none) (fun _ h => by cases h) ⟨nd, hn, p, hp, hk⟩
      unfold nameAll at h0
      have h5 := foldUnit_ub (f := fun n => nameF (b'.next + 1) b' n) _ h0 b'.root (List.mem_append_right _ (List.mem_cons_self ..))
      unfold nameF at h5
      obtain ⟨nd2, h6, h7⟩ := R.bind_eq_ok.1 h5
      unfold Bld.load at h6
      rw [hnd'] at h6
      cases h6
      have h8 := foldUnit_ub (f := fun p => _) _ h7 q hq
      simp only [hqk] at h8
      cases h8

/-- `%l:repeat{"parser":[{"type":"number","name":"."},{"type":"word","name":"w"}],"while":{"type":"literal","text":","}}%` -/
def Ex.dotConf : Json := .obj [(bs! "type", .str (bs! "repeat")), (bs! "name", .str (bs! "l")),
  (bs! "parser", .arr [.obj [(bs! "type", .str (bs! "number")), (bs! "name", .str (bs! "."))], .obj [(bs! "type", .str (bs! "word")), (bs! "name", .str (bs! "w"))]]),
  (bs! "while", .obj [(bs! "type", .str (bs! "literal")), (bs! "text", .str (bs! ","))])]

example : MalformedRepeat Ex.env Ex.dotConf.members ∧
    (newParser Ex.env (addF Ex.env 4) initBld Ex.dotConf).bind (fun x => .ok x.2.isSome) = .ok true :=
  ⟨⟨by decide +kernel, .inr (.inr ⟨_, rfl, _, rfl, by decide, _, List.mem_cons_self .., by decide +kernel⟩)⟩, by decide +kernel⟩

/-- `rule=:%r:repeat%`: neither `parser` nor `while` -/
def Ex.bareRepeat : List BOp := [.rule [.obj [(bs! "name", .str (bs! "r")), (bs! "type", .str (bs! "repeat"))]] true none [] 1]

def Ex.isBadRepeat (p : Parser) : Bool :=
  match p.kind with
  | .repeat_ none => true
  | _ => false

example : ∃ b nd p, runOps Ex.env stableSorter Ex.bareRepeat = .ok b ∧ b.heap b.root = some nd ∧ p ∈ nd.parsers ∧ p.kind = .repeat_ none := by
  have h : (match runOps Ex.env stableSorter Ex.bareRepeat with
    | .ok b => match b.heap b.root with
      | some nd => nd.parsers.any Ex.isBadRepeat
      | none => false
    | _ => false) = true := by decide +kernel
  split at h
  · rename_i b hb
    split at h
    · rename_i nd hnd
      rw [List.any_eq_true] at h
      obtain ⟨p, hp, hk⟩ := h
      refine ⟨b, nd, p, hb, hnd, hp, ?_⟩
      unfold Ex.isBadRepeat at hk
      split at hk
      · assumption
      · cases hk
    · cases h
  · cases h

/-- from the text -/
example : (loadSamplesFromString Ex.env stableSorter (fun _ => none) 50 {} (bs! "rule=:%r:repeat%\n")).bind (fun _ => .ok ()) = .ub .nullDeref := by decide +kernel

/-- a literal without text -/
example : (loadSamplesFromString Ex.env stableSorter (fun _ => none) 50 {} (bs! "rule=:%r:literal%\n")).bind (fun _ => .ok ()) = .ub .nullDeref := by decide +kernel

end LN
