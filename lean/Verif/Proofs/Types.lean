import Verif.Props.Rules
import Verif.Spec.Types
import Verif.Proofs.OptHolds
import Verif.Proofs.NestedComplete
/- Graphs of rules with user-defined types: what the graph derives is what the rules derive. -/
set_option autoImplicit false
namespace LN
section
variable {env : Env}

theorem nodup_map_idx {α β : Type} {f : α → β} {l : List α} (h : (l.map f).Nodup) {i j : Nat} {a b : α} (hi : l[i]? = some a) (hj : l[j]? = some b)
    (hab : f a = f b) : i = j := by
  have key : ∀ {i j : Nat} {a b : α}, i < j → l[i]? = some a → l[j]? = some b → f a ≠ f b := by
    intro i j a b hlt hi hj
    obtain ⟨h1, rfl⟩ := List.getElem?_eq_some_iff.1 hi
    obtain ⟨h2, rfl⟩ := List.getElem?_eq_some_iff.1 hj
    have := (List.pairwise_iff_getElem.1 h) i j (by simpa using h1) (by simpa using h2) hlt
    simpa using this
  rcases Nat.lt_trichotomy i j with hlt | rfl | hlt
  · exact absurd hab (key hlt hi hj)
  · rfl
  · exact absurd hab.symm (key hlt hj hi)

theorem confField_cases {ts : List (Bytes × NodeId)} {c : Json} {p : Parser} (h : confField env ts c = some p) :
    (p.kind.flat ∧ confField env [] c = some p) ∨
    ∃ ty i, p.kind = .custom i ∧ userType env c = some ty ∧ ts.findIdx? (fun t => t.1 = ty) = some i ∧ p.name = confName env c := by
  unfold confField at h
  unfold userType
  cases c with
  | obj o =>
    dsimp only at h ⊢
    cases hty : ((Json.obj o).ptr (bs! "type")).bind (strOf env) with
    | none => rw [hty] at h; cases h
    | some ty =>
      rw [hty] at h
      dsimp only at h ⊢
      by_cases hat : ty.head? = some (ch! '@')
      · rw [if_pos hat, Option.map_eq_some_iff] at h
        obtain ⟨i, hi, rfl⟩ := h
        exact .inr ⟨ty, i, rfl, if_pos hat, hi, rfl⟩
      · rw [if_neg hat] at h
        have h' : confField env [] (.obj o) = some p := by
          unfold confField
          dsimp only
          rw [hty]
          dsimp only
          rw [if_neg hat]
          exact h
        obtain ⟨_, _, _, _, _, _, _, _, hfl, _⟩ := confField_spec h'
        exact .inl ⟨hfl rfl, h'⟩
  | _ => cases h

theorem confField_user {ts : List (Bytes × NodeId)} {c : Json} {ty : Bytes} (h : userType env c = some ty) :
    confField env ts c = (ts.findIdx? fun t => t.1 = ty).map fun i =>
      { kind := .custom i, node := 0, prio := prioOf (confPrio env c) 16, name := confName env c, conf := c } := by
  unfold userType at h
  unfold confField
  cases c with
  | obj o =>
    dsimp only at h ⊢
    cases hty : ((Json.obj o).ptr (bs! "type")).bind (strOf env) with
    | none => rw [hty] at h; cases h
    | some ty' =>
      rw [hty] at h
      dsimp only at h ⊢
      by_cases hat : ty'.head? = some (ch! '@')
      · rw [if_pos hat] at h
        cases h
        rw [if_pos hat]
      · rw [if_neg hat] at h; cases h
  | _ => cases h

theorem confField_not_user {c : Json} {p : Parser} (h : confField env [] c = some p) : userType env c = none := by
  cases hu : userType env c with
  | none => rfl
  | some ty => rw [confField_user hu] at h; cases h

theorem IsTrie.mono {ts : List (Bytes × NodeId)} {b : Bld} {lab : NodeId → List Json} {ds : List Def} (h : IsTrie env ts b lab ds) :
    IsTrie env b.types b lab ds := by
  obtain ⟨l, hl⟩ := h.pre
  refine ⟨h.inv, ⟨[], by simp⟩, h.start, ⟨fun n nd hn q hq => ?_, h.trie.dist⟩, h.term, h.walk, h.tag, h.known, h.used, h.plen, h.wr, h.tnd, h.goes⟩
  obtain ⟨h1, h2⟩ := h.trie.edge n nd hn q hq
  exact ⟨h1, by rw [hl]; exact confField_append h2 l⟩

theorem start_type {b : Bld} {t : Bytes} {n : NodeId} (h : b.start (some t) = some n) :
    ∃ i, b.types.findIdx? (fun x => x.1 = t) = some i ∧ b.types[i]? = some (t, n) := by
  unfold Bld.start at h
  rw [Option.map_eq_some_iff] at h
  obtain ⟨x, hx, rfl⟩ := h
  have hxt : x.1 = t := by simpa using List.find?_some hx
  rw [List.find?_eq_some_iff_getElem] at hx
  obtain ⟨_, i, hi, hxi, hlt⟩ := hx
  refine ⟨i, ?_, by rw [List.getElem?_eq_getElem hi, hxi, ← hxt]⟩
  rw [List.findIdx?_eq_some_iff_getElem]
  refine ⟨hi, by rw [hxi]; simpa using hxt, fun j hj => ?_⟩
  have := hlt j hj
  simpa using this

theorem start_of_type {b : Bld} {t : Bytes} {i : Nat} {nm : Bytes} {n : NodeId} (h : b.types.findIdx? (fun x => x.1 = t) = some i)
    (hi : b.types[i]? = some (nm, n)) : nm = t ∧ b.start (some t) = some n := by
  rw [List.findIdx?_eq_some_iff_getElem] at h
  obtain ⟨hl, h1, h2⟩ := h
  rw [List.getElem?_eq_getElem hl] at hi
  have hi' := Option.some.inj hi
  rw [hi'] at h1
  refine ⟨by simpa using h1, ?_⟩
  unfold Bld.start
  rw [Option.map_eq_some_iff]
  refine ⟨b.types[i], ?_, by rw [hi']⟩
  rw [List.find?_eq_some_iff_getElem]
  exact ⟨by rw [hi']; exact h1, i, hl, rfl, fun j hj => by have := h2 j hj; simpa using this⟩

/-- names of types are unique -/
theorem start_of_entry {b : Bld} (hnd : (b.types.map (·.1)).Nodup) {i : Nat} {nm : Bytes} {n : NodeId} (hi : b.types[i]? = some (nm, n)) :
    b.start (some nm) = some n := by
  obtain ⟨hl, hi'⟩ := List.getElem?_eq_some_iff.1 hi
  unfold Bld.start
  rw [Option.map_eq_some_iff]
  refine ⟨(nm, n), ?_, rfl⟩
  rw [List.find?_eq_some_iff_getElem]
  refine ⟨by simp, i, hl, hi', fun j hj => ?_⟩
  have hjl := Nat.lt_trans hj hl
  have : b.types[j].1 ≠ nm := by
    intro hc
    have := nodup_map_idx hnd (List.getElem?_eq_getElem hjl) hi hc
    omega
  simpa using this

/-- a line whose types are known -/
theorem isTrie_typed {srt : Sorter} {b : Bld} {lab : NodeId → List Json} {ds : List Def} (h : IsTrie env b.types b lab ds) {d : Def}
    (hr : ∀ c ∈ d.rule.confs, (∃ p, confField env [] c = some p) ∨ ∃ t, userType env c = some t ∧ ∃ d' ∈ ds ++ [d], d'.type = some t) :
    ∃ b' lab', d.toOp.run env srt b = .ok b' ∧ IsTrie env b'.types b' lab' (ds ++ [d]) := by
  obtain ⟨b0, lab0, n0, h0, hn0, hrunEq⟩ := isTrie_start h d
  have h0 := h0.mono
  obtain ⟨b', lab', h1, h2, h3⟩ := isTrie_at h0 hn0 (fun c hc => by
    rcases hr c hc with ⟨p, hp⟩ | ⟨t, ht, d', hd', hdt⟩
    · exact ⟨p, confField_types hp _⟩
    · have : ∃ n, b0.start (some t) = some n := by
        rcases List.mem_append.1 hd' with h4 | h4
        · rw [← hdt]; exact h0.known d' h4
        · rw [List.mem_singleton] at h4
          subst h4
          rw [← hdt]
          exact ⟨n0, hn0⟩
      obtain ⟨n, hn⟩ := this
      obtain ⟨i, hi, _⟩ := start_type hn
      exact ⟨_, by rw [confField_user ht, hi]; rfl⟩)
  exact ⟨b', lab', by rw [hrunEq srt]; exact h1, by rw [h2]; exact h3⟩

theorem isTrie_typeds {srt : Sorter} : ∀ (ds ds0 : List Def) {b : Bld} {lab : NodeId → List Json},
    IsTrie env b.types b lab ds0 → TypesKnown env (ds0 ++ ds) →
    ∃ b' lab', (ds.map Def.toOp).foldlM (BOp.run env srt) b = .ok b' ∧ IsTrie env b'.types b' lab' (ds0 ++ ds)
  | [], ds0, b, lab, h, _ => ⟨b, lab, rfl, by rw [List.append_nil]; exact h⟩
  | d :: ds, ds0, b, lab, h, hk => by
    obtain ⟨b1, lab1, h1, h2⟩ := isTrie_typed (srt := srt) h (d := d) (by
      intro c hc
      rcases hk ds0.length d (by simp) c hc with h1 | ⟨t, h2, j, d', h3, h4, h5⟩
      · exact .inl h1
      · refine .inr ⟨t, h2, d', ?_, h5⟩
        have : (ds0 ++ [d])[j]? = some d' := by
          rw [← h4, show ds0 ++ d :: ds = (ds0 ++ [d]) ++ ds by simp]
          exact (List.getElem?_append_left (by rw [List.length_append, List.length_singleton]; omega)).symm
        exact List.mem_of_getElem? this)
    obtain ⟨b2, lab2, h3, h4⟩ := isTrie_typeds (srt := srt) ds (ds0 ++ [d]) h2 (by rw [List.append_assoc]; exact hk)
    refine ⟨b2, lab2, ?_, by rw [List.append_assoc] at h4; exact h4⟩
    rw [List.map_cons, List.foldlM_cons, h1]
    exact h3

section
variable {b : Bld} {lab : NodeId → List Json} {ds : List Def} {s : Bytes} {slack : Prop} {opts : Nat} {annots : List Annot}

theorem ctx_parser {n : NodeId} {p : Parser} (h : p ∈ ((b.toCtx opts annots).node n).parsers) :
    ∃ nd, b.heap n = some nd ∧ p ∈ nd.parsers := by
  change p ∈ ((b.heap n).getD {}).parsers at h
  cases hn : b.heap n with
  | none => rw [hn] at h; cases h
  | some nd => rw [hn] at h; exact ⟨nd, rfl, h⟩

theorem ctx_terminal {n : NodeId} (h : ((b.toCtx opts annots).node n).isTerminal = true) :
    ∃ nd, b.heap n = some nd ∧ nd.isTerminal = true := by
  change ((b.heap n).getD {}).isTerminal = true at h
  cases hn : b.heap n with
  | none => rw [hn] at h; cases h
  | some nd => rw [hn] at h; exact ⟨nd, rfl, h⟩

theorem IsTrie.no_repeat (h : IsTrie env b.types b lab ds) : NoRepeat (b.toCtx opts annots) := by
  intro n p hp d hk
  obtain ⟨nd, hn, hq⟩ := ctx_parser hp
  rcases confField_cases (h.trie.edge n nd hn p hq).2 with ⟨h1, _⟩ | ⟨_, _, h1, _⟩
  · change p.kind.flat at h1
    rw [hk] at h1; exact h1
  · change p.kind = _ at h1
    rw [hk] at h1; cases h1

/-- a field of user-defined type, in the graph -/
theorem IsTrie.custom (h : IsTrie env b.types b lab ds) {n : NodeId} {nd : Node} (hn : b.heap n = some nd) {p : Parser} (hp : p ∈ nd.parsers)
    {i : Nat} (hk : p.kind = .custom i) {nm : Bytes} {t : NodeId} (ht : (b.toCtx opts annots).types[i]? = some (nm, t)) :
    userType env p.conf = some nm ∧ b.start (some nm) = some t ∧ p.name = confName env p.conf := by
  rcases confField_cases (h.trie.edge n nd hn p hp).2 with ⟨h1, _⟩ | ⟨ty, i', h1, h2, h3, h4⟩
  · change p.kind.flat at h1
    rw [hk] at h1; exact absurd h1 (by simp [PKind.flat])
  · change p.kind = _ at h1
    rw [hk] at h1
    cases h1
    obtain ⟨rfl, h5⟩ := start_of_type h3 ht
    exact ⟨h2, h5, h4⟩

theorem IsTrie.plain (h : IsTrie env b.types b lab ds) {n : NodeId} {nd : Node} (hn : b.heap n = some nd) {p : Parser} (hp : p ∈ nd.parsers)
    (hk : p.kind.flat) : confField env [] p.conf = some { p with node := 0 } := by
  rcases confField_cases (h.trie.edge n nd hn p hp).2 with ⟨_, h1⟩ | ⟨ty, i', h1, _⟩
  · exact h1
  · change p.kind = _ at h1
    rw [h1] at hk
    exact absurd hk (by simp [PKind.flat])

/-- name and value of a step -/
def NStep.nv (st : NStep) : Option Bytes × Option Json := (st.field.name, st.value)

theorem placeAll_store (o : Obj) (tr : List NStep) : placeAll o (tr.map NStep.nv) = storeNested o tr := by
  unfold placeAll storeNested
  rw [List.foldr_map]
  rfl

/-- what a derivation in the graph says about the rules -/
def Judgement.Der (env : Env) (b : Bld) (lab : NodeId → List Json) (ds : List Def) (s : Bytes) (slack : Prop) : Judgement → Prop
  | .path n off tr m off' => lab m = lab n ++ tr.map (·.field.conf) ∧ Derives env ds s slack (tr.map (·.field.conf)) off (tr.map NStep.nv) off'
  | .accepts p off mid v => (∃ n nd, b.heap n = some nd ∧ p ∈ nd.parsers) → ∀ cs vs off', Derives env ds s slack cs mid vs off' →
      Derives env ds s slack (p.conf :: cs) off ((p.name, v) :: vs) off'
  | .elems .. => True

theorem IsTrie.derives (h : IsTrie env b.types b lab ds) {j : Judgement} (hj : Holds env (b.toCtx opts annots) s slack j) :
    j.Der env b lab ds s slack := by
  induction hj with
  | nil n off => exact ⟨by simp, .nil off⟩
  | cons hidx hacc htail ih1 ih2 =>
    obtain ⟨nd, hn, hp⟩ := ctx_parser (List.mem_of_getElem? hidx)
    obtain ⟨h1, h2⟩ := ih2
    refine ⟨?_, ih1 ⟨_, nd, hn, hp⟩ _ _ _ h2⟩
    rw [h1, (h.trie.edge _ nd hn _ hp).1, List.append_assoc]
    rfl
  | @plain p off len v hk hrun =>
    rintro ⟨n, nd, hn, hp⟩ cs vs off' htl
    exact .plain (p := { p with node := 0 }) (h.plain hn hp hk) hrun htl
  | @custom p off i nm t tr m e mid hk ht hpath hterm hend ih =>
    rintro ⟨n, nd, hn, hp⟩ cs vs off' htl
    obtain ⟨h1, h2, h3⟩ := h.custom hn hp hk ht
    obtain ⟨h4, h5⟩ := ih
    obtain ⟨ndm, hm, htm⟩ := ctx_terminal hterm
    obtain ⟨d, hd, hdc, hl⟩ := h.term m ndm hm htm
    rw [h4, h.start _ _ h2, List.singleton_append] at hl
    injection hl with hl1 hl2
    rw [h3, ← placeAll_store]
    rw [← hl2] at h5
    exact .user h1 hd (mark_inj hl1) hdc h5 hend htl
  | rep hk _ _ =>
    rintro ⟨n, nd, hn, hp⟩
    refine absurd hk (h.no_repeat (opts := 0) (annots := []) n _ ?_ _)
    show _ ∈ ((b.heap n).getD {}).parsers
    rw [hn]; exact hp
  | repNone hk =>
    rintro ⟨n, nd, hn, hp⟩
    refine absurd hk (h.no_repeat (opts := 0) (annots := []) n _ ?_ _)
    show _ ∈ ((b.heap n).getD {}).parsers
    rw [hn]; exact hp
  | one => trivial
  | more => trivial

/-- what the rules derive the graph derives -/
theorem IsTrie.holds (h : IsTrie env b.types b lab ds) (hw : b.wrapped = false) {cs : List Json} {off : Nat}
    {vs : List (Option Bytes × Option Json)} {off' : Nat} (hd : Derives env ds s slack cs off vs off') :
    ∀ {n m : NodeId}, FWalk b n cs m → ∃ tr, Holds env (b.toCtx opts annots) s slack (.path n off tr m off') ∧ tr.map NStep.nv = vs := by
  induction hd with
  | nil off => intro n m hf; cases hf; exact ⟨[], .nil _ _, rfl⟩
  | @plain c p cs off len v vs off' hfield hrun htail ih =>
    intro n m hf
    cases hf with
    | @cons _ nd _ q _ _ hn hq ht =>
      have hqc : q.conf = c := by simpa using List.find?_some hq
      have hqm := List.mem_of_find?_eq_some hq
      obtain ⟨tr, h1, h2⟩ := ih ht
      obtain ⟨idx, hidx⟩ := List.getElem?_of_mem hqm
      have hnode : (b.toCtx opts annots).node n = nd := by show (b.heap n).getD {} = nd; rw [hn]; rfl
      have hcf := confField_types hfield b.types
      rw [← hqc, (h.trie.edge n nd hn q hqm).2] at hcf
      cases hcf
      obtain ⟨_, _, _, _, _, _, _, _, hfl, _⟩ := confField_spec hfield
      exact ⟨_, .cons (p := q) (by rw [hnode]; exact hidx) (.plain (p := q) (hfl rfl) hrun) h1, by rw [← h2]; rfl⟩
  | @user c t d cs off e mid us vs off' hfield hdm hdt hdc hdef hend htail ih1 ih2 =>
    intro n m hf
    cases hf with
    | @cons _ nd _ q _ _ hn hq ht =>
      have hqc : q.conf = c := by simpa using List.find?_some hq
      have hqm := List.mem_of_find?_eq_some hq
      obtain ⟨tr, h1, h2⟩ := ih2 ht
      obtain ⟨idx, hidx⟩ := List.getElem?_of_mem hqm
      have hnode : (b.toCtx opts annots).node n = nd := by show (b.heap n).getD {} = nd; rw [hn]; rfl
      obtain ⟨n', e', nd', a1, a2, a3, a4⟩ := h.walk hw d hdm hdc
      rw [hdt] at a1
      obtain ⟨i, hi, hti⟩ := start_type a1
      have hcf := (h.trie.edge n nd hn q hqm).2
      rw [hqc, confField_user hfield, hi] at hcf
      have hcf' := Option.some.inj hcf
      have hk : q.kind = .custom i := (congrArg Parser.kind hcf').symm
      have hnm : q.name = confName env c := (congrArg Parser.name hcf').symm
      obtain ⟨tr', k1, k2⟩ := ih1 a2
      refine ⟨_, .cons (by rw [hnode]; exact hidx) (.custom hk hti k1 ?_ hend) h1, ?_⟩
      · show ((b.heap e').getD {}).isTerminal = true
        rw [a3]; exact a4
      · rw [← h2, ← k2, placeAll_store, ← hnm]
        rfl

theorem follows_lab (h : IsTrie env b.types b lab ds) {e n : NodeId} (hf : Follows (b.toCtx opts annots) e n) : ∃ x, lab n = lab e ++ x := by
  induction hf with
  | refl => exact ⟨[], by simp⟩
  | step _ hp ih =>
    obtain ⟨x, hx⟩ := ih
    obtain ⟨nd, hn, hq⟩ := ctx_parser hp
    exact ⟨x ++ [_], by rw [(h.trie.edge _ nd hn _ hq).1, hx, List.append_assoc]⟩

theorem IsTrie.may (h : IsTrie env b.types b lab ds) {p : Parser} {off : Nat} (hm : MayAccept env (b.toCtx opts annots) s p off) :
    (∃ n nd, b.heap n = some nd ∧ p ∈ nd.parsers) → MayBegin env ds s p.conf off := by
  induction hm with
  | @plain p off x hk hrun =>
    rintro ⟨n, nd, hn, hp⟩
    exact .plain (p := { p with node := 0 }) (h.plain hn hp hk) hrun
  | custom hk ht hq _ ih =>
    rintro ⟨n, nd, hn, hp⟩
    obtain ⟨h1, h2, _⟩ := h.custom hn hp hk ht
    obtain ⟨ndt, hnt, hqt⟩ := ctx_parser hq
    obtain ⟨d, hd, x, hl, hpre⟩ := h.used _ ndt hnt _ hqt
    rw [h.start _ _ h2] at hl
    injection hl with hl1 hl2
    subst hl2
    obtain ⟨cs, hcs⟩ := hpre
    exact .user h1 hd (mark_inj hl1.symm) hcs.symm (ih ⟨_, ndt, hnt, hqt⟩)
  | customNil hk ht hterm =>
    rintro ⟨n, nd, hn, hp⟩
    obtain ⟨h1, h2, _⟩ := h.custom hn hp hk ht
    obtain ⟨ndm, hm, htm⟩ := ctx_terminal hterm
    obtain ⟨d, hd, hdc, hl⟩ := h.term _ ndm hm htm
    rw [h.start _ _ h2] at hl
    injection hl with hl1 hl2
    exact .userNil h1 hd (mark_inj hl1) hdc hl2
  | rep hk _ _ _ =>
    rintro ⟨n, nd, hn, hp⟩
    refine absurd hk (h.no_repeat (opts := 0) (annots := []) n _ ?_ _)
    show _ ∈ ((b.heap n).getD {}).parsers
    rw [hn]; exact hp
  | repNone hk =>
    rintro ⟨n, nd, hn, hp⟩
    refine absurd hk (h.no_repeat (opts := 0) (annots := []) n _ ?_ _)
    show _ ∈ ((b.heap n).getD {}).parsers
    rw [hn]; exact hp
  | repNil hk _ =>
    rintro ⟨n, nd, hn, hp⟩
    refine absurd hk (h.no_repeat (opts := 0) (annots := []) n _ ?_ _)
    show _ ∈ ((b.heap n).getD {}).parsers
    rw [hn]; exact hp

theorem IsTrie.entry (h : IsTrie env b.types b lab ds) {e : NodeId} (he : Entry (b.toCtx opts annots) e) :
    ∃ nm, lab e = [mark (some nm)] := by
  cases he with
  | type ht => exact ⟨_, h.start _ _ (start_of_entry h.tnd ht)⟩
  | elem hp hk => exact absurd hk (h.no_repeat _ _ hp _)
  | sep hp hk => exact absurd hk (h.no_repeat _ _ hp _)

/-- unambiguous rules make decided graphs -/
theorem IsTrie.decided (h : IsTrie env b.types b lab ds) (hc : Clear env ds s) : Decided env (b.toCtx opts annots) s where
  one := by
    intro n off i j p q hi hj hp hq
    obtain ⟨nd, hn, hpm⟩ := ctx_parser (List.mem_of_getElem? hi)
    obtain ⟨nd', hn', hqm⟩ := ctx_parser (List.mem_of_getElem? hj)
    rw [hn] at hn'; cases hn'
    have hnode : (b.toCtx opts annots).node n = nd := by show (b.heap n).getD {} = nd; rw [hn]; rfl
    rw [hnode] at hi hj
    by_cases hpq : p.conf = q.conf
    · exact nodup_map_idx (h.trie.dist n nd hn) hi hj hpq
    · obtain ⟨d, hd, x, hl, hpre⟩ := h.used n nd hn p hpm
      obtain ⟨d', hd', x', hl', hpre'⟩ := h.used n nd hn q hqm
      rw [hl] at hl'
      injection hl' with h1 h2
      subst h2
      exact (hc.branch d hd d' hd' (mark_inj h1) x p.conf q.conf hpre hpre' hpq off (h.may hp ⟨n, nd, hn, hpm⟩) (h.may hq ⟨n, nd, hn, hqm⟩)).elim
  stop := by
    intro e n off he hf ht p hp hm
    obtain ⟨nm, hle⟩ := h.entry he
    obtain ⟨x, hx⟩ := follows_lab h hf
    obtain ⟨nd, hn, htm⟩ := ctx_terminal ht
    obtain ⟨d, hd, hdc, hl⟩ := h.term n nd hn htm
    obtain ⟨nd', hn', hpm⟩ := ctx_parser hp
    rw [hn] at hn'; cases hn'
    obtain ⟨d', hd', y, hl', hpre⟩ := h.used n nd hn p hpm
    rw [hx, hle, List.singleton_append] at hl
    injection hl with h1 h2
    rw [hx, hle, List.singleton_append] at hl'
    injection hl' with h3 h4
    have h1 := mark_inj h1
    have h3 := mark_inj h3
    rw [← h4, ← h2] at hpre
    exact hc.stop d hd (by rw [h1]; simp) hdc d' hd' (by rw [← h3, h1]) p.conf hpre off (h.may hm ⟨n, nd, hn, hpm⟩)
  nonempty := by
    intro e he
    obtain ⟨nm, hle⟩ := h.entry he
    cases hter : ((b.toCtx opts annots).node e).isTerminal with
    | false => rfl
    | true =>
      obtain ⟨nd, hn, htm⟩ := ctx_terminal hter
      obtain ⟨d, hd, hdc, hl⟩ := h.term e nd hn htm
      rw [hle] at hl
      injection hl with h1 h2
      exact absurd h2 (hc.nonempty d hd (by rw [mark_inj h1]; simp) hdc)

end
end
end LN
