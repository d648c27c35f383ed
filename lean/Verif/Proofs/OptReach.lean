import Verif.Proofs.OptSem
import Verif.Proofs.NoShare
/-
Which nodes the optimiser removes: in a graph without shared nodes exactly those which are entered
by a literal without name, end no rule and have such a literal as their only field. All others
are reached at the same places of a message before and after.
-/
set_option autoImplicit false
namespace LN

/-- the field is a literal without name -/
structure IsLit (p : Parser) : Prop where
  kind : ∃ d, p.kind = .literal d
  name : p.name = none

/-- no rule ends at `m`, its only field is a literal without name -/
structure LitOnly (b : Bld) (m : NodeId) : Prop where
  term : ((b.heap m).getD {}).isTerminal = false
  one : ∃ c, b.fieldsAt m = [c] ∧ IsLit c

/-- some literal without name leads to `m` -/
def ByLit (b : Bld) (m : NodeId) : Prop := ∃ n, ∃ p ∈ b.fieldsAt n, p.node = m ∧ IsLit p

/-- `m` lies inside the text of a literal -/
structure MidLit (b : Bld) (m : NodeId) : Prop where
  only : LitOnly b m
  by_ : ByLit b m

theorem Compaction.fields {b : Bld} {n : NodeId} {i : Nat} {nd : Node} {p : Parser} {vd : Node} {c : Parser} {wd : Node} {l l' : Bytes}
    (m : NodeId) : (compacted b n i nd p c l l').fieldsAt m =
      if m = p.node then [] else if m = n then nd.parsers.set i (mergedPrs p c l l') else b.fieldsAt m := by
  unfold compacted
  rw [fieldsAt_free, fieldsAt_store]

theorem heap_fieldsAt {b : Bld} {n : NodeId} {nd : Node} (h : b.heap n = some nd) : b.fieldsAt n = nd.parsers := by
  unfold Bld.fieldsAt; rw [h]; rfl

section
variable {b : Bld} {E : List NodeId} {n : NodeId} {i : Nat} {nd : Node} {p : Parser} {vd : Node} {c : Parser} {wd : Node} {l l' : Bytes}

theorem Compaction.lit (h : Compaction b n i nd p vd c wd l l') : IsLit p := ⟨⟨_, h.hk⟩, h.hname⟩
theorem Compaction.lit' (h : Compaction b n i nd p vd c wd l l') : IsLit c := ⟨⟨_, h.hck⟩, h.hcname⟩
theorem Compaction.mlit (h : Compaction b n i nd p vd c wd l l') : IsLit (mergedPrs p c l l') := ⟨⟨_, rfl⟩, h.hname⟩

theorem Compaction.mem (h : Compaction b n i nd p vd c wd l l') : p ∈ b.fieldsAt n := by
  rw [heap_fieldsAt h.hn]; exact List.mem_of_getElem? h.hp

theorem Compaction.inner (h : Compaction b n i nd p vd c wd l l') : MidLit b p.node := by
  refine ⟨⟨?_, c, ?_, h.lit'⟩, n, p, h.mem, rfl, h.lit⟩
  · rw [h.hv]; exact h.hterm
  · rw [heap_fieldsAt h.hv, h.hpars]

theorem Compaction.litOnly (hi : Inv b E) (h : Compaction b n i nd p vd c wd l l') (m : NodeId) :
    LitOnly (compacted b n i nd p c l l') m ↔ m ≠ p.node ∧ LitOnly b m := by
  have hlt := (h.lt hi).1
  have ht : m ≠ p.node → (((compacted b n i nd p c l l').heap m).getD {}).isTerminal = ((b.heap m).getD {}).isTerminal := by
    intro hm
    unfold compacted
    rw [Bld.heap_free, if_neg hm, Bld.heap_store]
    split
    · rename_i e; subst e; rw [h.hn]; rfl
    · rfl
  have hf := Compaction.fields (b := b) (n := n) (i := i) (nd := nd) (p := p) (vd := vd) (c := c) (wd := wd) (l := l) (l' := l') m
  have hlen : i < nd.parsers.length := (List.getElem?_eq_some_iff.1 h.hp).1
  by_cases hm : m = p.node
  · rw [if_pos hm] at hf
    constructor
    · rintro ⟨_, x, hx, _⟩; rw [hf] at hx; cases hx
    · rintro ⟨h1, _⟩; exact absurd hm h1
  · rw [if_neg hm] at hf
    by_cases hmn : m = n
    · subst hmn
      rw [if_pos rfl] at hf
      have hfb := heap_fieldsAt h.hn
      constructor
      · rintro ⟨h1, x, hx, hx'⟩
        refine ⟨hm, (ht hm) ▸ h1, ?_⟩
        rw [hf] at hx
        have hl : nd.parsers.length = 1 := by have := congrArg List.length hx; simpa using this
        obtain ⟨q, hq⟩ := List.length_eq_one_iff.1 hl
        have : i = 0 := by omega
        subst this
        have hp := h.hp
        rw [hq] at hp
        cases hp
        exact ⟨p, by rw [hfb, hq], h.lit⟩
      · rintro ⟨_, h1, x, hx, hx'⟩
        refine ⟨(ht hm).trans h1, mergedPrs p c l l', ?_, h.mlit⟩
        rw [hfb] at hx
        rw [hf, hx]
        rw [hx] at hlen
        have : i = 0 := by have : i < 1 := hlen; omega
        subst this; rfl
    · rw [if_neg hmn] at hf
      constructor
      · rintro ⟨h1, x, hx, hx'⟩; exact ⟨hm, (ht hm) ▸ h1, x, hf ▸ hx, hx'⟩
      · rintro ⟨_, h1, x, hx, hx'⟩; exact ⟨(ht hm).trans h1, x, hf.trans hx, hx'⟩

/-- an edge of the compacted graph stands for one or two edges -/
theorem Compaction.edge (hi : Inv b E) (h : Compaction b n i nd p vd c wd l l') {x : NodeId} {q : Parser}
    (hq : q ∈ (compacted b n i nd p c l l').fieldsAt x) :
    q ∈ b.fieldsAt x ∨ (x = n ∧ q = mergedPrs p c l l') := by
  rw [Compaction.fields (vd := vd) (wd := wd)] at hq
  split at hq
  · cases hq
  · split at hq
    · rename_i e
      subst e
      rcases List.mem_or_eq_of_mem_set hq with h1 | h1
      · exact .inl (by rw [heap_fieldsAt h.hn]; exact h1)
      · exact .inr ⟨rfl, h1⟩
    · exact .inl hq

theorem Compaction.byLit (hi : Inv b E) (h : Compaction b n i nd p vd c wd l l') {m : NodeId} (hm : m ≠ p.node) :
    ByLit (compacted b n i nd p c l l') m ↔ ByLit b m := by
  have hlt := h.lt hi
  have hvf : b.fieldsAt p.node = [c] := by rw [heap_fieldsAt h.hv, h.hpars]
  constructor
  · rintro ⟨x, q, hq, hqn, hl⟩
    rcases h.edge hi hq with h1 | ⟨rfl, rfl⟩
    · exact ⟨x, q, h1, hqn, hl⟩
    · exact ⟨p.node, c, by rw [hvf]; exact List.mem_cons_self .., hqn, h.lit'⟩
  · rintro ⟨x, q, hq, hqn, hl⟩
    have hlen : i < nd.parsers.length := (List.getElem?_eq_some_iff.1 h.hp).1
    have hfn : (compacted b n i nd p c l l').fieldsAt n = nd.parsers.set i (mergedPrs p c l l') := by
      rw [Compaction.fields (vd := vd) (wd := wd), if_neg (Nat.ne_of_lt hlt.1), if_pos rfl]
    by_cases hxv : x = p.node
    · subst hxv
      rw [hvf] at hq
      have := List.mem_singleton.1 hq
      subst this
      refine ⟨n, mergedPrs p q l l', ?_, hqn, h.mlit⟩
      rw [hfn]
      exact List.mem_of_getElem? (List.getElem?_set_self hlen)
    · by_cases hxn : x = n
      · subst hxn
        rw [heap_fieldsAt h.hn] at hq
        obtain ⟨j, hj⟩ := List.mem_iff_getElem?.1 hq
        by_cases hji : j = i
        · subst hji
          have := h.hp.symm.trans hj
          cases this
          exact absurd hqn.symm hm
        · refine ⟨x, q, ?_, hqn, hl⟩
          rw [hfn]
          exact List.mem_of_getElem? ((List.getElem?_set_ne (Ne.symm hji)).trans hj)
      · refine ⟨x, q, ?_, hqn, hl⟩
        rw [Compaction.fields (vd := vd) (wd := wd), if_neg hxv, if_neg hxn]; exact hq

theorem Compaction.leads (hi : Inv b E) (h : Compaction b n i nd p vd c wd l l') {x m : NodeId}
    (hl : LeadsTo (compacted b n i nd p c l l').fieldsAt x m) : LeadsTo b.fieldsAt x m := by
  have hvf : b.fieldsAt p.node = [c] := by rw [heap_fieldsAt h.hv, h.hpars]
  induction hl with
  | refl x => exact .refl x
  | step hq _ ih =>
    rcases h.edge hi hq with h1 | ⟨rfl, rfl⟩
    · exact .step h1 ih
    · exact .step h.mem (.step (p := c) (by rw [hvf]; exact List.mem_cons_self ..) ih)
end

section
variable {srt : Sorter} {b : Bld} {n : NodeId} {nd : Node}

theorem sort_fields (hn : b.heap n = some nd) (m : NodeId) : ((b.store n { nd with parsers := srt.sort nd.parsers }).fieldsAt m).Perm (b.fieldsAt m) := by
  rw [fieldsAt_store]
  split
  · rename_i e; subst e; rw [heap_fieldsAt hn]; exact srt.perm _
  · exact .refl _

theorem sort_term (hn : b.heap n = some nd) (m : NodeId) :
    (((b.store n { nd with parsers := srt.sort nd.parsers }).heap m).getD {}).isTerminal = ((b.heap m).getD {}).isTerminal := by
  rw [Bld.heap_store]
  split
  · rename_i e; subst e; rw [hn]; rfl
  · rfl

theorem sort_litOnly (hn : b.heap n = some nd) (m : NodeId) : LitOnly (b.store n { nd with parsers := srt.sort nd.parsers }) m ↔ LitOnly b m := by
  constructor
  · rintro ⟨h1, x, hx, hl⟩
    have := sort_fields (srt := srt) hn m
    rw [hx] at this
    exact ⟨(sort_term hn m) ▸ h1, x, (List.singleton_perm.1 this).symm, hl⟩
  · rintro ⟨h1, x, hx, hl⟩
    have := sort_fields (srt := srt) hn m
    rw [hx] at this
    exact ⟨(sort_term hn m).trans h1, x, List.perm_singleton.1 this, hl⟩

theorem sort_byLit (hn : b.heap n = some nd) (m : NodeId) : ByLit (b.store n { nd with parsers := srt.sort nd.parsers }) m ↔ ByLit b m := by
  constructor
  · rintro ⟨x, q, hq, h⟩; exact ⟨x, q, (sort_fields hn x).mem_iff.1 hq, h⟩
  · rintro ⟨x, q, hq, h⟩; exact ⟨x, q, (sort_fields hn x).mem_iff.2 hq, h⟩

theorem sort_leads (hn : b.heap n = some nd) {x m : NodeId} (hl : LeadsTo (b.store n { nd with parsers := srt.sort nd.parsers }).fieldsAt x m) :
    LeadsTo b.fieldsAt x m := by
  induction hl with
  | refl x => exact .refl x
  | step hq _ ih => exact .step ((sort_fields hn _).mem_iff.1 hq) ih
end

/-! ### steps -/

section
variable {srt : Sorter} {n0 : NodeId} {b b' : Bld} {E : List NodeId}

theorem OptStep.leads (hi : Inv b E) (h : OptStep srt n0 b b') {x m : NodeId} (hl : LeadsTo b'.fieldsAt x m) : LeadsTo b.fieldsAt x m := by
  cases h with
  | sort _ hn => exact sort_leads hn hl
  | compact _ hc => exact hc.leads hi hl

theorem OptSteps.leads (hi : Inv b E) (h : OptSteps srt n0 b b') {x m : NodeId} (hl : LeadsTo b'.fieldsAt x m) : LeadsTo b.fieldsAt x m := by
  induction h with
  | refl => exact hl
  | head s _ ih => exact s.leads hi (ih (s.frame hi).1 hl)

theorem LitOnly.live {m : NodeId} (h : LitOnly b m) : (b.heap m).isSome := by
  obtain ⟨_, x, hx, _⟩ := h
  unfold Bld.fieldsAt at hx
  cases hm : b.heap m with
  | none => rw [hm] at hx; cases hx
  | some _ => rfl

theorem OptStep.inner (hi : Inv b E) (h : OptStep srt n0 b b') {m : NodeId} (hm : (b'.heap m).isSome) : MidLit b' m ↔ MidLit b m := by
  cases h with
  | sort _ hn => exact ⟨fun h => ⟨(sort_litOnly hn m).1 h.1, (sort_byLit hn m).1 h.2⟩, fun h => ⟨(sort_litOnly hn m).2 h.1, (sort_byLit hn m).2 h.2⟩⟩
  | @compact n i nd p vd c wd l l' _ hc =>
    have hne : m ≠ p.node := by
      rintro rfl
      unfold compacted at hm
      rw [Bld.heap_free, if_pos rfl] at hm; cases hm
    exact ⟨fun h => ⟨((hc.litOnly hi m).1 h.1).2, (hc.byLit hi hne).1 h.2⟩, fun h => ⟨(hc.litOnly hi m).2 ⟨hne, h.1⟩, (hc.byLit hi hne).2 h.2⟩⟩

theorem OptStep.alive (hi : Inv b E) (h : OptStep srt n0 b b') {m : NodeId} (hm : (b'.heap m).isSome) : (b.heap m).isSome := by
  cases h with
  | sort _ hn =>
    rw [Bld.heap_store] at hm
    split at hm
    · rename_i e; subst e; rw [hn]; rfl
    · exact hm
  | compact _ hc =>
    unfold compacted at hm
    rw [Bld.heap_free] at hm
    split at hm
    · cases hm
    · rw [Bld.heap_store] at hm
      split at hm
      · rename_i e; subst e; rw [hc.hn]; rfl
      · exact hm

theorem OptSteps.alive (hi : Inv b E) (h : OptSteps srt n0 b b') {m : NodeId} (hm : (b'.heap m).isSome) : (b.heap m).isSome := by
  induction h with
  | refl => exact hm
  | head s _ ih => exact s.alive hi (ih (s.frame hi).1 hm)

theorem OptSteps.inner (hi : Inv b E) (h : OptSteps srt n0 b b') {m : NodeId} (hm : (b'.heap m).isSome) : MidLit b' m ↔ MidLit b m := by
  induction h with
  | refl => exact Iff.rfl
  | head s t ih =>
    have hi1 := (s.frame hi).1
    exact (ih hi1 hm).trans (s.inner hi (t.alive hi1 hm))

/-- only nodes inside a literal are removed -/
theorem OptSteps.removed (hi : Inv b E) (h : OptSteps srt n0 b b') {m : NodeId} (hm : (b.heap m).isSome) (hm' : ¬ (b'.heap m).isSome) : MidLit b m := by
  induction h with
  | refl => exact absurd hm hm'
  | @head b b1 b2 s t ih =>
    have hi1 := (s.frame hi).1
    by_cases h1 : (b1.heap m).isSome
    · exact (s.inner hi h1).1 (ih hi1 h1 hm')
    · cases s with
      | sort _ hn =>
        rw [Bld.heap_store] at h1
        split at h1
        · exact absurd rfl h1
        · exact absurd hm h1
      | @compact n i nd p vd c wd l l' _ hc =>
        have : m = p.node := by
          refine Classical.byContradiction fun hne => h1 ?_
          unfold compacted
          rw [Bld.heap_free, if_neg hne, Bld.heap_store]
          split
          · rfl
          · exact hm
        subst this
        exact hc.inner

/-- the nodes that remain are reached at the same places of a message as before -/
theorem OptSteps.reach {env : Env} {s : Bytes} (h0 : ∀ c ∈ s, c ≠ 0) (hi : Inv b E) (hroot : b.root ∈ E) (h : OptSteps srt n0 b b')
    (opts : Nat) (annots : List Annot) (m : NodeId) (u : Nat) (hm : (b'.heap m).isSome) :
    (∃ tr, Path env (b'.toCtx opts annots) s b.root 0 tr m u) ↔ ∃ tr, Path env (b.toCtx opts annots) s b.root 0 tr m u := by
  induction h with
  | refl => exact Iff.rfl
  | @head b b1 b2 st t ih =>
    obtain ⟨hi1, _, _, hr, _, _⟩ := st.frame hi
    have key := ih hi1 (by rw [hr]; exact hroot) hm
    rw [hr] at key
    refine key.trans ?_
    have hm1 := t.alive hi1 hm
    cases st with
    | sort _ hn => exact ((sort_sim hn opts annots).2 m u).trans ⟨fun h => h.2, fun h => ⟨trivial, h⟩⟩
    | @compact n i nd p vd c wd l l' _ hc =>
      have hne : m ≠ p.node := by
        rintro rfl
        unfold compacted at hm1
        rw [Bld.heap_free, if_pos rfl] at hm1; cases hm1
      exact ((compact_sim h0 hi hc hroot opts annots).2 m u).trans ⟨fun h => h.2, fun h => ⟨hne, h⟩⟩
end

/-! ### the optimiser removes all of them -/

/-- nothing from `x` on lies inside a literal -/
def Done (b : Bld) (x : NodeId) : Prop := ∀ m, LeadsTo b.fieldsAt x m → ¬ MidLit b m

/-- nothing behind `x` lies inside a literal -/
def Clean (b : Bld) (x : NodeId) : Prop := ∀ q ∈ b.fieldsAt x, Done b q.node

theorem Done.steps {srt : Sorter} {n0 : NodeId} {b b' : Bld} {E : List NodeId} (hi : Inv b E) (h : OptSteps srt n0 b b') {x : NodeId}
    (hd : Done b x) : Done b' x := by
  intro m hl hin
  exact hd m (h.leads hi hl) ((h.inner hi hin.only.live).1 hin)

theorem compactable_inner {b : Bld} {E : List NodeId} (hi : Inv b E) (hs : Single b) {n : NodeId} {p : Parser} (hp : p ∈ b.fieldsAt n)
    (hc : compactable b p = .ok none) : ¬ MidLit b p.node := by
  rintro ⟨⟨ht, c, hf, hcl⟩, x, q, hq, hqn, hql⟩
  have hx := hs.unique hi x n q p hq hp hqn
  subst hx
  have hqp : q = p := by
    refine Classical.byContradiction fun hne => ?_
    have hpw := hs.pairwise hi x
    rcases List.pairwise_iff_getElem.1 hpw with hpw'
    obtain ⟨i, hi', e1⟩ := List.mem_iff_getElem.1 hq
    obtain ⟨j, hj', e2⟩ := List.mem_iff_getElem.1 hp
    rcases Nat.lt_trichotomy i j with h | h | h
    · exact hpw' i j hi' hj' h (by rw [e1, e2]; exact hqn)
    · subst h; exact hne (e1.symm.trans e2)
    · exact hpw' j i hj' hi' h (by rw [e1, e2]; exact hqn.symm)
  subst hqp
  obtain ⟨⟨d, hk⟩, hname⟩ := hql
  obtain ⟨⟨d', hk'⟩, hname'⟩ := hcl
  obtain ⟨vd, hv⟩ := Option.isSome_iff_exists.1 (live_fieldsAt hi hp)
  have hpars : vd.parsers = [c] := by rw [← heap_fieldsAt hv]; exact hf
  rw [hv] at ht
  have one : ∀ {m : NodeId} {md : Node}, b.heap m = some md → md.refcnt = 1 := by
    intro m md h
    have h1 := hs _ _ h
    have h2 := (hi.cnt _ _ h).2
    exact Nat.le_antisymm h1 h2
  have hcm : c ∈ b.fieldsAt q.node := by rw [hf]; exact List.mem_cons_self ..
  obtain ⟨wd, hw⟩ := Option.isSome_iff_exists.1 (live_fieldsAt hi hcm)
  have hlv : b.load q.node = .ok vd := by simp [Bld.load, hv]
  have hlw : b.load c.node = .ok wd := by simp [Bld.load, hw]
  unfold compactable at hc
  rw [hk, hname] at hc
  dsimp only at hc
  rw [hlv, R.ok_bind'] at hc
  have ht' : vd.isTerminal = false := ht
  rw [ht', one hv, hpars] at hc
  rw [if_neg (by decide)] at hc
  dsimp only at hc
  rw [hk', hname'] at hc
  dsimp only at hc
  rw [hlw, R.ok_bind', if_pos (one hw)] at hc
  cases hc

theorem compactLoop_end {n : NodeId} {i : Nat} : ∀ (fuel : Nat) (b b' : Bld), compactLoop n i fuel b = .ok b' →
    ∀ p, (b'.fieldsAt n)[i]? = some p → compactable b' p = .ok none
  | 0, _, _, h => by cases h
  | fuel + 1, b, b', h => by
    intro p hp
    unfold compactLoop at h
    obtain ⟨nd, hl, h⟩ := R.bind_eq_ok.1 h
    have hf := load_fieldsAt hl
    split at h
    · rename_i hn
      cases h
      rw [hf, hn] at hp; cases hp
    · rename_i q hq
      obtain ⟨r, hr, h⟩ := R.bind_eq_ok.1 h
      cases r with
      | none =>
        cases h
        rw [hf, hq] at hp
        cases hp
        exact hr
      | some y =>
        obtain ⟨d, d', w⟩ := y
        dsimp only at h
        obtain ⟨_, _, h⟩ := R.bind_eq_ok.1 h
        obtain ⟨_, _, h⟩ := R.bind_eq_ok.1 h
        obtain ⟨_, _, h⟩ := R.bind_eq_ok.1 h
        obtain ⟨_, _, h⟩ := R.bind_eq_ok.1 h
        exact compactLoop_end fuel _ b' h p hp

theorem optLoop_done {srt : Sorter} {E : List NodeId} {fuel : Nat} {n : NodeId}
    (hrec : ∀ (b b' : Bld) (m : NodeId), Inv b E → Single b → (b.heap m).isSome → b.next < m + fuel → optimizeF srt fuel b m = .ok b' → Clean b' m) :
    ∀ (k i : Nat) (b b' : Bld), Inv b E → Single b → (b.heap n).isSome → b.next < n + (fuel + 1) → (b.fieldsAt n).length ≤ i + k →
      (∀ j, j < i → ∀ p, (b.fieldsAt n)[j]? = some p → Done b p.node) → optLoop (optimizeF srt fuel) n k i b = .ok b' → Clean b' n
  | 0, i, b, b', hi, hs, hn, hf, hlen, hd, h => by
    cases h
    intro q hq
    obtain ⟨j, hj, e⟩ := List.mem_iff_getElem.1 hq
    exact hd j (by omega) q (by rw [List.getElem?_eq_getElem hj, e])
  | k + 1, i, b, b', hi, hs, hn, hf, hlen, hd, h => by
    unfold optLoop at h
    obtain ⟨nd, hl, h⟩ := R.bind_eq_ok.1 h
    have hfl := load_fieldsAt hl
    obtain ⟨nd0, hnd⟩ := Option.isSome_iff_exists.1 hn
    have : nd0 = nd := by
      have : b.load n = .ok nd0 := by simp [Bld.load, hnd]
      rw [this] at hl; cases hl; rfl
    subst this
    have stop : ∀ {b1 : Bld} {i : Nat}, (b1.fieldsAt n)[i]? = none → (∀ j, j < i → ∀ p, (b1.fieldsAt n)[j]? = some p → Done b1 p.node) → Clean b1 n := by
      intro b1 i hnone hd q hq
      have hle := List.getElem?_eq_none_iff.1 hnone
      obtain ⟨j, hj, e⟩ := List.mem_iff_getElem.1 hq
      exact hd j (by omega) q (by rw [List.getElem?_eq_getElem hj, e])
    cases hp : nd0.parsers[i]? with
    | none =>
      rw [hp] at h
      dsimp only at h
      cases h
      exact stop (by rw [hfl]; exact hp) hd
    | some p =>
      rw [hp] at h
      dsimp only at h
      split at h
      · cases h
      · obtain ⟨b1, hc, h⟩ := R.bind_eq_ok.1 h
        have hmem := (compactLoop_ok (srt := srt) (E := E) (b.next + 1) b nd0 p hi hnd hp
          (Nat.lt_of_lt_of_le (Nat.lt_succ_self _) (Nat.le_add_left _ _))).ok_of hc
        obtain ⟨hs1, nd1', hnd1', hlen1, hoth⟩ := hmem
        obtain ⟨hi1, hx1, _, _, _, _⟩ := hs1.frame hi
        have hsg1 := OptSteps.single hs hs1
        have hf1 := heap_fieldsAt hnd1'
        have hd1 : ∀ j, j < i → ∀ p, (b1.fieldsAt n)[j]? = some p → Done b1 p.node := by
          intro j hj q hq
          rw [hf1, hoth j (Nat.ne_of_lt hj)] at hq
          exact (hd j hj q (by rw [hfl]; exact hq)).steps hi hs1
        obtain ⟨nd1, hl1, h⟩ := R.bind_eq_ok.1 h
        have hfl1 := load_fieldsAt hl1
        cases hp1 : nd1.parsers[i]? with
        | none =>
          rw [hp1] at h
          dsimp only at h
          cases h
          exact stop (by rw [hfl1]; exact hp1) hd1
        | some p1 =>
          rw [hp1] at h
          dsimp only at h
          obtain ⟨b2, hr, h⟩ := R.bind_eq_ok.1 h
          have hp1' : (b1.fieldsAt n)[i]? = some p1 := by rw [hfl1]; exact hp1
          have hpm : p1 ∈ b1.fieldsAt n := List.mem_of_getElem? hp1'
          have hlive := live_fieldsAt hi1 hpm
          have hasc := (asc_fieldsAt hi1 n p1 hpm).1
          have hfu : b1.next < p1.node + fuel := by
            rw [hx1]
            exact Nat.lt_of_lt_of_le hf ((by omega : ∀ (a b f : Nat), a < b → a + (f + 1) ≤ b + f) _ _ _ hasc)
          have hcl := hrec b1 b2 p1.node hi1 hsg1 hlive hfu hr
          have hs2 : OptSteps srt p1.node b1 b2 := (optimizeF_ok fuel b1 p1.node hi1 hlive hfu).ok_of hr
          obtain ⟨hi2, hx2, _, _, _, hold2⟩ := hs2.frame hi1
          have hni : ¬ MidLit b1 p1.node := compactable_inner hi1 hsg1 hpm (compactLoop_end _ b b1 hc p1 hp1')
          have hdp : Done b2 p1.node := by
            intro m hlm hin
            cases hlm with
            | refl => exact hni ((hs2.inner hi1 hin.only.live).1 hin)
            | step hq t => exact hcl _ hq m t hin
          have hfe : b2.fieldsAt n = b1.fieldsAt n := by unfold Bld.fieldsAt; rw [hold2 n hasc]
          refine optLoop_done hrec k (i + 1) b2 b' hi2 (OptSteps.single hsg1 hs2) ?_ ?_ ?_ ?_ h
          · rw [hold2 n hasc, hnd1']; rfl
          · rw [hx2, hx1]; exact hf
          · rw [hfe, hf1, hlen1, ← hfl]; omega
          · intro j hj q hq
            rw [hfe] at hq
            by_cases hji : j = i
            · subst hji
              have := hp1'.symm.trans hq
              cases this
              exact hdp
            · exact (hd1 j (by omega) q hq).steps hi1 hs2

theorem optimizeF_done {srt : Sorter} {E : List NodeId} : ∀ (fuel : Nat) (b b' : Bld) (n : NodeId), Inv b E → Single b →
    (b.heap n).isSome → b.next < n + fuel → optimizeF srt fuel b n = .ok b' → Clean b' n
  | 0, b, b', n, hi, hs, hn, hf, h => by cases h
  | fuel + 1, b, b', n, hi, hs, hn, hf, h => by
    unfold optimizeF at h
    obtain ⟨nd, hl, h⟩ := R.bind_eq_ok.1 h
    obtain ⟨nd0, hnd⟩ := Option.isSome_iff_exists.1 hn
    have : nd0 = nd := by
      have : b.load n = .ok nd0 := by simp [Bld.load, hnd]
      rw [this] at hl; cases hl; rfl
    subst this
    have hst : OptSteps srt n b (b.store n (if nd0.parsers.length > 1 then { nd0 with parsers := srt.sort nd0.parsers } else nd0)) := by
      split
      · exact .head (.sort (Nat.le_refl _) hnd) (.refl _)
      · have : b.store n nd0 = b := by
          refine Bld.ext_heap ?_ rfl rfl rfl rfl
          funext m
          rw [Bld.heap_store]
          by_cases hm : m = n
          · rw [if_pos hm, hm, hnd]
          · rw [if_neg hm]
        rw [this]; exact .refl b
    obtain ⟨hi1, hx1, _, _, _, _⟩ := hst.frame hi
    refine optLoop_done (fun b b' m h1 h2 h3 h4 h5 => optimizeF_done fuel b b' m h1 h2 h3 h4 h5) _ 0 _ b' hi1 (OptSteps.single hs hst) ?_ hf ?_ ?_ h
    · rw [Bld.heap_store, if_pos rfl]; rfl
    · rw [fieldsAt_store, if_pos rfl]; exact Nat.le_add_left _ _
    · intro j hj; exact absurd hj (Nat.not_lt_zero j)

theorem single_root {b : Bld} {E : List NodeId} (hi : Inv b E) (hs : Single b) {r : NodeId} (hr : r ∈ E) : ¬ MidLit b r := by
  rintro ⟨_, n, p, hp, rfl, _⟩
  obtain ⟨nd, hn, _, hm⟩ := fields_refs hp
  obtain ⟨rd, hrd⟩ := Option.isSome_iff_exists.1 (hi.asc _ _ hm).2
  have h1 := (hi.cnt _ _ hrd).1
  have h2 := hs _ _ hrd
  have h3 := count_one (f := b.refsOf) b.next (x := p.node) (hi.range _ _ hn).2
  have h4 : 0 < (b.refsOf n).count p.node := List.count_pos_iff.2 hm
  have h5 : 0 < E.count p.node := List.count_pos_iff.2 hr
  unfold Bld.allRefs at h1
  omega

/-- nothing behind the root of an optimised graph lies inside a literal -/
theorem pdagOptimize_clean {srt : Sorter} {b b' : Bld} {E : List NodeId} (hi : Inv b E) (hs : Single b)
    (hroot : b.root ∈ E) (htypes : ∀ t ∈ b.types, t.2 ∈ E) (h : pdagOptimize srt b = .ok b') {m : NodeId} (hl : LeadsTo b'.fieldsAt b.root m) :
    ¬ MidLit b m := by
  have hst := (pdagOptimize_ok hi hroot htypes).ok_of h
  obtain ⟨hi', _, _, hr', _, _⟩ := hst.frame hi
  have hclean : Clean b' b.root := by
    unfold pdagOptimize at h
    obtain ⟨b1, h1, h⟩ := R.bind_eq_ok.1 h
    obtain ⟨_, _, h⟩ := R.bind_eq_ok.1 h
    obtain ⟨_, _, h⟩ := R.bind_eq_ok.1 h
    cases h
    unfold optimizeAll at h1
    obtain ⟨b2, h2, h1⟩ := R.bind_eq_ok.1 h1
    have hs2 : OptSteps srt 0 b b2 := (foldOptimize_ok (E := E) _ b hi (by
      intro n hn
      obtain ⟨t, ht, rfl⟩ := List.mem_map.1 hn
      exact htypes t ht)).ok_of h2
    obtain ⟨hi2, _, _, hr2, _, _⟩ := hs2.frame hi
    rw [hr2] at h1
    exact optimizeF_done _ b2 _ b.root hi2 (OptSteps.single hs hs2) (hi2.ext _ hroot) (Nat.lt_of_lt_of_le (Nat.lt_succ_self _) (Nat.le_add_left _ _)) h1
  have hlive : (b'.heap m).isSome := live_leads hi' hl (hi'.ext _ hroot)
  intro hin
  have hin' := (hst.inner hi hlive).2 hin
  cases hl with
  | refl => exact single_root hi' (OptSteps.single hs hst) hroot hin'
  | step hq t => exact hclean _ hq m t hin'

/-- where the optimised graph can be reached: at the nodes not inside a literal, as before -/
theorem pdagOptimize_reach {env : Env} {srt : Sorter} {b b' : Bld} {E : List NodeId} {s : Bytes} (h0 : ∀ c ∈ s, c ≠ 0) (hi : Inv b E) (hs : Single b)
    (hroot : b.root ∈ E) (htypes : ∀ t ∈ b.types, t.2 ∈ E) (h : pdagOptimize srt b = .ok b') (opts : Nat) (annots : List Annot) (m : NodeId) (u : Nat) :
    (∃ tr, Path env (b'.toCtx opts annots) s b.root 0 tr m u) ↔ (∃ tr, Path env (b.toCtx opts annots) s b.root 0 tr m u) ∧ ¬ MidLit b m := by
  have hst := (pdagOptimize_ok hi hroot htypes).ok_of h
  obtain ⟨hi', _, _, hr', _, _⟩ := hst.frame hi
  have path_leads : ∀ {x : NodeId} {o : Nat} {tr : List Step} {m : NodeId} {u : Nat}, Path env (b'.toCtx opts annots) s x o tr m u → LeadsTo b'.fieldsAt x m := by
    intro x o tr m u hp
    induction hp with
    | nil x _ => exact .refl x
    | cons hidx _ _ ih => exact .step (List.mem_of_getElem? hidx) ih
  constructor
  · rintro ⟨tr, hp⟩
    have hl := path_leads hp
    have hlive : (b'.heap m).isSome := live_leads hi' hl (hi'.ext _ hroot)
    exact ⟨(hst.reach h0 hi hroot opts annots m u hlive).1 ⟨tr, hp⟩, pdagOptimize_clean hi hs hroot htypes h hl⟩
  · rintro ⟨⟨tr, hp⟩, hni⟩
    have path_live : ∀ {x : NodeId} {o : Nat} {tr : List Step} {m : NodeId} {u : Nat}, Path env (b.toCtx opts annots) s x o tr m u → LeadsTo b.fieldsAt x m := by
      intro x o tr m u hp
      induction hp with
      | nil x _ => exact .refl x
      | cons hidx _ _ ih => exact .step (List.mem_of_getElem? hidx) ih
    have hlive : (b.heap m).isSome := live_leads hi (path_live hp) (hi.ext _ hroot)
    have hlive' : (b'.heap m).isSome := Classical.byContradiction fun hd => hni (hst.removed hi hlive hd)
    exact (hst.reach h0 hi hroot opts annots m u hlive').2 ⟨tr, hp⟩

end LN
