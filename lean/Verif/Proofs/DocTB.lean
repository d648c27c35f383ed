import Verif.Proofs.DocT
/- Rule bases of version 2 with user-defined types: ambiguity, order of types, and that there is a result. -/
set_option autoImplicit false
namespace LN
open Spec

section
variable {env : Env} {s : Bytes}

/-- the conditions on a field and the message under which the field does what it means -/
def TokOK (env : Env) (s : Bytes) (k : RTok) : Prop :=
  k.1.Described k.2 ∧ ∀ ty, k.1 = .plain ty → ∀ off, off ≤ s.length → ty.InScope env k.2 s off (fieldName k.2).isSome

theorem toks_okT {r : RuleT} (h : PartsOK env s r.parts) : ∀ k ∈ r.toks env, TokOK env s k := by
  intro k hk
  refine ⟨toksT_desc (fun p hp => (h p hp).1) k hk, ?_⟩
  have hlit : ∀ (l : Bytes), k ∈ (litMeaning env l).map RuleT.litTok → ∀ ty, k.1 = .plain ty → ∀ off, off ≤ s.length →
      ty.InScope env k.2 s off (fieldName k.2).isSome := by
    intro l hk ty hty off _
    obtain ⟨c, _, rfl⟩ := List.mem_map.1 hk
    cases hty
    trivial
  rcases List.mem_append.1 hk with h1 | h1
  · exact hlit _ h1
  · obtain ⟨p, hp, h1⟩ := List.mem_flatMap.1 h1
    rcases List.mem_cons.1 h1 with rfl | h1
    · exact (h p hp).2
    · exact hlit _ h1

theorem user_not_field {nm : Bytes} {o : Obj} (h : DescribesUser nm o) : confField env [] (.obj o) = none := by
  rw [confField_user h.userType]; rfl

theorem plain_not_user {f : FType} {o : Obj} (h : Describes f o) : userType env (.obj o) = none := by
  obtain ⟨p, hp, _⟩ := confField_ok (env := env) h
  exact confField_not_user hp

/-- what may begin in the graph begins according to the rules -/
theorem begins_of_may (hs : Tame s) {ds : List RuleT} (hds : ∀ d ∈ ds, PartsOK env s d.parts) (hne : ∀ d ∈ ds, d.type ≠ none → d.breaks = none → d.toks env ≠ [])
    {c : Json} {off : Nat} (h : MayBegin env (ds.map (RuleT.toDef env)) s c off) :
    ∀ k : RTok, tokConfT k = c → TokOK env s k → Begins env ds (s.drop off) k := by
  induction h with
  | @plain c p off x hfield hrun =>
    rintro ⟨ty, o⟩ rfl ⟨hd, hin⟩
    change confField env [] (.obj o) = some p at hfield
    cases ty with
    | user nm => rw [user_not_field hd] at hfield; cases hfield
    | plain f =>
      by_cases hl : off ≤ s.length
      · obtain ⟨_, _, _, _, h5⟩ := field_does hs hd hl (hin f rfl off hl) hfield
        obtain ⟨v, hm, _⟩ := h5 x.1 x.2 hrun
        exact .plain hm
      · obtain ⟨y, hy⟩ := runParser_beyond (by omega) hrun
        obtain ⟨_, _, _, _, h5⟩ := field_does hs hd (Nat.le_refl _) (hin f rfl _ (Nat.le_refl _)) hfield
        obtain ⟨v, hm, _⟩ := h5 y.1 y.2 hy
        rw [List.drop_of_length_le (by omega : s.length ≤ off), ← List.drop_length]
        exact .plain hm
  | @user c c' t d cs off hfield hd hdt hc _ ih =>
    rintro ⟨ty, o⟩ rfl ⟨hde, hin⟩
    change userType env (.obj o) = some t at hfield
    cases ty with
    | plain f => rw [plain_not_user hde] at hfield; cases hfield
    | user nm =>
      rw [DescribesUser.userType hde] at hfield
      cases hfield
      obtain ⟨r, hr, rfl⟩ := List.mem_map.1 hd
      change (r.toks env).map tokConfT = _ at hc
      cases hk : r.toks env with
      | nil => rw [hk] at hc; cases hc
      | cons k ks =>
        rw [hk, List.map_cons] at hc
        injection hc with h1 h2
        exact .user hr hdt hk (ih k h1 (toks_okT (hds r hr) k (by rw [hk]; exact List.mem_cons_self ..)))
  | @userNil c t d off hfield hd hdt hdc hc =>
    obtain ⟨r, hr, rfl⟩ := List.mem_map.1 hd
    have h1 : r.toks env = [] := List.map_eq_nil_iff.1 hc
    exact absurd h1 (hne r hr (by rw [show r.type = some t from hdt]; intro h; cases h) (Option.isNone_iff_eq_none.1 hdc))

theorem toks_snoc {r : RuleT} {x : List Json} {c : Json} (h : x ++ [c] <+: (r.toks env).map tokConfT) :
    ∃ y k, y ++ [k] <+: r.toks env ∧ y.map tokConfT = x ∧ tokConfT k = c := by
  obtain ⟨u, hu⟩ := h
  obtain ⟨a, z, h1, h2, h3⟩ := List.map_eq_append_iff.1 hu.symm
  obtain ⟨y, w, h4, h5, h6⟩ := List.map_eq_append_iff.1 h2
  obtain ⟨k, h7, rfl⟩ : ∃ k, w = [k] ∧ tokConfT k = c := by
    cases w with
    | nil => cases h6
    | cons k w =>
      cases w with
      | nil => exact ⟨k, rfl, by simpa using h6⟩
      | cons k' w => simp at h6
  subst h7 h4
  exact ⟨y, k, ⟨z, h1.symm⟩, h5, rfl⟩

theorem clear_of_unambiguous (hs : Tame s) {ds : List RuleT} (hds : ∀ d ∈ ds, PartsOK env s d.parts) (h : Unambiguous env ds s) :
    Clear env (ds.map (RuleT.toDef env)) s := by
  have hdesc : ∀ d ∈ ds, ∀ t ∈ d.toks env, t.1.Described t.2 := fun d hd => toksT_desc fun p hp => (hds d hd p hp).1
  refine ⟨?_, ?_, ?_⟩
  · intro d hd d' hd' hty x c c' h1 h2 hcc off m1 m2
    obtain ⟨r, hr, rfl⟩ := List.mem_map.1 hd
    obtain ⟨r', hr', rfl⟩ := List.mem_map.1 hd'
    obtain ⟨y, k, a1, a2, a3⟩ := toks_snoc h1
    obtain ⟨y', k', b1, b2, b3⟩ := toks_snoc h2
    have hmem : ∀ t ∈ y ++ [k], t ∈ r.toks env := fun t ht => a1.subset ht
    have hmem' : ∀ t ∈ y' ++ [k'], t ∈ r'.toks env := fun t ht => b1.subset ht
    have hyy : y = y' := toksT_inj (fun t ht => hdesc r hr t (hmem t (List.mem_append_left _ ht)))
      (fun t ht => hdesc r' hr' t (hmem' t (List.mem_append_left _ ht))) (a2.trans b2.symm)
    subst hyy
    have hk := hmem k (List.mem_append_right _ (List.mem_cons_self ..))
    have hk' := hmem' k' (List.mem_append_right _ (List.mem_cons_self ..))
    refine h.branch r hr r' hr' hty y k k' a1 b1 (fun he => hcc (by rw [← a3, ← b3, he])) (s.drop off) (List.drop_suffix ..)
      (begins_of_may hs hds h.nonempty m1 k a3 (toks_okT (hds r hr) k hk)) (begins_of_may hs hds h.nonempty m2 k' b3 (toks_okT (hds r' hr') k' hk'))
  · intro d hd hty hdc d' hd' htt c hpre off hm
    obtain ⟨r, hr, rfl⟩ := List.mem_map.1 hd
    obtain ⟨r', hr', rfl⟩ := List.mem_map.1 hd'
    obtain ⟨y, k, a1, a2, a3⟩ := toks_snoc hpre
    have hmem : ∀ t ∈ y ++ [k], t ∈ r'.toks env := fun t ht => a1.subset ht
    have hyy : y = r.toks env := toksT_inj (fun t ht => hdesc r' hr' t (hmem t (List.mem_append_left _ ht))) (hdesc r hr) a2
    subst hyy
    exact h.stop r hr hty (Option.isNone_iff_eq_none.1 hdc) r' hr' htt k a1 (s.drop off) (List.drop_suffix ..)
      (begins_of_may hs hds h.nonempty hm k a3 (toks_okT (hds r' hr') k (hmem k (List.mem_append_right _ (List.mem_cons_self ..)))))
  · intro d hd hty hdc he
    obtain ⟨r, hr, rfl⟩ := List.mem_map.1 hd
    exact h.nonempty r hr hty (Option.isNone_iff_eq_none.1 hdc) (List.map_eq_nil_iff.1 he)

theorem tok_user_part {r : RuleT} {nm : Bytes} {o : Obj} (h : (TType.user nm, o) ∈ r.toks env) : ∃ p ∈ r.parts, p.1.type = .user nm := by
  rcases List.mem_append.1 h with h1 | h1
  · obtain ⟨c, _, h2⟩ := List.mem_map.1 h1
    cases h2
  · obtain ⟨p, hp, h1⟩ := List.mem_flatMap.1 h1
    rcases List.mem_cons.1 h1 with h2 | h2
    · exact ⟨p, hp, (congrArg Prod.fst h2).symm⟩
    · obtain ⟨c, _, h3⟩ := List.mem_map.1 h2
      cases h3

theorem known_of_defined {ds : List RuleT} (hds : ∀ d ∈ ds, ∀ p ∈ d.parts, p.1.OK env) (h : Defined ds) : TypesKnown env (ds.map (RuleT.toDef env)) := by
  intro i d hd c hc
  rw [List.getElem?_map, Option.map_eq_some_iff] at hd
  obtain ⟨r, hr, rfl⟩ := hd
  obtain ⟨⟨ty, o⟩, hk, rfl⟩ := List.mem_map.1 hc
  have hde := toksT_desc (hds r (List.mem_of_getElem? hr)) _ hk
  cases ty with
  | plain f =>
    obtain ⟨p, hp, _⟩ := confField_ok (env := env) hde
    exact .inl ⟨p, hp⟩
  | user nm =>
    obtain ⟨p, hp, hpt⟩ := tok_user_part hk
    obtain ⟨j, d', h1, h2, h3⟩ := h i r hr p hp nm hpt
    exact .inr ⟨nm, DescribesUser.userType hde, j, d'.toDef env, Nat.le_of_lt h1, by rw [List.getElem?_map, h2]; rfl, h3⟩

/-! ### order of types -/

/-- a number for the type a node belongs to -/
def typeRank (ts : List (Bytes × NodeId)) (rank : Bytes → Nat) : Json → Nat
  | .str t => rank t
  | _ => 1 + (ts.map fun x => rank x.1).sum

theorem le_sum {l : List Nat} {a : Nat} (h : a ∈ l) : a ≤ l.sum := by
  induction l with
  | nil => cases h
  | cons b l ih =>
    rw [List.sum_cons]
    rcases List.mem_cons.1 h with rfl | h
    · omega
    · have := ih h; omega

/-- a number for nodes, which decreases along fields and into types -/
def nodeRank (b : Bld) (lab : NodeId → List Json) (rank : Bytes → Nat) (n : NodeId) : Nat :=
  typeRank b.types rank ((lab n).head?.getD .null) * (b.next + 1) + (b.next - n)

theorem acyclic_of_layered {b : Bld} {lab : NodeId → List Json} {ds : List RuleT} {opts : Nat} {annots : List Annot}
    (ht : IsTrie env b.types b lab (ds.map (RuleT.toDef env))) (hds : ∀ d ∈ ds, ∀ p ∈ d.parts, p.1.OK env) (h : Layered ds) :
    ∃ rank, Acyclic (b.toCtx opts annots) rank := by
  obtain ⟨rank, hr⟩ := h
  refine ⟨nodeRank b lab rank, ?_, ?_, fun n p hp a w m hk => absurd hk (ht.no_repeat n p hp _)⟩
  · intro n p hp
    obtain ⟨nd, hn, hq⟩ := ctx_parser hp
    obtain ⟨h1, _⟩ := ht.trie.edge n nd hn p hq
    have h5 : p.node ∈ b.refsOf n := by
      unfold Bld.refsOf
      rw [hn]
      exact List.mem_flatMap.2 ⟨p, hq, List.mem_cons_self ..⟩
    obtain ⟨h6, h7⟩ := ht.inv.asc _ _ h5
    obtain ⟨nd', h7⟩ := Option.isSome_iff_exists.1 h7
    have h8 := (ht.inv.range _ _ h7).2
    obtain ⟨d, _, x, hx, _⟩ := ht.used n nd hn p hq
    unfold nodeRank
    rw [h1, hx]
    exact Nat.add_lt_add_left (Nat.sub_lt_sub_left (Nat.lt_trans h6 h8) h6) _
  · intro n p hp i hk nm t hti
    obtain ⟨nd, hn, hq⟩ := ctx_parser hp
    obtain ⟨h1, h2, _⟩ := ht.custom hn hq hk hti
    obtain ⟨d, hd, x, hx, hpre⟩ := ht.used n nd hn p hq
    obtain ⟨r, hrm, rfl⟩ := List.mem_map.1 hd
    obtain ⟨y, k, a1, a2, a3⟩ := toks_snoc hpre
    have hkm : k ∈ r.toks env := a1.subset (List.mem_append_right _ (List.mem_cons_self ..))
    obtain ⟨ty, o⟩ := k
    have hde := toksT_desc (hds r hrm) _ hkm
    rw [← a3] at h1
    change userType env (.obj o) = some nm at h1
    cases ty with
    | plain f => rw [plain_not_user hde] at h1; cases h1
    | user nm' =>
      rw [DescribesUser.userType hde] at h1
      cases h1
      obtain ⟨pt, hpt, hty⟩ := tok_user_part hkm
      have hlt : typeRank b.types rank ((lab t).head?.getD .null) < typeRank b.types rank ((lab n).head?.getD .null) := by
        rw [ht.start _ _ h2, hx]
        show rank nm < typeRank b.types rank (mark r.type)
        cases hrt : r.type with
        | some t' => exact hr r hrm t' hrt pt hpt nm hty
        | none =>
          have hmem : (nm, t) ∈ b.types := List.mem_of_getElem? hti
          have := le_sum (List.mem_map.2 ⟨_, hmem, rfl⟩ : rank nm ∈ b.types.map fun x => rank x.1)
          show rank nm < 1 + _
          omega
      unfold nodeRank
      have hm := Nat.mul_le_mul_right (b.next + 1) hlt
      rw [Nat.succ_mul] at hm
      have hsub : b.next - t ≤ b.next := Nat.sub_le ..
      omega

end
end LN
