import Verif.Proofs.Doc
/- From the text of a rule base of version 2 to the event: the end node, the order, annotations. -/
set_option autoImplicit false
namespace LN
open Spec

section
variable {env : Env} {s : Bytes}

/-! ### the node a match ends in -/

theorem firstEnd_split {ctx : Ctx} {n : NodeId} {off : Nat} {tr : List Step} {m : NodeId} {off' : Nat} (h : Path env ctx s n off tr m off') :
    ∀ {e : NodeId}, firstEnd ctx s false n off tr = some e →
      ∃ tr1 tr2, tr = tr1 ++ tr2 ∧ Path env ctx s n off tr1 e s.length ∧
        ∀ tr0 m0, tr0 <+: tr → Path env ctx s n off tr0 m0 s.length → (ctx.node m0).isTerminal = true → tr1 <+: tr0 := by
  have hce : ∀ n off, CanEnd ctx s false n off = true → off = s.length := by
    intro n off h
    simpa [CanEnd] using (Bool.and_eq_true_iff.1 h).2
  induction h with
  | nil n off =>
    intro e he
    simp only [firstEnd] at he
    split at he
    · rename_i hc
      cases he
      have := hce _ _ hc
      subst this
      exact ⟨[], [], rfl, .nil _ _, fun _ _ _ _ _ => List.nil_prefix⟩
    · cases he
  | @cons n off idx p len v tr m off' hidx hacc htl ih =>
    intro e he
    simp only [firstEnd] at he
    split at he
    · rename_i hc
      cases he
      have := hce _ _ hc
      subst this
      exact ⟨[], _, rfl, .nil _ _, fun _ _ _ _ _ => List.nil_prefix⟩
    · rename_i hc
      obtain ⟨tr1, tr2, h1, h2, h3⟩ := ih he
      subst h1
      refine ⟨_ :: tr1, tr2, rfl, .cons hidx hacc h2, ?_⟩
      intro tr0 m0 hpre hp ht
      cases hp with
      | nil =>
        exfalso
        apply hc
        simp [CanEnd, ht]
      | @cons _ _ idx' p' len' v' tr0 _ _ hidx' hacc' htl' =>
        obtain ⟨u, hu⟩ := hpre
        simp only [List.cons_append, List.cons.injEq] at hu
        obtain ⟨hst, hu⟩ := hu
        cases hst
        have := h3 tr0 m0 ⟨u, hu⟩ htl' ht
        obtain ⟨w, hw⟩ := this
        exact ⟨w, by rw [← hw]; rfl⟩

/-- where the configurations lead the same way, so do the steps -/
theorem path_prefix {b : Bld} {opts : Nat} {annots : List Annot} (ht : PlainGraph env b) {n : NodeId} {off : Nat}
    {tr : List Step} {m : NodeId} {off' : Nat} (h : Path env (b.toCtx opts annots) s n off tr m off') :
    ∀ {tr0 : List Step} {m0 : NodeId} {off0 : Nat}, Path env (b.toCtx opts annots) s n off tr0 m0 off0 →
      tr0.map (·.field.conf) <+: tr.map (·.field.conf) → tr0 <+: tr := by
  induction h with
  | nil n off =>
    intro tr0 m0 off0 h hpre
    cases tr0 with
    | nil => exact List.nil_prefix
    | cons a t => simp at hpre
  | @cons n off idx p len v tr m off' hidx hacc htl ih =>
    intro tr0 m0 off0 h hpre
    cases h with
    | nil => exact List.nil_prefix
    | @cons _ _ idx' p' len' v' tr0 _ _ hidx' hacc' htl' =>
      simp only [List.map_cons, List.cons_prefix_cons] at hpre
      obtain ⟨hc, hpre⟩ := hpre
      change ((b.heap n).getD {}).parsers[idx]? = some p at hidx
      change ((b.heap n).getD {}).parsers[idx']? = some p' at hidx'
      cases hn : b.heap n with
      | none => rw [hn] at hidx; simp at hidx
      | some nd =>
        rw [hn] at hidx hidx'
        change nd.parsers[idx]? = some p at hidx
        change nd.parsers[idx']? = some p' at hidx'
        have hd := ht.dist n nd hn
        have e1 := find?_conf hd (List.mem_of_getElem? hidx)
        have e2 := find?_conf hd (List.mem_of_getElem? hidx')
        rw [hc, e1] at e2
        cases e2
        rw [hacc] at hacc'
        cases hacc'
        have hii : idx = idx' := by
          have g1 : (nd.parsers.map (·.conf))[idx]? = some p.conf := by rw [List.getElem?_map, hidx]; rfl
          have g2 : (nd.parsers.map (·.conf))[idx']? = some p.conf := by rw [List.getElem?_map, hidx']; rfl
          have l1 := (List.getElem?_eq_some_iff.1 g1).1
          exact (List.getElem?_inj l1 hd).1 (g1.trans g2.symm)
        subst hii
        rw [List.cons_prefix_cons]
        exact ⟨rfl, ih htl' hpre⟩

/-! ### order -/

theorem FType.prio_lt (f : FType) : 0 ≤ f.prio ∧ f.prio < 256 := by
  cases f <;> decide

theorem before_of_prio {b : Bld} {opts : Nat} {annots : List Annot} (ht : PlainGraph env b) {n : NodeId} {off : Nat}
    {tr : List Step} {m : NodeId} {off' : Nat} (h : Path env (b.toCtx opts annots) s n off tr m off') :
    ∀ {tr' : List Step} {m' : NodeId} {offx off'' : Nat} {ts ts' : List (FType × Obj)}, Path env (b.toCtx opts annots) s n offx tr' m' off'' →
      tr.map (·.field.conf) = ts.map tokConf → tr'.map (·.field.conf) = ts'.map tokConf →
      (∀ t ∈ ts, Describes t.1 t.2) → (∀ t ∈ ts', Describes t.1 t.2) → PrioBefore tr tr' → RuleD.Before ts ts' := by
  have hprio : ∀ {n : NodeId} {idx : Nat} {p : Parser} {t : FType × Obj}, ((b.heap n).getD {}).parsers[idx]? = some p → p.conf = tokConf t →
      Describes t.1 t.2 → p.prio = fieldPrio t.2 * 256 + t.1.prio := by
    intro n idx p t hidx hc hd
    cases hn : b.heap n with
    | none => rw [hn] at hidx; simp at hidx
    | some nd =>
      rw [hn] at hidx
      have he := ht.field n nd hn p (List.mem_of_getElem? hidx)
      obtain ⟨q, h1, _, _, h4, _⟩ := confField_ok (env := env) hd
      rw [hc] at he
      change confField env [] (.obj t.2) = _ at he
      rw [h1] at he
      cases he
      exact h4
  induction h with
  | nil n off =>
    intro tr' m' offx off'' ts ts' _ h1 h2 _ _ hb
    cases ts with
    | cons t ts => cases h1
    | nil =>
      cases tr' with
      | nil =>
        cases ts' with
        | nil => trivial
        | cons t ts' => cases h2
      | cons a tr' => exact absurd hb (by simp [PrioBefore])
  | @cons n off idx p len v tr m off' hidx hacc htl ih =>
    intro tr' m' offx off'' ts ts' hp' h1 h2 hd hd' hb
    cases ts with
    | nil => cases h1
    | cons t ts =>
      cases hp' with
      | nil =>
        cases ts' with
        | nil => trivial
        | cons t' ts' => cases h2
      | @cons _ _ idx' p' len' v' tr' _ _ hidx' hacc' htl' =>
        cases ts' with
        | nil => cases h2
        | cons t' ts' =>
          simp only [List.map_cons, List.cons.injEq] at h1 h2
          have e1 := hprio hidx h1.1 (hd t (List.mem_cons_self ..))
          have e2 := hprio hidx' h2.1 (hd' t' (List.mem_cons_self ..))
          simp only [PrioBefore] at hb
          simp only [RuleD.Before]
          have hfld : t = t' → p = p' := by
            intro he
            subst he
            change ((b.heap n).getD {}).parsers[idx]? = some p at hidx
            change ((b.heap n).getD {}).parsers[idx']? = some p' at hidx'
            cases hn : b.heap n with
            | none => rw [hn] at hidx; simp at hidx
            | some nd =>
              rw [hn] at hidx hidx'
              have hdi := ht.dist n nd hn
              have g1 := find?_conf hdi (List.mem_of_getElem? hidx)
              have g2 := find?_conf hdi (List.mem_of_getElem? hidx')
              rw [h2.1, ← h1.1, g1] at g2
              exact Option.some.inj g2
          rcases hb with ⟨hne, hle⟩ | ⟨heq, hrec⟩
          · refine .inl ⟨fun he => hne (hfld he), ?_⟩
            have b1 := FType.prio_lt t.1
            have b2 := FType.prio_lt t'.1
            change p.prio ≤ p'.prio at hle
            rw [e1, e2] at hle
            omega
          · subst heq
            refine .inr ⟨tokConf_inj (hd t (List.mem_cons_self ..)) (hd' t' (List.mem_cons_self ..)) (h1.1.symm.trans h2.1), ?_⟩
            exact ih htl' h1.2 h2.2 (fun x hx => hd x (List.mem_cons_of_mem _ hx)) (fun x hx => hd' x (List.mem_cons_of_mem _ hx)) hrec

/-! ### annotations -/

/-- the operation which sets a name to a value -/
def setOp (nv : Bytes × Bytes) : AnnotOp := { add := true, name := some nv.1, value := some nv.2 }

theorem foldl_addAnnotOp (ops : List AnnotOp) (a : Annot) : ops.foldl addAnnotOp a = { a with ops := ops.reverse ++ a.ops } := by
  induction ops generalizing a with
  | nil => rfl
  | cons o ops ih => rw [List.foldl_cons, ih]; simp [addAnnotOp]

theorem findAnnot_upd (a : Annot) (tag : Bytes) : ∀ (as : List Annot), findAnnot (addAnnotToSet.upd a as) tag =
    if tag = a.tag then (findAnnot as tag).map fun b => combineAnnot b a else findAnnot as tag
  | [] => by
    simp [addAnnotToSet.upd, findAnnot]
  | b :: as => by
    have hcomb : (combineAnnot b a).tag = b.tag := by unfold combineAnnot; rw [foldl_addAnnotOp]
    have ih := findAnnot_upd a tag as
    rw [addAnnotToSet.upd]
    by_cases hb : b.tag = a.tag
    · rw [if_pos hb]
      by_cases ht : tag = a.tag
      · simp [findAnnot, hcomb, hb, ht]
      · simp [findAnnot, hcomb, hb, ht, Ne.symm ht]
    · rw [if_neg hb]
      simp only [findAnnot]
      by_cases hbt : b.tag = tag
      · have ht : tag ≠ a.tag := fun h => hb (hbt.trans h)
        rw [if_pos hbt, if_pos hbt, if_neg ht]
      · rw [if_neg hbt, if_neg hbt, ih]

theorem findAnnot_add (as : List Annot) (a : Annot) (tag : Bytes) : findAnnot (addAnnotToSet as a) tag =
    if tag = a.tag then some (match findAnnot as tag with
      | none => a
      | some b => combineAnnot b a)
    else findAnnot as tag := by
  unfold addAnnotToSet
  split
  · rename_i hf
    by_cases ht : tag = a.tag
    · subst ht
      rw [if_pos rfl, hf]
      simp [findAnnot]
    · rw [if_neg ht]
      simp [findAnnot, Ne.symm ht]
  · rename_i b hf
    rw [findAnnot_upd]
    by_cases ht : tag = a.tag
    · subst ht
      rw [if_pos rfl, if_pos rfl, hf]; rfl
    · rw [if_neg ht, if_neg ht]

/-- operations stored for a tag -/
theorem annotSet_ops (tag : Bytes) (ls : List RLine) : ∀ (as : List Annot) (acc : Option (List (Bytes × Bytes))),
    (findAnnot as tag).map (·.ops) = acc.map (·.map setOp) →
    (findAnnot ((ls.flatMap RLine.annots).foldl addAnnotToSet as) tag).map (·.ops) =
      (ls.foldl (fun acc l => match l with
        | .annotate t ops =>
          if t = tag then
            some (match acc with
              | none => (ops.map (·.2)).reverse
              | some prev => ops.map (·.2) ++ prev)
          else acc
        | _ => acc) acc).map (·.map setOp) := by
  induction ls with
  | nil => intro as acc h; exact h
  | cons l ls ih =>
    intro as acc h
    rw [List.flatMap_cons, List.foldl_append, List.foldl_cons]
    cases l with
    | annotate t ops =>
      simp only [RLine.annots, List.foldl_cons, List.foldl_nil]
      refine ih _ _ ?_
      rw [findAnnot_add, foldl_addAnnotOp]
      dsimp only
      by_cases ht : t = tag
      · subst ht
        rw [if_pos rfl, if_pos rfl]
        cases hf : findAnnot as t with
        | none =>
          rw [hf] at h
          cases acc with
          | some x => cases h
          | none => simp [setOp, List.map_reverse, Function.comp_def]
        | some b =>
          rw [hf] at h
          cases acc with
          | none => cases h
          | some prev =>
            have hb : b.ops = prev.map setOp := by simpa using h
            unfold combineAnnot
            dsimp only
            rw [foldl_addAnnotOp]
            simp [setOp, hb, Function.comp_def]
      · rw [if_neg (Ne.symm ht), if_neg ht]; exact h
    | _ => exact ih _ _ h

theorem applyOps_set : ∀ (nvs : List (Bytes × Bytes)) (o : Obj), (∀ nv ∈ nvs, (0 : UInt8) ∉ nv.1 ∧ (0 : UInt8) ∉ nv.2) →
    applyOps (nvs.map setOp) o = .ok (nvs.foldl (fun o nv => Obj.add o nv.1 (.str nv.2)) o)
  | [], o, _ => rfl
  | nv :: nvs, o, h => by
    have h0 := h nv (List.mem_cons_self ..)
    simp only [List.map_cons, applyOps, setOp, if_true, newString, List.foldl_cons]
    rw [cstr_noNul fun c hc h => h0.1 (h ▸ hc), cstr_noNul fun c hc h => h0.2 (h ▸ hc)]
    exact applyOps_set nvs _ fun x hx => h x (List.mem_cons_of_mem _ hx)

/-- names and values of annotations are free of NUL -/
theorem tagOps_noNul (ls : List RLine) (hok : ∀ l ∈ ls, l.OK) (hline : ∀ l ∈ ls, ∀ c ∈ l.text, c ≠ 0) (tag : Bytes) :
    ∀ nv ∈ tagOps ls tag, (0 : UInt8) ∉ nv.1 ∧ (0 : UInt8) ∉ nv.2 := by
  have hword : ∀ w, Word w → (0 : UInt8) ∉ w := by
    intro w hw h0
    have := hw.2 0 h0
    simp [isAlnum, isAlpha, isDigit] at this
    revert this; decide
  have hlast : ∀ (l : RLine), l.OK → (∀ c ∈ l.text, c ≠ 0) → ∀ t ops, l = .annotate t ops → ∀ nv ∈ ops.map (·.2), (0 : UInt8) ∉ nv.1 ∧ (0 : UInt8) ∉ nv.2 := by
    intro l h1 h2 t ops hl nv hnv
    subst hl
    obtain ⟨o, ho, rfl⟩ := List.mem_map.1 hnv
    refine ⟨hword _ (h1.2 o ho).2.1, fun h0 => ?_⟩
    refine h2 0 ?_ rfl
    show (0 : UInt8) ∈ bs! "annotate=" ++ t ++ bs! ":" ++ annotText ops
    refine List.mem_append_right _ (List.mem_flatMap.2 ⟨o, ho, ?_⟩)
    simp only [List.mem_append]
    exact .inl (.inr h0)
  suffices H : ∀ (acc : Option (List (Bytes × Bytes))), (∀ nv ∈ acc.getD [], (0 : UInt8) ∉ nv.1 ∧ (0 : UInt8) ∉ nv.2) →
      ∀ nv ∈ (ls.foldl (fun acc l => match l with
        | .annotate t ops =>
          if t = tag then
            some (match acc with
              | none => (ops.map (·.2)).reverse
              | some prev => ops.map (·.2) ++ prev)
          else acc
        | _ => acc) acc).getD [], (0 : UInt8) ∉ nv.1 ∧ (0 : UInt8) ∉ nv.2 from H none (by simp)
  induction ls with
  | nil => intro acc h; exact h
  | cons l ls ih =>
    intro acc h
    rw [List.foldl_cons]
    refine ih (fun x hx => hok x (List.mem_cons_of_mem _ hx)) (fun x hx => hline x (List.mem_cons_of_mem _ hx)) _ ?_
    have hl := hlast l (hok l (List.mem_cons_self ..)) (hline l (List.mem_cons_self ..))
    cases l with
    | annotate t ops =>
      dsimp only
      split
      · cases acc with
        | none =>
          intro nv hnv
          exact hl t ops rfl nv (List.mem_reverse.1 hnv)
        | some prev =>
          intro nv hnv
          rcases List.mem_append.1 hnv with h1 | h1
          · exact hl t ops rfl nv h1
          · exact h nv h1
      · exact h
    | _ => exact h

theorem annotate_doc (ls : List RLine) (hok : ∀ l ∈ ls, l.OK) (hline : ∀ l ∈ ls, ∀ c ∈ l.text, c ≠ 0) (tags : List Bytes) (o : Obj) :
    annotate (annotSet (ls.flatMap RLine.annots)) o tags = .ok (annotated ls tags o) := by
  unfold annotate annotated
  induction tags.reverse generalizing o with
  | nil => rfl
  | cons t ts ih =>
    rw [List.foldl_cons, List.foldl_cons, R.ok_bind']
    have : annotateTag (annotSet (ls.flatMap RLine.annots)) t o = .ok ((tagOps ls t).foldl (fun o nv => Obj.add o nv.1 (.str nv.2)) o) := by
      have h := annotSet_ops t ls [] none rfl
      unfold annotateTag annotSet
      have hn := tagOps_noNul ls hok hline t
      unfold tagOps at hn ⊢
      generalize List.foldl _ none ls = acc at h hn ⊢
      cases hf : findAnnot ((ls.flatMap RLine.annots).foldl addAnnotToSet []) t with
      | none =>
        rw [hf] at h
        cases acc with
        | none => rfl
        | some x => cases h
      | some a =>
        rw [hf] at h
        cases acc with
        | none => cases h
        | some x =>
          have hx : a.ops = x.map setOp := by simpa using h
          dsimp only
          rw [hx]
          exact applyOps_set x o hn
    rw [this]
    exact ih _

end
end LN
