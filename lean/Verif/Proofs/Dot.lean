import Verif.Proofs.Report
/-
DOT files and names of nodes.
-/
set_option autoImplicit false
namespace LN

theorem dotLit_eq (l : Bytes) : dotLit l = plainText l := by
  unfold dotLit plainText
  refine List.filter_congr fun c _ => ?_
  rw [bne, bne, ← Bool.not_or]
  congr 1
  rw [Bool.or_comm]; rfl

theorem dotNode_eq (ptr : NodeId → Bytes) (b : Bld) (n : NodeId) :
    dotNode ptr n ((b.heap n).getD {}) = nodeStmt ptr b n (decText ((b.heap n).getD {}).refcnt) := by
  unfold dotNode nodeStmt dotPtr
  unfold Bld.fieldsAt
  simp only [List.isEmpty_iff]
  rfl

theorem sdotNode_eq (ptr : NodeId → Bytes) (b : Bld) (n : NodeId) (u : Stats) :
    sdotNode ptr n ((b.heap n).getD {}) u = nodeStmt ptr b n (decText u.called ++ bs! ":" ++ decText u.backtracked) := by
  unfold sdotNode nodeStmt dotPtr
  unfold Bld.fieldsAt
  simp only [List.isEmpty_iff]
  simp only [List.append_assoc]
  rfl

theorem dotEdge_eq (ptr : NodeId → Bytes) (n m : NodeId) (l : Bytes) : dotEdge ptr n m l = edgeStmt ptr n m l := by
  unfold dotEdge edgeStmt dotPtr
  simp only [List.append_assoc]
  rfl

theorem dotLabel_ok {k : PKind} (h : ∀ d, k = .literal d → d.isSome = true) : dotLabel k = .ok (edgeLabel k) := by
  unfold dotLabel edgeLabel
  split
  · have := h _ rfl; simp at this
  · rw [dotLit_eq]; rfl
  · rename_i k h1 h2
    split
    · rename_i d
      cases d with
      | none => exact (h1 rfl).elim
      | some l => exact (h2 l rfl).elim
    · rfl

theorem sdotLabel_ok {k : PKind} (h : ∀ d, k = .literal d → d.isSome = true) : sdotLabel k = .ok (usageLabel k) := by
  unfold sdotLabel usageLabel
  split
  · have := h _ rfl; simp at this
  · rw [dotLit_eq]; rfl
  · rename_i k h1 h2
    split
    · rename_i d
      cases d with
      | none => exact (h1 rfl).elim
      | some l => exact (h2 l rfl).elim
    · rfl

theorem fieldId_ok {p : Parser} (h : ∀ d, p.kind = .literal d → d.isSome = true) : fieldId p = .ok (fieldText p) := by
  unfold fieldId fieldText
  cases hk : p.kind with
  | literal d =>
    cases d with
    | none => have := h _ hk; simp at this
    | some l => cases p.name <;> rfl
  | _ => rfl

theorem dotF_walk {b : Bld} {E : List NodeId} (hi : Inv b E) (ptr : NodeId → Bytes) : ∀ (f : Nat) (n : NodeId) (v : Flags) (out : Bytes),
    (b.heap n).isSome → (b.next : Nat) ≤ (n : Nat) + f → LitsOK b n →
    dotF ptr f b n (v, out) = .ok ((walk b.fieldsAt f n v).1, out ++ (walk b.fieldsAt f n v).2.flatMap (dotStmt ptr b))
  | 0, n, v, s, hn, hf, _ => (Nat.lt_irrefl _ (Nat.lt_of_lt_of_le (lt_next hi hn) hf)).elim
  | f + 1, n, v, out, hn, hf, hlit => by
    have loop : ∀ (l : List Parser) (_ : ∀ p ∈ l, p ∈ b.fieldsAt n) (v : Flags) (e : List Ev),
        l.foldlM (fun (a : Flags × Bytes) p => (dotLabel p.kind).bind fun l =>
          dotF ptr f b p.node (a.1, a.2 ++ dotEdge ptr n p.node l)) (v, out ++ e.flatMap (dotStmt ptr b)) =
        .ok ((l.foldl (fun a p => ((walk b.fieldsAt f p.node a.1).1, a.2 ++ .edge n p :: (walk b.fieldsAt f p.node a.1).2)) (v, e)).1,
          out ++ (l.foldl (fun a p => ((walk b.fieldsAt f p.node a.1).1, a.2 ++ .edge n p :: (walk b.fieldsAt f p.node a.1).2)) (v, e)).2.flatMap (dotStmt ptr b)) := by
      intro l
      induction l with
      | nil => intro _ v e; rfl
      | cons p l ih =>
        intro hl v e
        have hp := hl p (List.mem_cons_self ..)
        have hlt := (asc_fieldsAt hi n p hp).1
        rw [List.foldlM_cons, dotLabel_ok (hlit n (.refl n) p hp), R.ok_bind',
          dotF_walk hi ptr f p.node v _ (live_fieldsAt hi hp) (fuel_step hf hlt) (fun m hm => hlit m (.step hp hm))]
        simp only [List.foldl_cons]
        rw [← ih (fun q hq => hl q (List.mem_cons_of_mem _ hq))]
        show List.foldlM _ _ l = _
        congr 2
        rw [List.flatMap_append, List.flatMap_cons]
        simp only [List.append_assoc]
        rw [dotEdge_eq]; rfl
    unfold dotF walk
    rw [load_getD hn, R.ok_bind']
    by_cases hv : v n = true
    · rw [if_pos hv, if_pos hv]; simp
    · rw [if_neg hv, if_neg hv]
      have h := loop (b.fieldsAt n) (fun _ h => h) (v.set n true) [.node n]
      have h' : ([Ev.node n].flatMap (dotStmt ptr b)) = dotNode ptr n ((b.heap n).getD {}) := by
        rw [List.flatMap_cons, List.flatMap_nil, List.append_nil, dotNode_eq]; rfl
      rw [h'] at h
      unfold Bld.fieldsAt at h ⊢
      exact h

theorem sdotF_walk {b : Bld} {E : List NodeId} (hi : Inv b E) (ptr : NodeId → Bytes) (used : NodeId → Stats) :
    ∀ (f : Nat) (n : NodeId) (v : Flags) (out : Bytes),
    (b.heap n).isSome → (b.next : Nat) ≤ (n : Nat) + f → LitsOK b n →
    sdotF ptr used f b n (v, out) = .ok ((walk (b.usedFields used) f n v).1,
      out ++ (walk (b.usedFields used) f n v).2.flatMap (usageStmt ptr used b))
  | 0, n, v, s, hn, hf, _ => (Nat.lt_irrefl _ (Nat.lt_of_lt_of_le (lt_next hi hn) hf)).elim
  | f + 1, n, v, out, hn, hf, hlit => by
    have loop : ∀ (l : List Parser) (_ : ∀ p ∈ l, p ∈ b.fieldsAt n) (v : Flags) (e : List Ev),
        l.foldlM (fun (a : Flags × Bytes) p => (b.load p.node).bind fun _ =>
          if (used p.node).called = 0 then .ok a
          else (sdotLabel p.kind).bind fun l =>
            sdotF ptr used f b p.node (a.1, a.2 ++ dotEdge ptr n p.node l)) (v, out ++ e.flatMap (usageStmt ptr used b)) =
        .ok (((l.filter fun p => decide ((used p.node).called > 0)).foldl (fun a p => ((walk (b.usedFields used) f p.node a.1).1, a.2 ++ .edge n p :: (walk (b.usedFields used) f p.node a.1).2)) (v, e)).1,
          out ++ ((l.filter fun p => decide ((used p.node).called > 0)).foldl (fun a p => ((walk (b.usedFields used) f p.node a.1).1, a.2 ++ .edge n p :: (walk (b.usedFields used) f p.node a.1).2)) (v, e)).2.flatMap (usageStmt ptr used b)) := by
      intro l
      induction l with
      | nil => intro _ v e; rfl
      | cons p l ih =>
        intro hl v e
        have hp := hl p (List.mem_cons_self ..)
        have hlt := (asc_fieldsAt hi n p hp).1
        rw [List.foldlM_cons, load_getD (live_fieldsAt hi hp), R.ok_bind']
        by_cases hu : (used p.node).called = 0
        · rw [if_pos hu, List.filter_cons_of_neg (by simp [hu])]
          exact ih (fun q hq => hl q (List.mem_cons_of_mem _ hq)) v e
        · rw [if_neg hu, List.filter_cons_of_pos (by simp; omega), sdotLabel_ok (hlit n (.refl n) p hp), R.ok_bind',
            sdotF_walk hi ptr used f p.node v _ (live_fieldsAt hi hp) (fuel_step hf hlt) (fun m hm => hlit m (.step hp hm))]
          simp only [List.foldl_cons]
          rw [← ih (fun q hq => hl q (List.mem_cons_of_mem _ hq))]
          show List.foldlM _ _ l = _
          congr 2
          rw [List.flatMap_append, List.flatMap_cons]
          simp only [List.append_assoc]
          rw [dotEdge_eq]; rfl
    unfold sdotF walk
    rw [load_getD hn, R.ok_bind']
    by_cases hv : v n = true
    · rw [if_pos hv, if_pos hv]; simp
    · rw [if_neg hv, if_neg hv]
      have h := loop (b.fieldsAt n) (fun _ h => h) (v.set n true) [.node n]
      have h' : ([Ev.node n].flatMap (usageStmt ptr used b)) = sdotNode ptr n ((b.heap n).getD {}) (used n) := by
        rw [List.flatMap_cons, List.flatMap_nil, List.append_nil, sdotNode_eq]; rfl
      rw [h'] at h
      unfold Bld.usedFields Bld.fieldsAt at h ⊢
      exact h

theorem asc_usedFields {b : Bld} {E : List NodeId} (hi : Inv b E) (used : NodeId → Stats) : Asc (b.usedFields used) b.next :=
  fun n p hp => asc_fieldsAt hi n p (List.mem_filter.1 hp).1

theorem LeadsTo.of_used {b : Bld} {used : NodeId → Stats} {n m : NodeId} (h : LeadsTo (b.usedFields used) n m) : LeadsTo b.fieldsAt n m := by
  induction h with
  | refl n => exact .refl n
  | step hp t ih => exact .step (List.mem_filter.1 hp).1 ih

/-- labels cannot end the quoted string they are in -/
theorem dotLit_safe (l : Bytes) : ∀ c ∈ dotLit l, c ≠ ch! '"' ∧ c ≠ ch! '\\' := by
  intro c hc
  have := (List.mem_filter.1 hc).2
  simp only [Bool.and_eq_true, bne_iff_ne, ne_eq] at this
  exact ⟨this.2, this.1⟩

/-! ### names -/

theorem Ids.set_eq (v : Ids) (n m : NodeId) (x : Option Bytes) : v.set n x m = if m = n then x else v m := rfl

theorem deleteIdF_spec {b : Bld} {E : List NodeId} (hi : Inv b E) : ∀ (f : Nat) (n : NodeId) (v : Ids), (b.heap n).isSome →
    (b.next : Nat) ≤ (n : Nat) + f →
    ∃ v', deleteIdF f b v n = .ok v' ∧ (∀ m, LeadsTo b.fieldsAt n m → v' m = none) ∧ (∀ m, ¬ LeadsTo b.fieldsAt n m → v' m = v m)
  | 0, n, v, hn, hf => (Nat.lt_irrefl _ (Nat.lt_of_lt_of_le (lt_next hi hn) hf)).elim
  | f + 1, n, v, hn, hf => by
    have loop : ∀ (l : List Parser) (_ : ∀ p ∈ l, p ∈ b.fieldsAt n) (v : Ids),
        ∃ v', l.foldlM (fun v p => deleteIdF f b v p.node) v = .ok v' ∧
          (∀ m, (∃ p ∈ l, LeadsTo b.fieldsAt p.node m) → v' m = none) ∧
          (∀ m, (¬ ∃ p ∈ l, LeadsTo b.fieldsAt p.node m) → v' m = v m) := by
      intro l
      induction l with
      | nil => intro _ v; exact ⟨v, rfl, by simp, by simp⟩
      | cons p l ih =>
        intro hl v
        have hp := hl p (List.mem_cons_self ..)
        have hlt := (asc_fieldsAt hi n p hp).1
        obtain ⟨v1, h1, h2, h3⟩ := deleteIdF_spec hi f p.node v (live_fieldsAt hi hp) (fuel_step hf hlt)
        obtain ⟨v2, h4, h5, h6⟩ := ih (fun q hq => hl q (List.mem_cons_of_mem _ hq)) v1
        refine ⟨v2, ?_, fun m hm => ?_, fun m hm => ?_⟩
        · rw [List.foldlM_cons, h1]; exact h4
        · by_cases hm' : ∃ p ∈ l, LeadsTo b.fieldsAt p.node m
          · exact h5 m hm'
          · rw [h6 m hm']
            obtain ⟨q, hq, hq'⟩ := hm
            rcases List.mem_cons.1 hq with e | e
            · subst e; exact h2 m hq'
            · exact (hm' ⟨q, e, hq'⟩).elim
        · rw [h6 m (fun ⟨q, hq, hq'⟩ => hm ⟨q, List.mem_cons_of_mem _ hq, hq'⟩), h3 m (fun h => hm ⟨p, List.mem_cons_self .., h⟩)]
    obtain ⟨v', h1, h2, h3⟩ := loop (b.fieldsAt n) (fun _ h => h) (v.set n none)
    refine ⟨v', ?_, fun m hm => ?_, fun m hm => ?_⟩
    · unfold deleteIdF; rw [load_getD hn]; exact h1
    · by_cases hm' : ∃ p ∈ b.fieldsAt n, LeadsTo b.fieldsAt p.node m
      · exact h2 m hm'
      · rw [h3 m hm']
        rcases hm.cases' with e | e
        · subst e; rw [Ids.set_eq, if_pos rfl]
        · exact (hm' e).elim
    · rw [h3 m (fun ⟨q, hq, hq'⟩ => hm (.step hq hq')), Ids.set_eq, if_neg (fun e => hm (by rw [e]; exact .refl _))]

theorem Spells.leads {fs : NodeId → List Parser} {n m : NodeId} {t : Bytes} (h : Spells fs n t m) : LeadsTo fs n m := by
  induction h with
  | nil n => exact .refl n
  | cons hp h ih => exact .step hp ih

/-- naming the nodes from `n` on: nothing goes wrong, every node gets a name, other nodes keep theirs; and if no node is reached in
two ways and there were no names before, the names are the texts of the fields before -/
theorem setIdF_spec {b : Bld} {E : List NodeId} (hi : Inv b E) : ∀ (f : Nat) (n : NodeId) (v : Ids) (pre : Bytes), (b.heap n).isSome →
    (b.next : Nat) ≤ (n : Nat) + f → LitsOK b n →
    ∃ v', setIdF f b v n pre = .ok v' ∧ (∀ m, LeadsTo b.fieldsAt n m → (v' m).isSome = true) ∧
      (∀ m, ¬ LeadsTo b.fieldsAt n m → v' m = v m) ∧
      (TreeAt b.fieldsAt n → (∀ m, LeadsTo b.fieldsAt n m → v m = none) → ∀ t m, Spells b.fieldsAt n t m → v' m = some (pre ++ t)) ∧
      v' n = some (match v n with | none => pre | some c => fixedId c pre)
  | 0, n, v, _, hn, hf, _ => (Nat.lt_irrefl _ (Nat.lt_of_lt_of_le (lt_next hi hn) hf)).elim
  | f + 1, n, v, pre, hn, hf, hlit => by
    have hnn : ∀ p ∈ b.fieldsAt n, ¬ LeadsTo b.fieldsAt p.node n := fun p hp h =>
      Nat.lt_irrefl _ (Nat.lt_of_lt_of_le (asc_fieldsAt hi n p hp).1 (h.le (asc_fieldsAt hi)))
    have loop : ∀ (pre : Bytes) (l : List Parser) (_ : ∀ p ∈ l, p ∈ b.fieldsAt n) (v : Ids),
        ∃ v', l.foldlM (fun ids p => (fieldId p).bind fun t => setIdF f b ids p.node (pre ++ t)) v = .ok v' ∧
          (∀ m, (∃ p ∈ l, LeadsTo b.fieldsAt p.node m) → (v' m).isSome = true) ∧
          (∀ m, (¬ ∃ p ∈ l, LeadsTo b.fieldsAt p.node m) → v' m = v m) ∧
          (TreeAt b.fieldsAt n → (l.Pairwise fun p q => ∀ k, LeadsTo b.fieldsAt p.node k → ¬ LeadsTo b.fieldsAt q.node k) →
            (∀ p ∈ l, ∀ m, LeadsTo b.fieldsAt p.node m → v m = none) →
            ∀ p ∈ l, ∀ t m, Spells b.fieldsAt p.node t m → v' m = some (pre ++ (fieldText p ++ t))) := by
      intro pre l
      induction l with
      | nil => intro _ v; exact ⟨v, rfl, by simp, by simp, by simp⟩
      | cons p l ih =>
        intro hl v
        have hp := hl p (List.mem_cons_self ..)
        have hlt := (asc_fieldsAt hi n p hp).1
        obtain ⟨v1, h1, h2, h3, h7, _⟩ := setIdF_spec hi f p.node v (pre ++ fieldText p) (live_fieldsAt hi hp) (fuel_step hf hlt)
          (fun m hm => hlit m (.step hp hm))
        obtain ⟨v2, h4, h5, h6, h8⟩ := ih (fun q hq => hl q (List.mem_cons_of_mem _ hq)) v1
        refine ⟨v2, ?_, fun m hm => ?_, fun m hm => ?_, fun ht hpw hv q hq t m hs => ?_⟩
        · rw [List.foldlM_cons, fieldId_ok (hlit n (.refl n) p hp), R.ok_bind', h1]; exact h4
        · by_cases hm' : ∃ p ∈ l, LeadsTo b.fieldsAt p.node m
          · exact h5 m hm'
          · rw [h6 m hm']
            obtain ⟨q, hq, hq'⟩ := hm
            rcases List.mem_cons.1 hq with e | e
            · subst e; exact h2 m hq'
            · exact (hm' ⟨q, e, hq'⟩).elim
        · rw [h6 m (fun ⟨q, hq, hq'⟩ => hm ⟨q, List.mem_cons_of_mem _ hq, hq'⟩), h3 m (fun h => hm ⟨p, List.mem_cons_self .., h⟩)]
        · rw [List.pairwise_cons] at hpw
          rcases List.mem_cons.1 hq with e | e
          · subst e
            rw [h6 m (fun ⟨r, hr, hr'⟩ => hpw.1 r hr m hs.leads hr'),
              h7 (fun m hm => ht m (.step hp hm)) (hv q (List.mem_cons_self ..)) t m hs, List.append_assoc]
          · refine h8 ht hpw.2 (fun r hr m hm => ?_) q e t m hs
            rw [h3 m (fun h => hpw.1 r hr m h hm)]
            exact hv r (List.mem_cons_of_mem _ hr) m hm
    have fin : ∀ (v0 : Ids) (id : Bytes), (∀ m, ¬ LeadsTo b.fieldsAt n m → v0 m = v m) →
        ∃ v', (b.fieldsAt n).foldlM (fun ids p => (fieldId p).bind fun t => setIdF f b ids p.node (id ++ t)) (v0.set n (some id)) = .ok v' ∧
        (∀ m, LeadsTo b.fieldsAt n m → (v' m).isSome = true) ∧
        (∀ m, ¬ LeadsTo b.fieldsAt n m → v' m = v m) ∧
        (TreeAt b.fieldsAt n → (∀ m, LeadsTo b.fieldsAt n m → v0 m = none) → ∀ t m, Spells b.fieldsAt n t m → v' m = some (id ++ t)) ∧
        v' n = some id := by
      intro v0 id hv0
      obtain ⟨v', h1, h2, h3, h4⟩ := loop id (b.fieldsAt n) (fun _ h => h) (v0.set n (some id))
      refine ⟨v', h1, fun m hm => ?_, fun m hm => ?_, fun ht hv t m hs => ?_,
        by rw [h3 n (fun ⟨q, hq, hq'⟩ => hnn q hq hq'), Ids.set_eq, if_pos rfl]⟩
      · by_cases hm' : ∃ p ∈ b.fieldsAt n, LeadsTo b.fieldsAt p.node m
        · exact h2 m hm'
        · rw [h3 m hm']
          rcases hm.cases' with e | e
          · subst e; rw [Ids.set_eq, if_pos rfl]; rfl
          · exact (hm' e).elim
      · rw [h3 m (fun ⟨q, hq, hq'⟩ => hm (.step hq hq')), Ids.set_eq, if_neg (fun e => hm (by rw [e]; exact .refl _)), hv0 m hm]
      · cases hs with
        | nil => rw [h3 n (fun ⟨q, hq, hq'⟩ => hnn q hq hq'), Ids.set_eq, if_pos rfl, List.append_nil]
        | cons hp hs =>
          refine h4 ht (ht n (.refl n)) (fun p hp m hm => ?_) _ hp _ m hs
          rw [Ids.set_eq, if_neg (fun e => hnn p hp (by rw [← e]; exact hm))]
          exact hv m (.step hp hm)
    unfold setIdF
    rw [load_getD hn, R.ok_bind']
    cases hvn : v n with
    | none =>
      obtain ⟨v', h1, h2, h3, h4, h5⟩ := fin v pre (fun _ _ => rfl)
      exact ⟨v', h1, h2, h3, h4, h5⟩
    | some curr =>
      obtain ⟨v0, hd, hd1, hd2⟩ := deleteIdF_spec hi (f + 1) n v hn hf
      obtain ⟨v', h1, h2, h3, h4, h5⟩ := fin v0 (fixedId curr pre) hd2
      refine ⟨v', ?_, h2, h3, fun _ hv => ?_, h5⟩
      · simp only [Nat.succ_eq_add_one, hd, R.ok_bind']; exact h1
      · rw [hv n (.refl n)] at hvn; cases hvn

/-- the report of usage finds a name for every node, and lists what it should -/
theorem extF_spec {b : Bld} {E : List NodeId} (hi : Inv b E) (used : NodeId → Stats) (ids : Ids) : ∀ (f : Nat) (n : NodeId), (b.heap n).isSome →
    (b.next : Nat) ≤ (n : Nat) + f → (∀ m, LeadsTo b.fieldsAt n m → (ids m).isSome = true) →
    ∃ L : List NodeId, extF f b used ids n = .ok (L.flatMap (usageLine used ids)) ∧
      (∀ m, m ∈ L ↔ LeadsTo (b.usedFields used) n m ∧ (used m).called > 0) ∧ (TreeAt b.fieldsAt n → L.Nodup)
  | 0, n, hn, hf, _ => (Nat.lt_irrefl _ (Nat.lt_of_lt_of_le (lt_next hi hn) hf)).elim
  | f + 1, n, hn, hf, hid => by
    have hnn : ∀ p ∈ b.fieldsAt n, ¬ LeadsTo b.fieldsAt p.node n := fun p hp h =>
      Nat.lt_irrefl _ (Nat.lt_of_lt_of_le (asc_fieldsAt hi n p hp).1 (h.le (asc_fieldsAt hi)))
    have loop : ∀ (l : List Parser) (_ : ∀ p ∈ l, p ∈ b.fieldsAt n) (K : List NodeId),
        ∃ L : List NodeId, l.foldlM (fun (out : Bytes) (p : Parser) => (b.load p.node).bind fun _ =>
          if (used p.node).called > 0 then (extF f b used ids p.node).bind fun t => .ok (out ++ t) else .ok out) (K.flatMap (usageLine used ids))
            = .ok ((K ++ L).flatMap (usageLine used ids)) ∧
          (∀ m, m ∈ L ↔ ∃ p ∈ l, (used p.node).called > 0 ∧ LeadsTo (b.usedFields used) p.node m ∧ (used m).called > 0) ∧
          (TreeAt b.fieldsAt n → (l.Pairwise fun p q => ∀ k, LeadsTo b.fieldsAt p.node k → ¬ LeadsTo b.fieldsAt q.node k) → L.Nodup) := by
      intro l
      induction l with
      | nil => intro _ K; exact ⟨[], by rw [List.append_nil]; rfl, by simp, fun _ _ => List.nodup_nil⟩
      | cons p l ih =>
        intro hl K
        have hp := hl p (List.mem_cons_self ..)
        have hlt := (asc_fieldsAt hi n p hp).1
        rw [List.foldlM_cons, load_getD (live_fieldsAt hi hp), R.ok_bind']
        by_cases hu : (used p.node).called > 0
        · obtain ⟨M, h1, h2, h3⟩ := extF_spec hi used ids f p.node (live_fieldsAt hi hp) (fuel_step hf hlt) (fun m hm => hid m (.step hp hm))
          obtain ⟨L, h4, h5, h6⟩ := ih (fun q hq => hl q (List.mem_cons_of_mem _ hq)) (K ++ M)
          refine ⟨M ++ L, ?_, fun m => ?_, fun ht hpw => ?_⟩
          · rw [if_pos hu, h1, R.ok_bind', ← List.flatMap_append, ← List.append_assoc]; exact h4
          · rw [List.mem_append, h2, h5]
            constructor
            · rintro (⟨a, c⟩ | ⟨q, hq, h⟩)
              · exact ⟨p, List.mem_cons_self .., hu, a, c⟩
              · exact ⟨q, List.mem_cons_of_mem _ hq, h⟩
            · rintro ⟨q, hq, h⟩
              rcases List.mem_cons.1 hq with e | e
              · subst e; exact .inl h.2
              · exact .inr ⟨q, e, h⟩
          · rw [List.pairwise_cons] at hpw
            rw [List.nodup_append]
            refine ⟨h3 (fun m hm => ht m (.step hp hm)), h6 ht hpw.2, fun a ha c hc e => ?_⟩
            subst e
            obtain ⟨q, hq, _, hq', _⟩ := (h5 a).1 hc
            exact hpw.1 q hq a ((h2 a).1 ha).1.of_used hq'.of_used
        · obtain ⟨L, h4, h5, h6⟩ := ih (fun q hq => hl q (List.mem_cons_of_mem _ hq)) K
          refine ⟨L, ?_, fun m => ?_, fun ht hpw => h6 ht (List.pairwise_cons.1 hpw).2⟩
          · rw [if_neg hu]; exact h4
          · rw [h5]
            constructor
            · rintro ⟨q, hq, h⟩; exact ⟨q, List.mem_cons_of_mem _ hq, h⟩
            · rintro ⟨q, hq, h⟩
              rcases List.mem_cons.1 hq with e | e
              · subst e; exact (hu h.1).elim
              · exact ⟨q, e, h⟩
    have hstep : ∀ m, LeadsTo (b.usedFields used) n m ↔ m = n ∨ ∃ p ∈ b.fieldsAt n, (used p.node).called > 0 ∧ LeadsTo (b.usedFields used) p.node m := by
      intro m
      constructor
      · intro h
        rcases h.cases' with h | ⟨p, hp, h⟩
        · exact .inl h
        · exact .inr ⟨p, (List.mem_filter.1 hp).1, by simpa using (List.mem_filter.1 hp).2, h⟩
      · rintro (h | ⟨p, hp, hu, h⟩)
        · rw [h]; exact .refl n
        · exact .step (List.mem_filter.2 ⟨hp, by simpa using hu⟩) h
    unfold extF
    rw [load_getD hn, R.ok_bind']
    obtain ⟨id, hid'⟩ := Option.isSome_iff_exists.1 (hid n (.refl n))
    by_cases hu : (used n).called > 0
    · obtain ⟨L, h1, h2, h3⟩ := loop (b.fieldsAt n) (fun _ h => h) [n]
      refine ⟨[n] ++ L, ?_, fun m => ?_, fun ht => ?_⟩
      · rw [if_pos hu, hid', ← h1]
        have : [n].flatMap (usageLine used ids) = natText (used n).called ++ bs! ", " ++ natText (used n).backtracked ++ bs! ", " ++ id ++ bs! "\n" := by
          rw [List.flatMap_cons, List.flatMap_nil, List.append_nil]; unfold usageLine; rw [hid']; rfl
        rw [this]; rfl
      · rw [List.mem_append, List.mem_singleton, h2, hstep]
        constructor
        · rintro (e | ⟨p, hp, a, c, d⟩)
          · rw [e]; exact ⟨.inl rfl, hu⟩
          · exact ⟨.inr ⟨p, hp, a, c⟩, d⟩
        · rintro ⟨e | ⟨p, hp, a, c⟩, d⟩
          · exact .inl e
          · exact .inr ⟨p, hp, a, c, d⟩
      · rw [List.nodup_append]
        refine ⟨by simp, h3 ht (ht n (.refl n)), fun a ha c hc e => ?_⟩
        rw [List.mem_singleton.1 ha] at e
        subst e
        obtain ⟨q, hq, _, hq', _⟩ := (h2 n).1 hc
        exact hnn q hq hq'.of_used
    · obtain ⟨L, h1, h2, h3⟩ := loop (b.fieldsAt n) (fun _ h => h) []
      refine ⟨L, ?_, fun m => ?_, fun ht => h3 ht (ht n (.refl n))⟩
      · rw [if_neg hu]; exact h1
      · rw [h2, hstep]
        constructor
        · rintro ⟨p, hp, a, c, d⟩
          exact ⟨.inr ⟨p, hp, a, c⟩, d⟩
        · rintro ⟨e | ⟨p, hp, a, c⟩, d⟩
          · rw [e] at d; exact (hu d).elim
          · exact ⟨p, hp, a, c, d⟩

end LN
