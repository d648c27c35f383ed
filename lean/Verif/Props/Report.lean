import Verif.Proofs.Dot
import Verif.Proofs.SepHist
import Verif.Proofs.NoShare
import Verif.Props.RepeatConf
/-
C83-C85: the statistics on a rulebase, DOT files, and the names of nodes in the usage report.
-/
set_option autoImplicit false
namespace LN

/-! ### the graphs are separate -/

/-- **C83** The main graph and the graphs of the user-defined types have no node in common, whatever has been loaded. -/
theorem C83_separate (env : Env) (srt : Sorter) (ops : List BOp) (b : Bld) (h : runOps env srt ops = .ok b) :
    b.ctxRefs.Nodup ∧ ∀ r ∈ b.ctxRefs, ∀ r' ∈ b.ctxRefs, r ≠ r' → ∀ m, LeadsTo b.fieldsAt r m → ¬ LeadsTo b.fieldsAt r' m :=
  ⟨(runOps_apart h).nodup, fun _ hr _ hr' hne _ hm => (runOps_apart h).disjoint hr hr' hne hm⟩

/-! ### statistics -/

/-- what is reported about one graph: the counts are right, the path exists; if no node can be reached in two ways it is a longest one -/
structure ReportOf (b : Bld) (r : NodeId) (s : PdagStats) (longest : Nat) : Prop where
  counts : ∃ L, NodesOf b.fieldsAt r L ∧ StatsOf b L s
  path : Way b.fieldsAt r longest
  longest : TreeAt b.fieldsAt r → ∀ k, Way b.fieldsAt r k → k ≤ longest

theorem statsF_report {b : Bld} (hi : Inv b b.ctxRefs) {r : NodeId} (hr : r ∈ b.ctxRefs) {v : Flags}
    (hv : ∀ m, LeadsTo b.fieldsAt r m → v m = false) (hc : ClosedOn b.fieldsAt (LeadsTo b.fieldsAt r) v) :
    ∃ v' s l, statsF (b.next + 1) b r v {} = .ok (v', s, l) ∧ ReportOf b r s l ∧ (∀ m, v' m = true ↔ v m = true ∨ LeadsTo b.fieldsAt r m) := by
  have hlive := hi.ext r hr
  have ha := asc_fieldsAt hi
  obtain ⟨L, hw, hp⟩ := walk_spec ha (b.next + 1) r v (lt_next hi hlive) (fuel_top _ _) hc
  refine ⟨_, _, _, statsF_walk hi (b.next + 1) r v {} hlive (fuel_top _ _), ⟨⟨L, ⟨hw.nodup, fun m => ?_⟩, ?_⟩, ?_, ?_⟩, hw.flags⟩
  · rw [hw.mem]; exact ⟨fun h => h.1, fun h => ⟨h, hv m h⟩⟩
  · exact .of_counted ((counted b _ {}).perm hp)
  · exact plen_way _ _ _ (hv r (.refl r)) (Nat.succ_pos _)
  · intro ht
    exact plen_tree ha _ r v (lt_next hi hlive) (fuel_top _ _) ht hc hv

/-- the flags met while the report is made: a set of graphs (those already counted) is flagged -/
structure FlagState (b : Bld) (D : List NodeId) (v : Flags) : Prop where
  iff : ∀ r ∈ b.ctxRefs, ∀ m, LeadsTo b.fieldsAt r m → (v m = true ↔ ∃ d ∈ D, LeadsTo b.fieldsAt d m)

theorem statsText_eq (s : PdagStats) (l : Nat) : statsText s l = countsText s l := rfl

theorem pdagStats_plain {b : Bld} (hi : Inv b b.ctxRefs) (ha : Apart b) {r : NodeId} (hr : r ∈ b.ctxRefs) {D : List NodeId}
    (hD : ∀ d ∈ D, d ∈ b.ctxRefs) (hrD : r ∉ D) {v : Flags} (hv : FlagState b D v) (used : NodeId → Stats) (ids : Ids) :
    ∃ v' s l, pdagStats b false used ids r v = .ok (v', statsText s l) ∧ ReportOf b r s l ∧ FlagState b (D ++ [r]) v' := by
  have hun : ∀ m, LeadsTo b.fieldsAt r m → v m = false := by
    intro m hm
    cases hvm : v m with
    | false => rfl
    | true =>
      obtain ⟨d, hd, hdm⟩ := (hv.iff r hr m hm).1 hvm
      exact (ha.disjoint hr (hD d hd) (fun e => hrD (by rw [e]; exact hd)) hm hdm).elim
  obtain ⟨v', s, l, h1, h2, h3⟩ := statsF_report hi hr hun (fun m hm h => by rw [hun m hm] at h; cases h)
  refine ⟨v', s, l, ?_, h2, ⟨fun r' hr' m hm => ?_⟩⟩
  · unfold pdagStats; rw [h1]; rfl
  · rw [h3, hv.iff r' hr' m hm]
    simp only [List.mem_append, List.mem_singleton, or_and_right, exists_or, exists_eq_left]

theorem flatMap_congr_mem {α β : Type} {f g : α → List β} : ∀ {l : List α}, (∀ q ∈ l, f q = g q) → l.flatMap f = l.flatMap g
  | [], _ => rfl
  | a :: l, h => by
    rw [List.flatMap_cons, List.flatMap_cons, h a (List.mem_cons_self ..), flatMap_congr_mem fun q hq => h q (List.mem_cons_of_mem _ hq)]

/-- running through a list of graphs -/
theorem parts_loop {X : Type} [Inhabited X] {g : NodeId → Flags → R (Flags × Bytes)} {hd : Bytes → Bytes} {T : X → Bytes} {A : List NodeId}
    {P : NodeId → X → Prop} {FS : List NodeId → Flags → Prop}
    (step : ∀ r ∈ A, ∀ D, (∀ d ∈ D, d ∈ A) → r ∉ D → ∀ v, FS D v → ∃ (v' : Flags) (x : X), g r v = .ok (v', T x) ∧ P r x ∧ FS (D ++ [r]) v') :
    ∀ (l : List (Bytes × NodeId)) (D : List NodeId) (v : Flags) (out : Bytes), (∀ t ∈ l, t.2 ∈ A) → (D ++ l.map (·.2)).Nodup →
      (∀ d ∈ D, d ∈ A) → FS D v → ∃ (v' : Flags) (rep : NodeId → X), l.foldlM (fun (a : Flags × Bytes) t =>
        (g t.2 a.1).bind fun r => R.ok (r.1, a.2 ++ (hd t.1 ++ r.2))) (v, out) =
        .ok (v', out ++ l.flatMap fun t => hd t.1 ++ T (rep t.2)) ∧
        (∀ t ∈ l, P t.2 (rep t.2)) ∧ FS (D ++ l.map (·.2)) v'
  | [], D, v, out, _, _, _, hv => ⟨v, fun _ => default, by simp, by simp, by simpa using hv⟩
  | t :: l, D, v, out, hl, hnd, hD, hv => by
    have hnd' : (D ++ [t.2] ++ l.map (·.2)).Nodup := by rw [List.append_assoc]; exact hnd
    have htD : t.2 ∉ D := fun h => by
      rw [List.nodup_append] at hnd
      exact hnd.2.2 _ h _ (List.mem_cons_self ..) rfl
    obtain ⟨v1, x, h1, h2, h3⟩ := step t.2 (hl t (List.mem_cons_self ..)) D hD htD v hv
    obtain ⟨v2, rep, h4, h5, h6⟩ := parts_loop (hd := hd) step l (D ++ [t.2]) v1 (out ++ (hd t.1 ++ T x))
      (fun q hq => hl q (List.mem_cons_of_mem _ hq)) hnd' (by
        intro d hd
        rcases List.mem_append.1 hd with h | h
        · exact hD d h
        · rw [List.mem_singleton.1 h]; exact hl t (List.mem_cons_self ..)) h3
    have hne : ∀ q ∈ l, q.2 ≠ t.2 := fun q hq e => by
      rw [List.nodup_append] at hnd'
      exact hnd'.2.2 t.2 (by simp) q.2 (List.mem_map.2 ⟨q, hq, rfl⟩) e.symm
    refine ⟨v2, fun n => if n = t.2 then x else rep n, ?_, fun q hq => ?_, by
      rw [List.append_assoc] at h6; exact h6⟩
    · rw [List.foldlM_cons, h1]
      refine Eq.trans h4 ?_
      rw [List.flatMap_cons]
      dsimp only
      rw [if_pos rfl]
      have : l.flatMap (fun q => hd q.1 ++ T (rep q.2)) = l.flatMap (fun q => hd q.1 ++ T (if q.2 = t.2 then x else rep q.2)) := by
        refine flatMap_congr_mem fun q hq => ?_
        rw [if_neg (hne q hq)]
      rw [← this, List.append_assoc]
    · dsimp only
      rcases List.mem_cons.1 hq with e | e
      · subst e; rw [if_pos rfl]; exact h2
      · rw [if_neg (hne q e)]; exact h5 q e

theorem reportText_eq (b : Bld) (rep : NodeId → PdagStats × Nat × Option Bytes) : reportText b rep =
    reportHead b ++ (b.types.flatMap fun t => typeHead t.1 ++ partText (rep t.2)) ++ (mainHead ++ partText (rep b.root)) := rfl

theorem fullStats_gen {b : Bld} (ha : Apart b) {ext : Bool} {used : NodeId → Stats} {ids : Ids} {P : NodeId → PdagStats × Nat × Option Bytes → Prop}
    {FS : List NodeId → Flags → Prop}
    (step : ∀ r ∈ b.ctxRefs, ∀ D, (∀ d ∈ D, d ∈ b.ctxRefs) → r ∉ D → ∀ v, FS D v → ∃ (v' : Flags) (x : PdagStats × Nat × Option Bytes),
      pdagStats b ext used ids r v = .ok (v', partText x) ∧ P r x ∧ FS (D ++ [r]) v')
    {v : Flags} (hv : FS [] v) :
    ∃ (v' : Flags) (rep : NodeId → PdagStats × Nat × Option Bytes), fullStats b ext used ids v = .ok (v', reportText b rep) ∧
      (∀ r ∈ b.ctxRefs, P r (rep r)) ∧ FS (b.types.map (·.2) ++ [b.root]) v' := by
  have hnd := ha.nodup
  rw [Bld.ctxRefs, List.nodup_cons] at hnd
  have hin : ∀ t ∈ b.types, t.2 ∈ b.ctxRefs := fun t ht => List.mem_cons_of_mem _ (List.mem_map.2 ⟨t, ht, rfl⟩)
  have : Inhabited (PdagStats × Nat × Option Bytes) := ⟨({}, 0, none)⟩
  obtain ⟨v1, rep, h1, h2, h3⟩ := parts_loop (hd := typeHead) step b.types [] v (reportHead b) hin hnd.2 (by simp) hv
  rw [List.nil_append] at h3
  obtain ⟨v2, x, h4, h5, h6⟩ := step b.root (List.mem_cons_self ..) (b.types.map fun x => x.2) (fun d hd => List.mem_cons_of_mem _ hd) hnd.1 v1 h3
  have hne : ∀ q ∈ b.types, q.2 ≠ b.root := fun q hq e => hnd.1 (e ▸ List.mem_map.2 ⟨q, hq, rfl⟩)
  refine ⟨v2, fun n => if n = b.root then x else rep n, ?_, fun r hr => ?_, h6⟩
  · unfold fullStats
    rw [h1, R.ok_bind', h4, R.ok_bind', reportText_eq, if_pos rfl]
    have : b.types.flatMap (fun q => typeHead q.1 ++ partText (rep q.2)) =
        b.types.flatMap (fun q => typeHead q.1 ++ partText (if q.2 = b.root then x else rep q.2)) := by
        refine flatMap_congr_mem fun q hq => ?_
        rw [if_neg (hne q hq)]
    rw [← this]
  · dsimp only
    rcases List.mem_cons.1 hr with e | e
    · rw [if_pos e, e]; exact h5
    · obtain ⟨q, hq, rfl⟩ := List.mem_map.1 e
      rw [if_neg (hne q hq)]; exact h2 q hq

theorem flagState_clear {b : Bld} {v : Flags} (h : ∀ r ∈ b.ctxRefs, ∀ m, LeadsTo b.fieldsAt r m → v m = false) : FlagState b [] v :=
  ⟨fun r hr m hm => by rw [h r hr m hm]; simp⟩

/-- **C83** After loading rules and types in whatever order, the statistics are right: each graph is reported with the number of its nodes, of the
nodes at which a rule or type ends, of its fields in total, by type and per node. The path length is that of an existing path, and the
greatest one if no node can be reached in two ways. (Loading clears the flags the report uses.) -/
theorem C83_statistics_partial (env : Env) (srt : Sorter) (ops : List BOp) (b : Bld) (h : runOps env srt ops = .ok b) (v0 : Flags)
    (used : NodeId → Stats) (ids : Ids) :
    ∃ (v v' : Flags) (rep : NodeId → PdagStats × Nat), clearVisited b v0 = .ok v ∧
      fullStats b false used ids v = .ok (v', reportText b fun r => ((rep r).1, (rep r).2, none)) ∧
      ∀ r ∈ b.ctxRefs, ReportOf b r (rep r).1 (rep r).2 := by
  have hi := (runOps_inv (env := env) (srt := srt) ops).ok_of h
  have ha := runOps_apart h
  obtain ⟨v, h1, h2⟩ := clearVisited_spec hi v0
  obtain ⟨v', rep, h3, h4, _⟩ := fullStats_gen (ext := false) (used := used) (ids := ids) (FS := FlagState b)
    (P := fun r x => ReportOf b r x.1 x.2.1 ∧ x.2.2 = none) ha (fun r hr D hD hrD v hv => by
      obtain ⟨v', s, l, h1, h2, h3⟩ := pdagStats_plain hi ha hr hD hrD hv used ids
      exact ⟨v', (s, l, none), by rw [h1, statsText_eq]; unfold partText; rw [List.append_nil], ⟨h2, rfl⟩, h3⟩) (flagState_clear h2)
  refine ⟨v, v', fun r => ((rep r).1, (rep r).2.1), h1, ?_, fun r hr => (h4 r hr).1⟩
  rw [h3]
  have hx : ∀ r ∈ b.ctxRefs, rep r = ((rep r).1, (rep r).2.1, none) := fun r hr => by
    rw [← (h4 r hr).2]
  rw [reportText_eq, reportText_eq, ← hx b.root (List.mem_cons_self ..)]
  rw [flatMap_congr_mem (g := fun t => typeHead t.1 ++ partText ((rep t.2).1, (rep t.2).2.1, none)) fun t ht => by
    rw [← hx t.2 (List.mem_cons_of_mem _ (List.mem_map.2 ⟨t, ht, rfl⟩))]]

/-- **C83** violated: a second report is empty. Its flags are still set from the first one (pdag.c:612). -/
theorem C83_second_report_violated (env : Env) (srt : Sorter) (ops : List BOp) (b : Bld) (h : runOps env srt ops = .ok b) (v0 : Flags)
    (used : NodeId → Stats) (ids : Ids) :
    ∃ (v v' v'' : Flags) (t : Bytes), clearVisited b v0 = .ok v ∧ fullStats b false used ids v = .ok (v', t) ∧
      fullStats b false used ids v' = .ok (v'', reportText b fun _ => ({}, 0, none)) := by
  have hi := (runOps_inv (env := env) (srt := srt) ops).ok_of h
  have ha := runOps_apart h
  obtain ⟨v, h1, h2⟩ := clearVisited_spec hi v0
  obtain ⟨v', rep, h3, h4, h5⟩ := fullStats_gen (ext := false) (used := used) (ids := ids) (FS := FlagState b)
    (P := fun r x => ReportOf b r x.1 x.2.1 ∧ x.2.2 = none) ha (fun r hr D hD hrD v hv => by
      obtain ⟨v', s, l, h1, h2, h3⟩ := pdagStats_plain hi ha hr hD hrD hv used ids
      exact ⟨v', (s, l, none), by rw [h1, statsText_eq]; unfold partText; rw [List.append_nil], ⟨h2, rfl⟩, h3⟩) (flagState_clear h2)
  have hall : ∀ r ∈ b.ctxRefs, v' r = true := fun r hr => (h5.iff r hr r (.refl r)).2 ⟨r, by
    rw [List.mem_append, List.mem_singleton]
    rcases List.mem_cons.1 hr with e | e
    · exact .inr e
    · exact .inl e, .refl r⟩
  obtain ⟨v'', rep', h6, h7, _⟩ := fullStats_gen (ext := false) (used := used) (ids := ids) (FS := fun _ v => ∀ r ∈ b.ctxRefs, v r = true)
    (P := fun _ x => x = ({}, 0, none)) ha (fun r hr D _ _ v hv => by
      refine ⟨v, ({}, 0, none), ?_, rfl, hv⟩
      unfold pdagStats statsF
      rw [load_getD (hi.ext r hr), R.ok_bind', if_pos (hv r hr)]
      unfold partText; rw [List.append_nil]; rfl) hall
  refine ⟨v, v', v'', _, h1, h3, ?_⟩
  rw [h6, reportText_eq, reportText_eq, h7 b.root (List.mem_cons_self ..)]
  rw [flatMap_congr_mem (g := fun t => typeHead t.1 ++ partText ({}, 0, none)) fun t ht => by
    rw [h7 t.2 (List.mem_cons_of_mem _ (List.mem_map.2 ⟨t, ht, rfl⟩))]]

/-! ### DOT -/

/-- **C84** The DOT file describes the main graph: every node that can be reached is declared exactly once, and every field appears exactly once as
an edge. -/
theorem C84_dot (env : Env) (srt : Sorter) (ops : List BOp) (b : Bld) (h : runOps env srt ops = .ok b) (hl : LitsOK b b.root)
    (ptr : NodeId → Bytes) (v0 : Flags) :
    ∃ (v' : Flags) (L : List NodeId) (evs : List Ev), NodesOf b.fieldsAt b.root L ∧ evs.Perm (L.flatMap (evsAt b.fieldsAt)) ∧
      genDot ptr b b.root v0 = .ok (v', bs! "digraph pdag {\n" ++ evs.flatMap (dotStmt ptr b) ++ bs! "}\n") := by
  have hi := (runOps_inv (env := env) (srt := srt) ops).ok_of h
  obtain ⟨v, h1, h2⟩ := clearVisited_spec hi v0
  have hlive := hi.ext b.root (List.mem_cons_self ..)
  have hv := h2 b.root (List.mem_cons_self ..)
  obtain ⟨L, hw, hp⟩ := walk_spec (asc_fieldsAt hi) (b.next + 1) b.root v (lt_next hi hlive) (fuel_top _ _)
    (fun m hm h => by rw [hv m hm] at h; cases h)
  refine ⟨(walk b.fieldsAt (b.next + 1) b.root v).1, L, (walk b.fieldsAt (b.next + 1) b.root v).2, ⟨hw.nodup, fun m => ?_⟩, hp, ?_⟩
  · rw [hw.mem]; exact ⟨fun h => h.1, fun h => ⟨h, hv m h⟩⟩
  · unfold genDot
    rw [h1, R.ok_bind', dotF_walk hi ptr _ _ _ _ hlive (fuel_top _ _) hl]
    rfl

/-- **C84** The DOT file with usage counts describes the part of the main graph that has been used. -/
theorem C84_usage_dot (env : Env) (srt : Sorter) (ops : List BOp) (b : Bld) (h : runOps env srt ops = .ok b) (hl : LitsOK b b.root)
    (ptr : NodeId → Bytes) (used : NodeId → Stats) (v0 : Flags) :
    ∃ (v' : Flags) (L : List NodeId) (evs : List Ev), NodesOf (b.usedFields used) b.root L ∧ evs.Perm (L.flatMap (evsAt (b.usedFields used))) ∧
      genStatsDot ptr used b v0 = .ok (v', bs! "digraph pdag {\n" ++ evs.flatMap (usageStmt ptr used b) ++ bs! "}\n") := by
  have hi := (runOps_inv (env := env) (srt := srt) ops).ok_of h
  obtain ⟨v, h1, h2⟩ := clearVisited_spec hi v0
  have hlive := hi.ext b.root (List.mem_cons_self ..)
  have hv : ∀ m, LeadsTo (b.usedFields used) b.root m → v m = false := fun m hm => h2 b.root (List.mem_cons_self ..) m hm.of_used
  obtain ⟨L, hw, hp⟩ := walk_spec (asc_usedFields hi used) (b.next + 1) b.root v (lt_next hi hlive) (fuel_top _ _)
    (fun m hm h => by rw [hv m hm] at h; cases h)
  refine ⟨(walk (b.usedFields used) (b.next + 1) b.root v).1, L, (walk (b.usedFields used) (b.next + 1) b.root v).2, ⟨hw.nodup, fun m => ?_⟩, hp, ?_⟩
  · rw [hw.mem]; exact ⟨fun h => h.1, fun h => ⟨h, hv m h⟩⟩
  · unfold genStatsDot
    rw [h1, R.ok_bind', sdotF_walk hi ptr used _ _ _ _ hlive (fuel_top _ _) hl]
    rfl

theorem name_safe (k : PKind) : ∀ c ∈ k.name, c ≠ ch! '"' ∧ c ≠ ch! '\\' := by
  cases k <;> (simp only [PKind.name]; decide)

/-- **C84** Whatever the texts of literals are, labels contain neither quotes nor backslashes: no rule can break the syntax of the file. -/
theorem C84_labels (k : PKind) : ∀ c, c ∈ edgeLabel k ∨ c ∈ usageLabel k → c ≠ ch! '"' ∧ c ≠ ch! '\\' := by
  intro c hc
  have hs : ∀ d : Option Bytes, c ∈ plainText (d.getD []) → c ≠ ch! '"' ∧ c ≠ ch! '\\' := fun d h => dotLit_safe _ c (by rw [dotLit_eq]; exact h)
  have h1 : ∀ c ∈ (bs! "literal:"), c ≠ ch! '"' ∧ c ≠ ch! '\\' := by decide
  have h2 : ∀ c ∈ (bs! ":"), c ≠ ch! '"' ∧ c ≠ ch! '\\' := by decide
  have h3 := name_safe k c
  cases k with
  | literal d =>
    rcases hc with hc | hc
    · rcases List.mem_append.1 hc with h | h
      · exact h1 c h
      · exact hs d h
    · exact hs d hc
  | _ =>
    rcases hc with hc | hc
    · rcases List.mem_append.1 hc with h | h
      · exact h3 h
      · exact h2 c h
    · exact h3 hc

/-! ### names and usage -/

theorem setIds_spec {b : Bld} (hi : Inv b b.ctxRefs) (ha : Apart b) (hl : ∀ r ∈ b.ctxRefs, LitsOK b r) (ids0 : Ids) :
    ∃ ids, setIds b ids0 = .ok ids ∧ (∀ r ∈ b.ctxRefs, ∀ m, LeadsTo b.fieldsAt r m → (ids m).isSome = true) ∧
      ∀ r ∈ b.ctxRefs, (∀ m, LeadsTo b.fieldsAt r m → ids0 m = none) → TreeAt b.fieldsAt r →
        ∀ t m, Spells b.fieldsAt r t m → ids m = some t := by
  have loop : ∀ (l : List NodeId) (_ : l.Nodup) (_ : ∀ n ∈ l, n ∈ b.ctxRefs) (ids0 : Ids),
      ∃ ids, l.foldlM (fun ids n => setIdF (b.next + 1) b ids n []) ids0 = .ok ids ∧
        (∀ r ∈ b.ctxRefs, r ∉ l → ∀ m, LeadsTo b.fieldsAt r m → ids m = ids0 m) ∧
        (∀ r ∈ l, ∀ m, LeadsTo b.fieldsAt r m → (ids m).isSome = true) ∧
        ∀ r ∈ l, (∀ m, LeadsTo b.fieldsAt r m → ids0 m = none) → TreeAt b.fieldsAt r → ∀ t m, Spells b.fieldsAt r t m → ids m = some t := by
    intro l
    induction l with
    | nil => intro _ _ ids0; exact ⟨ids0, rfl, fun _ _ _ _ _ => rfl, by simp, by simp⟩
    | cons n l ih =>
      intro hnd hin ids0
      rw [List.nodup_cons] at hnd
      have hn := hin n (List.mem_cons_self ..)
      obtain ⟨i1, h1, h2, h3, h4, _⟩ := setIdF_spec hi (b.next + 1) n ids0 [] (hi.ext n hn) (fuel_top _ _) (hl n hn)
      obtain ⟨i2, h5, h6, h7, h8⟩ := ih hnd.2 (fun q hq => hin q (List.mem_cons_of_mem _ hq)) i1
      refine ⟨i2, by rw [List.foldlM_cons, h1]; exact h5, fun r hr hrl m hm => ?_, fun r hr m hm => ?_, fun r hr hf ht t m hs => ?_⟩
      · have hne : n ≠ r := fun e => hrl (by rw [← e]; exact List.mem_cons_self ..)
        rw [h6 r hr (fun h => hrl (List.mem_cons_of_mem _ h)) m hm, h3 m (fun h => ha.disjoint hn hr hne h hm)]
      · rcases List.mem_cons.1 hr with e | e
        · subst e
          rw [h6 r hn hnd.1 m hm]; exact h2 m hm
        · exact h7 r e m hm
      · rcases List.mem_cons.1 hr with e | e
        · subst e
          rw [h6 r hn hnd.1 m hs.leads]; exact h4 ht hf t m hs
        · refine h8 r e (fun m hm => ?_) ht t m hs
          have hr' := hin r hr
          rw [h3 m (fun h => ha.disjoint hn hr' (fun e' => hnd.1 (by rw [e']; exact e)) h hm)]
          exact hf m hm
  have hnd := ha.nodup
  rw [Bld.ctxRefs, List.nodup_cons] at hnd
  have hmem : ∀ r, r ∈ b.types.map (·.2) ++ [b.root] ↔ r ∈ b.ctxRefs := by
    intro r; rw [List.mem_append, List.mem_singleton, Bld.ctxRefs, List.mem_cons]; exact or_comm
  obtain ⟨ids, h1, _, h2, h3⟩ := loop (b.types.map (·.2) ++ [b.root]) (by
    rw [List.nodup_append]
    refine ⟨hnd.2, by simp, fun a ha' c hc e => ?_⟩
    rw [List.mem_singleton.1 hc] at e
    exact hnd.1 (e ▸ ha')) (fun n hn => (hmem n).1 hn) ids0
  exact ⟨ids, h1, fun r hr => h2 r ((hmem r).2 hr), fun r hr => h3 r ((hmem r).2 hr)⟩

theorem pdagStats_ext {b : Bld} (hi : Inv b b.ctxRefs) {r : NodeId} (hr : r ∈ b.ctxRefs) {v : Flags}
    (hv : ∀ r ∈ b.ctxRefs, ∀ m, LeadsTo b.fieldsAt r m → v m = false) (used : NodeId → Stats) {ids : Ids}
    (hid : ∀ m, LeadsTo b.fieldsAt r m → (ids m).isSome = true) :
    ∃ v' s l t, pdagStats b true used ids r v = .ok (v', partText (s, l, some t)) ∧ ReportOf b r s l ∧ UsageOf b used ids r t ∧
      ∀ r ∈ b.ctxRefs, ∀ m, LeadsTo b.fieldsAt r m → v' m = false := by
  obtain ⟨v1, s, l, h1, h2, h3⟩ := statsF_report hi hr (hv r hr) (fun m hm h => by rw [hv r hr m hm] at h; cases h)
  obtain ⟨v2, h4, h5, h6⟩ := clearF_spec hi (b.next + 1) r v1 (hi.ext r hr) (fuel_top _ _)
  obtain ⟨L, h7, h8, h9⟩ := extF_spec hi used ids (b.next + 1) r (hi.ext r hr) (fuel_top _ _) hid
  refine ⟨v2, s, l, _, ?_, h2, ⟨L, rfl, h8, h9⟩, fun r' hr' m hm => ?_⟩
  · unfold pdagStats
    rw [h1, R.ok_bind']
    dsimp only
    rw [if_pos rfl, h4, R.ok_bind', h7, R.ok_bind']
    rw [statsText_eq]
    unfold partText
    dsimp only
    rw [List.append_assoc]
  · by_cases hm' : LeadsTo b.fieldsAt r m
    · exact h5 m hm'
    · rw [h6 m hm']
      cases hc : v1 m with
      | false => rfl
      | true =>
        rcases (h3 m).1 hc with h | h
        · rw [hv r' hr' m hm] at h; cases h
        · exact (hm' h).elim

/-- **C85** The names given to the nodes when a rulebase is loaded: every node has one, so that the usage report prints no NULL pointer; the report contains the
counts as in C83 and exactly the nodes used, each once if no node can be reached in two ways. If moreover the names are
given for the first time, the name of a node is the text of the fields leading to it. -/
theorem C85_usage_partial (env : Env) (srt : Sorter) (ops : List BOp) (b : Bld) (h : runOps env srt ops = .ok b)
    (hl : ∀ r ∈ b.ctxRefs, LitsOK b r) (v0 : Flags) (used : NodeId → Stats) (ids0 : Ids) :
    ∃ (ids : Ids) (v v' : Flags) (rep : NodeId → PdagStats × Nat × Bytes), setIds b ids0 = .ok ids ∧ clearVisited b v0 = .ok v ∧
      fullStats b true used ids v = .ok (v', reportText b fun r => ((rep r).1, (rep r).2.1, some (rep r).2.2)) ∧
      ∀ r ∈ b.ctxRefs, ReportOf b r (rep r).1 (rep r).2.1 ∧ UsageOf b used ids r (rep r).2.2 ∧
        (∀ m, LeadsTo b.fieldsAt r m → (ids m).isSome = true) ∧
        ((∀ m, LeadsTo b.fieldsAt r m → ids0 m = none) → TreeAt b.fieldsAt r → ∀ t m, Spells b.fieldsAt r t m → ids m = some t) := by
  have hi := (runOps_inv (env := env) (srt := srt) ops).ok_of h
  have ha := runOps_apart h
  obtain ⟨v, h1, h2⟩ := clearVisited_spec hi v0
  obtain ⟨ids, hs1, hs2, hs3⟩ := setIds_spec hi ha hl ids0
  obtain ⟨v', rep, h3, h4, _⟩ := fullStats_gen (ext := true) (used := used) (ids := ids)
    (FS := fun _ v => ∀ r ∈ b.ctxRefs, ∀ m, LeadsTo b.fieldsAt r m → v m = false)
    (P := fun r x => ReportOf b r x.1 x.2.1 ∧ ∃ t, x.2.2 = some t ∧ UsageOf b used ids r t) ha (fun r hr D _ _ v hv => by
      obtain ⟨v', s, l, t, h1, h2, h3, h4⟩ := pdagStats_ext hi hr hv used (hs2 r hr)
      exact ⟨v', (s, l, some t), h1, ⟨h2, t, rfl, h3⟩, h4⟩) h2
  refine ⟨ids, v, v', fun r => ((rep r).1, (rep r).2.1, (rep r).2.2.getD []), hs1, h1, ?_, fun r hr => ?_⟩
  · rw [h3]
    have hx : ∀ r ∈ b.ctxRefs, rep r = ((rep r).1, (rep r).2.1, some ((rep r).2.2.getD [])) := fun r hr => by
      obtain ⟨t, ht, _⟩ := (h4 r hr).2
      rw [ht]; exact Prod.ext rfl (Prod.ext rfl ht)
    rw [reportText_eq, reportText_eq, ← hx b.root (List.mem_cons_self ..)]
    rw [flatMap_congr_mem (g := fun t => typeHead t.1 ++ partText ((rep t.2).1, (rep t.2).2.1, some ((rep t.2).2.2.getD []))) fun t ht => by
      rw [← hx t.2 (List.mem_cons_of_mem _ (List.mem_map.2 ⟨t, ht, rfl⟩))]]
  · obtain ⟨h5, t, ht, h6⟩ := h4 r hr
    refine ⟨h5, ?_, hs2 r hr, hs3 r hr⟩
    show UsageOf b used ids r ((rep r).2.2.getD [])
    rw [ht]; exact h6

/-- **C85** violated: the names depend on how often a rulebase has been loaded: with the second load the empty name of the root becomes `[|]`. -/
theorem C85_reload_violated (env : Env) (srt : Sorter) (ops : List BOp) (b : Bld) (h : runOps env srt ops = .ok b)
    (hl : ∀ r ∈ b.ctxRefs, LitsOK b r) :
    ∃ ids1 ids2, setIds b (fun _ => none) = .ok ids1 ∧ ids1 b.root = some [] ∧ setIds b ids1 = .ok ids2 ∧ ids2 b.root = some (bs! "[|]") := by
  have hi := (runOps_inv (env := env) (srt := srt) ops).ok_of h
  have ha := runOps_apart h
  have key : ∀ ids0 : Ids, ∃ ids, setIds b ids0 = .ok ids ∧ ids b.root = some (match ids0 b.root with | none => [] | some c => fixedId c []) := by
    intro ids0
    have loop : ∀ (l : List NodeId) (_ : ∀ n ∈ l, n ∈ b.ctxRefs ∧ n ≠ b.root) (ids0 : Ids),
        ∃ ids, l.foldlM (fun ids n => setIdF (b.next + 1) b ids n []) ids0 = .ok ids ∧ ids b.root = ids0 b.root := by
      intro l
      induction l with
      | nil => intro _ ids0; exact ⟨ids0, rfl, rfl⟩
      | cons n l ih =>
        intro hin ids0
        obtain ⟨hn, hne⟩ := hin n (List.mem_cons_self ..)
        obtain ⟨i1, h1, _, h3, _, _⟩ := setIdF_spec hi (b.next + 1) n ids0 [] (hi.ext n hn) (fuel_top _ _) (hl n hn)
        obtain ⟨i2, h5, h6⟩ := ih (fun q hq => hin q (List.mem_cons_of_mem _ hq)) i1
        refine ⟨i2, by rw [List.foldlM_cons, h1]; exact h5, ?_⟩
        rw [h6, h3 b.root (fun h => ha.disjoint hn (List.mem_cons_self ..) hne h (.refl _))]
    have hnd := ha.nodup
    rw [Bld.ctxRefs, List.nodup_cons] at hnd
    obtain ⟨i1, h1, h2⟩ := loop (b.types.map (·.2)) (fun n hn => ⟨List.mem_cons_of_mem _ hn, fun e => hnd.1 (e ▸ hn)⟩) ids0
    have hr : b.root ∈ b.ctxRefs := List.mem_cons_self ..
    obtain ⟨i2, h3, _, _, _, h4⟩ := setIdF_spec hi (b.next + 1) b.root i1 [] (hi.ext _ hr) (fuel_top _ _) (hl _ hr)
    refine ⟨i2, ?_, by rw [h4, h2]; rfl⟩
    unfold setIds
    rw [Ex.foldlM_append, h1]
    show (setIdF (b.next + 1) b i1 b.root []).bind _ = _
    rw [h3]; rfl
  obtain ⟨i1, h1, h2⟩ := key fun _ => none
  obtain ⟨i2, h3, h4⟩ := key i1
  refine ⟨i1, i2, h1, h2, h3, ?_⟩
  rw [h4, h2]; rfl

/-! ### literals -/

theorem nameF_lits {b : Bld} : ∀ {n m : NodeId}, LeadsTo b.fieldsAt n m → ∀ (fuel : Nat), nameF fuel b n = .ok () →
    ∀ p ∈ b.fieldsAt m, ∀ d, p.kind = .literal d → d.isSome = true := by
  have one : ∀ (n : NodeId) (fuel : Nat), nameF fuel b n = .ok () → ∀ p ∈ b.fieldsAt n,
      (∀ d, p.kind = .literal d → d.isSome = true) ∧ ∃ fuel', nameF fuel' b p.node = .ok () := by
    intro n fuel h p hp
    cases fuel with
    | zero => cases h
    | succ fuel =>
      unfold nameF at h
      obtain ⟨nd, h1, h2⟩ := R.bind_eq_ok.1 h
      have hnd : b.fieldsAt n = nd.parsers := by
        unfold Bld.load at h1
        unfold Bld.fieldsAt
        cases hh : b.heap n with
        | none => rw [hh] at h1; dsimp only at h1; split at h1 <;> cases h1
        | some nd' => rw [hh] at h1; cases h1; rfl
      rw [hnd] at hp
      have h3 := foldUnit_ub (f := fun p => _) _ h2 p hp
      split at h3
      · cases h3
      · rename_i h4
        refine ⟨fun d hd => ?_, fuel, ?_⟩
        · cases d with
          | some l => rfl
          | none => exact (h4 hd).elim
        · rw [if_neg (by simp)] at h3; exact h3
  intro n m h
  induction h with
  | refl n => intro fuel hf p hp; exact (one n fuel hf p hp).1
  | step hp _ ih => intro fuel hf; obtain ⟨f', hf'⟩ := (one _ fuel hf _ hp).2; exact ih f' hf'

/-- **C84, C85** The hypothesis on literals is met by every rulebase that has been loaded to the end: a literal without text makes the load crash
(`C16_malformed_load_violated`). -/
theorem C84_literals (env : Env) (srt : Sorter) (ops : List BOp) (b : Bld) (h : runOps env srt (ops ++ [.optimize]) = .ok b) :
    ∀ r ∈ b.ctxRefs, LitsOK b r := by
  unfold runOps at h
  rw [Ex.foldlM_append] at h
  obtain ⟨b0, _, h⟩ := R.bind_eq_ok.1 h
  obtain ⟨b1, h, h'⟩ := R.bind_eq_ok.1 h
  cases h'
  change pdagOptimize srt b0 = .ok b at h
  unfold pdagOptimize at h
  obtain ⟨b2, _, h⟩ := R.bind_eq_ok.1 h
  obtain ⟨_, h1, h⟩ := R.bind_eq_ok.1 h
  obtain ⟨_, _, h⟩ := R.bind_eq_ok.1 h
  cases h
  intro r hr m hm
  refine nameF_lits hm (b.next + 1) ?_
  refine foldUnit_ub (f := fun n => nameF (b.next + 1) b n) _ h1 r ?_
  rcases List.mem_cons.1 hr with rfl | hr
  · exact List.mem_append_right _ (List.mem_cons_self ..)
  · exact List.mem_append_left _ hr

/-- **C83-C85** The name under which a field of a built-in type appears is the one it was described with. -/
theorem C83_type_names {env : Env} {ty : Bytes} {o : Obj} {k : PKind} (ht : ty ∈ typeNames) (hr : ty ≠ bs! "repeat")
    (h : construct env ty o = .ok k) : k.name = ty ∧ k.isCustom = false := by
  have key : ∀ {α : Type} {x : R α} {f : α → PKind}, (x.bind fun d => .ok (f d)) = .ok k → (∀ d, (f d).name = ty ∧ (f d).isCustom = false) → k.name = ty ∧ k.isCustom = false := by
    intro α x f hx hf
    obtain ⟨d, _, hd⟩ := R.bind_eq_ok.1 hx
    cases hd
    exact hf d
  simp only [typeNames, List.mem_cons, List.not_mem_nil, or_false] at ht
  unfold construct at h
  rcases ht with e|e|e|e|e|e|e|e|e|e|e|e|e|e|e|e|e|e|e|e|e|e|e|e|e|e|e|e|e|e|e|e
  all_goals simp (config := { decide := true }) only [e, if_true, if_false] at h hr
  all_goals first
    | exact (hr trivial).elim
    | (rw [e]; cases h; exact ⟨rfl, rfl⟩)
    | exact key h fun d => ⟨by rw [e]; rfl, rfl⟩
example : (bs! "word") ∈ typeNames ∧ construct Ex.env (bs! "word") [] = .ok .word := ⟨by decide, rfl⟩

/-! ### concrete cases -/

/-- nodes reachable in `f` steps -/
def reachL (fs : NodeId → List Parser) : Nat → NodeId → List NodeId
  | 0, n => [n]
  | f + 1, n => n :: (fs n).flatMap fun p => reachL fs f p.node

theorem mem_reachL {fs : NodeId → List Parser} {N : Nat} (ha : Asc fs N) {n m : NodeId} (h : LeadsTo fs n m) :
    ∀ f, N ≤ (n : Nat) + f → m ∈ reachL fs f n := by
  induction h with
  | refl n => intro f _; cases f <;> exact List.mem_cons_self ..
  | @step n p m hp t ih =>
    intro f hf
    have h1 := ha n p hp
    cases f with
    | zero => exact (Nat.lt_irrefl _ (Nat.lt_of_lt_of_le (Nat.lt_trans h1.1 h1.2) hf)).elim
    | succ f => exact List.mem_cons_of_mem _ (List.mem_flatMap.2 ⟨p, hp, ih f (fuel_step hf h1.1)⟩)

/-- test for `LitsOK` and `TreeAt` -/
def litsB (b : Bld) (n : NodeId) : Bool := (reachL b.fieldsAt b.next n).all fun m => (b.fieldsAt m).all fun p => !(p.kind matches .literal none)

def treeB (b : Bld) (n : NodeId) : Bool := (reachL b.fieldsAt b.next n).all fun m =>
  decide ((b.fieldsAt m).Pairwise fun p q => ∀ k ∈ reachL b.fieldsAt b.next p.node, k ∉ reachL b.fieldsAt b.next q.node)

theorem litsB_ok {b : Bld} {E : List NodeId} (hi : Inv b E) {n : NodeId} (h : litsB b n = true) : LitsOK b n := by
  intro m hm p hp d hd
  have h1 := List.all_eq_true.1 (List.all_eq_true.1 h m (mem_reachL (asc_fieldsAt hi) hm _ (Nat.le_add_left _ _))) p hp
  cases d with
  | some l => rfl
  | none => rw [hd] at h1; simp at h1

theorem treeB_ok {b : Bld} {E : List NodeId} (hi : Inv b E) {n : NodeId} (h : treeB b n = true) : TreeAt b.fieldsAt n := by
  intro m hm
  have h1 := of_decide_eq_true (List.all_eq_true.1 h m (mem_reachL (asc_fieldsAt hi) hm _ (Nat.le_add_left _ _)))
  refine h1.imp fun {p q} hpq k hk hk' => ?_
  exact hpq k (mem_reachL (asc_fieldsAt hi) hk _ (Nat.le_add_left _ _)) (mem_reachL (asc_fieldsAt hi) hk' _ (Nat.le_add_left _ _))

namespace Ex

/-- a rule in which a field can be reached on two ways of different length, the shorter one being tried first -/
def altRules : List BOp := [
  .rule [.obj [(bs! "type", .str (bs! "alternative")),
    (bs! "parser", .arr [.arr [litConf (bs! "y"), litConf (bs! "z")],
      .obj [(bs! "type", .str (bs! "literal")), (bs! "text", .str (bs! "x")), (bs! "priority", .int 1000)]])],
    litConf (bs! "w")] true none (bs! "rb") 1, .optimize]

def altEnv : Env := { env with toInt := fun _ => 1000 }

/-- test for `Way` -/
def wayB (fs : NodeId → List Parser) : Nat → NodeId → Bool
  | 0, _ => false
  | 1, _ => true
  | k + 2, n => (fs n).any fun p => wayB fs (k + 1) p.node

theorem wayB_ok {fs : NodeId → List Parser} : ∀ (k : Nat) (n : NodeId), wayB fs k n = true → Way fs n k
  | 0, _, h => by cases h
  | 1, n, _ => .one n
  | k + 2, n, h => by
    obtain ⟨p, hp, h2⟩ := List.any_eq_true.1 h
    exact .step hp (wayB_ok (k + 1) p.node h2)

def altReport : Bytes := bs! "User-Defined Types\n==================\nnumber types: 0\n\nMain PDAG\n=========\nnodes.............:    4\nterminal nodes....:    1\nparsers entries...:    4\nlongest path......:    3\nParser Type Counts:\n\t             literal: 4\nParsers per Node:\n\tmax:\t   2\n\t0:\t   1\n\t1:\t   2\n\t2:\t   1\n"

/-- what the report of a rulebase built from nothing says; `true` asks for usage statistics, as if every node had been used once -/
def reportOn (e : Env) (ops : List BOp) (ext : Bool) : Option Bytes :=
  match runOps e stableSorter ops with
  | .ok b => match setIds b fun _ => none with
    | .ok ids => match fullStats b ext (fun _ => ⟨1, 0⟩) ids fun _ => false with
      | .ok x => some x.2
      | _ => none
    | _ => none
  | _ => none

theorem built {e : Env} {ops : List BOp} {f : Bld → Bool}
    (h : (match runOps e stableSorter ops with | .ok b => f b | _ => false) = true) : ∃ b, runOps e stableSorter ops = .ok b ∧ f b = true := by
  cases hr : runOps e stableSorter ops with
  | ok b => rw [hr] at h; exact ⟨b, rfl, h⟩
  | _ => rw [hr] at h; cases h

end Ex

/-- **C83** violated: with alternatives the path reported as longest need not be a longest one: the nodes behind the alternatives are counted on the way visited first only. -/
theorem C83_longest_violated : ∃ b, runOps Ex.altEnv stableSorter Ex.altRules = .ok b ∧ Way b.fieldsAt b.root 4 ∧
    Ex.reportOn Ex.altEnv Ex.altRules false = some Ex.altReport := by
  obtain ⟨b, h1, h2⟩ := Ex.built (e := Ex.altEnv) (ops := Ex.altRules) (f := fun b => Ex.wayB b.fieldsAt 4 b.root) (by decide +kernel)
  exact ⟨b, h1, Ex.wayB_ok _ _ h2, by decide +kernel⟩

/-- **C85** violated: with alternatives a node is listed once for every way leading to it. -/
theorem C85_duplicate_violated : Ex.reportOn Ex.altEnv Ex.altRules true = some (Ex.altReport ++
    bs! "Usage Statistics:\n-----------------\ncalled, backtracked, rule\n1, 0, \n1, 0, [x|yz]\n1, 0, [x|yz]w\n1, 0, y\n1, 0, [x|yz]\n1, 0, [x|yz]w\n") := by
  decide +kernel

theorem invOf {e : Env} {ops : List BOp} {b : Bld} (h : runOps e stableSorter ops = .ok b) : Inv b b.ctxRefs :=
  (runOps_inv (env := e) (srt := stableSorter) ops).ok_of h

/-- the hypotheses of C83-C85 are met by a rulebase with types, alternatives and repetition -/
example : ∃ b, runOps Ex.env stableSorter Ex.history = .ok b ∧ (∀ r ∈ b.ctxRefs, LitsOK b r) ∧ b.ctxRefs.length = 2 := by
  obtain ⟨b, h1, h2⟩ := Ex.built (e := Ex.env) (ops := Ex.history) (f := fun b => b.ctxRefs.all (litsB b) && b.ctxRefs.length == 2) (by decide +kernel)
  rw [Bool.and_eq_true] at h2
  exact ⟨b, h1, fun r hr => litsB_ok (invOf h1) (List.all_eq_true.1 h2.1 r hr), eq_of_beq h2.2⟩

/-- a rulebase all of whose graphs are trees -/
example : ∃ b, runOps Ex.env stableSorter (Ex.history.take 2) = .ok b ∧ ∀ r ∈ b.ctxRefs, LitsOK b r ∧ TreeAt b.fieldsAt r := by
  obtain ⟨b, h1, h2⟩ := Ex.built (e := Ex.env) (ops := Ex.history.take 2) (f := fun b => b.ctxRefs.all fun r => litsB b r && treeB b r) (by decide +kernel)
  refine ⟨b, h1, fun r hr => ?_⟩
  have h3 := List.all_eq_true.1 h2 r hr
  rw [Bool.and_eq_true] at h3
  exact ⟨litsB_ok (invOf h1) h3.1, treeB_ok (invOf h1) h3.2⟩

/-- its report: the names of the nodes are the rules as far as they have been read -/
example : Ex.reportOn Ex.env (Ex.history.take 2) true = some (bs! "User-Defined Types\n==================\nnumber types: 1\ntype: @num\n\ntype PDAG: @num\n----------\nnodes.............:    2\nterminal nodes....:    1\nparsers entries...:    1\nlongest path......:    2\nParser Type Counts:\n\t              number: 1\nParsers per Node:\n\tmax:\t   1\n\t0:\t   1\n\t1:\t   1\nUsage Statistics:\n-----------------\ncalled, backtracked, rule\n1, 0, \n1, 0, %n:number%\n\nMain PDAG\n=========\nnodes.............:    4\nterminal nodes....:    1\nparsers entries...:    3\nlongest path......:    4\nParser Type Counts:\n\t             literal: 2\nParsers per Node:\n\tmax:\t   1\n\t0:\t   1\n\t1:\t   3\nUsage Statistics:\n-----------------\ncalled, backtracked, rule\n1, 0, \n1, 0, a\n1, 0, ab\n1, 0, ab%x:USER-DEFINED%\n") := by decide +kernel

/-! ### rulebases without `alternative` -/

/-- **C83** In a rulebase without `alternative`, no node can be reached in two ways; so the statistics are right in all, including the length of
the longest path. -/
theorem C83_no_alternative (env : Env) (srt : Sorter) (ops : List BOp) (ho : ∀ op ∈ ops, op.NoAlt env) (b : Bld) (h : runOps env srt ops = .ok b)
    (v0 : Flags) (used : NodeId → Stats) (ids : Ids) :
    ∃ (v v' : Flags) (rep : NodeId → PdagStats × Nat), clearVisited b v0 = .ok v ∧
      fullStats b false used ids v = .ok (v', reportText b fun r => ((rep r).1, (rep r).2, none)) ∧
      ∀ r ∈ b.ctxRefs, (∃ L, NodesOf b.fieldsAt r L ∧ StatsOf b L (rep r).1) ∧
        Way b.fieldsAt r (rep r).2 ∧ ∀ k, Way b.fieldsAt r k → k ≤ (rep r).2 := by
  obtain ⟨v, v', rep, h1, h2, h3⟩ := C83_statistics_partial env srt ops b h v0 used ids
  exact ⟨v, v', rep, h1, h2, fun r hr => ⟨(h3 r hr).counts, (h3 r hr).path, (h3 r hr).longest (runOps_tree ho h r)⟩⟩

theorem LeadsTo.spells {fs : NodeId → List Parser} {n m : NodeId} (h : LeadsTo fs n m) : ∃ t, Spells fs n t m := by
  induction h with
  | refl n => exact ⟨[], .nil n⟩
  | step hp _ ih =>
    obtain ⟨t, hs⟩ := ih
    exact ⟨_, .cons hp hs⟩

/-- **C85** In a rulebase without `alternative` which has been loaded for the first time, the usage report lists exactly the nodes used, each once, with
the text of the fields leading to it as its name; and there is only one such text. -/
theorem C85_no_alternative (env : Env) (srt : Sorter) (ops : List BOp) (ho : ∀ op ∈ ops, op.NoAlt env) (b : Bld) (h : runOps env srt ops = .ok b)
    (hl : ∀ r ∈ b.ctxRefs, LitsOK b r) (v0 : Flags) (used : NodeId → Stats) :
    ∃ (ids : Ids) (v v' : Flags) (rep : NodeId → PdagStats × Nat × Bytes), setIds b (fun _ => none) = .ok ids ∧ clearVisited b v0 = .ok v ∧
      fullStats b true used ids v = .ok (v', reportText b fun r => ((rep r).1, (rep r).2.1, some (rep r).2.2)) ∧
      ∀ r ∈ b.ctxRefs, (∃ L : List NodeId, (rep r).2.2 = L.flatMap (usageLine used ids) ∧ L.Nodup ∧
          ∀ m, m ∈ L ↔ LeadsTo (b.usedFields used) r m ∧ (used m).called > 0) ∧
        ∀ m, LeadsTo b.fieldsAt r m → ∃ t, Spells b.fieldsAt r t m ∧ ids m = some t ∧ ∀ t', Spells b.fieldsAt r t' m → t' = t := by
  obtain ⟨ids, v, v', rep, h1, h2, h3, h4⟩ := C85_usage_partial env srt ops b h hl v0 used (fun _ => none)
  refine ⟨ids, v, v', rep, h1, h2, h3, fun r hr => ?_⟩
  obtain ⟨_, ⟨L, hL1, hL2, hL3⟩, h6, h7⟩ := h4 r hr
  have ht := runOps_tree ho h r
  have h7 := h7 (fun _ _ => rfl) ht
  refine ⟨⟨L, hL1, hL3 ht, hL2⟩, fun m hm => ?_⟩
  obtain ⟨t, hs⟩ := hm.spells
  exact ⟨t, hs, h7 t m hs, fun t' hs' => Option.some.inj ((h7 t' m hs').symm.trans (h7 t m hs))⟩

/-- a rulebase with a type and a repetition, but no `alternative` -/
example : (∀ op ∈ Ex.history.eraseIdx 2, op.NoAlt Ex.env) ∧ ∃ b, runOps Ex.env stableSorter (Ex.history.eraseIdx 2) = .ok b ∧
    (∀ r ∈ b.ctxRefs, LitsOK b r) ∧ b.ctxRefs.length = 2 ∧ Way b.fieldsAt b.root 3 := by
  refine ⟨fun op hm => op.noAltB_ok (List.all_eq_true.1 (by decide +kernel : (Ex.history.eraseIdx 2).all (BOp.noAltB Ex.env) = true) op hm), ?_⟩
  obtain ⟨b, h1, h2⟩ := Ex.built (e := Ex.env) (ops := Ex.history.eraseIdx 2)
    (f := fun b => b.ctxRefs.all (litsB b) && (b.ctxRefs.length == 2 && Ex.wayB b.fieldsAt 3 b.root)) (by decide +kernel)
  rw [Bool.and_eq_true, Bool.and_eq_true] at h2
  exact ⟨b, h1, fun r hr => litsB_ok (invOf h1) (List.all_eq_true.1 h2.1 r hr), eq_of_beq h2.2.1, Ex.wayB_ok _ _ h2.2.2⟩

/-- **C85** When a node which has a name is reached again, the two names are merged: behind what they have in common (without a trailing `%`) come
the two rests in brackets. -/
theorem C85_merged_name (env : Env) (srt : Sorter) (ops : List BOp) (b : Bld) (h : runOps env srt ops = .ok b) (r : NodeId) (hr : (b.heap r).isSome)
    (hl : LitsOK b r) (ids : Ids) (p a c : Bytes) (hd : ∀ x ∈ a.head?, x ∉ c.head?) (hn : ids r = some (p ++ a)) :
    ∃ ids', setIdF (b.next + 1) b ids r (p ++ c) = .ok ids' ∧
      ((ch! '%') ∉ p.getLast? → ids' r = some (p ++ bs! "[" ++ a ++ bs! "|" ++ c ++ bs! "]")) ∧
      ∀ q, p = q ++ bs! "%" → ids' r = some (q ++ bs! "[%" ++ a ++ bs! "|%" ++ c ++ bs! "]") := by
  have hi := (runOps_inv (env := env) (srt := srt) ops).ok_of h
  obtain ⟨v', h1, _, _, _, h5⟩ := setIdF_spec hi (b.next + 1) r ids (p ++ c) hr (fuel_top _ _) hl
  have hs : ∀ p : Bytes, sameLen (p ++ a) (p ++ c) = p.length := by
    intro p
    induction p with
    | nil =>
      cases a with
      | nil => rfl
      | cons x a =>
        cases c with
        | nil => rfl
        | cons y c =>
          have : x ≠ y := fun e => hd x rfl (by rw [e]; rfl)
          show (if x = y then _ else 0) = 0
          rw [if_neg this]
    | cons x p ih =>
      show (if x = x then sameLen (p ++ a) (p ++ c) + 1 else 0) = p.length + 1
      rw [if_pos rfl, ih]
  refine ⟨v', h1, fun hp => ?_, fun q hq => ?_⟩
  · rw [h5, hn]
    show some (fixedId (p ++ a) (p ++ c)) = _
    unfold fixedId
    dsimp only
    rw [hs p, if_neg, List.take_left', List.drop_left', List.drop_left'] <;> try rfl
    rintro ⟨h2, h3⟩
    apply hp
    rw [List.getElem?_append_left (by omega)] at h3
    rw [List.getLast?_eq_getElem?]; exact h3
  · subst hq
    rw [h5, hn]
    show some (fixedId (q ++ bs! "%" ++ a) (q ++ bs! "%" ++ c)) = _
    unfold fixedId
    dsimp only
    have hx : (q ++ bs! "%").length = q.length + 1 := by rw [List.length_append]; rfl
    rw [hs, hx, if_pos, Nat.add_sub_cancel]
    · rw [List.append_assoc q, List.append_assoc q, List.take_left' rfl, List.drop_left' rfl, List.drop_left' rfl]
      simp only [List.append_assoc]
      rfl
    · refine ⟨Nat.le_add_left .., ?_⟩
      rw [Nat.add_sub_cancel, List.append_assoc, List.getElem?_append_right (Nat.le_refl _), Nat.sub_self]
      rfl

/-- a case of it: the root of an example, named `%a:word%x` before and now `%a:word%y` -/
example : ∃ b ids', runOps Ex.env stableSorter (Ex.history.take 2) = .ok b ∧
    setIdF (b.next + 1) b (fun _ => some (bs! "%a:word%x")) b.root (bs! "%a:word%y") = .ok ids' ∧ ids' b.root = some (bs! "%a:word[%x|%y]") := by
  obtain ⟨b, h1, h2⟩ := Ex.built (e := Ex.env) (ops := Ex.history.take 2) (f := fun b => b.ctxRefs.all (litsB b)) (by decide +kernel)
  have hr : b.root ∈ b.ctxRefs := List.mem_cons_self ..
  obtain ⟨ids', h3, _, h4⟩ := C85_merged_name Ex.env stableSorter _ b h1 b.root ((invOf h1).ext _ hr) (litsB_ok (invOf h1) (List.all_eq_true.1 h2 _ hr))
    (fun _ => some (bs! "%a:word%x")) (bs! "%a:word%") (bs! "x") (bs! "y") (by decide) rfl
  exact ⟨b, ids', h1, h3, h4 (bs! "%a:word") rfl⟩

end LN
