import Verif.Proofs.RepTreeOpt
import Verif.Props.Rules
import Mathlib.Data.List.Perm.Subperm
/- Rules with repeat fields in one graph: the main level is a tree, its edges are the fields of the rules. -/
set_option autoImplicit false
namespace LN

section
variable {env : Env}

/-- a description denotes at most one field -/
theorem FieldOf.det {c : Json} {f g : Fld} (h : FieldOf env c f) (h' : FieldOf env c g) : f = g := by
  obtain ⟨d, hdep⟩ : ∃ d, c.depth = d + 1 := ⟨c.depth - 1, by have := depth_pos c; omega⟩
  obtain ⟨b1, p, h1, h2⟩ := h.builds d initBld (by omega)
  obtain ⟨b2, q, h3, h4⟩ := h'.builds d initBld (by omega)
  rw [h1] at h3
  cases h3
  have ha : Agree initBld b1 (fun m => (b1.heap m).getD {}) := fun _ _ _ => rfl
  exact (h2.fld _ ha).det (h4.fld _ ha)

/-- `c` looks like `b` on the nodes which are not of the main level -/
def AgreeOff (T : NodeId → Prop) (b : Bld) (c : NodeId → Node) : Prop := ∀ m, m < b.next → ¬ T m → c m = (b.heap m).getD {}

/-- the main level of the graph (nodes `T`, labelled with the descriptions which lead to them) is a tree of fields of the rules `us` -/
structure RTree (env : Env) (b : Bld) (E : List NodeId) (T : NodeId → Prop) (lab : NodeId → List Json) (us : List (List Json)) : Prop where
  inv : Inv b E
  nn : b.NoNull
  types : b.types = []
  rootE : b.root ∈ E
  root : T b.root
  lroot : lab b.root = []
  live : ∀ n, T n → ∃ nd, b.heap n = some nd
  edge : ∀ n nd, T n → b.heap n = some nd → ∀ q ∈ nd.parsers, T q.node ∧ lab q.node = lab n ++ [q.conf] ∧
    ∃ f, FieldOf env q.conf f ∧ ∀ c, AgreeOff T b c → FldAt c q f
  nodup : ∀ n nd, T n → b.heap n = some nd → (nd.parsers.map (·.conf)).Nodup
  used : ∀ n nd, T n → b.heap n = some nd → ∀ q ∈ nd.parsers, ∃ u ∈ us, lab n ++ [q.conf] <+: u

/-- what adding fields keeps -/
structure RStep (b b' : Bld) (T T' : NodeId → Prop) (lab lab' : NodeId → List Json) : Prop where
  root : b'.root = b.root
  keep : ∀ m nd, T m → b.heap m = some nd → ∃ nd', b'.heap m = some nd' ∧ nd.parsers <+: nd'.parsers ∧ nd'.isTerminal = nd.isTerminal ∧ nd'.mark = nd.mark
  mono : ∀ m, T m → T' m ∧ lab' m = lab m
  fresh : ∀ m, T' m → T m ∨ ∀ nd', b'.heap m = some nd' → nd'.isTerminal = false

theorem RStep.refl (b : Bld) (T : NodeId → Prop) (lab : NodeId → List Json) : RStep b b T T lab lab :=
  ⟨rfl, fun _ nd _ h => ⟨nd, h, List.prefix_refl _, rfl, rfl⟩, fun _ h => ⟨h, rfl⟩, fun _ h => .inl h⟩

theorem RStep.trans {b b' b'' : Bld} {T T' T'' : NodeId → Prop} {lab lab' lab'' : NodeId → List Json} {E : List NodeId} {us : List (List Json)}
    (ht : RTree env b' E T' lab' us) (h : RStep b b' T T' lab lab') (h' : RStep b' b'' T' T'' lab' lab'') :
    RStep b b'' T T'' lab lab'' := by
  refine ⟨h'.root.trans h.root, ?_, ?_, ?_⟩
  · intro m nd hT hm
    obtain ⟨nd1, k1, k2, k3, k4⟩ := h.keep m nd hT hm
    obtain ⟨nd2, j1, j2, j3, j4⟩ := h'.keep m nd1 (h.mono m hT).1 k1
    exact ⟨nd2, j1, k2.trans j2, j3.trans k3, j4.trans k4⟩
  · intro m hT
    obtain ⟨k1, k2⟩ := h.mono m hT
    obtain ⟨j1, j2⟩ := h'.mono m k1
    exact ⟨j1, j2.trans k2⟩
  · intro m hT
    rcases h'.fresh m hT with k | k
    · rcases h.fresh m k with j | j
      · exact .inl j
      · refine .inr fun nd hnd => ?_
        obtain ⟨nd1, e1⟩ := ht.live m k
        obtain ⟨nd2, i1, _, i3, _⟩ := h'.keep m nd1 k e1
        rw [hnd] at i1; cases i1
        rw [i3]; exact j _ e1
    · exact .inr k

theorem FWalk.rstep {b b' : Bld} {T T' : NodeId → Prop} {lab lab' : NodeId → List Json} {E : List NodeId} {us : List (List Json)} (ht : RTree env b E T lab us)
    (hs : RStep b b' T T' lab lab') {n m : NodeId} {cs : List Json} (h : FWalk b n cs m) : T n → FWalk b' n cs m ∧ T m ∧ lab m = lab n ++ cs := by
  induction h with
  | nil n => intro hT; exact ⟨.nil n, hT, by simp⟩
  | cons hn hq _ ih =>
    intro hT
    obtain ⟨nd', h1, h2, _⟩ := hs.keep _ _ hT hn
    obtain ⟨k1, k2, _⟩ := ht.edge _ _ hT hn _ (List.mem_of_find?_eq_some hq)
    obtain ⟨i1, i2, i3⟩ := ih k1
    have hc := List.find?_some hq
    simp only [decide_eq_true_eq] at hc
    refine ⟨.cons h1 (find?_prefix h2 hq) i1, i2, ?_⟩
    rw [i3, k2, hc, List.append_assoc]; rfl

theorem nodup_of_find {l : List Parser} {c : Json} (h : (l.map (·.conf)).Nodup) (hf : l.find? (fun q => q.conf = c) = none) : (l.map (·.conf) ++ [c]).Nodup := by
  rw [List.nodup_append]
  refine ⟨h, by simp, ?_⟩
  intro a ha x hx
  rw [List.mem_singleton] at hx
  subst hx
  obtain ⟨q, hq, rfl⟩ := List.mem_map.1 ha
  have := List.find?_eq_none.1 hf q hq
  simpa using this

/-- one field: an existing one is followed, else there is a new one -/
theorem RTree.addParser {b : Bld} {E : List NodeId} {T : NodeId → Prop} {lab : NodeId → List Json} {us : List (List Json)} (ht : RTree env b E T lab us) (hlen : Narrow us)
    {dag : NodeId} (hd : T dag) {c : Json} {f : Fld} (hf : FieldOf env c f) (hu : ∃ u ∈ us, lab dag ++ [c] <+: u) :
    ∃ b' e, LN.addParser env b dag c = .ok (b', some e) ∧ ∃ (T' : NodeId → Prop) (lab' : NodeId → List Json),
      RTree env b' E T' lab' us ∧ RStep b b' T T' lab lab' ∧ T' e ∧ lab' e = lab dag ++ [c] ∧ FWalk b' dag [c] e := by
  obtain ⟨d, hdep⟩ : ∃ d, c.depth = d + 1 := ⟨c.depth - 1, by have := depth_pos c; omega⟩
  obtain ⟨o, ty, h0, hty, hne⟩ := hf.obj
  obtain ⟨b1, p, h1, h2⟩ := hf.builds d b (by omega)
  obtain ⟨nd, hnd⟩ := ht.live dag hd
  have hlive : ∀ m, T m → m < b.next := by
    intro m hm
    obtain ⟨x, hx⟩ := ht.live m hm
    exact (ht.inv.range m x hx).2
  have hdl := hlive dag hd
  obtain ⟨g1, _, hsome⟩ := (newParser_ok (addF_ok env d) (by omega) ht.inv).ok_of h1
  obtain ⟨hi1, hpc, hrefs⟩ := hsome p rfl
  have hnd1 : b1.heap dag = some nd := by rw [h2.ext.old _ hdl, hnd]
  have hl : b1.load dag = .ok nd := by simp [Bld.load, hnd1]
  have hadd : ∀ r, addInstance env (addF env d) b c dag 0 = .ok r → LN.addParser env b dag c = .ok r := by
    intro r hr
    unfold LN.addParser
    rw [hdep]
    unfold addF addStep
    subst h0
    dsimp only
    rw [hty]
    dsimp only
    rw [if_neg hne, hr]
    obtain ⟨r1, r2⟩ := r
    cases r2 <;> rfl
  cases hfind : nd.parsers.find? (fun q => q.conf = p.conf) with
  | some q =>
    obtain ⟨b2, e1, hi2, fr⟩ := pdagDelete_list p.kind.refs b1 E b.next hi1 hrefs
    have hb2 : ∀ m, m < b.next → b2.heap m = b.heap m := fun m hm => by rw [fr.older m hm, h2.ext.old m hm]
    have hq := List.mem_of_find?_eq_some hfind
    obtain ⟨k1, k2, _⟩ := ht.edge dag nd hd hnd q hq
    have hqc : q.conf = c := by
      have := List.find?_some hfind
      simp only [decide_eq_true_eq] at this
      rw [this, hpc]
    have hst : RStep b b2 T T lab lab := by
      refine ⟨fr.root.trans h2.ext.root, ?_, fun m h => ⟨h, rfl⟩, fun m h => .inl h⟩
      intro m x hT hm
      exact ⟨x, by rw [hb2 m (hlive m hT), hm], List.prefix_refl _, rfl, rfl⟩
    refine ⟨b2, q.node, hadd _ ?_, T, lab, ?_, hst, k1, by rw [k2, hqc], ?_⟩
    · unfold addInstance
      rw [h1]
      simp only [R.ok_bind', hl, hfind]
      unfold deleteData
      rw [e1]; rfl
    · refine ⟨hi2, ?_, fr.types.trans (h2.ext.types.trans ht.types), ?_, ?_, ?_, ?_, ?_, ?_, ?_⟩
      · intro m x hx r hr
        obtain ⟨x', j1, j2⟩ := fr.same m x hx
        rw [j2] at hr
        exact h2.ext.nn ht.nn m x' j1 r hr
      · rw [fr.root, h2.ext.root]; exact ht.rootE
      · rw [fr.root, h2.ext.root]; exact ht.root
      · rw [fr.root, h2.ext.root]; exact ht.lroot
      · intro n hn
        obtain ⟨x, hx⟩ := ht.live n hn
        exact ⟨x, by rw [hb2 n (hlive n hn), hx]⟩
      · intro n x hn hx r hr
        rw [hb2 n (hlive n hn)] at hx
        obtain ⟨j1, j2, f', j3, j4⟩ := ht.edge n x hn hx r hr
        refine ⟨j1, j2, f', j3, fun cc hc => j4 cc ?_⟩
        intro m hm hTm
        have hm2 : m < b2.next := by rw [fr.next]; exact Nat.lt_of_lt_of_le hm h2.ext.le
        rw [hc m hm2 hTm, hb2 m hm]
      · intro n x hn hx
        rw [hb2 n (hlive n hn)] at hx
        exact ht.nodup n x hn hx
      · intro n x hn hx
        rw [hb2 n (hlive n hn)] at hx
        exact ht.used n x hn hx
    · have : nd.parsers.find? (fun q => q.conf = c) = some q := by rw [← hpc]; exact hfind
      exact .cons (by rw [hb2 dag hdl, hnd]) this (.nil _)
  | none =>
    have hne1 : dag ≠ b1.next := Nat.ne_of_lt (Nat.lt_of_lt_of_le hdl h2.ext.le)
    have hl1 : b1.newPDAG.1.load dag = .ok nd := by simp [Bld.load, Bld.newPDAG, hnd1, hne1]
    have hinst : addInstance env (addF env d) b c dag 0 = .ok (b1.append dag nd p, some b1.next) := by
      unfold addInstance
      rw [h1]
      simp only [R.ok_bind', hl, hfind]
      rw [if_pos trivial]
      simp only [R.ok_bind', hl1]
      rfl
    have hi2 : Inv (b1.append dag nd p) E :=
      ((addInstance_ok (addF_ok env d) (by omega) ht.inv (.inr (by rw [hnd]; rfl)) (.inl rfl)).ok_of hinst).1
    have hfc : nd.parsers.find? (fun q => q.conf = c) = none := by rw [← hpc]; exact hfind
    have hnd' : (nd.parsers.map (·.conf) ++ [c]).Nodup := nodup_of_find (ht.nodup dag nd hd hnd) hfc
    have hused : ∀ x ∈ nd.parsers.map (·.conf) ++ [c], ∃ u ∈ us, lab dag ++ [x] <+: u := by
      intro x hx
      rcases List.mem_append.1 hx with hx | hx
      · obtain ⟨q, hq, rfl⟩ := List.mem_map.1 hx
        exact ht.used dag nd hd hnd q hq
      · rw [List.mem_singleton.1 hx]; exact hu
    have hwidth : nd.parsers.length + 1 ≤ 255 := by
      have := hlen _ _ hnd' hused
      simp only [List.length_append, List.length_map, List.length_singleton] at this
      omega
    obtain ⟨p', hp'⟩ : ∃ p', p' = { p with node := b1.next } := ⟨_, rfl⟩
    obtain ⟨nd2, hnd2⟩ : ∃ nd2, nd2 = { nd with parsers := nd.parsers ++ [p'] } := ⟨_, rfl⟩
    obtain ⟨b2, hb2⟩ : ∃ b2, b2 = b1.append dag nd p := ⟨_, rfl⟩
    have hheap : ∀ m, b2.heap m = if m = dag then some nd2 else if m = b1.next then some {} else b1.heap m := by
      intro m
      rw [hb2]
      simp only [Bld.append, Bld.store, Bld.newPDAG]
      split
      · rw [hnd2, hp']
        unfold addEntry
        have : ¬ (nd.parsers ++ [{ p with node := b1.next }]).length = 256 := by rw [List.length_append, List.length_singleton]; omega
        dsimp only
        rw [if_neg this]
      · rfl
    have hdag : b2.heap dag = some nd2 := by rw [hheap, if_pos rfl]
    have hnew : b2.heap b1.next = some {} := by rw [hheap, if_neg hne1.symm, if_pos rfl]
    have hold : ∀ m, m < b.next → m ≠ dag → b2.heap m = b.heap m := by
      intro m hm hmd
      rw [hheap, if_neg hmd, if_neg (Nat.ne_of_lt (Nat.lt_of_lt_of_le hm h2.ext.le)), h2.ext.old m hm]
    have hp'c : p'.conf = c := by rw [hp']; exact hpc
    have hp'n : p'.node = b1.next := by rw [hp']
    rw [← hb2] at hinst hi2
    have hnext : b2.next = b1.next + 1 := by rw [hb2]; rfl
    have htypes : b2.types = b.types := by rw [hb2]; exact h2.ext.types
    have hroot : b2.root = b.root := by rw [hb2]; exact h2.ext.root
    have hnn : b2.NoNull := by
      intro m x hx q hq
      rw [hheap] at hx
      split at hx
      · cases hx
        rw [hnd2] at hq
        rcases List.mem_append.1 hq with hq | hq
        · exact ht.nn dag nd hnd q hq
        · rw [List.mem_singleton.1 hq, hp']; exact h2.lit
      · split at hx
        · cases hx; cases hq
        · exact h2.ext.nn ht.nn m x hx q hq
    obtain ⟨T', hT'⟩ : ∃ T' : NodeId → Prop, T' = fun m => T m ∨ m = b1.next := ⟨_, rfl⟩
    obtain ⟨lab', hlab'⟩ : ∃ lab' : NodeId → List Json, lab' = fun m => if m = b1.next then lab dag ++ [c] else lab m := ⟨_, rfl⟩
    have hnl : ∀ m, T m → m ≠ b1.next := fun m hm => Nat.ne_of_lt (Nat.lt_of_lt_of_le (hlive m hm) h2.ext.le)
    have hlabold : ∀ m, T m → lab' m = lab m := by intro m hm; rw [hlab']; exact if_neg (hnl m hm)
    have hlabnew : lab' b1.next = lab dag ++ [c] := by rw [hlab']; exact if_pos rfl
    have hTold : ∀ m, T m → T' m := by intro m hm; rw [hT']; exact .inl hm
    have hTnew : T' b1.next := by rw [hT']; exact .inr rfl
    have hTcase : ∀ m, T' m → T m ∨ m = b1.next := by intro m hm; rw [hT'] at hm; exact hm
    have hagree : ∀ cc, AgreeOff T' b2 cc → AgreeOff T b cc ∧ Agree b b1 cc := by
      intro cc hc
      constructor
      · intro m hm hTm
        have hmd : m ≠ dag := fun e => hTm (by rw [e]; exact hd)
        have hmn : m ≠ b1.next := Nat.ne_of_lt (Nat.lt_of_lt_of_le hm h2.ext.le)
        rw [hc m (by rw [hnext]; exact Nat.lt_succ_of_lt (Nat.lt_of_lt_of_le hm h2.ext.le)) (fun h => (hTcase m h).elim hTm hmn), hold m hm hmd]
      · intro m hm hm1
        have hTm : ¬ T m := fun h => absurd (hlive m h) (Nat.not_lt.2 hm)
        have hmn : m ≠ b1.next := Nat.ne_of_lt hm1
        have hmd : m ≠ dag := fun e => hTm (by rw [e]; exact hd)
        rw [hc m (by rw [hnext]; exact Nat.lt_succ_of_lt hm1) (fun h => (hTcase m h).elim hTm hmn), hheap, if_neg hmd, if_neg hmn]
    have hst : RStep b b2 T T' lab lab' := by
      refine ⟨hroot, ?_, fun m h => ⟨hTold m h, hlabold m h⟩, ?_⟩
      · intro m x hT hm
        by_cases hmd : m = dag
        · subst hmd
          rw [hnd] at hm; cases hm
          exact ⟨nd2, hdag, by rw [hnd2]; exact List.prefix_append .., by rw [hnd2], by rw [hnd2]; rfl⟩
        · exact ⟨x, by rw [hold m (hlive m hT) hmd, hm], List.prefix_refl _, rfl, rfl⟩
      · intro m hm
        rcases hTcase m hm with h | rfl
        · exact .inl h
        · refine .inr fun x hx => ?_
          rw [hnew] at hx; cases hx; rfl
    refine ⟨b2, b1.next, hadd _ hinst, T', lab', ?_, hst, hTnew, hlabnew, ?_⟩
    · refine ⟨hi2, hnn, htypes.trans ht.types, by rw [hroot]; exact ht.rootE, by rw [hroot]; exact hTold _ ht.root,
        by rw [hroot, hlabold _ ht.root]; exact ht.lroot, ?_, ?_, ?_, ?_⟩
      · intro n hn
        rcases hTcase n hn with h | rfl
        · obtain ⟨x, hx⟩ := ht.live n h
          obtain ⟨x', hx', _⟩ := hst.keep n x h hx
          exact ⟨x', hx'⟩
        · exact ⟨_, hnew⟩
      · intro n x hn hx q hq
        rcases hTcase n hn with h | rfl
        · have holdEdge : ∀ nd0, b.heap n = some nd0 → q ∈ nd0.parsers → T' q.node ∧ lab' q.node = lab' n ++ [q.conf] ∧
              ∃ f, FieldOf env q.conf f ∧ ∀ c, AgreeOff T' b2 c → FldAt c q f := by
            intro nd0 hn0 hq0
            obtain ⟨j1, j2, f', j3, j4⟩ := ht.edge n nd0 h hn0 q hq0
            exact ⟨hTold _ j1, by rw [hlabold _ j1, hlabold _ h, j2], f', j3, fun cc hc => j4 cc (hagree cc hc).1⟩
          by_cases hmd : n = dag
          · subst hmd
            rw [hdag] at hx; cases hx
            rw [hnd2] at hq
            rcases List.mem_append.1 hq with hq | hq
            · exact holdEdge nd hnd hq
            · rw [List.mem_singleton.1 hq]
              refine ⟨by rw [hp'n]; exact hTnew, by rw [hp'n, hlabnew, hlabold _ h, hp'c], f, by rw [hp'c]; exact hf, fun cc hc => ?_⟩
              rw [hp']
              exact (h2.fld cc (hagree cc hc).2).setNode _
          · exact holdEdge x (by rw [← hx, hold n (hlive n h) hmd]) hq
        · rw [hnew] at hx; cases hx; cases hq
      · intro n x hn hx
        rcases hTcase n hn with h | rfl
        · by_cases hmd : n = dag
          · subst hmd
            rw [hdag] at hx; cases hx
            rw [hnd2]
            show ((nd.parsers ++ [p']).map _).Nodup
            rw [List.map_append, List.map_singleton, hp'c]
            exact hnd'
          · rw [hold n (hlive n h) hmd] at hx
            exact ht.nodup n x h hx
        · rw [hnew] at hx; cases hx; exact List.nodup_nil
      · intro n x hn hx q hq
        rcases hTcase n hn with h | rfl
        · rw [hlabold n h]
          by_cases hmd : n = dag
          · subst hmd
            rw [hdag] at hx; cases hx
            rw [hnd2] at hq
            refine hused q.conf ?_
            rcases List.mem_append.1 hq with hq | hq
            · exact List.mem_append_left _ (List.mem_map.2 ⟨q, hq, rfl⟩)
            · rw [List.mem_singleton.1 hq, hp'c]
              exact List.mem_append_right _ (List.mem_singleton.2 rfl)
          · rw [hold n (hlive n h) hmd] at hx
            exact ht.used n x h hx q hq
        · rw [hnew] at hx; cases hx; cases hq
    · have hfn : nd2.parsers.find? (fun q => q.conf = c) = some p' := by
        rw [hnd2]
        show (nd.parsers ++ [p']).find? _ = _
        rw [List.find?_append, hfc]
        simp [hp'c]
      have := FWalk.cons (b := b2) (cs := []) hdag hfn (.nil _)
      rw [hp'n] at this
      exact this

/-- the fields of a rule -/
theorem RTree.addSeq {E : List NodeId} {us : List (List Json)} (hlen : Narrow us) : ∀ {cs : List Json} {fs : List Fld}, FieldsOf env cs fs →
    ∀ {b : Bld} {T : NodeId → Prop} {lab : NodeId → List Json}, RTree env b E T lab us → ∀ {dag : NodeId}, T dag → (∃ u ∈ us, lab dag ++ cs <+: u) →
    ∃ b' e, LN.addSeq env cs b dag = .ok (b', some e) ∧ ∃ (T' : NodeId → Prop) (lab' : NodeId → List Json),
      RTree env b' E T' lab' us ∧ RStep b b' T T' lab lab' ∧ T' e ∧ lab' e = lab dag ++ cs ∧ FWalk b' dag cs e := by
  intro cs
  induction cs with
  | nil =>
    intro fs _ b T lab ht dag hd _
    exact ⟨b, dag, rfl, T, lab, ht, RStep.refl .., hd, by simp, .nil _⟩
  | cons c cs ih =>
    intro fs h b T lab ht dag hd hu
    cases h with
    | @cons _ f _ fs hf tl =>
    obtain ⟨u, hu1, hu2⟩ := hu
    obtain ⟨b1, e1, h1, T1, lab1, ht1, st1, k1, k2, k3⟩ := ht.addParser hlen hd hf ⟨u, hu1, by
      refine List.IsPrefix.trans ⟨cs, ?_⟩ hu2
      simp⟩
    obtain ⟨b2, e2, h2, T2, lab2, ht2, st2, j1, j2, j3⟩ := ih tl ht1 k1 ⟨u, hu1, by rw [k2]; simpa using hu2⟩
    refine ⟨b2, e2, ?_, T2, lab2, ht2, st1.trans ht1 st2, j1, by rw [j2, k2]; simp, ?_⟩
    · unfold LN.addSeq
      rw [h1]
      exact h2
    · have := (k3.rstep ht1 st2 (st1.mono _ hd).1).1
      cases this with
      | cons a1 a2 a3 =>
        cases a3
        exact .cons a1 a2 j3

/-- the ends of the rules added so far -/
structure RDone (b : Bld) (T : NodeId → Prop) (lab : NodeId → List Json) (done : List Rule) : Prop where
  term : ∀ n nd, T n → b.heap n = some nd → nd.isTerminal = true → ∃ r ∈ done, r.confs = lab n ∧ nd.mark = (r.tags, some r.file, r.line)
  walk : ∀ r ∈ done, ∃ e nd, FWalk b b.root r.confs e ∧ T e ∧ b.heap e = some nd ∧ nd.isTerminal = true

theorem RTree.addSamp {b : Bld} {E : List NodeId} {T : NodeId → Prop} {lab : NodeId → List Json} {us : List (List Json)} {done : List Rule} (ht : RTree env b E T lab us)
    (hlen : Narrow us) (hdone : RDone b T lab done) {r : Rule} (hr : r.confs ∈ us) (hc : r.complete = true) (hnew : ∀ r' ∈ done, r'.confs ≠ r.confs) {fs : List Fld}
    (hf : FieldsOf env r.confs fs) :
    ∃ b', LN.addSamp env b b.root r.confs r.complete r.tags r.file r.line = .ok b' ∧ ∃ (T' : NodeId → Prop) (lab' : NodeId → List Json),
      RTree env b' E T' lab' us ∧ RDone b' T' lab' (done ++ [r]) ∧ b'.root = b.root := by
  obtain ⟨b1, e, h1, T1, lab1, ht1, st1, k1, k2, k3⟩ := ht.addSeq hlen hf ht.root ⟨r.confs, hr, by rw [ht.lroot]; exact List.prefix_refl _⟩
  rw [ht.lroot, List.nil_append] at k2
  obtain ⟨nd, hnd⟩ := ht1.live e k1
  have hl : b1.load e = .ok nd := by simp [Bld.load, hnd]
  obtain ⟨nd', hnd'⟩ : ∃ nd', nd' = { nd with isTerminal := true, tags := r.tags, rbFile := some r.file, rbLine := r.line } := ⟨_, rfl⟩
  have hadd : LN.addSamp env b b.root r.confs r.complete r.tags r.file r.line = .ok (b1.store e nd') := by
    unfold LN.addSamp
    rw [h1]
    simp only [R.ok_bind', hc, if_true, hl, hnd']
  have hi := ((addSamp_ok ht.inv (.inr (by obtain ⟨x, hx⟩ := ht.live _ ht.root; rw [hx]; rfl))).ok_of hadd).1
  obtain ⟨b2, hb2⟩ : ∃ b2, b2 = b1.store e nd' := ⟨_, rfl⟩
  rw [← hb2] at hadd hi
  have hheap : ∀ m, b2.heap m = if m = e then some nd' else b1.heap m := by intro m; rw [hb2]; rfl
  have hnext : b2.next = b1.next := by rw [hb2]; rfl
  have hroot1 : b2.root = b1.root := by rw [hb2]; rfl
  have hsame : ∀ m x, b2.heap m = some x → ∃ y, b1.heap m = some y ∧ x.parsers = y.parsers := by
    intro m x hx
    rw [hheap] at hx
    split at hx
    · rename_i hm
      cases hx
      exact ⟨nd, by rw [hm, hnd], by rw [hnd']⟩
    · exact ⟨x, hx, rfl⟩
  have hsame' : ∀ m y, b1.heap m = some y → ∃ x, b2.heap m = some x ∧ x.parsers = y.parsers := by
    intro m y hy
    by_cases hm : m = e
    · refine ⟨nd', by rw [hheap, if_pos hm], ?_⟩
      rw [hm, hnd] at hy; cases hy
      rw [hnd']
    · exact ⟨y, by rw [hheap, if_neg hm, hy], rfl⟩
  have hwalk : ∀ {n m : NodeId} {cs : List Json}, FWalk b1 n cs m → FWalk b2 n cs m := by
    intro n m cs h
    induction h with
    | nil n => exact .nil n
    | cons hn hq _ ih =>
      obtain ⟨x, hx, hp⟩ := hsame' _ _ hn
      exact .cons hx (by rw [hp]; exact hq) ih
  refine ⟨b2, hadd, T1, lab1, ?_, ⟨?_, ?_⟩, hroot1.trans st1.root⟩
  · refine ⟨hi, ?_, ?_, by rw [hroot1]; exact ht1.rootE, by rw [hroot1]; exact ht1.root, by rw [hroot1]; exact ht1.lroot, ?_, ?_, ?_, ?_⟩
    · intro m x hx q hq
      obtain ⟨y, hy, hp⟩ := hsame m x hx
      rw [hp] at hq
      exact ht1.nn m y hy q hq
    · rw [hb2]; exact ht1.types
    · intro n hn
      obtain ⟨y, hy⟩ := ht1.live n hn
      obtain ⟨x, hx, _⟩ := hsame' n y hy
      exact ⟨x, hx⟩
    · intro n x hn hx q hq
      obtain ⟨y, hy, hp⟩ := hsame n x hx
      rw [hp] at hq
      obtain ⟨j1, j2, f, j3, j4⟩ := ht1.edge n y hn hy q hq
      refine ⟨j1, j2, f, j3, fun cc hcc => j4 cc ?_⟩
      intro m hm hTm
      rw [hcc m (by rw [hnext]; exact hm) hTm, hheap, if_neg (fun h => hTm (by rw [h]; exact k1))]
    · intro n x hn hx
      obtain ⟨y, hy, hp⟩ := hsame n x hx
      rw [hp]; exact ht1.nodup n y hn hy
    · intro n x hn hx q hq
      obtain ⟨y, hy, hp⟩ := hsame n x hx
      rw [hp] at hq
      exact ht1.used n y hn hy q hq
  · intro n x hn hx hterm
    rw [hheap] at hx
    split at hx
    · rename_i hm
      cases hx
      exact ⟨r, by simp, by rw [hm, k2], by rw [hnd']; rfl⟩
    · rcases st1.fresh n hn with h | h
      · obtain ⟨y, hy⟩ := ht.live n h
        obtain ⟨y', i1, _, i3, i4⟩ := st1.keep n y h hy
        rw [hx] at i1; cases i1
        obtain ⟨r', a1, a2, a3⟩ := hdone.term n y h hy (by rw [← i3]; exact hterm)
        exact ⟨r', List.mem_append_left _ a1, by rw [(st1.mono n h).2]; exact a2, i4.trans a3⟩
      · rw [h x hx] at hterm; cases hterm
  · intro r' hr'
    rw [hroot1, st1.root]
    rcases List.mem_append.1 hr' with h | h
    · obtain ⟨e', y, a1, a2, a3, a4⟩ := hdone.walk r' h
      obtain ⟨w1, w2, w3⟩ := a1.rstep ht st1 ht.root
      obtain ⟨y', i1, _, i3, _⟩ := st1.keep e' y a2 a3
      have hne : e' ≠ e := by
        intro he
        have := (st1.mono e' a2).2
        rw [w3, ht.lroot, List.nil_append, he, k2] at this
        exact hnew r' h this.symm
      exact ⟨e', y', hwalk w1, (st1.mono e' a2).1, by rw [hheap, if_neg hne, i1], by rw [i3, a4]⟩
    · rw [List.mem_singleton.1 h]
      exact ⟨e, nd', hwalk k3, k1, by rw [hheap, if_pos rfl], by rw [hnd']⟩

/-- the empty graph -/
theorem rtree_init (us : List (List Json)) : RTree env initBld [1] (fun n => n = initBld.root) (fun _ => []) us ∧ RDone initBld (fun n => n = initBld.root) (fun _ => []) [] := by
  have hheap : ∀ n nd, initBld.heap n = some nd → nd = {} := by
    intro n nd h
    change (if n = 1 then some ({} : Node) else none) = some nd at h
    split at h
    · cases h; rfl
    · cases h
  refine ⟨⟨initBld_inv, initBld_noNull, rfl, by simp [initBld, Bld.newPDAG], rfl, rfl, ?_, ?_, ?_, ?_⟩, ?_, ?_⟩
  · intro n hn; exact ⟨{}, by rw [hn]; rfl⟩
  · intro n nd _ h q hq; rw [hheap n nd h] at hq; cases hq
  · intro n nd _ h; rw [hheap n nd h]; exact List.nodup_nil
  · intro n nd _ h q hq; rw [hheap n nd h] at hq; cases hq
  · intro n nd _ h ht; rw [hheap n nd h] at ht; cases ht
  · intro r hr; cases hr

/-- all rules -/
theorem rtree_rules {us : List (List Json)} (hlen : Narrow us) {srt : Sorter} : ∀ (rs : List Rule) {b : Bld} {E : List NodeId} {T : NodeId → Prop} {lab : NodeId → List Json}
    {done : List Rule}, RTree env b E T lab us → RDone b T lab done → (∀ r ∈ rs, r.confs ∈ us ∧ r.complete = true ∧ ∃ fs, FieldsOf env r.confs fs) →
    ((done ++ rs).map (·.confs)).Nodup →
    ∃ b', (rs.map Rule.toOp).foldlM (fun b op => op.run env srt b) b = .ok b' ∧ ∃ (T' : NodeId → Prop) (lab' : NodeId → List Json),
      RTree env b' E T' lab' us ∧ RDone b' T' lab' (done ++ rs) ∧ b'.root = b.root
  | [], b, E, T, lab, done, ht, hd, _, _ => ⟨b, rfl, T, lab, ht, by rw [List.append_nil]; exact hd, rfl⟩
  | r :: rs, b, E, T, lab, done, ht, hd, hrs, hnd => by
    obtain ⟨h1, h2, fs, h3⟩ := hrs r (List.mem_cons_self ..)
    obtain ⟨b1, k1, T1, lab1, k2, k3, k4⟩ := ht.addSamp hlen hd h1 h2 (by
      intro r' hr' he
      rw [List.map_append, List.nodup_append] at hnd
      exact hnd.2.2 _ (List.mem_map.2 ⟨r', hr', rfl⟩) r.confs (by simp) he) h3
    obtain ⟨b2, j1, T2, lab2, j2, j3, j4⟩ := rtree_rules hlen rs k2 k3 (fun x hx => hrs x (List.mem_cons_of_mem _ hx)) (by simpa using hnd)
    refine ⟨b2, ?_, T2, lab2, j2, by simpa using j3, j4.trans k4⟩
    rw [List.map_cons, List.foldlM_cons]
    show ((Rule.toOp r).run env srt b).bind _ = _
    have : (Rule.toOp r).run env srt b = .ok b1 := k1
    rw [this]
    exact j1

end
end LN
