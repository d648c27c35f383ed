import Verif.Proofs.RepTreeBuild
import Mathlib.Data.List.Nodup
/- Several rules with repeat fields: what the engine says of a message which tells the rules apart. -/
set_option autoImplicit false
namespace LN

section
variable {env : Env} {s : Bytes}

theorem FieldsOf.det : ∀ {cs : List Json} {fs gs : List Fld}, FieldsOf env cs fs → FieldsOf env cs gs → fs = gs
  | _, _, _, .nil, .nil => rfl
  | _, _, _, .cons h t, .cons h' t' => by rw [h.det h', t.det t']

theorem FieldsOf.split : ∀ {a b : List Json} {fs : List Fld}, FieldsOf env (a ++ b) fs → ∃ f1 f2, fs = f1 ++ f2 ∧ FieldsOf env a f1 ∧ FieldsOf env b f2
  | [], b, fs, h => ⟨[], fs, rfl, .nil, h⟩
  | c :: a, b, _, .cons h t => by
    obtain ⟨f1, f2, h1, h2, h3⟩ := t.split
    exact ⟨_ :: f1, f2, by rw [h1]; rfl, .cons h h2, h3⟩

theorem FieldsOf.join : ∀ {a b : List Json} {fa fb : List Fld}, FieldsOf env a fa → FieldsOf env b fb → FieldsOf env (a ++ b) (fa ++ fb)
  | _, _, _, _, .nil, h => h
  | _, _, _, _, .cons h t, h' => .cons h (t.join h')

theorem FieldsOf.length {cs : List Json} {fs : List Fld} (h : FieldsOf env cs fs) : fs.length = cs.length := by
  induction cs generalizing fs with
  | nil => cases h; rfl
  | cons c cs ih => cases h with | cons h t => simp [ih t]

/-- the message tells the rules apart, in terms of the descriptions -/
structure ApartRules (env : Env) (s : Bytes) (rs : List Rule) : Prop where
  out : ∀ r ∈ rs, ∀ fs, FieldsOf env r.confs fs → ∀ f ∈ fs, Outcome env s f
  branch : ∀ r ∈ rs, ∀ r' ∈ rs, ∀ (π : List Json) (c c' : Json) (t t' : List Json), r.confs = π ++ c :: t → r'.confs = π ++ c' :: t' → c ≠ c' →
    ∀ f f', FieldOf env c f → FieldOf env c' f' → ∀ off, off ≤ s.length → ¬ (f.Begins env s off ∧ f'.Begins env s off)
  stop : ∀ r ∈ rs, ∀ r' ∈ rs, ∀ (c : Json) (t : List Json), r'.confs = r.confs ++ c :: t → ∀ f, FieldOf env c f → ¬ f.Begins env s s.length

variable {b : Bld} {E : List NodeId} {T : NodeId → Prop} {lab : NodeId → List Json}

theorem RTree.topAt {rs : List Rule} (ht : RTree env b E T lab (rs.map (·.confs))) (hd : RDone b T lab rs) (ha : ApartRules env s rs)
    (hF : ∀ r ∈ rs, ∃ fs, FieldsOf env r.confs fs) (opts : Nat) (annots : List Annot) : TopAt env s (b.toCtx opts annots).node T b.next := by
  have hnode : ∀ n nd, b.heap n = some nd → (b.toCtx opts annots).node n = nd := by
    intro n nd h
    show (b.heap n).getD {} = nd
    rw [h]; rfl
  have hagree : AgreeOff T b (b.toCtx opts annots).node := fun _ _ _ => rfl
  have hedge : ∀ n, T n → ∀ q ∈ ((b.toCtx opts annots).node n).parsers, T q.node ∧ n < q.node ∧ (∃ f, FldAt (b.toCtx opts annots).node q f) ∧
      (∀ f, FldAt (b.toCtx opts annots).node q f → FieldOf env q.conf f) ∧ ∃ r ∈ rs, ∃ t, r.confs = lab n ++ q.conf :: t := by
    intro n hn q hq
    obtain ⟨nd, hnd⟩ := ht.live n hn
    rw [hnode n nd hnd] at hq
    obtain ⟨k1, k2, f, k3, k4⟩ := ht.edge n nd hn hnd q hq
    have hf := k4 _ hagree
    refine ⟨k1, ?_, ⟨f, hf⟩, fun g hg => by rw [hg.det hf]; exact k3, ?_⟩
    · refine (ht.inv.asc n _ ?_).1
      unfold Bld.refsOf
      rw [hnd]
      exact List.mem_flatMap.2 ⟨q, hq, List.mem_cons_self ..⟩
    · obtain ⟨u, hu, t, he⟩ := ht.used n nd hn hnd q hq
      obtain ⟨r, hr, rfl⟩ := List.mem_map.1 hu
      exact ⟨r, hr, t, by rw [← he]; simp⟩
  refine ⟨?_, ?_, ?_, ?_, ?_⟩
  · intro n hn
    obtain ⟨nd, hnd⟩ := ht.live n hn
    exact (ht.inv.range n nd hnd).2
  · intro n hn q hq
    obtain ⟨k1, k2, k3, _⟩ := hedge n hn q hq
    exact ⟨k1, k2, k3⟩
  · intro n hn q hq f hf
    obtain ⟨_, _, _, k4, r, hr, t, he⟩ := hedge n hn q hq
    obtain ⟨fs, hfs⟩ := hF r hr
    refine ha.out r hr fs hfs f ?_
    rw [he] at hfs
    obtain ⟨f1, f2, rfl, _, h2⟩ := hfs.split
    cases h2 with
    | cons h2 _ =>
      rw [h2.det (k4 f hf)]
      simp
  · intro n hn
    obtain ⟨nd, hnd⟩ := ht.live n hn
    have hnd' := ht.nodup n nd hn hnd
    have hp : ((b.toCtx opts annots).node n).parsers.Pairwise fun p q => p.conf ≠ q.conf := by
      rw [hnode n nd hnd]
      exact List.pairwise_map.1 hnd'
    refine List.Pairwise.imp_of_mem ?_ hp
    intro p q hpm hqm hne f g hf hg off hoff
    obtain ⟨_, _, _, k4, r, hr, t, he⟩ := hedge n hn p hpm
    obtain ⟨_, _, _, k4', r', hr', t', he'⟩ := hedge n hn q hqm
    exact ha.branch r hr r' hr' _ _ _ _ _ he he' hne f g (k4 f hf) (k4' g hg) off hoff
  · intro n hn hterm q hq f hf
    obtain ⟨_, _, _, k4, r', hr', t, he⟩ := hedge n hn q hq
    obtain ⟨nd, hnd⟩ := ht.live n hn
    rw [hnode n nd hnd] at hterm
    obtain ⟨r, hr, hc, _⟩ := hd.term n nd hn hnd hterm
    rw [← hc] at he
    exact ha.stop r hr r' hr' _ _ he f (k4 f hf)

/-- the ways of the graph are the first fields of rules -/
theorem RTree.path {us : List (List Json)} (ht : RTree env b E T lab us) (opts : Nat) (annots : List Annot) {n m : NodeId} {fs : List Fld}
    (h : RPath (b.toCtx opts annots).node n fs m) : T n → T m ∧ ∃ cs, lab m = lab n ++ cs ∧ FieldsOf env cs fs ∧ (m = n ∧ fs = [] ∨ ∃ u ∈ us, lab m <+: u) := by
  induction h with
  | nil n => intro hT; exact ⟨hT, [], by simp, .nil, .inl ⟨rfl, rfl⟩⟩
  | @cons n m q f fs hq hf _ ih =>
    intro hT
    obtain ⟨nd, hnd⟩ := ht.live n hT
    have hn : (b.toCtx opts annots).node n = nd := by
      show (b.heap n).getD {} = nd
      rw [hnd]; rfl
    rw [hn] at hq
    obtain ⟨k1, k2, f', k3, k4⟩ := ht.edge n nd hT hnd q hq
    obtain rfl := hf.det (k4 _ fun _ _ _ => rfl)
    obtain ⟨j1, cs, j2, j3, j4⟩ := ih k1
    refine ⟨j1, q.conf :: cs, by rw [j2, k2]; simp, .cons k3 j3, .inr ?_⟩
    rcases j4 with ⟨rfl, _⟩ | j4
    · obtain ⟨u, hu, hp⟩ := ht.used n nd hT hnd q hq
      exact ⟨u, hu, by rw [k2]; exact hp⟩
    · exact j4

/-- and the rules are there -/
theorem RTree.walk {us : List (List Json)} (ht : RTree env b E T lab us) (opts : Nat) (annots : List Annot) {n m : NodeId} {cs : List Json} (h : FWalk b n cs m) :
    T n → ∀ fs, FieldsOf env cs fs → RPath (b.toCtx opts annots).node n fs m := by
  induction h with
  | nil n => intro _ fs hf; cases hf; exact .nil n
  | @cons n nd c q cs m hn hq _ ih =>
    intro hT fs hf
    cases hf with
    | @cons _ f _ fs hf tl =>
    have hqm := List.mem_of_find?_eq_some hq
    have hc : q.conf = c := by
      have := List.find?_some hq
      simpa using this
    obtain ⟨k1, _, f', k3, k4⟩ := ht.edge n nd hT hn q hqm
    rw [hc] at k3
    obtain rfl := hf.det k3
    have hnn : (b.toCtx opts annots).node n = nd := by
      show (b.heap n).getD {} = nd
      rw [hn]; rfl
    exact .cons (by rw [hnn]; exact hqm) (k4 _ fun _ _ _ => rfl) (ih k1 fs tl)

/-! ### places which are not inside of literal text -/

theorem MergedF.text {f f' : Fld} (h : MergedF f f') : f'.IsText → f.IsText := by
  cases h with
  | plain => exact id
  | rep => rintro ⟨t, ht⟩; cases ht

theorem Merged.cut {gs fs' : List Fld} (h : Merged gs fs') : ∀ {a c : List Fld}, gs = a ++ c → NotInText a c →
    ∃ a' c', fs' = a' ++ c' ∧ Merged a a' ∧ Merged c c' ∧ NotInText a' c' := by
  suffices H : ∀ (n : Nat) {gs fs' : List Fld}, gs.length ≤ n → Merged gs fs' → ∀ {a c : List Fld}, gs = a ++ c → NotInText a c →
      ∃ a' c', fs' = a' ++ c' ∧ Merged a a' ∧ Merged c c' ∧ NotInText a' c' from fun {a c} he hn => H _ (Nat.le_refl _) h he hn
  have start : ∀ {gs fs' : List Fld}, Merged gs fs' → NotInText [] gs → NotInText [] fs' := by
    intro gs fs' h hn
    rcases hn with rfl | ⟨f, t, rfl, hf⟩ | ⟨t, f, h1, _⟩
    · cases h; exact .inl rfl
    · cases h with
      | cons h t => exact .inr (.inl ⟨_, _, rfl, fun x => hf (h.text x)⟩)
      | merge t => exact absurd ⟨_, rfl⟩ hf
    · simp at h1
  intro n
  induction n with
  | zero =>
    intro gs fs' hl h a c he hn
    obtain rfl : gs = [] := List.length_eq_zero_iff.1 (by omega)
    cases h
    obtain ⟨rfl, rfl⟩ := List.append_eq_nil_iff.1 he.symm
    exact ⟨[], [], rfl, .nil, .nil, .inl rfl⟩
  | succ n ih =>
    intro gs fs' hl h a c he hn
    cases a with
    | nil =>
      simp only [List.nil_append] at he
      subst he
      exact ⟨[], fs', rfl, .nil, h, start h hn⟩
    | cons f a =>
      cases h with
      | nil => cases he
      | @cons f0 f' gs fs' hf t =>
        simp only [List.cons_append, List.cons.injEq] at he
        obtain ⟨rfl, rfl⟩ := he
        by_cases ha : a = [] ∧ ¬ f0.IsText
        · obtain ⟨rfl, hx⟩ := ha
          exact ⟨[f'], fs', rfl, .cons hf .nil, t, .inr (.inr ⟨[], f', rfl, fun x => hx (hf.text x)⟩)⟩
        have hn' : NotInText a c := by
          rcases hn with h1 | h1 | ⟨t', g, h1, h2⟩
          · exact .inl h1
          · exact .inr (.inl h1)
          · cases t' with
            | nil =>
              simp only [List.nil_append, List.cons.injEq] at h1
              obtain ⟨rfl, rfl⟩ := h1
              exact absurd ⟨rfl, h2⟩ ha
            | cons x t' =>
              simp only [List.cons_append, List.cons.injEq] at h1
              exact .inr (.inr ⟨t', g, h1.2, h2⟩)
        obtain ⟨a', c', k1, k2, k3, k4⟩ := ih (by simp only [List.length_cons] at hl; omega) t rfl hn'
        refine ⟨f' :: a', c', by rw [k1]; rfl, .cons hf k2, k3, ?_⟩
        rcases k4 with h1 | h1 | ⟨t', g, h1, h2⟩
        · exact .inl h1
        · exact .inr (.inl h1)
        · exact .inr (.inr ⟨f' :: t', g, by rw [h1]; rfl, h2⟩)
      | @merge l l' gs fs' t =>
        simp only [List.cons_append, List.cons.injEq] at he
        obtain ⟨rfl, he⟩ := he
        cases a with
        | nil =>
          simp only [List.nil_append] at he
          subst he
          rcases hn with h1 | ⟨g, t', h1, h2⟩ | ⟨t', g, h1, h2⟩
          · cases h1
          · cases h1; exact absurd ⟨_, rfl⟩ h2
          · cases t' with
            | nil => simp only [List.nil_append, List.cons.injEq] at h1; exact absurd ⟨_, h1.1.symm⟩ h2
            | cons x t' => simp at h1
        | cons g a =>
          simp only [List.cons_append, List.cons.injEq] at he
          obtain ⟨rfl, rfl⟩ := he
          have hn' : NotInText a c := by
            rcases hn with h1 | h1 | ⟨t', g, h1, h2⟩
            · exact .inl h1
            · exact .inr (.inl h1)
            · cases t' with
              | nil => simp at h1
              | cons x t' =>
                simp only [List.cons_append, List.cons.injEq] at h1
                obtain ⟨_, h1⟩ := h1
                cases t' with
                | nil => simp only [List.nil_append, List.cons.injEq] at h1; exact absurd ⟨_, h1.1.symm⟩ h2
                | cons y t' =>
                  simp only [List.cons_append, List.cons.injEq] at h1
                  exact .inr (.inr ⟨t', g, h1.2, h2⟩)
          obtain ⟨a', c', k1, k2, k3, k4⟩ := ih (by simp only [List.length_cons] at hl; omega) t rfl hn'
          refine ⟨.lit (l ++ l') :: a', c', by rw [k1]; rfl, .merge k2, k3, ?_⟩
          rcases k4 with h1 | h1 | ⟨t', g, h1, h2⟩
          · exact .inl h1
          · exact .inr (.inl h1)
          · exact .inr (.inr ⟨_ :: t', g, by rw [h1]; rfl, h2⟩)

theorem MStar.cut {gs fs' : List Fld} (h : MStar gs fs') : ∀ {a c : List Fld}, gs = a ++ c → NotInText a c →
    ∃ a' c', fs' = a' ++ c' ∧ MStar a a' := by
  induction h with
  | refl fs => intro a c he _; exact ⟨a, c, he, .refl a⟩
  | head h _ ih =>
    intro a c he hn
    obtain ⟨a1, c1, k1, k2, _, k4⟩ := h.cut he hn
    obtain ⟨a2, c2, j1, j2⟩ := ih k1 k4
    exact ⟨a2, c2, j1, .head k2 j2⟩

theorem RPath.cut {c : NodeId → Node} : ∀ {as bs : List Fld} {n m : NodeId}, RPath c n (as ++ bs) m → ∃ x, RPath c n as x ∧ RPath c x bs m
  | [], bs, n, m, h => ⟨n, .nil n, h⟩
  | f :: as, bs, n, m, h => by
    cases h with
    | cons hq hf t =>
      obtain ⟨x, h1, h2⟩ := t.cut
      exact ⟨x, .cons hq hf h1, h2⟩

theorem outcomeAll_of {fs : List Fld} (h : ∀ f ∈ fs, Outcome env s f) : OutcomeAll env s fs := by
  induction fs with
  | nil => exact fun off hoff => .inl ⟨_, _, .nil, hoff⟩
  | cons f fs ih =>
    intro off hoff
    rcases h f (List.mem_cons_self ..) off hoff with ⟨mid, v, h1, h2⟩ | h1
    · rcases ih (fun g hg => h g (List.mem_cons_of_mem _ hg)) mid h2 with ⟨vs, e, h3, h4⟩ | ⟨a, h3, h4⟩
      · exact .inl ⟨_, _, .cons h1 h3, h4⟩
      · exact .inr ⟨_, .later h1 h3, h4⟩
    · exact .inr ⟨_, .here h1, hoff⟩

/-- the end of rule `r`, which takes the message -/
structure Takes1 (env : Env) (s : Bytes) (rs : List Rule) (ctx : Ctx) (r : Rule) (vs : List (Option Bytes × Option Json)) (e : NodeId) : Prop where
  mem : r ∈ rs
  reads : ∀ fs, FieldsOf env r.confs fs → ∃ us, Reads env s (.all fs 0 us s.length) ∧ SamePut us vs
  only : ∀ r' ∈ rs, ∀ fs us, FieldsOf env r'.confs fs → Reads env s (.all fs 0 us s.length) → r' = r
  term : (ctx.node e).isTerminal = true
  mark : (ctx.node e).mark = (r.tags, some r.file, r.line)

/-- no rule takes the message -/
structure Takes0 (env : Env) (s : Bytes) (rs : List Rule) (i : Nat) : Prop where
  le : i ≤ s.length
  none_ : ∀ r ∈ rs, ∀ fs us, FieldsOf env r.confs fs → ¬ Reads env s (.all fs 0 us s.length)
  far : ∀ r ∈ rs, ∀ a c, FieldsOf env r.confs (a ++ c) → NotInText a c → ∀ vs e, Reads env s (.all a 0 vs e) → e ≤ i
  some_ : i = 0 ∨ ∃ r ∈ rs, ∃ a c vs, FieldsOf env r.confs (a ++ c) ∧ Reads env s (.all a 0 vs i)

/-- Several rules with repeat fields, and a message which tells them apart. -/
theorem rules_verdict {srt : Sorter} {rs : List Rule} (hlen : Narrow (rs.map (·.confs))) (hrs : ∀ r ∈ rs, r.complete = true ∧ ∃ fs, FieldsOf env r.confs fs)
    (hnd : (rs.map (·.confs)).Nodup) :
    ∃ b1 b2, (rs.map Rule.toOp).foldlM (fun b op => op.run env srt b) initBld = .ok b1 ∧ pdagOptimize srt b1 = .ok b2 ∧ b2.types = [] ∧
      ∀ (s : Bytes), (∀ c ∈ s, c ≠ 0) → ApartRules env s rs → ∀ (opts : Nat) (annots : List Annot),
        (∃ r vs e, Takes1 env s rs (b2.toCtx opts annots) r vs e ∧ ∃ n0, ∀ fuel, n0 ≤ fuel → ∀ stats o, ∃ res, normRec env (b2.toCtx opts annots) s fuel { stats := stats } b2.root 0 false (some o) = .ok res ∧
          res.matched = true ∧ res.json = some (vs.foldr (fun x o => place o x.1 x.2) o) ∧ res.endNode = some e) ∨
        (∃ i, Takes0 env s rs i ∧ ∃ n0, ∀ fuel, n0 ≤ fuel → ∀ stats o, ∃ res, normRec env (b2.toCtx opts annots) s fuel { stats := stats } b2.root 0 false (some o) = .ok res ∧
          res.matched = false ∧ res.json = some o ∧ res.st.parsedTo = i) := by
  obtain ⟨ht0, hd0⟩ := rtree_init (env := env) (rs.map (·.confs))
  obtain ⟨b1, h1, T, lab, ht, hd, hr1⟩ := rtree_rules (env := env) (us := rs.map (·.confs)) (srt := srt) hlen rs ht0 hd0
    (fun r hr => ⟨List.mem_map.2 ⟨r, hr, rfl⟩, hrs r hr⟩) (by simpa using hnd)
  rw [List.nil_append] at hd
  have htypes : ∀ t ∈ b1.types, t.2 ∈ [1] := by rw [ht.types]; intro t ht; cases ht
  obtain ⟨b2, h2⟩ := pdagOptimize_total (srt := srt) ht.inv ht.rootE htypes ht.nn
  have hs := (pdagOptimize_ok (srt := srt) ht.inv ht.rootE htypes).ok_of h2
  have hfr := hs.frame ht.inv
  refine ⟨b1, b2, h1, h2, ?_, ?_⟩
  · obtain ⟨_, _, ht', _⟩ := hfr
    rw [ht', ht.types]
  have hroot2 : b2.root = b1.root := hfr.2.2.2.1
  intro s h0 ha opts annots
  have hTop := ht.topAt hd ha (fun r hr => (hrs r hr).2) opts annots
  obtain ⟨T', hT', kp⟩ := OptSteps.keepsTop h0 ht.inv ht.rootE htypes hs opts annots hTop ht.root
  have hrootT : T b2.root := by rw [hroot2]; exact ht.root
  have hlroot : lab b2.root = [] := by rw [hroot2]; exact ht.lroot
  -- rules in the new graph
  have hrule : ∀ r ∈ rs, ∀ fs, FieldsOf env r.confs fs → ∃ fs' e, MStar fs fs' ∧ RPath (b2.toCtx opts annots).node b2.root fs' e ∧ T' e ∧
      lab e = r.confs ∧ ((b2.toCtx opts annots).node e).isTerminal = true := by
    intro r hr fs hfs
    obtain ⟨e, nd, w1, w2, w3, w4⟩ := hd.walk r hr
    have p1 := ht.walk opts annots w1 ht.root fs hfs
    obtain ⟨_, _, hl⟩ := w1.rstep ht (RStep.refl ..) ht.root
    rw [ht.lroot, List.nil_append] at hl
    have hn : (b1.toCtx opts annots).node e = nd := by
      show (b1.heap e).getD {} = nd
      rw [w3]; rfl
    rw [← hroot2] at p1
    obtain ⟨fs', k1, k2⟩ := kp.fwd b2.root hT' fs e p1 (by rw [hn]; exact w4)
    have hTe := kp.top.reach k2 hT'
    exact ⟨fs', e, k1, k2, hTe, hl, by rw [(kp.node e hTe).1, hn]; exact w4⟩
  obtain ⟨v, hv, n0, hn0⟩ := engine_verdict (ctx := b2.toCtx opts annots) kp.top (b1.next - b2.root) b2.root hT' (Nat.le_refl _) 0 (Nat.zero_le _)
  cases v with
  | yes fs' vs e =>
    obtain ⟨v1, v2, v3⟩ := hv
    obtain ⟨fs, k1, k2⟩ := kp.back b2.root hT' fs' e v1
    have hTe := kp.top.reach v1 hT'
    obtain ⟨m1, m2, m3, m4⟩ := kp.node e hTe
    obtain ⟨nd, hnd1⟩ := ht.live e (kp.sub e hTe)
    have hn : (b1.toCtx opts annots).node e = nd := by
      show (b1.heap e).getD {} = nd
      rw [hnd1]; rfl
    obtain ⟨r, hr, hc, hm⟩ := hd.term e nd (kp.sub e hTe) hnd1 (by rw [← hn, ← m1]; exact v2)
    obtain ⟨_, cs, j2, j3, _⟩ := ht.path opts annots k2 hrootT
    rw [hlroot, List.nil_append] at j2
    subst j2
    rw [← hc] at j3
    left
    refine ⟨r, vs, e, ⟨hr, ?_, ?_, v2, ?_⟩, n0, fun fuel hf stats o => ?_⟩
    · intro fs2 hfs2
      rw [hfs2.det j3]
      exact k1.all_back h0 (outcomeAll_of (ha.out r hr fs j3)) (Nat.zero_le _) v3
    · intro r' hr' fs2 us hfs2 hread
      obtain ⟨fs2', e2, q1, q2, q3, q4, q5⟩ := hrule r' hr' fs2 hfs2
      obtain ⟨us', q6, _⟩ := q1.all h0 hread
      have hsame : e2 = e := by
        rcases kp.top.common hT' (Nat.zero_le _) q2 q6 v1 v3 with ⟨hs, ws, _, y2, y3, y4⟩ | ⟨hs, ws, _, y2, y3, y4⟩
        · cases y2 with
          | nil => rfl
          | cons hq hf t =>
            cases y3 with
            | cons y3 _ => exact absurd (takes_begins y3) (kp.top.stop e y4 v2 _ hq _ hf)
        · cases y2 with
          | nil => rfl
          | cons hq hf t =>
            cases y3 with
            | cons y3 _ => exact absurd (takes_begins y3) (kp.top.stop e2 y4 q5 _ hq _ hf)
      rw [hsame, ← hc] at q4
      exact List.inj_on_of_nodup_map hnd hr' hr q4.symm
    · have : ((b2.toCtx opts annots).node e).mark = nd.mark := by
        unfold Node.mark
        rw [m2, m3, m4, hn]
      rw [this, hm]
    · obtain ⟨res, r1, r2⟩ := hn0 fuel hf { stats := stats } o (Nat.le_refl _)
      exact ⟨res, r1, r2.1, r2.2.1, r2.2.2⟩
  | no fs' vs x a =>
    obtain ⟨v1, v2, v3, v4, v5⟩ := hv
    obtain ⟨fs, k1, k2⟩ := kp.back b2.root hT' fs' x v1
    right
    refine ⟨a, ⟨v3, ?_, ?_, ?_⟩, n0, fun fuel hf stats o => ?_⟩
    · intro r hr fs2 us hfs2 hread
      obtain ⟨fs2', e2, q1, q2, q3, q4, q5⟩ := hrule r hr fs2 hfs2
      obtain ⟨us', q6, _⟩ := q1.all h0 hread
      rcases kp.top.common hT' (Nat.zero_le _) v1 v2 q2 q6 with ⟨hs, ws, _, y2, y3, y4⟩ | ⟨hs, ws, _, y2, y3, y4⟩
      · cases y2 with
        | nil =>
          cases y3
          rcases v4 with h | h
          · rw [q5] at h; cases h
          · exact h rfl
        | cons hq hf t =>
          cases y3 with
          | cons y3 _ => exact absurd (takes_begins y3) (kp.top.stop e2 y4 q5 _ hq _ hf)
      · cases y2 with
        | nil =>
          cases y3
          rcases v4 with h | h
          · rw [q5] at h; cases h
          · exact h rfl
        | cons hq hf t =>
          cases y3 with
          | cons y3 _ => exact (v5 _ hq _ hf).det _ _ y3
    · intro r hr d c hfs hnt us e hread
      obtain ⟨fs2', e2, q1, q2, q3, q4, q5⟩ := hrule r hr _ hfs
      obtain ⟨d', c', y1, y2⟩ := q1.cut rfl hnt
      obtain ⟨us', y3, _⟩ := y2.all h0 hread
      rw [y1] at q2
      obtain ⟨y, z1, z2⟩ := q2.cut
      rcases kp.top.common hT' (Nat.zero_le _) v1 v2 z1 y3 with ⟨hs, ws, _, w2, w3, w4⟩ | ⟨hs, ws, _, w2, w3, w4⟩
      · exact w3.all_le
      · cases w2 with
        | nil => cases w3; exact Nat.le_refl _
        | cons hq hf t =>
          cases w3 with
          | cons w3 _ => exact absurd w3 ((v5 _ hq _ hf).det _ _)
    · obtain ⟨_, cs, j2, j3, j4⟩ := ht.path opts annots k2 hrootT
      rw [hlroot, List.nil_append] at j2
      rcases j4 with ⟨_, rfl⟩ | ⟨u, hu, t, hp⟩
      · obtain ⟨us, r1, _⟩ := k1.all_back h0 (outcomeAll_of (by simp)) (Nat.zero_le _) v2
        cases r1
        exact .inl rfl
      · obtain ⟨r, hr, rfl⟩ := List.mem_map.1 hu
        obtain ⟨gs, hgs⟩ := (hrs r hr).2
        have hgs' := hgs
        rw [← hp, j2] at hgs'
        obtain ⟨f1, f2, rfl, g1, g2⟩ := hgs'.split
        obtain rfl := g1.det j3
        obtain ⟨us, r1, _⟩ := k1.all_back h0 (outcomeAll_of fun f hf => ha.out r hr _ hgs f (List.mem_append_left _ hf)) (Nat.zero_le _) v2
        exact .inr ⟨r, hr, f1, f2, us, hgs, r1⟩
    · obtain ⟨res, r1, r2, r3, r4⟩ := hn0 fuel hf { stats := stats } o (Nat.le_refl _)
      exact ⟨res, r1, r2, r3, by omega⟩

end
end LN
