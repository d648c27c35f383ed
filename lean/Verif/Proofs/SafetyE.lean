import Verif.Proofs.SafetyD
/- The search engine stays inside the message, terminates, and does nothing undefined. -/
set_option autoImplicit false
namespace LN
variable {env : Env} {ctx : Ctx} {s : Bytes}

theorem litLoop_len (t : Bytes) : ∀ lit j k, litLoop t lit j = .ok (k, true) → k = j + lit.length := by
  induction t with
  | nil =>
    intro lit j k h
    cases lit with
    | nil => simp [litLoop] at h; simp [h]
    | cons l ls => simp [litLoop] at h
  | cons c t ih =>
    intro lit j k h
    cases lit with
    | nil => rw [litLoop] at h; split at h <;> simp at h; simp [h]
    | cons l ls =>
      rw [litLoop] at h
      split at h
      · simp at h
      · have := ih _ _ _ h; simp only [List.length_cons]; omega

theorem parseLiteral_len {offs n : Nat} {lit : Bytes} {want : Bool} {v : Option Json}
    (h : parseLiteral s offs lit want = .ok (n, v)) : n = lit.length := by
  unfold parseLiteral at h
  rw [R.bind_eq_ok] at h
  obtain ⟨⟨j, full⟩, h1, h2⟩ := h
  rw [R.bind_eq_ok] at h2
  obtain ⟨u, h2, h3⟩ := h2
  rw [R.guard_eq_ok] at h2
  subst h2
  have := litLoop_len _ _ _ _ h1
  cases h3
  omega

/-- all alternatives begin with text -/
def LitStart (ps : List Parser) : Prop := ∀ q ∈ ps, ∃ c cs, q.kind = .literal (some (c :: cs))

/-- unnamed fields from here on -/
def QuietFrom (ctx : Ctx) (n : NodeId) : Prop :=
  ∀ k, Follows ctx n k → ∀ q ∈ (ctx.node k).parsers, q.name = none

/-- what a call of the search guarantees -/
def NPost (ctx : Ctx) (s : Bytes) (st : Npb) (dag : NodeId) (offs : Nat) (json : Option Obj)
    (r : NRes) : Prop :=
  r.st.parsedTo ≤ s.length ∧ st.parsedTo ≤ r.st.parsedTo ∧ (json.isSome = true → r.json.isSome = true) ∧
  (r.matched = true → ∃ e, r.endNode = some e ∧ (ctx.node e).isTerminal = true ∧ Follows ctx dag e) ∧
  (r.matched = true → (ctx.node dag).isTerminal = false → LitStart (ctx.node dag).parsers →
    offs + 1 ≤ r.st.parsedTo) ∧
  (st.rule ≠ [] → r.st.rule ≠ []) ∧
  (ctx.WF → ctx.has 0x08 = true → r.matched = true → (ctx.node dag).isTerminal = false → r.st.rule ≠ [])

/-- what we assume of recursive calls for nodes satisfying `C` -/
def RecOK (ctx : Ctx) (s : Bytes) (rec : Rec) (C : NodeId → Prop) : Prop :=
  ∀ st dag offs part json, C dag → offs ≤ s.length → st.parsedTo ≤ s.length →
    Post (Tame s ∧ ctx.WF ∧ (json = none → QuietFrom ctx dag)) (NPost ctx s st dag offs json)
      (rec st dag offs part json)

theorem addRule_ne (rule : Bytes) (p : Parser) (h : p.kind ≠ .literal (some []))
    (h' : p.kind ≠ .literal none) :
    addRuleToMockup rule p ≠ [] := by
  unfold addRuleToMockup
  split
  · rename_i d hk
    cases d with
    | none => exact absurd hk h'
    | some l =>
      cases l with
      | nil => exact absurd hk h
      | cons c cs => simp [addStrReversed]
  · simp

theorem addRule_mono (rule : Bytes) (p : Parser) (h : rule ≠ []) : addRuleToMockup rule p ≠ [] := by
  unfold addRuleToMockup
  split
  · simp [addStrReversed, h]
  · simp

theorem addMember_post {U : Prop} {json : Option Obj} {k : Bytes} {v : Json} {b : Bool}
    (h : U → json ≠ none) : Post U (fun j => j.isSome = true) (addMember json k v b) := by
  cases json with
  | none => exact Post.ub fun u => h u rfl
  | some o => exact Post.ok rfl

theorem mergeMembers_post {U : Prop} (ms : Obj) : ∀ {json : Option Obj}, (U → json ≠ none) →
    Post U (fun j => json.isSome = true → j.isSome = true) (mergeMembers json ms) := by
  induction ms with
  | nil => intro json _; exact Post.ok (fun h => h)
  | cons m ms ih =>
    intro json h
    obtain ⟨k, v⟩ := m
    rw [mergeMembers]
    refine (addMember_post h).bind' fun j hj => ?_
    exact (ih (fun _ hn => by simp [hn] at hj)).mono fun _ hk _ => hk hj

theorem fixJSON_post {U : Prop} {json : Option Obj} {name : Option Bytes} {v : Option Json}
    (h : U → json ≠ none ∨ name = none) :
    Post U (fun j => json.isSome = true → j.isSome = true) (fixJSON json name v) := by
  unfold fixJSON
  split
  · exact Post.ok (fun h => h)
  · have hj : U → json ≠ none := fun u => by
      rcases h u with h | h
      · exact h
      · simp at h
    refine Post.ite (fun _ => ?_) fun _ => ?_
    · split
      · exact mergeMembers_post _ hj
      · exact (addMember_post hj).mono fun _ h _ => h
    · split
      · exact Post.ite (fun _ => (addMember_post hj).mono fun _ h _ => h)
          (fun _ => (addMember_post hj).mono fun _ h _ => h)
      · exact (addMember_post hj).mono fun _ h _ => h

theorem repeatLoop_post {rec : Rec} {C : NodeId → Prop} (hrec : RecOK ctx s rec C) {pn wn : NodeId}
    (hp : C pn) (hw : C wn) (hwt : (ctx.node wn).isTerminal = false)
    (hwl : LitStart (ctx.node wn).parsers) (permit : Bool) (save : Nat) :
    ∀ fuel st so good arr, st.parsedTo ≤ s.length → so ≤ s.length → good ≤ s.length →
      s.length - st.parsedTo < fuel →
    Post (Tame s ∧ ctx.WF ∧ QuietFrom ctx wn)
      (fun r => (st.rule ≠ [] → r.1.rule ≠ []) ∧ ∀ o v, r.2 = some (o, v) → o ≤ s.length)
      (repeatLoop rec pn wn permit save fuel st so good arr) := by
  intro fuel
  induction fuel with
  | zero => intro st so good arr _ _ _ h; omega
  | succ fuel ih =>
    intro st so good arr h1 h2 h3 hf
    rw [repeatLoop]
    have hr := hrec st pn so true (some []) hp h2 h1
    refine Post.bind (P := NPost ctx s st pn so (some []))
      ⟨hr.1, hr.2.1, fun u => hr.2.2 ⟨u.1, u.2.1, by simp⟩⟩ fun r hr => ?_
    obtain ⟨r1, r2, r3, r4, r5, r6, r7⟩ := hr
    refine Post.ite (fun _ => Post.ite (fun _ => Post.pure ?_) fun _ => Post.pure ?_) fun _ => ?_
    · exact ⟨r6, fun o v hov => by cases hov; exact h3⟩
    · exact ⟨r6, fun o v hov => by cases hov⟩
    · dsimp only
      have hw' := hrec { r.st with parsedTo := 0 } wn r.st.parsedTo true none hw r1 (by simp)
      refine Post.bind (P := NPost ctx s { r.st with parsedTo := 0 } wn r.st.parsedTo none)
        ⟨hw'.1, hw'.2.1, fun u => hw'.2.2 ⟨u.1, u.2.1, fun _ => u.2.2⟩⟩ fun w hw2 => ?_
      obtain ⟨w1, w2, w3, w4, w5, w6, w7⟩ := hw2
      refine Post.ite (fun hm => ?_) fun _ => Post.pure ?_
      · have := w5 hm hwt hwl
        refine (ih w.st w.st.parsedTo r.st.parsedTo _ w1 w1 r1 (by omega)).mono fun x hx => ?_
        exact ⟨fun h => hx.1 (w6 (r6 h)), hx.2⟩
      · exact ⟨fun h => w6 (r6 h), fun o v hov => by cases hov; exact r1⟩

theorem tryParser_post (he : env.TokOK) (hcee : NoCee ctx s) (hsep : SepConsumes ctx) {rec : Rec}
    {C : NodeId → Prop} (hrec : RecOK ctx s rec C) {dag : NodeId} {p : Parser}
    (hp : p ∈ (ctx.node dag).parsers)
    (hct : ∀ i, p.kind = .custom i → ∀ nm t, ctx.types[i]? = some (nm, t) → C t)
    (hcr : ∀ a w m, p.kind = .repeat_ (some (a, w, m)) → C a ∧ C w)
    {fuel : Nat} (hfuel : s.length < fuel) {st : Npb} {offs : Nat} (ho : offs ≤ s.length)
    (hs : st.parsedTo ≤ s.length) :
    Post (Tame s ∧ ctx.WF) (fun r => r.1.parsedTo = st.parsedTo ∧ (st.rule ≠ [] → r.1.rule ≠ []) ∧
        ∀ o v, r.2 = some (o, v) → o ≤ s.length ∧
          ((∃ c cs, p.kind = .literal (some (c :: cs))) → offs + 1 ≤ o))
      (tryParser env ctx s rec fuel st offs p) := by
  unfold tryParser
  split
  · rename_i idx hk
    split
    · rename_i hn
      refine Post.ub fun u => ?_
      have := u.2.types _ p hp idx hk
      rw [hn] at this; simp at this
    · rename_i nm t ht
      have hr := hrec st t offs true (some []) (hct idx hk nm t ht) ho hs
      refine Post.bind (P := NPost ctx s st t offs (some []))
        ⟨hr.1, hr.2.1, fun u => hr.2.2 ⟨u.1, u.2, by simp⟩⟩ fun r hr => ?_
      obtain ⟨r1, r2, r3, r4, r5, r6, r7⟩ := hr
      dsimp only
      refine Post.ite (fun _ => Post.pure ?_) fun _ => Post.pure ?_
      · refine ⟨rfl, r6, fun o v h => ?_⟩
        simp only [Option.some.injEq, Prod.mk.injEq] at h
        obtain ⟨rfl, _⟩ := h
        refine ⟨r1, ?_⟩
        rintro ⟨c, cs, hl⟩; rw [hk] at hl; simp at hl
      · exact ⟨rfl, r6, fun o v h => by simp at h⟩
  · rename_i d hk
    split
    · refine Post.ub fun u => ?_
      have := u.2.rep _ p hp _ hk
      simp at this
    · rename_i pn wn permit
      obtain ⟨c1, c2⟩ := hcr pn wn permit hk
      obtain ⟨hwt, hwl⟩ := hsep dag p hp pn wn permit hk
      have hr := repeatLoop_post hrec c1 c2 hwt hwl permit st.parsedTo fuel st offs offs none hs ho ho
        (by omega)
      refine Post.bind (P := fun r : Npb × Option (Nat × Option Json) => (st.rule ≠ [] → r.1.rule ≠ []) ∧
          ∀ o v, r.2 = some (o, v) → o ≤ s.length) ⟨hr.1, hr.2.1, fun u => hr.2.2 ⟨u.1, u.2, ?_⟩⟩
          fun r hr => Post.pure ?_
      · exact u.2.quiet dag p hp pn wn permit hk
      · obtain ⟨st', res⟩ := r
        refine ⟨rfl, hr.1, fun o v h => ?_⟩
        dsimp only at h hr
        cases res with
        | none => simp at h
        | some ov =>
          obtain ⟨o', v'⟩ := ov
          simp only [Option.map_some, Option.some.injEq, Prod.mk.injEq] at h
          obtain ⟨rfl, _⟩ := h
          refine ⟨hr.2 _ _ rfl, ?_⟩
          rintro ⟨c, cs, hl⟩; rw [hk] at hl; simp at hl
  · rename_i k hk1 hk2
    have hw := (runParser_within (s := s) (offs := offs) env he p.kind p.name.isSome ho (hcee dag p hp))
    refine Post.bind (P := fun o => ∀ a, o = some a → Within s offs a ∧
        ((∃ c cs, p.kind = .literal (some (c :: cs))) → 1 ≤ a.1))
      (x := (runParser env s offs p.kind p.name.isSome).attempt) ?_ fun r hr => Post.pure ?_
    · refine Post.attempt (P := fun a => Within s offs a ∧
        ((∃ c cs, p.kind = .literal (some (c :: cs))) → 1 ≤ a.1)) ?_
      refine ⟨fun a ha => ⟨hw.1 a ha, ?_⟩, hw.2.1, fun u => hw.2.2 ⟨u.1, u.2.conf dag p hp⟩⟩
      rintro ⟨c, cs, hl⟩
      rw [hl] at ha
      have := parseLiteral_len (n := a.1) (v := a.2) (show parseLiteral s offs (c :: cs) _ = _ from ha)
      simp at this; omega
    · refine ⟨rfl, fun h => h, fun o v h => ?_⟩
      cases r with
      | none => simp at h
      | some nv =>
        obtain ⟨n, v'⟩ := nv
        simp only [Option.map_some, Option.some.injEq, Prod.mk.injEq] at h
        obtain ⟨rfl, _⟩ := h
        have := hr _ rfl
        exact ⟨this.1, fun hl => by have := this.2 hl; dsimp only at this; omega⟩

theorem tryLoop_safe (he : env.TokOK) (hcee : NoCee ctx s) (hsep : SepConsumes ctx) {rec : Rec}
    {C : NodeId → Prop} (hrec : RecOK ctx s rec C) {dag : NodeId} {fuel : Nat} {offs : Nat} {part : Bool}
    (hfuel : (ctx.node dag).parsers ≠ [] → s.length < fuel) (ho : offs ≤ s.length) :
    ∀ (ps : List Parser), (∀ p ∈ ps, p ∈ (ctx.node dag).parsers) →
    (∀ p ∈ ps, C p.node ∧ (∀ i, p.kind = .custom i → ∀ nm t, ctx.types[i]? = some (nm, t) → C t) ∧
      (∀ a w m, p.kind = .repeat_ (some (a, w, m)) → C a ∧ C w)) →
    ∀ st pt json, st.parsedTo ≤ s.length → pt ≤ s.length →
    Post (Tame s ∧ ctx.WF ∧ (json = none → QuietFrom ctx dag))
      (fun r => r.st.parsedTo ≤ s.length ∧ st.parsedTo ≤ r.st.parsedTo ∧
        (json.isSome = true → r.json.isSome = true) ∧
        (r.matched = true → ∃ e, r.endNode = some e ∧ (ctx.node e).isTerminal = true ∧ Follows ctx dag e) ∧
        (r.matched = true → LitStart ps → offs + 1 ≤ r.st.parsedTo) ∧
        (st.rule ≠ [] → r.st.rule ≠ []) ∧
        (ctx.WF → ctx.has 0x08 = true → r.matched = true → r.st.rule ≠ []))
      (tryLoop env ctx s rec fuel dag offs part ps st pt json) := by
  intro ps
  induction ps with
  | nil =>
    intro _ _ st pt json h1 h2
    rw [tryLoop]
    exact Post.ok ⟨h1, Nat.le_refl _, fun h => h, by simp, by simp, fun h => h, by simp⟩
  | cons p ps ih =>
    intro hmem hC st pt json h1 h2
    have hp := hmem p (by simp)
    obtain ⟨hCn, hCt, hCr⟩ := hC p (by simp)
    have ih' := ih (fun q hq => hmem q (by simp [hq])) (fun q hq => hC q (by simp [hq]))
    rw [tryLoop]
    have ht := tryParser_post he hcee hsep hrec hp hCt hCr
      (hfuel (fun hn => by rw [hn] at hp; simp at hp)) ho h1
    refine Post.bind (P := fun r : Npb × Option (Nat × Option Json) =>
        r.1.parsedTo = st.parsedTo ∧ (st.rule ≠ [] → r.1.rule ≠ []) ∧
        ∀ o v, r.2 = some (o, v) → o ≤ s.length ∧
          ((∃ c cs, p.kind = .literal (some (c :: cs))) → offs + 1 ≤ o))
      ⟨ht.1, ht.2.1, fun u => ht.2.2 ⟨u.1, u.2.1⟩⟩ fun r hr => ?_
    obtain ⟨st1, res⟩ := r
    obtain ⟨a1, a2, a3⟩ := hr
    dsimp only at a1 a2 a3 ⊢
    cases res with
    | none =>
      dsimp only
      refine (ih' (st1.raise pt) pt json (by simp [Npb.raise]; omega) h2).mono fun r hr => ?_
      obtain ⟨b1, b2, b3, b4, b5, b6, b7⟩ := hr
      refine ⟨b1, by simp [Npb.raise] at b2; omega, b3, b4,
        fun hm hl => b5 hm (fun q hq => hl q (by simp [hq])), fun h => b6 (a2 h), b7⟩
    | some ov =>
      obtain ⟨newOffs, val⟩ := ov
      obtain ⟨a4, a5⟩ := a3 _ _ rfl
      dsimp only
      have hsub := hrec st1 p.node newOffs part json hCn a4 (by omega)
      refine Post.bind (P := NPost ctx s st1 p.node newOffs json)
        ⟨hsub.1, hsub.2.1, fun u => hsub.2.2 ⟨u.1, u.2.1, fun hn k hk =>
          u.2.2 hn k (followTrans (.step (.refl dag) hp) hk)⟩⟩ fun sub hsub => ?_
      obtain ⟨b1, b2, b3, b4, b5, b6, b7⟩ := hsub
      refine Post.ite (fun hm => ?_) fun hm => ?_
      · refine Post.bind (P := fun j => sub.json.isSome = true → j.isSome = true)
          (fixJSON_post fun u => ?_) fun j hj => Post.pure ?_
        · cases json with
          | none => exact .inr (u.2.2 rfl dag (.refl dag) p hp)
          | some o => left; intro hn; have := b3 rfl; rw [hn] at this; simp at this
        · have hrule : ((if ctx.has 0x08 = true then
              { sub.st with rule := addRuleToMockup sub.st.rule p } else sub.st)).parsedTo = sub.st.parsedTo := by
            split <;> rfl
          refine ⟨?_, ?_, fun h => hj (b3 h), fun _ => (b4 hm).imp fun e h =>
            ⟨h.1, h.2.1, followTrans (.step (.refl dag) hp) h.2.2⟩, fun _ hl => ?_, fun h => ?_, fun wf hopt _ => ?_⟩
          · simp only [Npb.raise, hrule]; omega
          · simp only [Npb.raise, hrule]; omega
          · have := a5 (hl p (by simp))
            simp only [Npb.raise, hrule]; omega
          · simp only [Npb.raise]
            split
            · exact addRule_mono _ _ (b6 (a2 h))
            · exact b6 (a2 h)
          · simp only [Npb.raise, hopt, if_true]
            refine addRule_ne _ _ ((wf.mock hopt).2 dag p hp) fun hk => ?_
            have := wf.conf dag p hp
            rw [hk] at this; simp [Parser.Configured] at this
      · have hu := ih' ((sub.st.bumpBack dag).raise newOffs) newOffs sub.json
          (by simp [Npb.raise, Npb.bumpBack]; omega) a4
        refine Post.mono ⟨hu.1, hu.2.1, fun u => hu.2.2 ⟨u.1, u.2.1, fun hn => u.2.2 ?_⟩⟩ fun r hr => ?_
        · cases json with
          | none => rfl
          | some o => have := b3 rfl; rw [hn] at this; simp at this
        · obtain ⟨c1, c2, c3, c4, c5, c6, c7⟩ := hr
          simp only [Npb.raise, Npb.bumpBack] at c2 c6
          refine ⟨c1, by omega, fun h => c3 (b3 h), c4, fun hm' hl => c5 hm' (fun q hq => hl q (by simp [hq])),
            fun h => c6 (b6 (a2 h)), c7⟩
where
  followTrans {a b c : NodeId} (h1 : Follows ctx a b) (h2 : Follows ctx b c) : Follows ctx a c := by
    induction h2 with
    | refl => exact h1
    | step _ hp ih => exact .step ih hp

/-- the whole search -/
theorem normRec_safe (he : env.TokOK) (hcee : NoCee ctx s) (hsep : SepConsumes ctx)
    {rank : NodeId → Nat} (hacyc : Acyclic ctx rank) : ∀ fuel,
    RecOK ctx s (normRec env ctx s fuel) (fun n => rank n + s.length < fuel) := by
  intro fuel
  induction fuel with
  | zero => intro st dag offs part json h; omega
  | succ n ih =>
    intro st dag offs part json hC ho hs
    simp only [normRec]
    unfold normStep
    dsimp only
    have hl := tryLoop_safe (part := part) (fuel := n) he hcee hsep ih (dag := dag)
      (fun hne => by
        cases hps : (ctx.node dag).parsers with
        | nil => exact absurd hps hne
        | cons p ps => have := hacyc.next dag p (by rw [hps]; simp); omega) ho
      (ctx.node dag).parsers (fun p hp => hp)
      (fun p hp => ⟨by have := hacyc.next dag p hp; omega,
        fun i hi nm t ht => by have := hacyc.type dag p hp i hi nm t ht; omega,
        fun a w m hk => by have := hacyc.rep dag p hp a w m hk; omega⟩)
      (st.bumpCalled dag) st.parsedTo json (by simpa [Npb.bumpCalled] using hs) hs
    refine hl.bind fun r hr => ?_
    obtain ⟨c1, c2, c3, c4, c5, c6, c7⟩ := hr
    simp only [Npb.bumpCalled] at c2 c6
    refine Post.ite (fun ht => Post.pure ?_) fun _ => Post.pure ?_
    · simp only [Bool.and_eq_true] at ht
      exact ⟨c1, c2, c3, fun _ => ⟨dag, rfl, ht.1, .refl dag⟩, fun _ hf => by simp [ht.1] at hf, c6,
        fun _ _ _ hf => by simp [ht.1] at hf⟩
    · exact ⟨c1, c2, c3, c4, fun hm _ hl => c5 hm hl, c6, fun wf ho hm _ => c7 wf ho hm⟩

/-! ### finishing -/

theorem applyOps_post {U : Prop} (ops : List AnnotOp)
    (h : U → ∀ op ∈ ops, op.add = true → op.name.isSome = true ∧ op.value.isSome = true) :
    ∀ o, Post U (fun _ => True) (applyOps ops o) := by
  induction ops with
  | nil => intro o; exact Post.ok trivial
  | cons op ops ih =>
    intro o
    rw [applyOps]
    refine Post.ite (fun hadd => ?_) fun _ => ih (fun u x hx => h u x (by simp [hx])) o
    split
    · exact ih (fun u x hx => h u x (by simp [hx])) _
    · rename_i hno
      refine Post.ub fun u => ?_
      obtain ⟨h1, h2⟩ := h u op (by simp) hadd
      cases hn : op.name with
      | none => rw [hn] at h1; simp at h1
      | some n => cases hv : op.value with
        | none => rw [hv] at h2; simp at h2
        | some v => exact hno v n hv hn

theorem findAnnot_mem {as : List Annot} {t : Bytes} {a : Annot} (h : findAnnot as t = some a) : a ∈ as := by
  induction as with
  | nil => simp [findAnnot] at h
  | cons b bs ih =>
    rw [findAnnot] at h
    split at h
    · cases h; simp
    · exact List.mem_cons_of_mem _ (ih h)

theorem annotate_post (tags : List Bytes) (o : Obj) :
    Post ctx.WF (fun _ => True) (annotate ctx.annots o tags) := by
  unfold annotate
  generalize tags.reverse = l
  have : ∀ (l : List Bytes) (x : R Obj), Post ctx.WF (fun _ => True) x →
      Post ctx.WF (fun _ => True) (l.foldl (fun acc t => acc.bind fun o => annotateTag ctx.annots t o) x) := by
    intro l
    induction l with
    | nil => intro x hx; exact hx
    | cons t l ih =>
      intro x hx
      rw [List.foldl_cons]
      refine ih _ (hx.bind' fun o _ => ?_)
      unfold annotateTag
      split
      · exact Post.ok trivial
      · rename_i a ha
        exact applyOps_post _ (fun u op hop hadd => u.annots a (findAnnot_mem ha) op hop hadd) o
  exact this l _ (Post.ok trivial)

theorem finishMatch_post {rule : Bytes} {e : NodeId} (o : Obj) (ht : (ctx.node e).isTerminal = true)
    (hf : Follows ctx ctx.root e)
    (hr : ctx.WF → ctx.has 0x08 = true → rule ≠ []) :
    Post ctx.WF (fun _ => True) (finishMatch ctx s rule e o) := by
  unfold finishMatch
  refine Post.bind' (P := fun _ => True) ?_ fun o _ => ?_
  · unfold addTags
    split
    · exact Post.ok trivial
    · exact annotate_post _ _
  · unfold addRuleMetadata
    refine Post.bind' (P := fun _ => True) ?_ fun mr _ => Post.bind' (P := fun _ => True) ?_ fun mr _ => ?_
    · unfold metaMockup
      refine Post.ite (fun ho => ?_) fun _ => Post.ok trivial
      refine Post.bind' (P := fun _ => True) ?_ fun _ _ => Post.ok trivial
      unfold strrev
      exact Post.ite (fun hn => Post.ub fun u => hr u ho hn) fun _ => Post.ok trivial
    · unfold metaLocation
      refine Post.ite (fun ho => ?_) fun _ => Post.ok trivial
      split
      · rename_i hn
        refine Post.ub fun u => ?_
        have := u.loc ho e hf ht
        rw [hn] at this; simp at this
      · exact Post.ok trivial
    · split <;> exact Post.ok trivial

theorem normalize_post (he : env.TokOK) (hcee : NoCee ctx s) (hsep : SepConsumes ctx)
    {rank : NodeId → Nat} (hacyc : Acyclic ctx rank) {fuel : Nat} (hfuel : rank ctx.root + s.length < fuel)
    (stats : NodeId → Stats) (json0 : Obj) :
    Post (Tame s ∧ ctx.WF) (fun _ => True) (normalize env fuel ctx stats s json0) := by
  unfold normalize
  have hn := normRec_safe (s := s) he hcee hsep hacyc fuel { stats := stats } ctx.root 0 false (some json0)
    hfuel (by omega) (by simp)
  refine Post.bind (P := NPost ctx s { stats := stats } ctx.root 0 (some json0))
    ⟨hn.1, hn.2.1, fun u => hn.2.2 ⟨u.1, u.2, by simp⟩⟩ fun r hr => ?_
  obtain ⟨r1, r2, r3, r4, r5, r6, r7⟩ := hr
  have hup : ∀ o, Post (Tame s ∧ ctx.WF) (fun _ => True) (addUnparsedField s r.st.parsedTo o) := by
    intro o
    unfold addUnparsedField
    dsimp only
    exact Post.ite (fun h => by omega) fun _ => Post.ok trivial
  dsimp only
  split
  · rename_i e hm he'
    obtain ⟨e', he2, hterm, hfol⟩ := r4 hm
    rw [he'] at he2
    cases he2
    rw [if_pos hterm]
    have hf := finishMatch_post (s := s) (rule := r.st.rule) (r.json.getD []) hterm hfol
      (fun wf ho => r7 wf ho hm ((wf.mock ho).1))
    exact Post.bind (P := fun _ => True) ⟨hf.1, hf.2.1, fun u => hf.2.2 u.2⟩ fun _ _ => Post.pure trivial
  · rename_i hm he'
    obtain ⟨e', he2, _⟩ := r4 hm
    rw [he'] at he2; simp at he2
  · exact (hup _).bind fun _ _ => Post.pure trivial

end LN
