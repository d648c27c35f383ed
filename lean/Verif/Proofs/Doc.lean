import Verif.Spec.Doc
import Verif.Proofs.FieldKind
import Verif.Proofs.OptTotal
import Verif.Proofs.V1Doc
import Verif.Props.Samp
import Verif.Props.Rules
/- From the text of a rule base of version 2 to the event. -/
set_option autoImplicit false
namespace LN
open Spec

theorem FType.name_inj {f g : FType} (h : f.name = g.name) : f = g := by
  cases f <;> cases g <;> first | rfl | (exact absurd h (by decide))

theorem Describes.type_unique {f g : FType} {o : Obj} (h : Describes f o) (h' : Describes g o) : f = g := by
  exact FType.name_inj (Json.str.inj (Option.some.inj (h'.type.symm.trans h.type))).symm

theorem KindFor.kname {o : Obj} {f : FType} {k : PKind} (h : KindFor o f k) : k.name = f.name := by
  cases f <;> simp only [KindFor] at h
  all_goals first
    | (subst h; rfl)
    | (obtain ⟨w, h1, rfl⟩ := h; rfl)
    | (obtain ⟨d, rfl, _⟩ := h; rfl)

theorem KindFor.literal_iff {o : Obj} {f : FType} {k : PKind} (h : KindFor o f k) :
    (∃ w, f = .literal ∧ TextP o (bs! "text") w ∧ k = .literal (some w)) ∨ (f ≠ .literal ∧ ∀ d, k ≠ .literal d) := by
  cases f <;> simp only [KindFor] at h
  case literal => obtain ⟨w, h1, h2⟩ := h; exact .inl ⟨w, rfl, h1, h2⟩
  all_goals right
  all_goals refine ⟨(by decide), fun d hd => ?_⟩
  all_goals first
    | (subst h; cases hd)
    | (obtain ⟨w, h1, rfl⟩ := h; cases hd)
    | (obtain ⟨w, rfl, _⟩ := h; cases hd)

theorem find?_conf : ∀ {l : List Parser} {p : Parser}, (l.map (·.conf)).Nodup → p ∈ l →
    l.find? (fun q => decide (q.conf = p.conf)) = some p
  | [], _, _, h => by cases h
  | a :: l, p, hd, h => by
    rw [List.map_cons, List.nodup_cons] at hd
    rcases List.mem_cons.1 h with rfl | h
    · simp
    · rw [List.find?_cons_of_neg]
      · exact find?_conf hd.2 h
      · intro he
        have : a.conf = p.conf := by simpa using he
        exact hd.1 (this ▸ List.mem_map.2 ⟨p, h, rfl⟩)

/-! ### Sequences of fields -/

/-- the configuration of a field -/
def tokConf (t : FType × Obj) : Json := .obj t.2

/-- a sequence of fields accepts the message from `off` to `off'`, with these names and values -/
inductive Acc (env : Env) (s : Bytes) : List (FType × Obj) → Nat → List (Option Bytes × Option Json) → Nat → Prop
  | nil (off : Nat) : Acc env s [] off [] off
  | cons {f : FType} {o : Obj} {ts : List (FType × Obj)} {off n off' : Nat} {v : Option Json} {vs : List (Option Bytes × Option Json)} :
      f.Means env o (s.drop off) n v → Acc env s ts (off + n) vs off' → Acc env s ((f, o) :: ts) off ((fieldName o, v) :: vs) off'

/-- the conditions on a sequence of fields and the message under which the fields do what they mean -/
def ToksOK (env : Env) (s : Bytes) (ts : List (FType × Obj)) : Prop :=
  ∀ t ∈ ts, Describes t.1 t.2 ∧ ∀ off, off ≤ s.length → t.1.InScope env t.2 s off (fieldName t.2).isSome

section
variable {env : Env} {s : Bytes}

theorem field_does (hs : Tame s) {f : FType} {o : Obj} (hd : Describes f o) {off : Nat} (hl : off ≤ s.length)
    (hin : f.InScope env o s off (fieldName o).isSome) {p : Parser} (hp : confField env [] (.obj o) = some p) :
    p.name = fieldName o ∧ KindFor o f p.kind ∧ p.prio = fieldPrio o * 256 + f.prio ∧
    (∀ n v, f.Means env o (s.drop off) n v →
      runParser env s off p.kind p.name.isSome = .ok (n, if p.name.isSome then v else none)) ∧
    (∀ n w, runParser env s off p.kind p.name.isSome = .ok (n, w) → ∃ v, f.Means env o (s.drop off) n v ∧
      w = if p.name.isSome then v else none) := by
  obtain ⟨q, h1, h2, h3, h4, _⟩ := confField_ok (env := env) hd
  rw [hp] at h1; cases h1
  have hk := kind_does (env := env) (want := p.name.isSome) h2 hd.params hs hl (by rw [h3]; exact hin)
  refine ⟨h3, h2, h4, hk.1, fun n w hr => ?_⟩
  by_cases hex : ∃ n' v', f.Means env o (s.drop off) n' v'
  · obtain ⟨n', v', hm⟩ := hex
    have := hk.1 n' v' hm
    rw [hr] at this
    cases this
    exact ⟨v', hm, rfl⟩
  · have := hk.2 fun n v h => hex ⟨n, v, h⟩
    rw [hr] at this
    cases this

theorem Describes.cee_first {f : FType} {o : Obj} {b : Bool} (hin : ∀ off, off ≤ s.length → f.InScope env o s off b) {k : PKind} (hk : KindFor o f k) :
    k = .cee → CeeFirst s := by
  intro h
  have := hk.kname
  rw [h] at this
  have : f = .cee := (FType.name_inj (g := f) (f := .cee) this).symm
  subst this
  intro off hp
  refine (hin off ?_).2 hp
  have := hp.length_le
  rw [List.length_drop] at this
  have h5 : (bs! "@cee:").length = 5 := by decide
  omega

theorem runParser_le (he : env.TokOK) {off n : Nat} {k : PKind} {b : Bool} {w : Option Json} (hl : off ≤ s.length) (hk : k = .cee → CeeFirst s)
    (h : runParser env s off k b = .ok (n, w)) : off + n ≤ s.length :=
  (runParser_within (s := s) (offs := off) env he k b hl hk).1 _ h

theorem show_eq {f : FType} {o : Obj} {p : Parser} (hk : KindFor o f p.kind) (hn : p.name = fieldName o) :
    mockField p = RuleD.showField f o := by
  unfold mockField RuleD.showField
  rcases hk.literal_iff with ⟨w, rfl, h1, h2⟩ | ⟨h1, h2⟩
  · rw [h2, if_pos rfl, strP, h1.1]
  · rw [if_neg h1]
    obtain ⟨k, nd, pr, nm, cf⟩ := p
    dsimp only at hn h2 hk ⊢
    rw [← hk.kname, ← hn]
    cases k <;> first | rfl | exact absurd rfl (h2 _)

variable {b : Bld} {opts : Nat} {annots : List Annot}

/-- a path through the trie is an acceptance -/
theorem acc_of_path (he : env.TokOK) (ht : PlainGraph env b) (hs : Tame s) {n : NodeId} {off : Nat} {tr : List Step} {m : NodeId} {off' : Nat}
    (h : Path env (b.toCtx opts annots) s n off tr m off') :
    ∀ ts, tr.map (·.field.conf) = ts.map tokConf → off ≤ s.length → ToksOK env s ts →
      ∃ vs, Acc env s ts off vs off' ∧ (∀ o, storeFields o tr = placeValues o vs) ∧
        mockup tr = ts.flatMap (fun t => RuleD.showField t.1 t.2) ∧ off' ≤ s.length := by
  induction h with
  | nil n off =>
    intro ts hts hl _
    cases ts with
    | nil => exact ⟨[], .nil _, fun _ => rfl, rfl, hl⟩
    | cons t ts => cases hts
  | @cons n off idx p len v tr m off' hidx hacc _ ih =>
    intro ts hts hl hok
    cases ts with
    | nil => cases hts
    | cons t ts =>
      obtain ⟨f, o⟩ := t
      simp only [List.map_cons, List.cons.injEq] at hts
      obtain ⟨hc, hts⟩ := hts
      obtain ⟨hd, hin⟩ := hok _ (List.mem_cons_self ..)
      change ((b.heap n).getD {}).parsers[idx]? = some p at hidx
      have hf : confField env [] (.obj o) = some { p with node := 0 } := by
        cases hn : b.heap n with
        | none => rw [hn] at hidx; simp at hidx
        | some nd =>
          rw [hn] at hidx
          rw [show Json.obj o = p.conf from hc.symm]
          exact ht.field n nd hn p (List.mem_of_getElem? hidx)
      obtain ⟨h1, h2, _, _, h5⟩ := field_does hs hd hl (hin off hl) hf
      dsimp only at h1 h2 h5
      obtain ⟨w, hm, hw⟩ := h5 len v hacc
      have hle := runParser_le he hl (Describes.cee_first hin h2) hacc
      obtain ⟨vs, a1, a2, a3, a4⟩ := ih ts hts hle fun t ht => hok t (List.mem_cons_of_mem _ ht)
      refine ⟨_, .cons hm a1, ?_, ?_, a4⟩
      · intro j
        show place (storeFields j tr) p.name v = place (placeValues j vs) (fieldName o) w
        rw [a2 j, h1, hw, h1]
        cases hfn : fieldName o with
        | none => rfl
        | some nm => rfl
      · rw [List.flatMap_cons, ← a3]
        show mockField p ++ _ = _
        rw [show_eq h2 h1]; rfl

/-- and the other way round -/
theorem path_of_acc (he : env.TokOK) (ht : PlainGraph env b) (hs : Tame s) {n : NodeId} {cs : List Json} {m : NodeId} (hw : FWalk b n cs m) :
    ∀ {ts : List (FType × Obj)} {off off' : Nat} {vs : List (Option Bytes × Option Json)}, cs = ts.map tokConf → off ≤ s.length → ToksOK env s ts →
      Acc env s ts off vs off' → ∃ tr, Path env (b.toCtx opts annots) s n off tr m off' ∧ tr.map (·.field.conf) = cs ∧ off' ≤ s.length := by
  induction hw with
  | nil n =>
    intro ts off off' vs hts hl _ h
    cases ts with
    | nil => cases h; exact ⟨[], .nil _ _, rfl, hl⟩
    | cons t ts => cases hts
  | @cons n nd c q cs m hn hq _ ih =>
    intro ts off off' vs hts hl hok h
    cases h with
    | nil => cases hts
    | @cons f o ts _ k _ v vs hm htl =>
      simp only [List.map_cons, List.cons.injEq] at hts
      obtain ⟨hc, hts⟩ := hts
      obtain ⟨hd, hin⟩ := hok _ (List.mem_cons_self ..)
      have hqm : q ∈ nd.parsers := List.mem_of_find?_eq_some hq
      have hqc : q.conf = c := by simpa using List.find?_some hq
      have hf : confField env [] (.obj o) = some { q with node := 0 } := by
        rw [show Json.obj o = q.conf from (hqc.trans hc).symm]
        exact ht.field n nd hn q hqm
      obtain ⟨h1, h2, _, h4, _⟩ := field_does hs hd hl (hin off hl) hf
      dsimp only at h1 h2 h4
      have hacc := h4 k v hm
      have hle := runParser_le he hl (Describes.cee_first hin h2) hacc
      obtain ⟨tr, a1, a2, a3⟩ := ih hts hle (fun t ht => hok t (List.mem_cons_of_mem _ ht)) htl
      obtain ⟨i, hi⟩ := List.getElem?_of_mem hqm
      refine ⟨_, .cons (idx := i) (p := q) (len := k) ?_ hacc a1, ?_, a3⟩
      · show ((b.heap n).getD {}).parsers[i]? = some q
        rw [hn]; exact hi
      · rw [List.map_cons, a2, hqc]

/-- paths walk the graph -/
theorem fwalk_of_path (ht : PlainGraph env b) {n : NodeId} {off : Nat} {tr : List Step} {m : NodeId} {off' : Nat}
    (h : Path env (b.toCtx opts annots) s n off tr m off') : FWalk b n (tr.map (·.field.conf)) m := by
  induction h with
  | nil n off => exact .nil n
  | @cons n off idx p len v tr m off' hidx hacc _ ih =>
    change ((b.heap n).getD {}).parsers[idx]? = some p at hidx
    cases hn : b.heap n with
    | none => rw [hn] at hidx; simp at hidx
    | some nd =>
      rw [hn] at hidx
      refine .cons hn (q := p) ?_ ih
      exact find?_conf (ht.dist n nd hn) (List.mem_of_getElem? hidx)

/-! ### Rules -/

theorem litTok_desc {c : UInt8} (hc : c ≠ 0) : Describes (RuleD.litTok c).1 (RuleD.litTok c).2 where
  nodup := by show [bs! "type", bs! "text"].Nodup; decide
  type := rfl
  name := .inl rfl
  prio := .inl rfl
  params := ⟨[c], rfl, by simpa using Ne.symm hc⟩

theorem litTok_means {c : UInt8} (hc : c ≠ 0) {t : Bytes} {n : Nat} {v : Option Json} :
    FType.literal.Means env (RuleD.litTok c).2 t n v ↔ [c] <+: t ∧ n = 1 ∧ v = some (.str (t.take n)) := by
  constructor
  · rintro ⟨w, h1, ⟨h2, h3⟩, h4⟩
    have := h1.1
    cases this
    exact ⟨h2, h3, h4⟩
  · rintro ⟨h1, h2, h3⟩
    exact ⟨[c], ⟨rfl, by simpa using Ne.symm hc⟩, ⟨h1, h2⟩, h3⟩

theorem litTok_name (c : UInt8) : fieldName (RuleD.litTok c).2 = none := rfl

theorem acc_lits_inv : ∀ (t : Bytes) {ts : List (FType × Obj)} {off off' : Nat} {vs : List (Option Bytes × Option Json)}, (∀ c ∈ t, c ≠ 0) →
    Acc env s (t.map RuleD.litTok ++ ts) off vs off' → t <+: s.drop off ∧ ∃ us, Acc env s ts (off + t.length) us off' ∧
      ∀ o, placeValues o vs = placeValues o us
  | [], ts, off, off', vs, _, h => ⟨List.nil_prefix, vs, h, fun _ => rfl⟩
  | c :: t, ts, off, off', vs, h0, h => by
    cases h with
    | @cons _ _ _ _ n _ v vs hm htl =>
      obtain ⟨h1, rfl, h3⟩ := (litTok_means (h0 c (List.mem_cons_self ..))).1 hm
      obtain ⟨h4, us, h5, h6⟩ := acc_lits_inv t (fun x hx => h0 x (List.mem_cons_of_mem _ hx)) htl
      refine ⟨?_, us, ?_, fun o => ?_⟩
      · obtain ⟨u, hu⟩ := h1
        have hd : s.drop (off + 1) = u := by rw [← List.drop_drop, ← hu]; rfl
        rw [hd] at h4
        rw [← hu]
        simpa using h4
      · rw [List.length_cons, Nat.add_comm t.length 1, ← Nat.add_assoc]; exact h5
      · rw [← h6 o]; rfl

theorem acc_lits : ∀ (t : Bytes) {ts : List (FType × Obj)} {off off' : Nat} {us : List (Option Bytes × Option Json)}, (∀ c ∈ t, c ≠ 0) →
    t <+: s.drop off → Acc env s ts (off + t.length) us off' → ∃ vs, Acc env s (t.map RuleD.litTok ++ ts) off vs off' ∧
      ∀ o, placeValues o vs = placeValues o us
  | [], ts, off, off', us, _, _, h => ⟨us, h, fun _ => rfl⟩
  | c :: t, ts, off, off', us, h0, hp, h => by
    obtain ⟨u, hu⟩ := hp
    have hd : s.drop (off + 1) = t ++ u := by rw [← List.drop_drop, ← hu]; rfl
    rw [List.length_cons, Nat.add_comm t.length 1, ← Nat.add_assoc] at h
    obtain ⟨vs, h1, h2⟩ := acc_lits t (fun x hx => h0 x (List.mem_cons_of_mem _ hx)) (off := off + 1) (by rw [hd]; exact List.prefix_append ..) h
    refine ⟨_, .cons (n := 1) ((litTok_means (h0 c (List.mem_cons_self ..))).2 ⟨⟨t ++ u, by rw [← hu]; rfl⟩, rfl, rfl⟩) h1, fun o => ?_⟩
    rw [← h2 o]; rfl

theorem litMeaning_ne (l : Bytes) : ∀ c ∈ litMeaning env l, c ≠ 0 := by
  intro c hc
  unfold litMeaning at hc
  simpa using (List.mem_filter.1 hc).2

/-- the fields of the parts of a rule -/
def partToks (env : Env) (ps : List (FieldD × Bytes)) : List (FType × Obj) :=
  ps.flatMap fun p => (p.1.type, p.1.conf) :: (litMeaning env p.2).map RuleD.litTok

theorem fits_of_acc : ∀ (ps : List (FieldD × Bytes)) {off : Nat} {vs : List (Option Bytes × Option Json)},
    Acc env s (partToks env ps) off vs s.length → ∃ us, RuleD.Fits env (s.drop off) ps us ∧ ∀ o, placeValues o vs = placeValues o us
  | [], off, vs, h => by
    change Acc env s [] off vs s.length at h
    cases h
    refine ⟨[], ?_, fun _ => rfl⟩
    rw [List.drop_length]; exact .nil
  | (f, l) :: ps, off, vs, h => by
    change Acc env s ((f.type, f.conf) :: ((litMeaning env l).map RuleD.litTok ++ partToks env ps)) off vs s.length at h
    cases h with
    | @cons _ _ _ _ n _ v vs hm htl =>
      obtain ⟨⟨u, hu⟩, us, h2, h3⟩ := acc_lits_inv _ (litMeaning_ne l) htl
      obtain ⟨ws, h4, h5⟩ := fits_of_acc ps h2
      have hd : s.drop (off + n + (litMeaning env l).length) = u := by
        rw [← List.drop_drop, ← hu, List.drop_left]
      rw [hd] at h4
      refine ⟨_, .cons hm ?_ h4, fun o => ?_⟩
      · rw [List.drop_drop]; exact hu.symm
      · show place (placeValues o vs) _ _ = place (placeValues o ws) _ _
        rw [h3, h5]

theorem acc_of_fits (he : env.TokOK) (hs : Tame s) {t : Bytes} {ps : List (FieldD × Bytes)} {us : List (Option Bytes × Option Json)}
    (h : RuleD.Fits env t ps us) : ∀ {off : Nat}, off ≤ s.length → s.drop off = t → ToksOK env s (partToks env ps) →
    ∃ vs, Acc env s (partToks env ps) off vs s.length ∧ ∀ o, placeValues o vs = placeValues o us := by
  induction h with
  | nil =>
    intro off hl hd _
    have : off = s.length := by
      have := congrArg List.length hd
      simp at this
      omega
    subst this
    exact ⟨[], .nil _, fun _ => rfl⟩
  | @cons t t' l f n v ps vs hm hdr _ ih =>
    intro off hl hd hok
    have hmem : (f.type, f.conf) ∈ partToks env ((f, l) :: ps) := List.mem_flatMap.2 ⟨(f, l), List.mem_cons_self .., List.mem_cons_self ..⟩
    obtain ⟨hde, hin⟩ := hok _ hmem
    obtain ⟨p, hp, _⟩ := confField_ok (env := env) hde
    obtain ⟨h1, h2, _, h4, _⟩ := field_does hs hde hl (hin off hl) hp
    have hle := runParser_le he hl (Describes.cee_first hin h2) (h4 n v (by rw [hd]; exact hm))
    have hd1 : s.drop (off + n) = litMeaning env l ++ t' := by rw [← List.drop_drop, hd]; exact hdr
    have hd2 : s.drop (off + n + (litMeaning env l).length) = t' := by rw [← List.drop_drop, hd1, List.drop_left]
    have hle2 : off + n + (litMeaning env l).length ≤ s.length := by
      have := congrArg List.length hd1
      simp at this
      omega
    obtain ⟨ws, h5, h6⟩ := ih hle2 hd2 fun x hx => hok x (by
      show x ∈ List.flatMap _ _
      rw [List.flatMap_cons]; exact List.mem_append_right _ hx)
    obtain ⟨xs, h7, h8⟩ := acc_lits _ (litMeaning_ne l) (by rw [hd1]; exact List.prefix_append ..) h5
    refine ⟨_, .cons (by rw [hd]; exact hm) h7, fun o => ?_⟩
    show place (placeValues o xs) _ _ = place (placeValues o vs) _ _
    rw [h8, h6]

theorem matches_of_acc (r : RuleD) (hb : r.breaks = none) {vs : List (Option Bytes × Option Json)} (h : Acc env s (r.toks env) 0 vs s.length) :
    ∃ us, r.Matches env s us ∧ ∀ o, placeValues o vs = placeValues o us := by
  obtain ⟨⟨u, hu⟩, us, h2, h3⟩ := acc_lits_inv _ (litMeaning_ne r.lit) h
  obtain ⟨ws, h4, h5⟩ := fits_of_acc r.parts h2
  rw [List.drop_zero] at hu
  have hd : s.drop (0 + (litMeaning env r.lit).length) = u := by rw [Nat.zero_add, ← hu, List.drop_left]
  rw [hd] at h4
  exact ⟨ws, ⟨hb, u, hu.symm, h4⟩, fun o => (h3 o).trans (h5 o)⟩

theorem acc_of_matches (he : env.TokOK) (hs : Tame s) (r : RuleD) (hok : ToksOK env s (r.toks env)) {us : List (Option Bytes × Option Json)}
    (h : r.Matches env s us) : ∃ vs, Acc env s (r.toks env) 0 vs s.length ∧ ∀ o, placeValues o vs = placeValues o us := by
  obtain ⟨_, t, hst, hf⟩ := h
  have hd : s.drop (litMeaning env r.lit).length = t := by rw [hst, List.drop_left]
  obtain ⟨ws, h1, h2⟩ := acc_of_fits he hs hf (off := (litMeaning env r.lit).length) (by rw [hst]; simp) hd
    (fun x hx => hok x (List.mem_append_right _ hx))
  have hpre : litMeaning env r.lit <+: s.drop 0 := by rw [List.drop_zero, hst]; exact List.prefix_append ..
  obtain ⟨vs, h3, h4⟩ := acc_lits _ (litMeaning_ne r.lit) (off := 0) hpre
    (by rw [Nat.zero_add]; exact h1)
  exact ⟨vs, h3, fun o => (h4 o).trans (h2 o)⟩

theorem toks_okD {r : RuleD} (hr : ∀ p ∈ r.parts, Describes p.1.type p.1.conf)
    (hin : ∀ p ∈ r.parts, ∀ off, off ≤ s.length → p.1.type.InScope env p.1.conf s off (fieldName p.1.conf).isSome) : ToksOK env s (r.toks env) := by
  have hlit : ∀ (l : Bytes), ∀ t ∈ (litMeaning env l).map RuleD.litTok, Describes t.1 t.2 ∧
      ∀ off, off ≤ s.length → t.1.InScope env t.2 s off (fieldName t.2).isSome := by
    intro l t ht
    obtain ⟨c, hc, rfl⟩ := List.mem_map.1 ht
    exact ⟨litTok_desc (litMeaning_ne l c hc), fun _ _ => trivial⟩
  intro t ht
  rcases List.mem_append.1 ht with h | h
  · exact hlit _ t h
  · obtain ⟨p, hp, h⟩ := List.mem_flatMap.1 h
    rcases List.mem_cons.1 h with rfl | h
    · exact ⟨hr p hp, hin p hp⟩
    · exact hlit _ t h

theorem toks_ok {r : RuleD} (hr : ∀ p ∈ r.parts, p.1.OK env)
    (hin : ∀ p ∈ r.parts, ∀ off, off ≤ s.length → p.1.type.InScope env p.1.conf s off (fieldName p.1.conf).isSome) : ToksOK env s (r.toks env) :=
  toks_okD (fun p hp => (hr p hp).desc) hin

theorem toks_descD {r : RuleD} (hr : ∀ p ∈ r.parts, Describes p.1.type p.1.conf) : ∀ t ∈ r.toks env, Describes t.1 t.2 := by
  have hlit : ∀ (l : Bytes), ∀ t ∈ (litMeaning env l).map RuleD.litTok, Describes t.1 t.2 := by
    intro l t ht
    obtain ⟨c, hc, rfl⟩ := List.mem_map.1 ht
    exact litTok_desc (litMeaning_ne l c hc)
  intro t ht
  rcases List.mem_append.1 ht with h | h
  · exact hlit _ t h
  · obtain ⟨p, hp, h⟩ := List.mem_flatMap.1 h
    rcases List.mem_cons.1 h with rfl | h
    · exact hr p hp
    · exact hlit _ t h

theorem toks_desc {r : RuleD} (hr : ∀ p ∈ r.parts, p.1.OK env) : ∀ t ∈ r.toks env, Describes t.1 t.2 := toks_descD fun p hp => (hr p hp).desc

theorem toks_confs (r : RuleD) : (r.toks env).map tokConf = ruleConfs env r.lit (r.parts.map fun p => (.obj p.1.conf, p.2)) := by
  have hlit : ∀ t : Bytes, (t.map RuleD.litTok).map tokConf = litParsers t := by
    intro t
    unfold litParsers
    rw [List.map_map]; rfl
  unfold RuleD.toks ruleConfs
  rw [List.map_append, hlit]
  congr 1
  generalize r.parts = ps
  induction ps with
  | nil => rfl
  | cons p ps ih =>
    rw [List.flatMap_cons, List.map_append, ih, List.map_cons, List.map_cons, List.flatMap_cons, hlit]
    rfl

theorem toks_show (r : RuleD) : (r.toks env).flatMap (fun t => RuleD.showField t.1 t.2) = r.mockup env := by
  have hlit : ∀ t : Bytes, (t.map RuleD.litTok).flatMap (fun t => RuleD.showField t.1 t.2) = t := by
    intro t
    induction t with
    | nil => rfl
    | cons c t ih => rw [List.map_cons, List.flatMap_cons, ih]; rfl
  unfold RuleD.toks RuleD.mockup
  rw [List.flatMap_append, hlit]
  congr 1
  generalize r.parts = ps
  induction ps with
  | nil => rfl
  | cons p ps ih => rw [List.flatMap_cons, List.flatMap_append, ih, List.flatMap_cons, List.flatMap_cons, hlit]

/-- the configuration determines the field -/
theorem tokConf_inj {t t' : FType × Obj} (h : Describes t.1 t.2) (h' : Describes t'.1 t'.2) (he : tokConf t = tokConf t') : t = t' := by
  obtain ⟨f, o⟩ := t
  obtain ⟨f', o'⟩ := t'
  cases he
  rw [show f = f' from Describes.type_unique h h']

theorem toks_inj : ∀ {a c : List (FType × Obj)}, (∀ t ∈ a, Describes t.1 t.2) → (∀ t ∈ c, Describes t.1 t.2) →
    a.map tokConf = c.map tokConf → a = c
  | [], [], _, _, _ => rfl
  | [], _ :: _, _, _, h => by cases h
  | _ :: _, [], _, _, h => by cases h
  | x :: a, y :: c, ha, hc, h => by
    simp only [List.map_cons, List.cons.injEq] at h
    rw [tokConf_inj (ha x (List.mem_cons_self ..)) (hc y (List.mem_cons_self ..)) h.1,
      toks_inj (fun t ht => ha t (List.mem_cons_of_mem _ ht)) (fun t ht => hc t (List.mem_cons_of_mem _ ht)) h.2]

theorem toks_prefix {a c : List (FType × Obj)} (ha : ∀ t ∈ a, Describes t.1 t.2) (hc : ∀ t ∈ c, Describes t.1 t.2)
    (h : a.map tokConf <+: c.map tokConf) : a <+: c := by
  obtain ⟨u, hu⟩ := h
  obtain ⟨c1, c2, h1, h2, h3⟩ := List.map_eq_append_iff.1 hu.symm
  subst h1
  rw [toks_inj ha (fun t ht => hc t (List.mem_append_left _ ht)) h2.symm]
  exact List.prefix_append ..

end
end LN
