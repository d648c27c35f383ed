import Verif.Spec.DocT
import Verif.Proofs.DocD
import Verif.Props.Types
/- Rule bases of version 2 with user-defined types. -/
set_option autoImplicit false
namespace LN
open Spec

section
variable {env : Env} {s : Bytes}

/-- behind the end of the message fields accept nothing which they would not accept at the end -/
theorem runParser_beyond {off : Nat} (hl : s.length < off) {k : PKind} {want : Bool} {x : Nat × Option Json}
    (h : runParser env s off k want = .ok x) : ∃ y, runParser env s s.length k want = .ok y := by
  have hr : rd s off = .ub .oobRead := by unfold rd; rw [dif_neg (by omega), if_neg (by omega)]
  have hdr : s.drop off = [] := List.drop_of_length_le (by omega)
  have hsc : ∀ p, scan p s off = off := by intro p; simp [scan, hdr]
  have hsl : ∀ n, slice s off n = [] := by intro n; simp [slice, hdr]
  have hg : ∀ n, decide (off + n ≤ s.length) = false := by intro n; simp; omega
  have hsub : s.length - off = 0 := by omega
  have hlt : ¬ off < s.length := by omega
  cases k with
  | literal d =>
    cases d with
    | none => cases h
    | some l =>
      change parseLiteral s off l want = _ at h
      unfold parseLiteral at h
      rw [hdr] at h
      cases l with
      | nil => exact ⟨_, show parseLiteral s s.length [] want = _ by unfold parseLiteral; rw [List.drop_length]; rfl⟩
      | cons c l => cases h
  | nameValue d =>
    cases d with
    | none => cases h
    | some d =>
      refine ⟨(0, if want then some (.obj []) else none), ?_⟩
      show parseNameValue s s.length d want = _
      unfold parseNameValue
      rw [Nat.sub_self]
      simp [nvLoop]
  | lea t =>
    refine ⟨(0, none), ?_⟩
    show parseCheckpointLEA s s.length t want = _
    unfold parseCheckpointLEA
    rw [Nat.sub_self]
    simp [leaLoop]
  | charSep d =>
    cases d with
    | none => cases h
    | some l => exact ⟨_, rfl⟩
  | stringTo d =>
    cases d with
    | none => cases h
    | some l =>
      change parseStringTo s off l want = _ at h
      unfold parseStringTo at h
      rw [hsub] at h
      simp [stringToLoop] at h
  | charTo d =>
    cases d with
    | none => cases h
    | some l =>
      change parseCharTo s off l want = _ at h
      simp [parseCharTo, hsc] at h
  | string d =>
    cases d with
    | none => cases h
    | some d =>
      change parseString s off d want = _ at h
      unfold parseString at h
      rw [show decide (off ≠ s.length) = true by simp; omega, hr] at h
      cases h
  | number d =>
    change parseNumber s off (some d) want = _ at h
    unfold parseNumber at h
    dsimp only at h
    rw [hsc, hsl] at h
    simp only [accDec, R.ok_bind, R.guard_bind, ne_eq, not_true_eq_false, decide_false, Bool.false_eq_true, if_false] at h
    split at h <;> cases h
  | dateRfc3164 f =>
    change parseRFC3164Date env s off f want = _ at h
    unfold parseRFC3164Date cursor at h
    rw [if_pos hl] at h
    cases h
  | dateRfc5424 f =>
    change parseRFC5424Date s off f want = _ at h
    unfold parseRFC5424Date cursor at h
    rw [if_pos hl] at h
    cases h
  | float f => change parseFloat s off f want = _ at h; unfold parseFloat at h; rw [hr] at h; cases h
  | hexnumber d => change parseHexNumber s off d want = _ at h; unfold parseHexNumber at h; rw [hr] at h; cases h
  | kernelTs => change parseKernelTimestamp s off want = _ at h; unfold parseKernelTimestamp guardChar at h; rw [hr] at h; cases h
  | whitespace => change parseWhitespace s off want = _ at h; unfold parseWhitespace at h; rw [hr] at h; cases h
  | ipv4 => change parseIPv4 s off want = _ at h; unfold parseIPv4 at h; rw [hg] at h; cases h
  | ipv6 => change parseIPv6 s off want = _ at h; unfold parseIPv6 at h; rw [hg] at h; cases h
  | word => change parseWord s off want = _ at h; simp [parseWord, hsc] at h
  | alpha => change parseAlpha s off want = _ at h; simp [parseAlpha, hsc] at h
  | rest => change parseRest s off want = _ at h; unfold parseRest at h; rw [if_pos hl] at h; cases h
  | opQuoted => change parseOpQuotedString s off want = _ at h; unfold parseOpQuotedString at h; rw [hr] at h; cases h
  | quoted => change parseQuotedString s off want = _ at h; unfold parseQuotedString at h; rw [hg] at h; cases h
  | dateIso => change parseISODate s off want = _ at h; unfold parseISODate at h; rw [hg] at h; cases h
  | time24 => change parseTime24hr s off want = _ at h; unfold parseTime24hr at h; rw [hg] at h; cases h
  | time12 => change parseTime12hr s off want = _ at h; unfold parseTime12hr at h; rw [hg] at h; cases h
  | duration => change parseDuration s off want = _ at h; unfold parseDuration guardDigit at h; rw [hr] at h; cases h
  | cisco => change parseCisco s off want = _ at h; unfold parseCisco at h; rw [hr] at h; cases h
  | json => change parseJSON env s off want = _ at h; unfold parseJSON at h; rw [hr] at h; cases h
  | cee => change parseCEESyslog env s off want = _ at h; unfold parseCEESyslog at h; rw [hg] at h; cases h
  | mac48 => change parseMAC48 s off want = _ at h; unfold parseMAC48 at h; rw [hg] at h; cases h
  | cef => change parseCEF s off want = _ at h; unfold parseCEF at h; rw [hg] at h; cases h
  | iptables =>
    change parseIPTables s off want = _ at h
    unfold parseIPTables at h
    rw [hsub] at h
    simp [iptStage1, hlt] at h
  | repeat_ d => cases h
  | custom i => cases h

/-! ### descriptions -/

theorem DescribesUser.userType {nm : Bytes} {o : Obj} (h : DescribesUser nm o) : userType env (.obj o) = some nm := by
  unfold LN.userType Json.ptr Json.member
  simp only [h.type, Option.bind_some, strOf_text env h.noNul, h.at_, if_true]

theorem DescribesUser.confName {nm : Bytes} {o : Obj} (h : DescribesUser nm o) : confName env (.obj o) = fieldName o := by
  unfold LN.confName fieldName Json.ptr Json.member
  rcases h.name with h | ⟨w, h, hz⟩
  · simp [h, strP]
  · simp [h, strP, strOf_text env hz]

theorem FType.not_user (f : FType) (nm : Bytes) (h : nm.head? = some (ch! '@')) : f.name ≠ nm := by
  intro he
  rw [← he] at h
  cases f <;> revert h <;> decide

theorem described_inj {f g : TType} {o : Obj} (h : f.Described o) (h' : g.Described o) : f = g := by
  cases f with
  | plain f =>
    cases g with
    | plain g => rw [Describes.type_unique h h']
    | user nm =>
      have := Json.str.inj (Option.some.inj ((Describes.type h).symm.trans (DescribesUser.type h')))
      exact absurd this (FType.not_user f nm (DescribesUser.at_ h'))
  | user nm =>
    cases g with
    | plain g =>
      have := Json.str.inj (Option.some.inj ((Describes.type h').symm.trans (DescribesUser.type h)))
      exact absurd this (FType.not_user g nm (DescribesUser.at_ h))
    | user nm' => rw [Json.str.inj (Option.some.inj ((DescribesUser.type h).symm.trans (DescribesUser.type h')))]

/-- the configuration of a field -/
def tokConfT (t : RTok) : Json := .obj t.2

theorem tokConfT_inj {t t' : RTok} (h : t.1.Described t.2) (h' : t'.1.Described t'.2) (he : tokConfT t = tokConfT t') : t = t' := by
  obtain ⟨f, o⟩ := t
  obtain ⟨f', o'⟩ := t'
  cases he
  rw [show f = f' from described_inj h h']

theorem toksT_inj : ∀ {a c : List RTok}, (∀ t ∈ a, t.1.Described t.2) → (∀ t ∈ c, t.1.Described t.2) →
    a.map tokConfT = c.map tokConfT → a = c
  | [], [], _, _, _ => rfl
  | [], _ :: _, _, _, h => by cases h
  | _ :: _, [], _, _, h => by cases h
  | x :: a, y :: c, ha, hc, h => by
    simp only [List.map_cons, List.cons.injEq] at h
    rw [tokConfT_inj (ha x (List.mem_cons_self ..)) (hc y (List.mem_cons_self ..)) h.1,
      toksT_inj (fun t ht => ha t (List.mem_cons_of_mem _ ht)) (fun t ht => hc t (List.mem_cons_of_mem _ ht)) h.2]

theorem toksT_prefix {a c : List RTok} (ha : ∀ t ∈ a, t.1.Described t.2) (hc : ∀ t ∈ c, t.1.Described t.2)
    (h : a.map tokConfT <+: c.map tokConfT) : a <+: c := by
  obtain ⟨u, hu⟩ := h
  obtain ⟨c1, c2, h1, h2, h3⟩ := List.map_eq_append_iff.1 hu.symm
  subst h1
  rw [toksT_inj ha (fun t ht => hc t (List.mem_append_left _ ht)) h2.symm]
  exact List.prefix_append ..

theorem toksT_desc {r : RuleT} (hr : ∀ p ∈ r.parts, p.1.OK env) : ∀ t ∈ r.toks env, t.1.Described t.2 := by
  have hlit : ∀ (l : Bytes), ∀ t ∈ (litMeaning env l).map RuleT.litTok, t.1.Described t.2 := by
    intro l t ht
    obtain ⟨c, hc, rfl⟩ := List.mem_map.1 ht
    exact litTok_desc (litMeaning_ne l c hc)
  intro t ht
  rcases List.mem_append.1 ht with h | h
  · exact hlit _ t h
  · obtain ⟨p, hp, h⟩ := List.mem_flatMap.1 h
    rcases List.mem_cons.1 h with rfl | h
    · exact (hr p hp).desc
    · exact hlit _ t h

/-- the configurations of the parts of a rule -/
def partConfs (env : Env) (ps : List (FieldT × Bytes)) : List Json :=
  ps.flatMap fun p => .obj p.1.conf :: litParsers (litMeaning env p.2)

theorem lits_confs (t : Bytes) : (t.map RuleT.litTok).map tokConfT = litParsers t := by
  unfold litParsers
  rw [List.map_map]; rfl

theorem toksT_confs (r : RuleT) : (r.toks env).map tokConfT = litParsers (litMeaning env r.lit) ++ partConfs env r.parts := by
  unfold RuleT.toks partConfs
  rw [List.map_append, lits_confs]
  congr 1
  generalize r.parts = ps
  induction ps with
  | nil => rfl
  | cons p ps ih =>
    rw [List.flatMap_cons, List.map_append, ih, List.map_cons, List.flatMap_cons, lits_confs]
    rfl

theorem toksT_show (r : RuleT) : (r.toks env).flatMap (fun t => RuleT.showField t.1 t.2) = r.mockup env := by
  have hlit : ∀ t : Bytes, (t.map RuleT.litTok).flatMap (fun t => RuleT.showField t.1 t.2) = t := by
    intro t
    induction t with
    | nil => rfl
    | cons c t ih => rw [List.map_cons, List.flatMap_cons, ih]; rfl
  unfold RuleT.toks RuleT.mockup
  rw [List.flatMap_append, hlit]
  congr 1
  generalize r.parts = ps
  induction ps with
  | nil => rfl
  | cons p ps ih => rw [List.flatMap_cons, List.flatMap_append, ih, List.flatMap_cons, List.flatMap_cons, hlit]

/-- a rule or definition as it reaches the graph -/
def RuleT.toDef (env : Env) (r : RuleT) : Def :=
  { type := r.type
    rule := { confs := (r.toks env).map tokConfT, complete := r.breaks.isNone, tags := tagBucket r.tags, file := r.file, line := r.line } }

/-! ### derivations and what is made up -/

/-- the conditions on parts of rules and the message under which the fields do what they mean -/
def PartsOK (env : Env) (s : Bytes) (ps : List (FieldT × Bytes)) : Prop :=
  ∀ p ∈ ps, p.1.OK env ∧ ∀ ty, p.1.type = .plain ty → ∀ off, off ≤ s.length → ty.InScope env p.1.conf s off (fieldName p.1.conf).isSome

/-- characters of literal text -/
theorem lit_run (hs : Tame s) {c : UInt8} (hc : c ≠ 0) {off : Nat} (hl : off ≤ s.length) :
    ∃ p, confField env [] (.obj (RuleD.litTok c).2) = some p ∧ p.name = none ∧
      ∀ n w, runParser env s off p.kind p.name.isSome = .ok (n, w) ↔ [c] <+: s.drop off ∧ n = 1 ∧ w = none := by
  have hd := litTok_desc hc
  obtain ⟨p, hp, _⟩ := confField_ok (env := env) hd
  obtain ⟨h1, _, _, h4, h5⟩ := field_does hs hd hl (show FType.literal.InScope env _ s off _ from trivial) hp
  rw [litTok_name] at h1
  refine ⟨p, hp, h1, fun n w => ⟨fun h => ?_, ?_⟩⟩
  · obtain ⟨v, hm, hw⟩ := h5 n w h
    obtain ⟨k1, k2, _⟩ := (litTok_means hc).1 hm
    rw [h1] at hw
    exact ⟨k1, k2, hw⟩
  · rintro ⟨k1, rfl, rfl⟩
    have := h4 1 _ ((litTok_means hc).2 ⟨k1, rfl, rfl⟩)
    rw [this, h1]
    rfl

variable {defs : List Def}

theorem derives_lits (hs : Tame s) {slack : Prop} : ∀ (t : Bytes) {cs : List Json} {off off' : Nat} {us : List (Option Bytes × Option Json)},
    (∀ c ∈ t, c ≠ 0) → off ≤ s.length → t <+: s.drop off → Derives env defs s slack cs (off + t.length) us off' →
    ∃ vs, Derives env defs s slack (litParsers t ++ cs) off vs off' ∧ ∀ o, placeAll o vs = placeAll o us
  | [], cs, off, off', us, _, _, _, h => ⟨us, h, fun _ => rfl⟩
  | c :: t, cs, off, off', us, h0, hl, hp, h => by
    obtain ⟨u, hu⟩ := hp
    have hd : s.drop (off + 1) = t ++ u := by rw [← List.drop_drop, ← hu]; rfl
    have hl1 : off + 1 ≤ s.length := by
      have := congrArg List.length hu
      simp at this
      omega
    rw [List.length_cons, Nat.add_comm t.length 1, ← Nat.add_assoc] at h
    obtain ⟨vs, h1, h2⟩ := derives_lits hs t (fun x hx => h0 x (List.mem_cons_of_mem _ hx)) hl1 (by rw [hd]; exact List.prefix_append ..) h
    obtain ⟨p, k1, k2, k3⟩ := lit_run (env := env) hs (h0 c (List.mem_cons_self ..)) hl
    refine ⟨_, .plain (c := .obj (RuleD.litTok c).2) k1 ((k3 1 none).2 ⟨⟨t ++ u, by rw [← hu]; rfl⟩, rfl, rfl⟩) h1, fun o => ?_⟩
    rw [← h2 o, k2]; rfl

theorem drop_prefix_length {t u : Bytes} {off : Nat} (h : s.drop off = t ++ u) : s.drop (off + t.length) = u ∧ (off ≤ s.length → off + t.length ≤ s.length) := by
  constructor
  · rw [← List.drop_drop, h, List.drop_left]
  · intro hl
    have := congrArg List.length h
    simp at this
    omega

theorem derives_of_fits (he : env.TokOK) (hs : Tame s) {ds : List RuleT} (hds : ∀ d ∈ ds, PartsOK env s d.parts) {t : Bytes} {ps : List (FieldT × Bytes)}
    {vs : List (Option Bytes × Option Json)} {rest : Bytes} (h : RuleT.Fits env ds t ps vs rest) :
    ∀ {off : Nat}, off ≤ s.length → s.drop off = t → PartsOK env s ps →
      ∃ ws off', Derives env (ds.map (RuleT.toDef env)) s False (partConfs env ps) off ws off' ∧ off' ≤ s.length ∧ s.drop off' = rest ∧
        ∀ o, placeAll o ws = placeValues o vs := by
  induction h with
  | nil t =>
    intro off hl hd _
    exact ⟨[], off, .nil _, hl, hd, fun _ => rfl⟩
  | @plain t t' l rest f ty n v ps vs hty hm hdr _ ih =>
    intro off hl hd hok
    obtain ⟨hf, hin⟩ := hok _ (List.mem_cons_self ..)
    have hde : Describes ty f.conf := by have := hf.desc; rw [hty] at this; exact this
    obtain ⟨p, hp, _⟩ := confField_ok (env := env) hde
    obtain ⟨h1, h2, _, h4, _⟩ := field_does hs hde hl (hin ty hty off hl) hp
    have hrun := h4 n v (by rw [hd]; exact hm)
    have hle := runParser_le he hl (Describes.cee_first (hin ty hty) h2) hrun
    have hd1 : s.drop (off + n) = litMeaning env l ++ t' := by rw [← List.drop_drop, hd]; exact hdr
    obtain ⟨hd2, hl2⟩ := drop_prefix_length hd1
    obtain ⟨ws, off', k1, k2, k3, k4⟩ := ih (hl2 hle) hd2 fun x hx => hok x (List.mem_cons_of_mem _ hx)
    obtain ⟨xs, h7, h8⟩ := derives_lits hs _ (litMeaning_ne l) hle (by rw [hd1]; exact List.prefix_append ..) k1
    refine ⟨_, off', .plain hp hrun h7, k2, k3, fun o => ?_⟩
    show place (placeAll o xs) _ _ = place (placeValues o vs) _ _
    rw [h8, k4, h1]
    cases fieldName f.conf with
    | none => rfl
    | some nm => rfl
  | @user t t1 t2 t' l rest f nm d us ps vs hty hd0 hdt hdb ht1 hdef ht2 _ ih1 ih2 =>
    intro off hl hd hok
    obtain ⟨hf, _⟩ := hok _ (List.mem_cons_self ..)
    have hde : DescribesUser nm f.conf := by have := hf.desc; rw [hty] at this; exact this
    rw [ht1] at hd
    obtain ⟨hd1, hl1⟩ := drop_prefix_length hd
    obtain ⟨ws1, off1, a1, a2, a3, a4⟩ := ih1 (hl1 hl) hd1 (hds d hd0)
    obtain ⟨xs1, a5, a6⟩ := derives_lits hs _ (litMeaning_ne d.lit) hl (by rw [hd]; exact List.prefix_append ..) a1
    rw [ht2] at a3
    obtain ⟨hd2, hl2⟩ := drop_prefix_length a3
    obtain ⟨ws, off', k1, k2, k3, k4⟩ := ih2 (hl2 a2) hd2 fun x hx => hok x (List.mem_cons_of_mem _ hx)
    obtain ⟨xs, h7, h8⟩ := derives_lits hs _ (litMeaning_ne l) a2 (by rw [a3]; exact List.prefix_append ..) k1
    refine ⟨_, off', .user (c := .obj f.conf) (t := nm) (d := d.toDef env) (us := xs1) hde.userType (List.mem_map.2 ⟨d, hd0, rfl⟩) hdt (by show d.breaks.isNone = true; rw [hdb]; rfl) ?_ (.inr rfl) h7, k2, k3, fun o => ?_⟩
    · show Derives env _ s False ((d.toks env).map tokConfT) off xs1 off1
      rw [toksT_confs]; exact a5
    · show place (placeAll o xs) _ _ = place (placeValues o vs) _ _
      rw [h8, k4, hde.confName, a6, a4]

theorem fits_of_derives (he : env.TokOK) (hs : Tame s) {ds : List RuleT} (hds : ∀ d ∈ ds, PartsOK env s d.parts) {cs : List Json} {off : Nat}
    {ws : List (Option Bytes × Option Json)} {off' : Nat} (h : Derives env (ds.map (RuleT.toDef env)) s False cs off ws off') :
    ∀ (t : Bytes) (ps : List (FieldT × Bytes)), cs = litParsers t ++ partConfs env ps → (∀ c ∈ t, c ≠ 0) → PartsOK env s ps → off ≤ s.length →
      t <+: s.drop off ∧ off' ≤ s.length ∧ ∃ vs, RuleT.Fits env ds (s.drop (off + t.length)) ps vs (s.drop off') ∧
        ∀ o, placeAll o ws = placeValues o vs := by
  induction h with
  | nil off =>
    intro t ps hcs h0 hok hl
    cases t with
    | cons c t => cases hcs
    | nil =>
      cases ps with
      | cons p ps => cases hcs
      | nil => exact ⟨List.nil_prefix, hl, [], .nil _, fun _ => rfl⟩
  | @plain c p cs off len v vs off' hfield hrun htail ih =>
    intro t ps hcs h0 hok hl
    cases t with
    | cons a t =>
      change _ = .obj (RuleD.litTok a).2 :: (litParsers t ++ partConfs env ps) at hcs
      injection hcs with hc hcs
      subst hc
      obtain ⟨p', k1, k2, k3⟩ := lit_run (env := env) hs (h0 a (List.mem_cons_self ..)) hl
      rw [hfield] at k1; cases k1
      obtain ⟨⟨u, hu⟩, rfl, rfl⟩ := (k3 _ _).1 hrun
      have hd : s.drop (off + 1) = u := by rw [← List.drop_drop, ← hu]; rfl
      have hl1 : off + 1 ≤ s.length := by
        have := congrArg List.length hu
        simp at this
        omega
      obtain ⟨⟨w, hw⟩, i2, us, i3, i4⟩ := ih t ps hcs (fun x hx => h0 x (List.mem_cons_of_mem _ hx)) hok hl1
      refine ⟨⟨w, ?_⟩, i2, us, ?_, fun o => ?_⟩
      · rw [← hu, ← hd, ← hw]; rfl
      · rw [List.length_cons, Nat.add_comm t.length 1, ← Nat.add_assoc]; exact i3
      · rw [← i4 o, k2]; rfl
    | nil =>
      cases ps with
      | nil => cases hcs
      | cons q ps =>
        obtain ⟨f, l⟩ := q
        change _ = .obj f.conf :: (litParsers (litMeaning env l) ++ partConfs env ps) at hcs
        injection hcs with hc hcs
        subst hc
        obtain ⟨hf, hin⟩ := hok _ (List.mem_cons_self ..)
        cases hty : f.type with
        | user nm =>
          have hde : DescribesUser nm f.conf := by have := hf.desc; rw [hty] at this; exact this
          have := confField_not_user hfield
          rw [hde.userType] at this; cases this
        | plain ty =>
          have hde : Describes ty f.conf := by have := hf.desc; rw [hty] at this; exact this
          obtain ⟨h1, h2, _, _, h5⟩ := field_does hs hde hl (hin ty hty off hl) hfield
          obtain ⟨w, hm, hw⟩ := h5 len v hrun
          have hle := runParser_le he hl (Describes.cee_first (hin ty hty) h2) hrun
          obtain ⟨⟨u, hu⟩, i2, us, i3, i4⟩ := ih _ ps hcs (litMeaning_ne l) (fun x hx => hok x (List.mem_cons_of_mem _ hx)) hle
          rw [(drop_prefix_length hu.symm).1] at i3
          refine ⟨List.nil_prefix, i2, _, .plain (n := len) (v := w) hty hm (by rw [List.length_nil, Nat.add_zero, List.drop_drop]; exact hu.symm) i3, fun o => ?_⟩
          show place (placeAll o vs) _ _ = place (placeValues o us) _ _
          rw [i4, hw, h1]
          cases fieldName f.conf with
          | none => rfl
          | some nm => rfl
  | @user c ty d cs off e mid us vs off' hfield hd hdt hdc hdef hend htail ih1 ih2 =>
    intro t ps hcs h0 hok hl
    cases t with
    | cons a t =>
      change _ = .obj (RuleD.litTok a).2 :: (litParsers t ++ partConfs env ps) at hcs
      injection hcs with hc hcs
      subst hc
      obtain ⟨p', k1, k2, k3⟩ := lit_run (env := env) hs (h0 a (List.mem_cons_self ..)) hl
      rw [confField_not_user k1] at hfield; cases hfield
    | nil =>
      cases ps with
      | nil => cases hcs
      | cons q ps =>
        obtain ⟨f, l⟩ := q
        change _ = .obj f.conf :: (litParsers (litMeaning env l) ++ partConfs env ps) at hcs
        injection hcs with hc hcs
        subst hc
        obtain ⟨hf, hin⟩ := hok _ (List.mem_cons_self ..)
        cases hty : f.type with
        | plain ty' =>
          have hde : Describes ty' f.conf := by have := hf.desc; rw [hty] at this; exact this
          obtain ⟨p, hp, _⟩ := confField_ok (env := env) hde
          rw [confField_not_user hp] at hfield; cases hfield
        | user nm =>
          have hde : DescribesUser nm f.conf := by have := hf.desc; rw [hty] at this; exact this
          rw [hde.userType] at hfield
          cases hfield
          obtain ⟨r, hr, rfl⟩ := List.mem_map.1 hd
          rcases hend with hend | rfl
          · exact hend.elim
          obtain ⟨⟨u1, hu1⟩, a2, us1, a3, a4⟩ := ih1 _ r.parts (toksT_confs r) (litMeaning_ne r.lit) (hds r hr) hl
          rw [(drop_prefix_length hu1.symm).1] at a3
          obtain ⟨⟨u, hu⟩, i2, vs1, i3, i4⟩ := ih2 _ ps hcs (litMeaning_ne l) (fun x hx => hok x (List.mem_cons_of_mem _ hx)) a2
          rw [(drop_prefix_length hu.symm).1] at i3
          refine ⟨List.nil_prefix, i2, _, .user hty hr hdt (Option.isNone_iff_eq_none.1 hdc) (by rw [List.length_nil, Nat.add_zero]; exact hu1.symm) a3 hu.symm i3, fun o => ?_⟩
          show place (placeAll o vs) _ _ = place (placeValues o vs1) _ _
          rw [i4, hde.confName, a4]

theorem gives_iff_matches (he : env.TokOK) (hs : Tame s) {ds : List RuleT} (hds : ∀ d ∈ ds, PartsOK env s d.parts) {r : RuleT} (hr : r ∈ ds) :
    (∀ vs, r.Matches env ds s vs → ∃ ws, Derives env (ds.map (RuleT.toDef env)) s False ((r.toks env).map tokConfT) 0 ws s.length ∧
      ∀ o, placeAll o ws = placeValues o vs) ∧
    (r.breaks = none → ∀ ws, Derives env (ds.map (RuleT.toDef env)) s False ((r.toks env).map tokConfT) 0 ws s.length → ∃ vs, r.Matches env ds s vs ∧
      ∀ o, placeAll o ws = placeValues o vs) := by
  constructor
  · rintro vs ⟨_, t, hst, hf⟩
    have hd : s.drop 0 = litMeaning env r.lit ++ t := hst
    obtain ⟨h1, h2⟩ := drop_prefix_length hd
    obtain ⟨ws, off', k1, k2, k3, k4⟩ := derives_of_fits he hs hds hf (h2 (Nat.zero_le _)) h1 (hds r hr)
    have : off' = s.length := by
      have := congrArg List.length k3
      simp at this
      omega
    subst this
    obtain ⟨xs, a5, a6⟩ := derives_lits hs _ (litMeaning_ne r.lit) (Nat.zero_le _) (by rw [hd]; exact List.prefix_append ..) k1
    exact ⟨xs, by rw [toksT_confs]; exact a5, fun o => (a6 o).trans (k4 o)⟩
  · intro hb ws h
    obtain ⟨⟨u, hu⟩, _, vs, k1, k2⟩ := fits_of_derives he hs hds h _ r.parts (toksT_confs r) (litMeaning_ne r.lit) (hds r hr) (Nat.zero_le _)
    rw [(drop_prefix_length hu.symm).1, List.drop_length] at k1
    exact ⟨vs, ⟨hb, u, hu.symm, k1⟩, k2⟩

end
end LN
