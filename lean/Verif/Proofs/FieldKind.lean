import Verif.Proofs.FieldConf
import Verif.Props.FieldsA
import Verif.Props.FieldsB
import Verif.Props.FieldsC
import Verif.Props.FieldsD
import Verif.Props.FieldsE
import Verif.Props.FieldsF
import Verif.Props.FieldsH
import Verif.Props.FieldsI
import Verif.Props.FieldsJ
import Verif.Props.Dates
/-
From field descriptions to parsers, and what these parsers do.
-/
set_option autoImplicit false
namespace LN
open Spec

/-- cef: events as they are to be written, or something else at all -/
theorem parseCEF_other {s : Bytes} {offs : Nat} (hl : offs ≤ s.length) (want : Bool) (h : ¬ (17 ≤ (s.drop offs).length ∧ bs! "CEF:0|" <+: s.drop offs)) :
    parseCEF s offs want = .fail := by
  unfold parseCEF
  by_cases h17 : offs + 17 ≤ s.length
  · have hp : ¬ bs! "CEF:0|" <+: s.drop offs := fun h0 => h ⟨by rw [List.length_drop]; omega, h0⟩
    obtain ⟨a, b, c, d, e, f, r, hd⟩ : ∃ a b c d e f r, s.drop offs = a :: b :: c :: d :: e :: f :: r := by
      have : 6 ≤ (s.drop offs).length := by rw [List.length_drop]; omega
      match hk : s.drop offs, this with
      | a :: b :: c :: d :: e :: f :: r, _ => exact ⟨a, b, c, d, e, f, r, rfl⟩
    have d1 := drop_of_cons hd
    have d2 := drop_of_cons d1
    have d3 := drop_of_cons d2
    have d4 := drop_of_cons d3
    have d5 := drop_of_cons d4
    rw [decide_eq_true h17]
    simp only [R.guard_true, R.ok_bind, guardChar, rd_of_cons hd, rd_of_cons d1, rd_of_cons d2, rd_of_cons d3, rd_of_cons d4, rd_of_cons d5]
    rw [hd] at hp
    by_cases ha : a = ch! 'C' <;> by_cases hb : b = ch! 'E' <;> by_cases hc : c = ch! 'F' <;> by_cases hd' : d = ch! ':' <;> by_cases he : e = ch! '0' <;>
      by_cases hf : f = ch! '|' <;> first
      | (subst ha hb hc hd' he hf; exact absurd ⟨r, rfl⟩ hp)
      | simp [ha, hb, hc, hd', he, hf, R.guard]
  · rw [decide_eq_false h17]; rfl

/-- the parser a description of type `f` yields -/
def KindFor (o : Obj) : FType → PKind → Prop
  | .literal, k => ∃ w, TextP o (bs! "text") w ∧ k = .literal (some w)
  | .stringTo, k => ∃ w, TextP o (bs! "extradata") w ∧ k = .stringTo (some w)
  | .charTo, k => ∃ w, TextP o (bs! "extradata") w ∧ k = .charTo (some w)
  | .charSep, k => ∃ w, TextP o (bs! "extradata") w ∧ k = .charSep (some w)
  | .dateRfc3164, k => k = .dateRfc3164 (dateFmt o)
  | .dateRfc5424, k => k = .dateRfc5424 (dateFmt o)
  | .number, k => k = .number { maxval := intP o (bs! "maxval"), fmt := numFormat o }
  | .float, k => k = .float (numFormat o)
  | .hexnumber, k => k = .hexnumber { maxval := (intP o (bs! "maxval")).toNat, fmt := numFormat o }
  | .nameValue, k => k = .nameValue (some (nvConf o))
  | .lea, k => k = .lea (charP o (bs! "terminator") 0)
  | .string, k => ∃ d, k = .string (some d) ∧ ∀ d', StrConf o d' ↔ d' = d
  | .kernelTs, k => k = .kernelTs
  | .whitespace, k => k = .whitespace
  | .ipv4, k => k = .ipv4
  | .ipv6, k => k = .ipv6
  | .word, k => k = .word
  | .alpha, k => k = .alpha
  | .rest, k => k = .rest
  | .opQuoted, k => k = .opQuoted
  | .quoted, k => k = .quoted
  | .dateIso, k => k = .dateIso
  | .time24, k => k = .time24
  | .time12, k => k = .time12
  | .duration, k => k = .duration
  | .cisco, k => k = .cisco
  | .json, k => k = .json
  | .cee, k => k = .cee
  | .mac48, k => k = .mac48
  | .cef, k => k = .cef
  | .iptables, k => k = .iptables

section
variable {env : Env} {o : Obj} {f : FType}

theorem confName_eq (h : Describes f o) : confName env (.obj o) = fieldName o := by
  unfold confName fieldName Json.ptr Json.member
  rcases h.name with h | ⟨w, h, hz⟩
  · simp [h, strP]
  · simp [h, strP, strOf_text env hz]

theorem confPrio_eq (h : Describes f o) : confPrio env (.obj o) = fieldPrio o := by
  unfold confPrio fieldPrio Json.ptr Json.member
  rcases h.prio with h | ⟨n, h1, h2, h⟩
  · simp [h]
  · simp only [h]
    show intOf env (.int n) = n
    unfold intOf
    have : int64Of env (.int n) = n := rfl
    simp only [this]
    split
    · omega
    · split
      · omega
      · rfl

theorem prioOf_eq {p : Int} {q : Nat} (h1 : -8388608 ≤ p) (h2 : p ≤ 8388607) (hq : q < 256) : prioOf p q = p * 256 + q := by
  unfold prioOf wrap32
  rw [Nat.mod_eq_of_lt hq]
  omega

theorem get_rest {k : Bytes} (h1 : k ≠ bs! "type") (h2 : k ≠ bs! "priority") (h3 : k ≠ bs! "name") :
    Obj.get (confRest env (.obj o)) k = Obj.get o k := by
  unfold confRest Json.members
  refine get_filter fun v => ?_
  simp [h1, h2, h3]

theorem rest_nodup (h : (o.map (·.1)).Nodup) : ((confRest env (.obj o)).map (·.1)).Nodup := by
  unfold confRest Json.members
  exact h.sublist ((List.filter_sublist).map _)

theorem rest_name (h : Describes f o) : Obj.get (confRest env (.obj o)) (bs! "name") = none ∨
    ∃ w, TextP (confRest env (.obj o)) (bs! "name") w := by
  by_cases hc : (confName env (.obj o)).isSome = true
  · left
    apply get_none_of
    unfold confRest Json.members
    rw [hc]
    simp
  · have : Obj.get (confRest env (.obj o)) (bs! "name") = Obj.get o (bs! "name") := by
      unfold confRest Json.members
      refine get_filter fun v => ?_
      simp [hc]
    unfold TextP
    rw [this]
    exact h.name

theorem type_none_special (f : FType) : ¬ f.name.head? = some (ch! '@') ∧ f.name ≠ bs! "repeat" ∧
    (0 : UInt8) ∉ f.name ∧ f.prio < 256 ∧ parserPrio f.name = some f.prio := by
  cases f <;> decide

/-- same parameters as far as `string` is concerned -/
theorem Spec.StrConf.congr {o' : Obj} {d : DataString} (h : StrConf o d)
    (g : ∀ k, k ≠ bs! "type" → k ≠ bs! "priority" → k ≠ bs! "name" → Obj.get o' k = Obj.get o k)
    (hl : ∀ k ∈ o'.map (·.1), ∀ c ∈ k, isUpper c = false) : StrConf o' d := by
  obtain ⟨h1, h2, h3, h4, h5, h6, h7, h8⟩ := h
  have gs : ∀ k, k ≠ bs! "type" → k ≠ bs! "priority" → k ≠ bs! "name" → strP o' k = strP o k := by
    intro k a b c; unfold strP; rw [g k a b c]
  refine ⟨hl, ?_, ?_, ?_, ?_, ?_, ?_, h8⟩
  · rw [g _ (by decide) (by decide) (by decide)]; exact h2
  · unfold OneOf; rw [g _ (by decide) (by decide) (by decide), gs _ (by decide) (by decide) (by decide)]; exact h3
  · unfold CharOr charP; rw [g _ (by decide) (by decide) (by decide), gs _ (by decide) (by decide) (by decide)]; exact h4
  · unfold CharOr charP; rw [g _ (by decide) (by decide) (by decide), gs _ (by decide) (by decide) (by decide)]; exact h5
  · generalize d.perm = q at h6
    have gp := g (bs! "matching.permitted") (by decide) (by decide) (by decide)
    cases h6 with
    | all h => exact .all (gp ▸ h)
    | text w h ha => exact .text w (gp ▸ h) ha
    | list l h hp => exact .list l (gp ▸ h) hp
  · unfold OneOf; rw [g _ (by decide) (by decide) (by decide), gs _ (by decide) (by decide) (by decide)]; exact h7

theorem Spec.StrConf.toRest {d : DataString} (h : StrConf o d) : StrConf (confRest env (.obj o)) d := by
  refine h.congr (fun k a b c => get_rest a b c) fun k hk => ?_
  refine h.keys k ?_
  obtain ⟨m, hm, rfl⟩ := List.mem_map.1 hk
  unfold confRest Json.members at hm
  exact List.mem_map.2 ⟨m, (List.mem_filter.1 hm).1, rfl⟩

/-- the constructors -/
theorem construct_describes (h : Describes f o) : ∃ k, construct env f.name (confRest env (.obj o)) = .ok k ∧ KindFor o f k := by
  have hn := rest_nodup (env := env) h.nodup
  have hna := rest_name (env := env) h
  have hp := h.params
  have g : ∀ k, k ≠ bs! "type" → k ≠ bs! "priority" → k ≠ bs! "name" →
    Obj.get (confRest env (.obj o)) k = Obj.get o k := fun k a b c => get_rest a b c
  have gs : ∀ k, k ≠ bs! "type" → k ≠ bs! "priority" → k ≠ bs! "name" → strP (confRest env (.obj o)) k = strP o k := by
    intro k a b c; unfold strP; rw [g k a b c]
  have gi : intP (confRest env (.obj o)) (bs! "maxval") = intP o (bs! "maxval") := by
    unfold intP; rw [g _ (by decide) (by decide) (by decide)]
  have gc : ∀ k d, k ≠ bs! "type" → k ≠ bs! "priority" → k ≠ bs! "name" → charP (confRest env (.obj o)) k d = charP o k d := by
    intro k d a b c; unfold charP; rw [gs k a b c]
  have gdf : dateFmt (confRest env (.obj o)) = dateFmt o := by
    unfold dateFmt; rw [gs _ (by decide) (by decide) (by decide)]
  have gnf : numFormat (confRest env (.obj o)) = numFormat o := by
    unfold numFormat; rw [gs _ (by decide) (by decide) (by decide)]
  have gt : ∀ k w, k ≠ bs! "type" → k ≠ bs! "priority" → k ≠ bs! "name" → TextP o k w → TextP (confRest env (.obj o)) k w := by
    intro k w a b c h; unfold TextP; rw [g k a b c]; exact h
  have go : ∀ l, OneOf o (bs! "format") l → OneOf (confRest env (.obj o)) (bs! "format") l := by
    intro l h; unfold OneOf; rw [g _ (by decide) (by decide) (by decide)]; exact h
  have gm : IntOr o (bs! "maxval") 0 9223372036854775807 → IntOr (confRest env (.obj o)) (bs! "maxval") 0 9223372036854775807 := by
    intro h; unfold IntOr; rw [g _ (by decide) (by decide) (by decide)]; exact h
  have gch : ∀ k, k ≠ bs! "type" → k ≠ bs! "priority" → k ≠ bs! "name" → CharOr o k → CharOr (confRest env (.obj o)) k := by
    intro k a b c h; unfold CharOr; rw [g k a b c]; exact h
  unfold construct
  cases f <;> simp only [FType.ParamsOK] at hp
  case literal =>
    obtain ⟨w, hw⟩ := hp
    exact ⟨_, by rw [if_pos (by decide), ctorStr_ok (gt _ _ (by decide) (by decide) (by decide) hw)]; rfl, w, hw, rfl⟩
  case stringTo =>
    obtain ⟨w, hw⟩ := hp
    refine ⟨_, ?_, w, hw, rfl⟩
    rw [ctorStr_ok (gt _ _ (by decide) (by decide) (by decide) hw)]; rfl
  case charTo =>
    obtain ⟨w, hw⟩ := hp
    refine ⟨_, ?_, w, hw, rfl⟩
    rw [ctorStr_ok (k := bs! "extradata") (gt _ _ (by decide) (by decide) (by decide) hw)]; rfl
  case charSep =>
    obtain ⟨w, hw⟩ := hp
    refine ⟨_, ?_, w, hw, rfl⟩
    rw [ctorStr_ok (k := bs! "extradata") (gt _ _ (by decide) (by decide) (by decide) hw)]; rfl
  case dateRfc3164 =>
    refine ⟨_, ?_, rfl⟩
    rw [ctorDate_ok hn hna (go _ hp), gdf]; rfl
  case dateRfc5424 =>
    refine ⟨_, ?_, rfl⟩
    rw [ctorDate_ok hn hna (go _ hp), gdf]; rfl
  case number =>
    refine ⟨_, ?_, rfl⟩
    rw [ctorNumber_ok hn hna (go _ hp.1) (gm hp.2), gi, gnf]; rfl
  case float =>
    refine ⟨_, ?_, rfl⟩
    rw [ctorFloat_ok hn hna (go _ hp), gnf]; rfl
  case hexnumber =>
    refine ⟨_, ?_, rfl⟩
    rw [ctorHexNumber_ok hn hna (go _ hp.1) (gm hp.2), gi, gnf]; rfl
  case nameValue =>
    refine ⟨_, ?_, rfl⟩
    rw [ctorNameValue_ok (gch _ (by decide) (by decide) (by decide) hp.1) (gch _ (by decide) (by decide) (by decide) hp.2.1)
      (gch _ (by decide) (by decide) (by decide) hp.2.2)]
    have : nvConf (confRest env (.obj o)) = nvConf o := by
      unfold nvConf
      rw [gc _ _ (by decide) (by decide) (by decide), gc _ _ (by decide) (by decide) (by decide), gc _ _ (by decide) (by decide) (by decide)]
    rw [this]; rfl
  case lea =>
    refine ⟨_, ?_, rfl⟩
    rw [ctorLEA_ok hn (gch _ (by decide) (by decide) (by decide) hp), gc _ _ (by decide) (by decide) (by decide)]; rfl
  case string =>
    obtain ⟨d, hd⟩ := hp
    have hc : ctorString env (confRest env (.obj o)) = .ok (some d) := ctorString_ok hn hd.toRest
    refine ⟨_, by rw [hc]; rfl, d, rfl, fun d' => ⟨fun h' => ?_, fun e => e ▸ hd⟩⟩
    have := ctorString_ok (env := env) hn h'.toRest
    rw [hc] at this
    cases this; rfl
  all_goals exact ⟨_, rfl, rfl⟩

/-- A field description is understood: type, parameters, name and priority. -/
theorem KindFor.notRepeat {o : Obj} {f : FType} {k : PKind} (h : KindFor o f k) (d : Option (NodeId × NodeId × Bool)) : k ≠ .repeat_ d := by
  intro e
  subst e
  cases f <;> simp [KindFor] at h

theorem confField_ok (h : Describes f o) : ∃ p, confField env [] (.obj o) = some p ∧ KindFor o f p.kind ∧
    p.name = fieldName o ∧ p.prio = fieldPrio o * 256 + f.prio ∧ p.conf = .obj o := by
  obtain ⟨h1, h2, h3, h4, h5⟩ := type_none_special f
  obtain ⟨k, hk, hkf⟩ := construct_describes (env := env) h
  have hpr : -8388608 ≤ fieldPrio o ∧ fieldPrio o ≤ 8388607 := by
    unfold fieldPrio
    rcases h.prio with h | ⟨n, h1, h2, h⟩ <;> simp [h] <;> omega
  refine ⟨{ kind := k, node := 0, prio := prioOf (fieldPrio o) f.prio, name := fieldName o, conf := .obj o }, ?_, hkf, rfl, ?_, rfl⟩
  · unfold confField
    have : (Json.ptr (.obj o) (bs! "type")).bind (strOf env) = some f.name := by
      unfold Json.ptr Json.member
      simp only [h.type]
      exact strOf_text env h3
    simp only [this, h5, hk, if_neg h1, if_neg h2, confName_eq h, confPrio_eq h]
  · exact prioOf_eq hpr.1 hpr.2 h4

/-! ### What the parsers do -/

/-- the outcome `x` of a field parser is what `M` says, the value being delivered to named fields only -/
def Does (x : PR) (M : Nat → Option Json → Prop) (want : Bool) : Prop :=
  (∀ n v, M n v → x = .ok (n, if want then v else none)) ∧ ((∀ n v, ¬ M n v) → x = .fail)

theorem Does.of {x : PR} {spec : Nat → Prop} {val : Nat → Option Json} {M : Nat → Option Json → Prop} {want : Bool}
    (h : Implements x spec val) (h1 : ∀ n v, M n v → spec n ∧ val n = if want then v else none)
    (h2 : ∀ n, spec n → ∃ v, M n v) : Does x M want := by
  refine ⟨fun n v hm => ?_, fun hno => h.2 fun n hn => ?_⟩
  · rw [h.1 n (h1 n v hm).1, (h1 n v hm).2]
  · obtain ⟨v, hv⟩ := h2 n hn; exact hno n v hv

/-- the usual case: the value is the text -/
theorem Does.text {x : PR} {spec : Nat → Prop} {t : Bytes} {want : Bool}
    (h : Implements x spec (Spec.text want t)) : Does x (fun n v => spec n ∧ v = some (.str (t.take n))) want :=
  .of h (fun n v ⟨h1, h2⟩ => ⟨h1, by subst h2; rfl⟩) fun n hn => ⟨_, hn, rfl⟩

theorem Does.mono {x : PR} {M M' : Nat → Option Json → Prop} {want : Bool} (h : Does x M want)
    (e : ∀ n v, M' n v ↔ M n v) : Does x M' want :=
  ⟨fun n v hm => h.1 n v ((e n v).1 hm), fun hno => h.2 fun n v hm => hno n v ((e n v).2 hm)⟩

theorem TextP.inj {k w w' : Bytes} (h : TextP o k w) (h' : TextP o k w') : w = w' := by
  have := h.1.symm.trans h'.1
  cases this; rfl

theorem Does.withText {k w : Bytes} {x : PR} {spec : Bytes → Nat → Prop} {t : Bytes} {want : Bool} (hw : TextP o k w)
    (h : Does x (fun n v => spec w n ∧ v = some (.str (t.take n))) want) :
    Does x (fun n v => ∃ w, TextP o k w ∧ spec w n ∧ v = some (.str (t.take n))) want :=
  h.mono fun n v => ⟨fun ⟨w', h1, h2⟩ => TextP.inj hw h1 ▸ h2, fun h => ⟨w, hw, h⟩⟩

variable {s : Bytes} {offs : Nat} {want : Bool}

theorem does_number (h : Tame s) : Does (parseNumber s offs (some { maxval := intP o (bs! "maxval"), fmt := numFormat o }) want)
    (fun n v => FType.number.Means env o (s.drop offs) n v) want := by
  have hov : (decVal ((s.drop offs).takeWhile isDigit) : Int) + 48 ≤ int64Max :=
    portDigits_bound (fun c hc => takeWhile_mem hc) (Nat.le_trans (h.digits offs) (by decide))
  refine .of (C20_number_partial _ want hov) (fun n v ⟨h1, h2⟩ => ⟨h1, ?_⟩) fun n hn => ⟨_, hn, rfl⟩
  subst h2
  simp only [Option.map_some, Option.getD_some, numFormat, numValue]
  by_cases hc : strP o (bs! "format") = some (bs! "number")
  · simp only [if_pos hc, reduceCtorEq, if_false, ifNamed]
  · simp only [if_neg hc, if_true, Spec.text]

theorem does_hex (hl : offs ≤ s.length)
    (hs : FType.hexnumber.InScope env o s offs want) (hm : IntOr o (bs! "maxval") 0 9223372036854775807) :
    Does (parseHexNumber s offs { maxval := (intP o (bs! "maxval")).toNat, fmt := numFormat o } want)
    (fun n v => FType.hexnumber.Means env o (s.drop offs) n v) want := by
  have hnn : 0 ≤ intP o (bs! "maxval") := by
    rcases hm with h | ⟨n, h, _, h2⟩
    · rw [intP_none h]; simp
    · rw [intP_of h2]; exact h
  refine .of (C22_hexnumber_partial hl _ want ?_) (fun n v ⟨h1, h2⟩ => ⟨h1, ?_⟩) fun n hn => ⟨_, hn, rfl⟩
  · intro hc
    refine hs ?_
    rintro ⟨a, b⟩
    rcases hc with hc | hc
    · dsimp only at hc; rw [a] at hc; simp at hc
    · exact hc (by simp [numFormat, b])
  · subst h2
    dsimp only
    unfold numFormat numValue
    by_cases hc : strP o (bs! "format") = some (bs! "number")
    · simp only [if_pos hc, reduceCtorEq, if_false, ifNamed]
    · simp only [if_neg hc, if_true, Spec.text]

theorem does_float (hl : offs ≤ s.length) (h : Tame s) : Does (parseFloat s offs (numFormat o) want)
    (fun n v => FType.float.Means env o (s.drop offs) n v) want := by
  refine .of (C21_float hl _ want fun c hc => (h.ascii c hc).1) (fun n v ⟨h1, h2⟩ => ⟨h1, ?_⟩) fun n hn => ⟨_, hn, rfl⟩
  subst h2
  unfold numFormat numValue
  by_cases hc : strP o (bs! "format") = some (bs! "number")
  · simp only [if_pos hc, reduceCtorEq, if_false, ifNamed]
  · simp only [if_neg hc, if_true, Spec.text]

theorem few_drop (h : Tame s) : FewDigits (s.drop offs) := fun i => by rw [List.drop_drop]; exact h.digits _

theorem does_5424 (hl : offs ≤ s.length) (h : Tame s) (hs : FType.dateRfc5424.InScope env o s offs want) :
    Does (parseRFC5424Date s offs (dateFmt o) want)
    (fun n v => FType.dateRfc5424.Means env o (s.drop offs) n v) want := by
  have hf : FewDigits (s.drop offs) := few_drop h
  constructor
  · rintro n v ⟨x, hx, r, e, hr, rfl, rfl⟩
    cases want with
    | false =>
      unfold parseRFC5424Date
      rw [cursor_post hl]
      simp only [R.ok_bind]
      rw [rfc5424Syntax_ok hf hx e hr]
      have hl : (s.drop offs).length - r.length = x.text.length := by rw [e]; simp
      simp only [R.ok_bind, hl]
      rfl
    | true =>
      simp only [FType.InScope, WantsUnix] at hs
      unfold dateFmt stampValue
      simp only [if_true]
      by_cases h1 : strP o (bs! "format") = some (bs! "timestamp-unix")
      · simp only [if_pos h1]
        exact C46_unix_partial hl hf hx e hr (hs (.inl h1) x r hx e)
      · by_cases h2 : strP o (bs! "format") = some (bs! "timestamp-unix-ms")
        · simp only [if_neg h1, if_pos h2]
          exact C46_unix_ms_partial hl hf hx e hr (hs (.inr h2) x r hx e)
        · simp only [if_neg h1, if_neg h2]
          rw [(C45_rfc5424_partial hl hf true).1 _ ⟨x, hx, r, e, hr, rfl⟩]
          simp [Spec.text, e]
  · intro hno
    unfold parseRFC5424Date
    rw [cursor_post hl]
    simp only [R.ok_bind]
    rcases rfc5424Syntax_defined hf with ⟨⟨t, r⟩, he⟩ | he
    · obtain ⟨x, hx, e, hr, _⟩ := rfc5424Syntax_inv hf he
      exact absurd ⟨x, hx, r, e, hr, rfl, rfl⟩ (hno _ _)
    · rw [he]; rfl

theorem does_3164 (hl : offs ≤ s.length) (h : Tame s) (hs : FType.dateRfc3164.InScope env o s offs want) :
    Does (parseRFC3164Date env s offs (dateFmt o) want)
    (fun n v => FType.dateRfc3164.Means env o (s.drop offs) n v) want := by
  have hf : FewDigits (s.drop offs) := few_drop h
  constructor
  · rintro n v ⟨x, mon, hx, r, e, hr, rfl, rfl⟩
    have hlen : (s.drop offs).length - r.length = x.text.length := by rw [e]; simp
    cases want with
    | false =>
      unfold parseRFC3164Date
      rw [cursor_post hl]
      simp only [R.ok_bind]
      rw [rfc3164Syntax_ok hf hx e hr]
      simp only [R.ok_bind, hlen]
      rfl
    | true =>
      simp only [FType.InScope, WantsUnix] at hs
      unfold dateFmt stampValue
      simp only [if_true]
      by_cases h1 : strP o (bs! "format") = some (bs! "timestamp-unix")
      · simp only [if_pos h1]
        have hy := hs (.inl h1)
        exact C46_rfc3164_partial env (cur := env.year.toNat) (by omega) hl hf hx e hr (by omega)
      · by_cases h2 : strP o (bs! "format") = some (bs! "timestamp-unix-ms")
        · simp only [if_neg h1, if_pos h2]
          have hy := hs (.inr h2)
          have hu := C46_rfc3164_partial env (cur := env.year.toNat) (by omega) hl hf hx e hr (by omega)
          unfold parseRFC3164Date at hu ⊢
          rw [cursor_post hl] at hu ⊢
          simp only [R.ok_bind] at hu ⊢
          rw [rfc3164Syntax_ok hf hx e hr] at hu ⊢
          simp only [R.ok_bind, hlen, if_true, reduceCtorEq, if_false] at hu ⊢
          obtain ⟨ts, ht, hu⟩ := R.bind_eq_ok.1 hu
          rw [ht]
          simp only [pure, R.ok.injEq, Prod.mk.injEq, Option.some.injEq, Json.int.injEq, true_and] at hu
          simp [hu]
        · simp only [if_neg h1, if_neg h2]
          rw [(C45_rfc3164_partial env hl hf true).1 _ ⟨x, mon, hx, r, e, hr, rfl⟩]
          simp [Spec.text, e]
  · intro hno
    unfold parseRFC3164Date
    rw [cursor_post hl]
    simp only [R.ok_bind]
    rcases rfc3164Syntax_defined hf with ⟨⟨t, r⟩, he⟩ | he
    · obtain ⟨x, mon, hx, e, hr, _⟩ := rfc3164Syntax_inv hf he
      exact absurd ⟨x, mon, hx, r, e, hr, rfl, rfl⟩ (hno _ _)
    · rw [he]; rfl

theorem does_cef (hl : offs ≤ s.length) (hs : FType.cef.InScope env o s offs want) : Does (parseCEF s offs want)
    (fun n v => FType.cef.Means env o (s.drop offs) n v) want := by
  refine ⟨?_, fun hno => ?_⟩
  · rintro n v ⟨m, hm, ht, h17, rfl, rfl⟩
    rw [C42_cef_roundtrip m hm hl ht (by rw [← ht]; exact h17) want, ← ht]
    rfl
  · refine parseCEF_other hl want ?_
    rintro ⟨h17, hp⟩
    obtain ⟨m, hm, ht⟩ := hs hp
    exact hno _ _ ⟨m, hm, ht, h17, rfl, rfl⟩

theorem does_cee (hs : FType.cee.InScope env o s offs want) : Does (parseCEESyslog env s offs want)
    (fun n v => FType.cee.Means env o (s.drop offs) n v) want := by
  by_cases hp : bs! "@cee:" <+: s.drop offs
  · have h0 := hs.2 hp
    subst h0
    have := C39_cee_partial env want hs.1 s
    rw [List.drop_zero]
    refine ⟨?_, fun hno => this.2 fun v n hv => hno n _ ⟨v, hv, rfl⟩⟩
    rintro n v ⟨c, hc, rfl⟩
    exact this.1 c n hc
  · refine ⟨?_, fun _ => parseCEE_other env want hp⟩
    rintro n v ⟨c, ⟨ws, js, ht, _⟩, rfl⟩
    refine absurd ⟨ws ++ js, ?_⟩ hp
    rw [ht, List.append_assoc]

theorem does_opQuoted (hl : offs ≤ s.length) (h : Tame s) (hw : want = true) : Does (parseOpQuotedString s offs want)
    (fun n v => FType.opQuoted.Means env o (s.drop offs) n v) want := by
  subst hw
  refine .of (C30_op_quoted_string_partial hl fun c hc => (h.ascii c hc).1) (fun n v h => ?_) fun n hn => ?_
  · rcases h with ⟨w, tl, e, h1, h2, rfl⟩ | ⟨h1, rfl⟩
    · refine ⟨.inl ⟨w, tl, e, h1, h2⟩, ?_⟩
      rw [e]; simp [opText, h2]
    · refine ⟨.inr h1, ?_⟩
      show some (Json.str (opText _ _)) = _
      unfold opText
      rw [if_neg h1.1]; rfl
  · rcases hn with ⟨w, tl, e, h1, h2⟩ | h1
    · exact ⟨_, .inl ⟨w, tl, e, h1, h2, rfl⟩⟩
    · exact ⟨_, .inr ⟨h1, rfl⟩⟩

theorem does_string (hl : offs ≤ s.length) (h : Tame s) {d : DataString} (hd : ∀ d', StrConf o d' ↔ d' = d)
    (hs : FType.string.InScope env o s offs want) : Does (parseString s offs d want)
    (fun n v => FType.string.Means env o (s.drop offs) n v) want := by
  have hd0 := (hd d).2 rfl
  have hs' : StrBsl d → d.qe ≠ ch! '\\' ∧ ch! '\\' ∉ s.drop offs := hs d hd0
  refine Does.mono (M := fun n v => ∃ w, str d (s.drop offs) w n ∧ v = some (.str w)) ?_ fun n v => ⟨?_, ?_⟩
  · constructor
    · rintro n v ⟨w, h1, rfl⟩
      rcases h1 with ⟨body, tl, hm, ht, hb, he, rfl, hlz⟩ | ⟨tl, ht, h0, hn, hm, ha, hb, he, hlz⟩
      · exact C44_quoted_partial d want body w tl hl hd0.strip (fun hb => (hs' hb).1) h.ascii hm ht hb he hlz
      · have hne : (s.drop offs).take n ≠ [] := by
          intro h2
          have := congrArg List.length h2
          rw [List.length_take, List.length_nil] at this
          omega
        have := C44_unquoted_partial d want _ w tl hl (fun hb => (hs' hb).1) h.ascii ?_ hm ?_ ht hne hb he hlz
        · rw [this, List.length_take, Nat.min_eq_left hn]; rfl
        · intro _ hb hmem
          exact absurd (List.mem_of_mem_take hmem) (hs' hb).2
        · intro hq
          have := ha hq
          rwa [List.head?_take, if_neg (by omega)]
    · intro hno
      exact C44_reject_partial d want hl h.ascii (fun hb => (hs' hb).2) fun v n hv => hno n _ ⟨v, hv, rfl⟩
  · rintro ⟨d', w, h1, h2, h3⟩
    rw [(hd d').1 h1] at h2
    exact ⟨w, h2, h3⟩
  · rintro ⟨w, h2, h3⟩
    exact ⟨d, w, hd0, h2, h3⟩

/-- The parser built from a description does what the description says. -/
theorem kind_does {k : PKind} (hk : KindFor o f k) (hp : f.ParamsOK o) (h : Tame s) (hl : offs ≤ s.length)
    (hs : f.InScope env o s offs want) :
    Does (runParser env s offs k want) (fun n v => f.Means env o (s.drop offs) n v) want := by
  have h0 : ∀ c ∈ s, c ≠ 0 := fun c hc => (h.ascii c hc).1
  cases f
  case literal =>
    obtain ⟨w, hw, rfl⟩ := hk
    exact .withText (spec := fun w => Spec.literal w (s.drop offs)) hw (.text (C28_literal_partial w want h0))
  case stringTo =>
    obtain ⟨w, hw, rfl⟩ := hk
    exact .withText (spec := fun w => Spec.stringTo w (s.drop offs)) hw (.text (C26_string_to_partial hl (hs w hw) want))
  case charTo =>
    obtain ⟨w, hw, rfl⟩ := hk
    exact .withText (spec := fun w => Spec.charTo w (s.drop offs)) hw (.text (C27_char_to hl w want))
  case charSep =>
    obtain ⟨w, hw, rfl⟩ := hk
    exact .withText (spec := fun w => Spec.charSep w (s.drop offs)) hw (.text (C27_char_sep w want))
  case dateRfc3164 => cases hk; exact does_3164 hl h hs
  case dateRfc5424 => cases hk; exact does_5424 hl h hs
  case number => cases hk; exact does_number h
  case float => cases hk; exact does_float hl h
  case hexnumber => cases hk; exact does_hex hl hs hp.2
  case kernelTs => cases hk; exact .text (C23_kernel_timestamp hl want)
  case whitespace => cases hk; exact .text (C24_whitespace hl want)
  case ipv4 => cases hk; exact .text (C34_ipv4 hl want)
  case ipv6 => cases hk; exact .text (C35_exact hl want)
  case word => cases hk; exact .text (C25_word want)
  case alpha => cases hk; exact .text (C25_alpha want)
  case rest =>
    cases hk
    refine ⟨?_, fun hno => absurd ⟨rfl, rfl⟩ (hno _ _)⟩
    rintro n v ⟨rfl, rfl⟩
    have := C29_rest hl want
    rw [show runParser env s offs .rest want = parseRest s offs want from rfl, this]
    simp only [Spec.text, List.take_length]
  case opQuoted => cases hk; exact does_opQuoted hl h hs
  case quoted => cases hk; exact .text (C30_quoted_string_partial hl want)
  case dateIso => cases hk; exact .text (C31_date_iso hl want)
  case time24 => cases hk; exact .text (C32_time_24hr hl want)
  case time12 => cases hk; exact .text (C32_time_12hr hl want)
  case duration => cases hk; exact .text (C33_duration hl want)
  case cisco =>
    cases hk
    have := C37_cisco_partial want hl (fun i => Nat.le_trans (h.digits i) (by decide)) hs
    refine ⟨?_, fun hno => this.2 fun v n hv => hno n _ ⟨v, hv, rfl⟩⟩
    rintro n v ⟨c, hc, rfl⟩
    exact this.1 c n hc
  case json =>
    cases hk
    have := C38_json_partial env hl want hs.1 hs.2
    refine ⟨?_, fun hno => this.2 fun v n hv => hno n _ ⟨v, hv, rfl⟩⟩
    rintro n v ⟨c, hc, rfl⟩
    exact this.1 c n hc
  case cee => cases hk; exact does_cee hs
  case mac48 => cases hk; exact .text (C36_mac48 hl want)
  case cef => cases hk; exact does_cef hl hs
  case iptables =>
    cases hk
    have := C41_iptables hl want
    refine ⟨?_, fun hno => this.2 fun fs hv => hno _ _ ⟨fs, hv, rfl, rfl⟩⟩
    rintro n v ⟨fs, hc, rfl, rfl⟩
    rw [show runParser env s offs .iptables want = parseIPTables s offs want from rfl, this.1 fs hc]
    simp [ifNamed]
  case nameValue =>
    cases hk
    have := C40_name_value_list (nvConf o) hl want
    obtain ⟨⟨ps, n, hps⟩, hall⟩ := this
    refine ⟨?_, fun hno => absurd ⟨ps, hps, rfl⟩ (hno n _)⟩
    rintro n v ⟨ps, hps, rfl⟩
    exact (hall ps n hps).1
  case lea =>
    cases hk
    have := C43_lea hl (charP o (bs! "terminator") 0) want
    refine ⟨?_, fun hno => this.2 fun ps n hv => hno n _ ⟨ps, hv, rfl⟩⟩
    rintro n v ⟨ps, hps, rfl⟩
    rw [show runParser env s offs (.lea (charP o (bs! "terminator") 0)) want =
      parseCheckpointLEA s offs (charP o (bs! "terminator") 0) want from rfl, this.1 ps n hps]
    unfold leaValue
    cases want <;> cases ps <;> simp
  case string =>
    obtain ⟨d, rfl, hd⟩ := hk
    exact does_string hl h hd hs

end
end LN
