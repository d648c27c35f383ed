import Verif.Proofs.StructC
import Verif.Proofs.SafetyD
import Verif.Spec.Addr
/-
C44: string.
-/
set_option autoImplicit false
namespace LN
open Spec

theorem dbl_iff (d : DataString) : d.dbl = true ↔ StrDbl d := by
  unfold DataString.dbl StrDbl; simp
theorem bsl_iff (d : DataString) : d.bsl = true ↔ StrBsl d := by
  unfold DataString.bsl StrBsl; simp

theorem strPermitted_ascii {d : DataString} {c : UInt8} (h : c < 128) : strPermitted d c = .ok (d.perm c) := by
  simp [strPermitted, h]

/-- what ends the scan: the end quote if there are quotes; otherwise a space, a character that is
not permitted, or the end of the message -/
def StrEnd (d : DataString) (q : Bool) (tl : Bytes) : Prop :=
  if q = true then ∃ r, tl = d.qe :: r ∧ ¬ (StrDbl d ∧ r.head? = some d.qe)
  else ∀ c, tl.head? = some c → (c = ch! ' ' ∨ d.perm c = false) ∧ ¬ (StrBsl d ∧ c = ch! '\\')

theorem strLoop_body {d : DataString} (hqe : StrBsl d → d.qe ≠ ch! '\\') {q : Bool} {body v tl : Bytes}
    (hb : StrBody d q body v) (hend : StrEnd d q tl) (ha : ∀ c ∈ body ++ tl, c < 128) :
    ∀ fuel he, (body ++ tl).length < fuel →
      ∃ he', strLoop d q fuel (body ++ tl) he = .ok (body.length, q, he') ∧ (he' = false → he = false ∧ v = body) ∧
        (q = false → ¬ (StrBsl d ∧ ch! '\\' ∈ body) → he' = he) := by
  induction hb with
  | nil =>
    intro fuel he hf
    obtain ⟨fuel, rfl⟩ : ∃ k, fuel = k + 1 := ⟨fuel - 1, by omega⟩
    refine ⟨he, ?_, fun h => ⟨h, rfl⟩, fun _ _ => rfl⟩
    rw [List.nil_append] at ha ⊢
    unfold StrEnd at hend
    cases q with
    | true =>
      rw [if_pos rfl] at hend
      obtain ⟨r, rfl, hr⟩ := hend
      rw [strLoop]
      have : (true && decide (d.qe = d.qe) && !(d.dbl && decide (r.head? = some d.qe))) = true := by
        have h1 : ¬ (d.dbl = true ∧ r.head? = some d.qe) := by rw [dbl_iff]; exact hr
        by_cases h2 : d.dbl = true
        · have : r.head? ≠ some d.qe := fun h => h1 ⟨h2, h⟩
          simp [this]
        · simp [Bool.eq_false_iff.2 h2]
      rw [this]; rfl
    | false =>
      rw [if_neg (by simp)] at hend
      cases tl with
      | nil => rw [strLoop]; rfl
      | cons c r =>
        obtain ⟨h1, h2⟩ := hend c rfl
        rw [strLoop]
        have hb : (decide (c = ch! '\\') && !r.isEmpty && d.bsl) = false := by
          by_cases h3 : c = ch! '\\'
          · have : d.bsl = false := by
              rw [Bool.eq_false_iff]; intro h4; exact h2 ⟨(bsl_iff d).1 h4, h3⟩
            simp [this]
          · simp [h3]
        simp only [Bool.false_and, Bool.false_eq_true, if_false, Bool.or_false, hb, Bool.not_false, Bool.true_and]
        by_cases h4 : c = ch! ' '
        · simp [h4]
        · have : d.perm c = false := by rcases h1 with h1 | h1; exact absurd h1 h4; exact h1
          simp [h4, strPermitted_ascii (ha c (by simp)), this]
  | @plain c t v hp h1 h2 h3 hb ih =>
    intro fuel he hf
    obtain ⟨fuel, rfl⟩ : ∃ k, fuel = k + 1 := ⟨fuel - 1, by omega⟩
    have ha' : ∀ x ∈ t ++ tl, x < 128 := fun x hx => ha x (by rw [List.cons_append]; exact List.mem_cons_of_mem _ hx)
    obtain ⟨he', e1, e2, e3⟩ := ih ha' fuel he (by simp at hf ⊢; omega)
    refine ⟨he', ?_, fun h => by obtain ⟨a, b⟩ := e2 h; exact ⟨a, by rw [b]⟩, fun h1 h2 => e3 h1 fun h3 => h2 ⟨h3.1, List.mem_cons_of_mem _ h3.2⟩⟩
    rw [List.cons_append, strLoop]
    have hq : (q && decide (c = d.qe)) = false := by
      cases q with
      | false => rfl
      | true => simp; intro h; exact h1 ⟨rfl, h⟩
    have hbs : (decide (c = ch! '\\') && !(t ++ tl).isEmpty && d.bsl) = false := by
      by_cases h3 : c = ch! '\\'
      · have : d.bsl = false := by
          rw [Bool.eq_false_iff]; intro h4; exact h2 ⟨(bsl_iff d).1 h4, h3⟩
        simp [this]
      · simp [h3]
    have hsp : (!q && decide (c = ch! ' ')) = false := by
      cases q with
      | true => rfl
      | false => simp; intro h; exact h3 ⟨rfl, h⟩
    simp only [hq, Bool.false_and, Bool.false_eq_true, if_false, Bool.or_false, hbs, hsp,
      strPermitted_ascii (ha c (by simp)), R.ok_bind', hp, Bool.not_true, e1]
    simp; omega
  | @dbl t v hq hd hp hb ih =>
    intro fuel he hf
    obtain ⟨fuel, rfl⟩ : ∃ k, fuel = k + 1 := ⟨fuel - 1, by omega⟩
    have ha' : ∀ x ∈ t ++ tl, x < 128 := fun x hx => ha x (by simp at hx ⊢; rcases hx with h | h <;> simp [h])
    obtain ⟨he', e1, e2, e3⟩ := ih ha' fuel true (by simp at hf ⊢; omega)
    refine ⟨he', ?_, fun h => by (obtain ⟨a, b⟩ := e2 h; cases a), fun h1 => by (rw [hq] at h1; cases h1)⟩
    subst hq
    rw [List.cons_append, List.cons_append, strLoop]
    have hdb := (dbl_iff d).2 hd
    have hbs : (decide (d.qe = ch! '\\') && !(t ++ tl).isEmpty && d.bsl) = false := by
      by_cases h3 : d.qe = ch! '\\'
      · have : d.bsl = false := by
          rw [Bool.eq_false_iff]; intro h4; exact hqe ((bsl_iff d).1 h4) h3
        simp [this]
      · simp [h3]
    simp only [hdb, List.head?_cons, decide_true, Bool.and_true, Bool.not_true, Bool.and_false, Bool.false_eq_true,
      if_false, if_true, List.headD_cons, List.drop_succ_cons, List.drop_zero, hbs, Bool.or_true, Bool.false_and,
      strPermitted_ascii (ha d.qe (by simp)), R.ok_bind', hp]
    simp [e1]
    omega
  | @esc c t v hbl hp h3 hb ih =>
    intro fuel he hf
    obtain ⟨fuel, rfl⟩ : ∃ k, fuel = k + 1 := ⟨fuel - 1, by omega⟩
    have ha' : ∀ x ∈ t ++ tl, x < 128 := fun x hx => ha x (by simp at hx ⊢; rcases hx with h | h <;> simp [h])
    obtain ⟨he', e1, e2, e3⟩ := ih ha' fuel true (by simp at hf ⊢; omega)
    refine ⟨he', ?_, fun h => by (obtain ⟨a, b⟩ := e2 h; cases a), fun _ h2 => absurd ⟨hbl, by simp⟩ h2⟩
    rw [List.cons_append, List.cons_append, strLoop]
    have hq : (q && decide (ch! '\\' = d.qe)) = false := by
      have : ¬ (ch! '\\' = d.qe) := fun h => hqe hbl h.symm
      simp [this]
    have hbb := (bsl_iff d).2 hbl
    have hsp : (!q && decide (c = ch! ' ')) = false := by
      cases q with
      | true => rfl
      | false => simp; intro h; exact h3 ⟨rfl, h⟩
    simp only [hq, Bool.false_and, Bool.false_eq_true, if_false, Bool.or_false, hbb, List.isEmpty_cons, Bool.not_false,
      decide_true, Bool.and_true, if_true, List.headD_cons, List.drop_succ_cons, List.drop_zero, Bool.or_true, hsp,
      strPermitted_ascii (ha c (by simp)), R.ok_bind', hp, Bool.not_true, e1]
    simp; omega

/-- the end quote is not doubled in this text -/
def NoDouble (d : DataString) (t : Bytes) : Prop := ∀ a b, t ≠ a ++ d.qe :: d.qe :: b

theorem strUnescape_body {d : DataString} (hqe : StrBsl d → d.qe ≠ ch! '\\') {q : Bool} {body v : Bytes}
    (hb : StrBody d q body v) (hq : q = false → StrDbl d → NoDouble d body) : strUnescape d body = v := by
  induction hb with
  | nil => rfl
  | @plain c t v hp h1 h2 h3 hb ih =>
    have hq' : q = false → StrDbl d → NoDouble d t := fun a b x y h => hq a b (c :: x) y (by rw [h]; rfl)
    rw [strUnescape.eq_def]
    dsimp only
    have hbs : (decide (c = ch! '\\') && d.bsl) = false := by
      by_cases h3 : c = ch! '\\'
      · have : d.bsl = false := by
          rw [Bool.eq_false_iff]; intro h4; exact h2 ⟨(bsl_iff d).1 h4, h3⟩
        simp [this]
      · simp [h3]
    have hdd : (decide (c = d.qe) && decide (t.head? = some d.qe) && d.dbl) = false := by
      rw [Bool.eq_false_iff]
      intro h
      simp only [Bool.and_eq_true, decide_eq_true_eq] at h
      obtain ⟨⟨ha, hhd⟩, hc⟩ := h
      cases q with
      | true => exact h1 ⟨rfl, ha⟩
      | false =>
        cases t with
        | nil => simp at hhd
        | cons x t =>
          simp at hhd
          exact hq rfl ((dbl_iff d).1 hc) [] t (by rw [ha, hhd]; rfl)
    rw [hdd, hbs, ih hq']
    rfl
  | @dbl t v hq1 hd hp hb ih =>
    rw [strUnescape.eq_def]
    have hdb := (dbl_iff d).2 hd
    simp only [List.head?_cons, decide_true, Bool.true_and, hdb, Bool.true_or, if_true]
    rw [ih (fun h => by rw [h] at hq1; cases hq1)]
  | @esc c t v hbl hp h3 hb ih =>
    have hq' : q = false → StrDbl d → NoDouble d t := fun a b x y h => hq a b (ch! '\\' :: c :: x) y (by rw [h]; rfl)
    rw [strUnescape.eq_def]
    have hbb := (bsl_iff d).2 hbl
    simp only [decide_true, Bool.true_and, hbb, Bool.or_true, if_true]
    rw [ih hq']

theorem strTerm_ok {d : DataString} {s : Bytes} {trm k : Nat} (h : trm ≤ s.length) (hk : 0 < k)
    (hlz : d.lazy = false → s.drop trm = [] ∨ (s.drop trm).head? = some (ch! ' ')) :
    strTerm d s k trm = .ok () := by
  unfold strTerm
  have hk' : decide (k < 1) = false := by simp; omega
  rw [hk']
  cases hl : d.lazy with
  | true => rfl
  | false =>
    simp only [Bool.not_false, Bool.or_true, if_true]
    cases hd : s.drop trm with
    | nil =>
      have := drop_eq_nil_len hd h
      rw [this, rd_end]
      simp
    | cons c r =>
      rcases hlz hl with h1 | h1
      · rw [hd] at h1; cases h1
      · rw [hd] at h1; simp at h1; subst h1
        rw [rd_of_cons hd]
        simp

theorem strTerm_inv {d : DataString} {s : Bytes} {trm k : Nat} (h : trm ≤ s.length) (ht : strTerm d s k trm = .ok ()) :
    d.lazy = false → s.drop trm = [] ∨ (s.drop trm).head? = some (ch! ' ') := by
  intro hl
  unfold strTerm at ht
  rw [hl] at ht
  simp only [Bool.not_false, Bool.or_true, if_true] at ht
  cases hd : s.drop trm with
  | nil => exact .inl rfl
  | cons c r =>
    right
    rw [rd_of_cons hd] at ht
    have := R.guard_eq_ok.1 ht
    have hlt := lt_of_drop_cons hd
    simp at this
    rcases this with h1 | h1
    · simp [h1]
    · omega

theorem strValue_ok {d : DataString} {body v : Bytes} {he : Bool} (hz : ∀ c ∈ body, c ≠ 0) (hv : he = false → v = body)
    (hu : strUnescape d body = v) : strValue d body he = .ok (.str v) := by
  unfold strValue
  rw [cstr_noNul hz]
  dsimp only
  rw [hu]
  cases he with
  | true => simp
  | false => simp [newString, cstr_noNul hz, hv rfl]

/-- C44, quoted strings: the value is the text inside the quotes with escapes resolved.

`d.strip` is what the constructor sets up. Missing for the full property: 8-bit characters (undefined
behaviour, C06), and the backslash as both quote and escape character. -/
theorem C44_quoted_partial {s : Bytes} {offs : Nat} (d : DataString) (want : Bool) (body v tl : Bytes)
    (h : offs ≤ s.length) (hst : d.strip = true) (hqe : StrBsl d → d.qe ≠ ch! '\\')
    (ha : ∀ c ∈ s, c ≠ 0 ∧ c < 128)
    (hm : d.quoteMode ≠ .none) (ht : s.drop offs = d.qb :: body ++ d.qe :: tl) (hb : StrBody d true body v)
    (hend : ¬ (StrDbl d ∧ tl.head? = some d.qe)) (hlz : d.lazy = false → tl = [] ∨ tl.head? = some (ch! ' ')) :
    parseString s offs d want = .ok (body.length + 2, ifNamed want (.str v)) := by
  have d0 : s.drop offs = d.qb :: (body ++ d.qe :: tl) := by rw [ht]; rfl
  have d1 := drop_of_cons d0
  have d2 := drop_of_append d1
  have d3 := drop_of_cons d2
  have l0 := lt_of_drop_cons d0
  have l2 := lt_of_drop_cons d2
  unfold parseString
  have g0 : decide (offs ≠ s.length) = true := by simp; omega
  rw [g0, rd_of_cons d0]
  simp only [R.guard_true, R.ok_bind, decide_true, Bool.and_true]
  have hq : (decide (d.quoteMode = .auto) || decide (d.quoteMode = .reqd)) = true := by
    cases hqm : d.quoteMode with
    | none => exact absurd hqm hm
    | auto => rfl
    | reqd => rfl
  rw [hq]
  simp only [Bool.not_true, Bool.and_false, Bool.not_false, R.guard_true, R.ok_bind, if_true]
  rw [d1]
  obtain ⟨he', e1, e2, e3⟩ := strLoop_body hqe hb (tl := d.qe :: tl) (by unfold StrEnd; rw [if_pos rfl]; exact ⟨tl, rfl, hend⟩)
    (fun c hc => (ha c (List.mem_of_mem_drop (by rw [d1]; exact hc))).2) (s.length - (offs + 1) + 1) false (by
      have := len_of_drop d1 (by omega)
      omega)
  rw [e1]
  simp only [R.ok_bind, Bool.not_true, Bool.and_false, Bool.not_false, R.guard_true, if_true, hst, Bool.and_true]
  have g1 : decide (offs + 1 + body.length ≠ offs) = true := by simp; omega
  rw [g1]
  simp only [R.guard_true, R.ok_bind]
  rw [strTerm_ok l2 (by omega) (by rw [d3]; exact hlz)]
  have hn : offs + 1 + body.length - offs + 1 = body.length + 2 := by omega
  simp only [R.ok_bind, hn, Nat.add_sub_cancel]
  rw [slice_of_append d1, strValue_ok (fun c hc => (ha c (List.mem_of_mem_drop (by rw [d1]; exact List.mem_append_left _ hc))).1)
    (fun h => (e2 h).2) (strUnescape_body hqe hb (by simp))]
  cases want <;> rfl

/-- C44, unquoted strings. Missing for the full property (besides the above): a doubled end quote in
an unquoted string that contains a backslash escape, see `C44_unquoted_double_violated`. -/
theorem C44_unquoted_partial {s : Bytes} {offs : Nat} (d : DataString) (want : Bool) (body v tl : Bytes)
    (h : offs ≤ s.length) (hqe : StrBsl d → d.qe ≠ ch! '\\')
    (ha : ∀ c ∈ s, c ≠ 0 ∧ c < 128) (hnd : StrDbl d → StrBsl d → ch! '\\' ∈ body → NoDouble d body)
    (hm : d.quoteMode ≠ .reqd) (hauto : d.quoteMode = .auto → body.head? ≠ some d.qb)
    (ht : s.drop offs = body ++ tl) (hne : body ≠ []) (hb : StrBody d false body v)
    (hend : ∀ c, tl.head? = some c → (c = ch! ' ' ∨ d.perm c = false) ∧ ¬ (StrBsl d ∧ c = ch! '\\'))
    (hlz : d.lazy = false → tl = [] ∨ tl.head? = some (ch! ' ')) :
    parseString s offs d want = .ok (body.length, ifNamed want (.str v)) := by
  obtain ⟨c, body', hcb⟩ : ∃ c b, body = c :: b := by
    cases body with
    | nil => exact absurd rfl hne
    | cons c b => exact ⟨c, b, rfl⟩
  have d0 : s.drop offs = c :: (body' ++ tl) := by rw [ht, hcb]; rfl
  have l0 := lt_of_drop_cons d0
  have hlen := len_of_drop ht h
  simp only [List.length_append] at hlen
  have hbl : 0 < body.length := List.length_pos_iff.2 hne
  unfold parseString
  have g0 : decide (offs ≠ s.length) = true := by simp; omega
  rw [g0, rd_of_cons d0]
  simp only [R.guard_true, R.ok_bind]
  have hq : ((decide (d.quoteMode = .auto) || decide (d.quoteMode = .reqd)) && decide (c = d.qb)) = false := by
    cases hqm : d.quoteMode with
    | none => rfl
    | auto =>
      have := hauto hqm
      rw [hcb] at this
      simp at this
      simp [this]
    | reqd => exact absurd hqm hm
  have hq2 : (!(decide (d.quoteMode = .reqd) && !false)) = true := by
    cases hqm : d.quoteMode with
    | reqd => exact absurd hqm hm
    | _ => rfl
  rw [hq, hq2]
  simp only [R.guard_true, R.ok_bind, Bool.false_eq_true, if_false]
  rw [ht]
  obtain ⟨he', e1, e2, e3⟩ := strLoop_body hqe hb (tl := tl) (by unfold StrEnd; rw [if_neg (by simp)]; exact hend)
    (fun c hc => (ha c (List.mem_of_mem_drop (by rw [ht]; exact hc))).2) (s.length - offs + 1) false (by
      simp only [List.length_append]
      omega)
  rw [e1]
  simp only [R.ok_bind, Bool.false_and, Bool.not_false, R.guard_true, Bool.false_eq_true, if_false]
  have g1 : decide (offs + body.length ≠ offs) = true := by simp; omega
  rw [g1]
  simp only [R.guard_true, R.ok_bind]
  rw [strTerm_ok (by omega) (by omega) (by rw [drop_of_append ht]; exact hlz)]
  have hn : offs + body.length - offs = body.length := by omega
  simp only [R.ok_bind, hn]
  have hv : strValue d body he' = .ok (.str v) := by
    have hz : ∀ c ∈ body, c ≠ 0 := fun c hc => (ha c (List.mem_of_mem_drop (by rw [ht]; exact List.mem_append_left _ hc))).1
    cases hhe : he' with
    | false =>
      have := (e2 hhe).2
      unfold strValue
      rw [this]
      simp [newString, cstr_noNul hz]
    | true =>
      by_cases hbs : StrBsl d ∧ ch! '\\' ∈ body
      · exact strValue_ok hz (by simp) (strUnescape_body hqe hb fun _ hd => hnd hd hbs.1 hbs.2)
      · exfalso
        have := e3 rfl hbs
        rw [hhe] at this; cases this
  rw [slice_of_append ht, hv]
  cases want <;> rfl

/-! ### the other direction -/

theorem strLoop_inv {d : DataString} {q : Bool} : ∀ (fuel : Nat) (t : Bytes) (he : Bool) (n : Nat) (e he' : Bool),
    strLoop d q fuel t he = .ok (n, e, he') → (StrBsl d → ch! '\\' ∉ t) →
    n ≤ t.length ∧
    (e = true → q = true ∧ ∃ v tl, t = t.take n ++ d.qe :: tl ∧ StrBody d true (t.take n) v ∧
      ¬ (StrDbl d ∧ tl.head? = some d.qe)) ∧
    (q = false → (∃ v, StrBody d false (t.take n) v) ∧
      ∀ c, (t.drop n).head? = some c → c = ch! ' ' ∨ d.perm c = false) := by
  intro fuel
  induction fuel with
  | zero => intro t he n e he' h; rw [strLoop] at h; cases h
  | succ fuel ih =>
    intro t he n e he' h hb
    cases t with
    | nil =>
      rw [strLoop] at h
      cases h
      exact ⟨Nat.le_refl _, by simp, fun _ => ⟨⟨[], .nil⟩, by simp⟩⟩
    | cons c cs =>
      have hb' : StrBsl d → ch! '\\' ∉ cs := fun h1 h2 => hb h1 (List.mem_cons_of_mem _ h2)
      have nobs : ∀ x, x ∈ c :: cs → ∀ l : Bytes, (decide (x = ch! '\\') && !l.isEmpty && d.bsl) = false := by
        intro x hx l
        by_cases h3 : x = ch! '\\'
        · have : d.bsl = false := by
            rw [Bool.eq_false_iff]; intro h4; exact hb ((bsl_iff d).1 h4) (h3 ▸ hx)
          simp [this]
        · simp [h3]
      have nobs' : ∀ x, x ∈ c :: cs → ¬ (StrBsl d ∧ x = ch! '\\') := by
        rintro x hx ⟨h1, h2⟩
        exact hb h1 (h2 ▸ hx)
      rw [strLoop] at h
      by_cases hq : q = true ∧ c = d.qe
      · obtain ⟨rfl, rfl⟩ := hq
        by_cases hd : d.dbl = true ∧ cs.head? = some d.qe
        · obtain ⟨hd1, hd2⟩ := hd
          obtain ⟨cs', rfl⟩ : ∃ cs', cs = d.qe :: cs' := by
            cases cs with
            | nil => simp at hd2
            | cons x xs => simp at hd2; exact ⟨xs, by rw [hd2]⟩
          simp only [hd1, List.head?_cons, decide_true, Bool.and_true, Bool.not_true, Bool.and_false, Bool.false_eq_true,
            if_false, if_true, List.headD_cons, List.drop_succ_cons, List.drop_zero, nobs d.qe (by simp), Bool.or_true,
            Bool.false_and, Bool.or_false] at h
          unfold strPermitted at h
          split at h
          · simp only [R.ok_bind'] at h
            by_cases hp : d.perm d.qe = true
            · rw [hp] at h
              simp only [Bool.not_true, Bool.false_eq_true, if_false] at h
              obtain ⟨⟨n1, e1, h1⟩, hl, h2⟩ := R.bind'_eq_ok.1 h
              cases h2
              obtain ⟨r1, r2, r3⟩ := ih cs' true n1 e1 h1 hl (fun h1 h2 => hb' h1 (List.mem_cons_of_mem _ h2))
              refine ⟨by simp; omega, fun he => ?_, by simp⟩
              obtain ⟨-, v, tl, t1, t2, t3⟩ := r2 he
              refine ⟨rfl, d.qe :: v, tl, ?_, ?_, t3⟩
              · rw [show 1 + 1 + n1 = n1 + 2 by omega]
                simp only [List.take_succ_cons, List.cons_append, ← t1]
              · rw [show 1 + 1 + n1 = n1 + 2 by omega]
                simp only [List.take_succ_cons]
                exact .dbl rfl ((dbl_iff d).1 hd1) hp t2
            · rw [Bool.eq_false_iff.2 hp] at h
              simp only [Bool.not_false, if_true] at h
              cases h
              exact ⟨by simp, by simp, by simp⟩
          · cases h
        · have hc : (true && decide (d.qe = d.qe) && !(d.dbl && decide (cs.head? = some d.qe))) = true := by
            by_cases h2 : d.dbl = true
            · have : cs.head? ≠ some d.qe := fun h => hd ⟨h2, h⟩
              simp [this]
            · simp [Bool.eq_false_iff.2 h2]
          rw [hc] at h
          simp only [if_true] at h
          cases h
          refine ⟨by simp, fun _ => ⟨rfl, [], cs, rfl, .nil, ?_⟩, by simp⟩
          rw [← dbl_iff]; exact hd
      · have hc : (q && decide (c = d.qe)) = false := by
          cases q with
          | false => rfl
          | true => simp; intro h; exact hq ⟨rfl, h⟩
        simp only [hc, Bool.false_and, Bool.false_eq_true, if_false, nobs c (by simp), Bool.or_false] at h
        by_cases hs : q = false ∧ c = ch! ' '
        · obtain ⟨rfl, rfl⟩ := hs
          simp only [Bool.not_false, decide_true, Bool.and_true, if_true] at h
          cases h
          exact ⟨by simp, by simp, fun _ => ⟨⟨[], .nil⟩, by simp⟩⟩
        · have hs' : (!q && decide (c = ch! ' ')) = false := by
            cases q with
            | true => rfl
            | false => simp; intro h; exact hs ⟨rfl, h⟩
          rw [hs'] at h
          simp only [Bool.false_eq_true, if_false] at h
          unfold strPermitted at h
          split at h
          · simp only [R.ok_bind'] at h
            by_cases hp : d.perm c = true
            · rw [hp] at h
              simp only [Bool.not_true, Bool.false_eq_true, if_false] at h
              obtain ⟨⟨n1, e1, h1⟩, hl, h2⟩ := R.bind'_eq_ok.1 h
              cases h2
              obtain ⟨r1, r2, r3⟩ := ih cs he n1 e1 h1 hl hb'
              rw [show 0 + 1 + n1 = n1 + 1 by omega]
              have nb := nobs' c (by simp)
              refine ⟨by simp; omega, fun he => ?_, fun hqf => ?_⟩
              · obtain ⟨hqt, v, tl, t1, t2, t3⟩ := r2 he
                refine ⟨hqt, c :: v, tl, ?_, ?_, t3⟩
                · simp only [List.take_succ_cons, List.cons_append, ← t1]
                · simp only [List.take_succ_cons]
                  exact .plain hp (fun h => hq ⟨hqt, h.2⟩) nb (by simp) t2
              · obtain ⟨⟨v, t2⟩, t3⟩ := r3 hqf
                refine ⟨⟨c :: v, ?_⟩, by simpa using t3⟩
                simp only [List.take_succ_cons]
                exact .plain hp (by simp) nb (fun h => hs ⟨hqf, h.2⟩) t2
            · rw [Bool.eq_false_iff.2 hp] at h
              simp only [Bool.not_false, if_true] at h
              cases h
              exact ⟨by simp, by simp, fun _ => ⟨⟨[], .nil⟩, by simp [Bool.eq_false_iff.2 hp]⟩⟩
          · cases h

/-- C44, the other direction: where there is no string the parser fails, if no backslash is around
that could be taken for an escape character (see `C44_escaped_space_violated`). -/
theorem C44_reject_partial {s : Bytes} {offs : Nat} (d : DataString) (want : Bool)
    (h : offs ≤ s.length) (ha : ∀ c ∈ s, c ≠ 0 ∧ c < 128) (hb : StrBsl d → ch! '\\' ∉ s.drop offs)
    (hno : ∀ v n, ¬ str d (s.drop offs) v n) : parseString s offs d want = .fail := by
  have hdef : (parseString s offs d want).Defined :=
    (parseString_within (U := True) d (fun _ => ha) h want).isDefined
  rcases hdef with ⟨⟨n, v⟩, hok⟩ | hf
  rotate_left
  · exact hf
  exfalso
  unfold parseString at hok
  obtain ⟨_, g0, hok⟩ := R.bind_eq_ok.1 hok
  have g0 : offs ≠ s.length := by simpa using R.guard_eq_ok.1 g0
  obtain ⟨c, hc, hok⟩ := R.bind_eq_ok.1 hok
  obtain ⟨t', hd0⟩ : ∃ t', s.drop offs = c :: t' := by
    cases hd : s.drop offs with
    | nil => exact absurd (drop_eq_nil_len hd h) g0
    | cons x t' => rw [rd_of_cons hd] at hc; cases hc; exact ⟨t', rfl⟩
  have hd1 := drop_of_cons hd0
  have hl0 := lt_of_drop_cons hd0
  dsimp only at hok
  obtain ⟨_, g1, hok⟩ := R.bind_eq_ok.1 hok
  have g1 := R.guard_eq_ok.1 g1
  by_cases hq : ((decide (d.quoteMode = .auto) || decide (d.quoteMode = .reqd)) && decide (c = d.qb)) = true
  · rw [hq] at hok
    simp only [if_true] at hok
    obtain ⟨⟨m, e, he⟩, hl, hok⟩ := R.bind_eq_ok.1 hok
    dsimp only at hok
    obtain ⟨_, g2, hok⟩ := R.bind_eq_ok.1 hok
    have g2 : e = true := by simpa using R.guard_eq_ok.1 g2
    obtain ⟨_, _, hok⟩ := R.bind_eq_ok.1 hok
    obtain ⟨_, g4, hok⟩ := R.bind_eq_ok.1 hok
    rw [hd1] at hl
    obtain ⟨r1, r2, -⟩ := strLoop_inv _ _ _ _ _ _ hl (fun h1 h2 => hb h1 (by rw [hd0]; exact List.mem_cons_of_mem _ h2))
    obtain ⟨-, v, tl, t1, t2, t3⟩ := r2 g2
    simp only [Bool.and_eq_true, Bool.or_eq_true, decide_eq_true_eq] at hq
    have hd2 : s.drop (offs + 1 + m) = d.qe :: tl := by
      have hx : s.drop (offs + 1) = t'.take m ++ d.qe :: tl := by rw [hd1]; exact t1
      have := drop_of_append hx
      rwa [List.length_take, Nat.min_eq_left r1] at this
    have hlt := lt_of_drop_cons hd2
    refine hno v (m + 2) (.inl ⟨t'.take m, tl, ?_, ?_, t2, t3, ?_, ?_⟩)
    · rcases hq.1 with h1 | h1 <;> rw [h1] <;> simp
    · rw [hd0, List.cons_append, ← t1, hq.2]
    · rw [List.length_take]; omega
    · have := strTerm_inv (by omega) g4
      rw [drop_of_cons hd2] at this
      exact this
  · rw [Bool.eq_false_iff.2 hq] at hok g1
    simp only [Bool.false_eq_true, if_false] at hok
    obtain ⟨⟨m, e, he⟩, hl, hok⟩ := R.bind_eq_ok.1 hok
    dsimp only at hok
    obtain ⟨_, g2, hok⟩ := R.bind_eq_ok.1 hok
    obtain ⟨_, g3, hok⟩ := R.bind_eq_ok.1 hok
    have g3 : offs + m ≠ offs := by simpa using R.guard_eq_ok.1 g3
    obtain ⟨_, g4, hok⟩ := R.bind_eq_ok.1 hok
    obtain ⟨r1, -, r3⟩ := strLoop_inv _ _ _ _ _ _ hl hb
    obtain ⟨⟨v, t1⟩, t2⟩ := r3 rfl
    have hlen : (s.drop offs).length = s.length - offs := by simp
    refine hno v m (.inr ⟨(s.drop offs).drop m, (List.take_append_drop _ _).symm, by omega, r1, ?_, ?_, t1, ?_, ?_⟩)
    · intro h1; rw [h1] at g1; simp at g1
    · intro h1 h2
      rw [hd0] at h2
      simp at h2
      rw [h1, h2] at hq
      simp at hq
    · intro x hx
      refine ⟨t2 x hx, ?_⟩
      rintro ⟨h1, h2⟩
      exact hb h1 (h2 ▸ List.mem_of_mem_drop (List.mem_of_mem_head? hx))
    · have := strTerm_inv (by omega) g4
      rw [List.drop_drop]
      exact this

/-! ### examples -/

def Ex.strD : DataString := {}

example : StrBody Ex.strD true (bs! "say \\\"hi\\\" \"\"x\"\"") (bs! "say \"hi\" \"x\"") := by
  repeat first
    | exact .nil
    | (refine .esc (.inr rfl) rfl (by decide) ?_)
    | (refine .dbl rfl (.inr rfl) rfl ?_)
    | (refine .plain rfl (by decide) (by simp) (by decide) ?_)
example : parseString (bs! "\"say \\\"hi\\\" \"\"x\"\"\" more") 0 Ex.strD true
    = .ok (18, some (.str (bs! "say \"hi\" \"x\""))) := by decide +kernel

/-- `a\ b`: the escaped space ends the string all the same, but the backslash is consumed. -/
theorem C44_escaped_space_violated :
    ¬ ∀ (s : Bytes), (∀ v n, ¬ str Ex.strD s v n) → parseString s 0 Ex.strD true = .fail := by
  intro h
  have := h (bs! "a\\ b") ?_
  · revert this; decide +kernel
  · rintro v n (⟨body, tl, -, ht, -⟩ | ⟨tl, ht, h0, hn, -, -, hb, he, hl⟩)
    · simp [Ex.strD] at ht
    · have hn : n = 1 ∨ n = 2 ∨ n = 3 ∨ n = 4 := by simp at hn; omega
      rcases hn with rfl | rfl | rfl | rfl
      · simp at ht
        subst ht
        have := (he (ch! '\\') rfl).2
        exact this ⟨.inr rfl, rfl⟩
      · simp at hb
        cases hb with
        | plain _ _ _ _ hb =>
          cases hb with
          | plain _ _ h3 _ _ => exact h3 ⟨.inr rfl, rfl⟩
      all_goals
        simp at hb
        cases hb with
        | plain _ _ _ _ hb =>
          cases hb with
          | plain _ _ h3 _ _ => exact h3 ⟨.inr rfl, rfl⟩
          | esc _ _ h3 => exact h3 ⟨rfl, rfl⟩

/-- In an unquoted string, quotes stand for themselves, but a doubled quote is reduced to one if
there is a backslash escape elsewhere in the string. -/
theorem C44_unquoted_double_violated :
    ¬ ∀ (s v : Bytes), StrBody Ex.strD false s v → (∀ c ∈ s, c ≠ 0 ∧ c < 128) → s.head? ≠ some (ch! '"') → s ≠ [] →
      parseString s 0 Ex.strD true = .ok (s.length, some (.str v)) := by
  intro h
  have := h (bs! "a\"\"b\\c") (bs! "a\"\"bc") ?_ (by decide) (by decide) (by decide)
  · revert this; decide +kernel
  · repeat first
      | exact .nil
      | (refine .esc (.inr rfl) rfl (by decide) ?_)
      | (refine .plain rfl (by decide) (by simp) (by decide) ?_)

end LN
