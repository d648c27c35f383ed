import Verif.Spec.Dates
import Verif.Proofs.SafetyC
import Verif.Props.FieldsB
/- Tools for the proofs about timestamps. -/
set_option autoImplicit false
namespace LN
open Spec

/-- `d` are the leading digits of `p`, `q` the rest -/
def Lead (p d q : Bytes) : Prop := p = d ++ q ∧ Digits d ∧ ∀ c, q.head? = some c → isDigit c = false

theorem decVal_lt (d : Bytes) (hd : Digits d) : decVal d < 10 ^ d.length := by
  have gen : ∀ (d : Bytes) (v k : Nat), Digits d → v < 10 ^ k →
      d.foldl (fun v c => v * 10 + (c.toNat - 48)) v < 10 ^ (k + d.length) := by
    intro d
    induction d with
    | nil => intro v k _ h; simpa using h
    | cons c d ih =>
      intro v k hd hv
      rw [List.foldl_cons]
      have hc := isDigit_iff.1 (hd c (by simp))
      have := ih (v * 10 + (c.toNat - 48)) (k + 1) (fun x hx => hd x (by simp [hx])) (by
        rw [Nat.pow_succ]; omega)
      rw [List.length_cons, show k + (d.length + 1) = k + 1 + d.length by omega]
      exact this
  simpa [decVal] using gen d 0 0 hd (by simp)

theorem lead_takeWhile {p d q : Bytes} (h : Lead p d q) :
    p.takeWhile isDigit = d ∧ p.dropWhile isDigit = q := by
  obtain ⟨rfl, hd, hq⟩ := h
  cases q with
  | nil =>
    constructor
    · simpa using takeWhile_all hd
    · rw [List.append_nil]; have := List.takeWhile_append_dropWhile (p := isDigit) (l := d); rw [takeWhile_all hd] at this; simpa using this
  | cons c q =>
    have hc := hq c rfl
    constructor
    · exact takeWhile_stop hd hc
    · rw [List.dropWhile_append_of_pos hd, List.dropWhile_cons, if_neg (by simp [hc])]

theorem lead_exists (p : Bytes) : Lead p (p.takeWhile isDigit) (p.dropWhile isDigit) := by
  refine ⟨by simp, fun c hc => takeWhile_mem hc, ?_⟩
  intro c hc
  have := List.head?_dropWhile_not isDigit p
  rw [hc] at this
  simpa using this

theorem hParseInt_lead {p d q : Bytes} (hp : FewDigits p) (h : Lead p d q) :
    hParseInt p = .ok ((decVal d : Int), q) := by
  obtain ⟨h1, h2⟩ := lead_takeWhile h
  unfold hParseInt
  rw [h1, h2, accDec_digits intMax d h.2.1]
  have hl : d.length ≤ 9 := by have := hp 0; simpa [h1] using this
  have := decVal_lt d h.2.1
  have h9 : 10 ^ d.length ≤ 10 ^ 9 := Nat.pow_le_pow_right (by omega) hl
  rw [if_pos]
  · rfl
  · right; unfold intMax; omega

/-- inversion -/
theorem hParseInt_inv {p : Bytes} (hp : FewDigits p) {v : Int} {q : Bytes} (h : hParseInt p = .ok (v, q)) :
    ∃ d, Lead p d q ∧ v = decVal d := by
  rw [hParseInt_lead hp (lead_exists p)] at h
  cases h
  exact ⟨_, lead_exists p, rfl⟩

theorem hRange_lead {p d q : Bytes} {lo hi : Int} (hp : FewDigits p) (h : Lead p d q)
    (h1 : lo ≤ decVal d) (h2 : (decVal d : Int) ≤ hi) : hRange lo hi p = .ok ((decVal d : Int), q) := by
  unfold hRange
  rw [hParseInt_lead hp h]
  simp [R.guard, h1, h2]

theorem hRange_inv {p : Bytes} (hp : FewDigits p) {lo hi v : Int} {q : Bytes} (h : hRange lo hi p = .ok (v, q)) :
    ∃ d, Lead p d q ∧ v = decVal d ∧ lo ≤ decVal d ∧ (decVal d : Int) ≤ hi := by
  unfold hRange at h
  rw [R.bind_eq_ok] at h
  obtain ⟨⟨v', q'⟩, h1, h2⟩ := h
  obtain ⟨d, hd, rfl⟩ := hParseInt_inv hp h1
  simp only [R.guard_bind] at h2
  split at h2
  · rename_i hr
    cases h2
    simp at hr
    exact ⟨d, hd, rfl, hr⟩
  · cases h2

theorem eat_inv {x : UInt8} {p q : Bytes} (h : eat x p = .ok q) : p = x :: q := by
  cases p with
  | nil => cases h
  | cons c cs =>
    by_cases hc : c = x
    · simp [eat, hc] at h; rw [hc, h]
    · simp [eat, hc] at h
theorem eat_cons (x : UInt8) (q : Bytes) : eat x (x :: q) = .ok q := by simp [eat]

theorem lead_cons {d q : Bytes} {x : UInt8} (hd : Digits d) (hx : isDigit x = false) :
    Lead (d ++ x :: q) d (x :: q) := ⟨rfl, hd, fun c hc => by simp at hc; rw [← hc]; exact hx⟩

theorem FewDigits.tail {a b : Bytes} (h : FewDigits (a ++ b)) : FewDigits b := h.suffix ⟨a, rfl⟩
theorem FewDigits.tail1 {a : UInt8} {b : Bytes} (h : FewDigits (a :: b)) : FewDigits b :=
  h.suffix (List.suffix_cons a b)

/-- the fields of the timestamp as numbers -/
def tsOf (x : Stamp) : Ts where
  year := decVal x.year
  month := decVal x.month
  day := decVal x.day
  hour := decVal x.hour
  minute := decVal x.minute
  second := decVal x.second
  secfrac := (x.frac.map fun f => (decVal f : Int)).getD 0
  prec := (x.frac.map List.length).getD 0
  offH := (x.zone.map fun z => (decVal z.2.1 : Int)).getD 0
  offM := (x.zone.map fun z => (decVal z.2.2 : Int)).getD 0
  offMode := (x.zone.map fun z => z.1).getD (ch! '+')

theorem frac_lead {f : Option Bytes} {r : Bytes} (hf : ∀ g, f = some g → Digits g)
    (hr : ∃ c r', r = c :: r' ∧ isDigit c = false ∧ c ≠ ch! '.') (hp : FewDigits (fracText f ++ r)) :
    rfc5424Frac (fracText f ++ r) =
      .ok ((f.map fun f => (decVal f : Int)).getD 0, (f.map List.length).getD 0, r) := by
  obtain ⟨c, r', rfl, hc, hd⟩ := hr
  cases f with
  | none => simp [fracText, rfc5424Frac, hd]
  | some g =>
    have hl : Lead (g ++ c :: r') g (c :: r') := lead_cons (hf g rfl) hc
    simp only [fracText, List.cons_append, rfc5424Frac, if_true]
    rw [hParseInt_lead (FewDigits.tail1 (b := g ++ c :: r') hp) hl]
    simp

theorem frac_inv {p : Bytes} (hp : FewDigits p) {v : Int} {n : Nat} {q : Bytes}
    (h : rfc5424Frac p = .ok (v, n, q)) :
    ∃ f, p = fracText f ++ q ∧ (∀ g, f = some g → Digits g) ∧
      v = (f.map fun f => (decVal f : Int)).getD 0 ∧ n = (f.map List.length).getD 0 := by
  cases p with
  | nil => cases h; exact ⟨none, rfl, by simp, rfl, rfl⟩
  | cons c p =>
    by_cases hc : c = ch! '.'
    · subst hc
      simp only [rfc5424Frac, if_true, R.bind_eq_ok] at h
      obtain ⟨⟨v', q'⟩, h1, h2⟩ := h
      obtain ⟨d, hd, rfl⟩ := hParseInt_inv hp.tail1 h1
      cases h2
      obtain ⟨rfl, hd1, hd2⟩ := hd
      exact ⟨some d, rfl, by simpa using hd1, rfl, by simp⟩
    · simp [rfc5424Frac, hc] at h
      obtain ⟨rfl, rfl, rfl⟩ := h
      exact ⟨none, rfl, by simp, rfl, rfl⟩

/-- the zone is one of the two forms -/
def ZoneOK (z : Option (UInt8 × Bytes × Bytes)) : Prop :=
  ∀ sg h m, z = some (sg, h, m) → (sg = ch! '+' ∨ sg = ch! '-') ∧ Digits h ∧ Digits m ∧
    decVal h ≤ 23 ∧ decVal m ≤ 59

theorem zone_lead {z : Option (UInt8 × Bytes × Bytes)} {r : Bytes} (hz : ZoneOK z)
    (hr : ∀ c, r.head? = some c → isDigit c = false) (hp : FewDigits (zoneText z ++ r)) :
    rfc5424Zone (zoneText z ++ r) = .ok ((z.map fun z => (decVal z.2.1 : Int)).getD 0,
      (z.map fun z => (decVal z.2.2 : Int)).getD 0, (z.map fun z => z.1).getD (ch! '+'), r) := by
  cases z with
  | none => simp [zoneText, rfc5424Zone]
  | some z =>
    obtain ⟨sg, h, m⟩ := z
    obtain ⟨h1, h2, h3, h4, h5⟩ := hz sg h m rfl
    have e : zoneText (some (sg, h, m)) ++ r = sg :: (h ++ ch! ':' :: (m ++ r)) := by
      simp [zoneText]
    rw [e] at hp ⊢
    have hZ : sg ≠ ch! 'Z' := by rcases h1 with rfl | rfl <;> decide
    have hs : (sg = ch! '+' || sg = ch! '-') = true := by simpa using h1
    simp only [rfc5424Zone, if_neg hZ, hs, if_true]
    rw [hRange_lead hp.tail1 (lead_cons h2 (by decide)) (by omega) (by omega)]
    simp only [R.ok_bind, eat_cons]
    rw [hRange_lead hp.tail1.tail.tail1 ⟨rfl, h3, hr⟩ (by omega) (by omega)]
    rfl

theorem zone_inv {p : Bytes} (hp : FewDigits p) {a b : Int} {c : UInt8} {q : Bytes}
    (h : rfc5424Zone p = .ok (a, b, c, q)) :
    ∃ z, p = zoneText z ++ q ∧ ZoneOK z ∧ a = (z.map fun z => (decVal z.2.1 : Int)).getD 0 ∧
      b = (z.map fun z => (decVal z.2.2 : Int)).getD 0 ∧ c = (z.map fun z => z.1).getD (ch! '+') := by
  cases p with
  | nil => cases h
  | cons x p =>
    by_cases hx : x = ch! 'Z'
    · simp [rfc5424Zone, hx] at h
      obtain ⟨rfl, rfl, rfl, rfl⟩ := h
      exact ⟨none, by simp [zoneText, hx], by simp [ZoneOK], rfl, rfl, rfl⟩
    · by_cases hs : (x = ch! '+' || x = ch! '-') = true
      · simp only [rfc5424Zone, if_neg hx, hs, if_true, R.bind_eq_ok] at h
        obtain ⟨⟨v1, q1⟩, e1, q2, e2, ⟨v3, q3⟩, e3, e4⟩ := h
        obtain ⟨d1, ⟨rfl, l1, _⟩, rfl, r1, r2⟩ := hRange_inv hp.tail1 e1
        have e2' := eat_inv e2; subst e2'
        obtain ⟨d2, ⟨rfl, l2, _⟩, rfl, r3, r4⟩ := hRange_inv hp.tail1.tail.tail1 e3
        cases e4
        refine ⟨some (c, d1, d2), by simp [zoneText], ?_, rfl, rfl, rfl⟩
        intro sg h m e
        cases e
        exact ⟨by simpa using hs, l1, l2, by omega, by omega⟩
      · simp [rfc5424Zone, hx, hs] at h

theorem zone_head (z : Option (UInt8 × Bytes × Bytes)) (hz : ZoneOK z) (r : Bytes) :
    ∃ c r', zoneText z ++ r = c :: r' ∧ isDigit c = false ∧ c ≠ ch! '.' := by
  cases z with
  | none => exact ⟨_, _, rfl, by decide, by decide⟩
  | some z =>
    obtain ⟨sg, h, m⟩ := z
    refine ⟨sg, h ++ ch! ':' :: m ++ r, by simp [zoneText], ?_⟩
    rcases (hz sg h m rfl).1 with rfl | rfl <;> decide

theorem frac_head (f : Option Bytes) (z : Option (UInt8 × Bytes × Bytes)) (hz : ZoneOK z) (r : Bytes) :
    ∀ c, (fracText f ++ (zoneText z ++ r)).head? = some c → isDigit c = false := by
  intro c hc
  cases f with
  | none =>
    obtain ⟨c', r', e, h1, _⟩ := zone_head z hz r
    simp only [fracText, List.nil_append] at hc
    rw [e] at hc; simp at hc; rw [← hc]; exact h1
  | some g => simp [fracText] at hc; rw [← hc]; decide

/-- what the syntax part accepts -/
theorem rfc5424Syntax_ok {p : Bytes} (hp : FewDigits p) {x : Stamp} {r : Bytes} (hx : x.Valid)
    (e : p = x.text ++ r) (hr : r = [] ∨ r.head? = some (ch! ' ')) :
    rfc5424Syntax p = .ok (tsOf x, r) := by
  subst e
  have hzr : ∀ c, r.head? = some c → isDigit c = false := by
    rcases hr with rfl | hr
    · simp
    · intro c hc; rw [hr] at hc; cases hc; decide
  have e : x.text ++ r = x.year ++ ch! '-' :: (x.month ++ ch! '-' :: (x.day ++ ch! 'T' :: (x.hour ++ ch! ':' ::
    (x.minute ++ ch! ':' :: (x.second ++ (fracText x.frac ++ (zoneText x.zone ++ r))))))) := by
    simp [Stamp.text]
  rw [e] at hp ⊢
  unfold rfc5424Syntax
  have f1 := hp.tail.tail1
  have f2 := f1.tail.tail1
  have f3 := f2.tail.tail1
  have f4 := f3.tail.tail1
  have f5 := f4.tail.tail1
  have z := hx.zone
  rw [hParseInt_lead hp (lead_cons hx.year (by decide))]
  simp only [R.ok_bind, eat_cons]
  rw [hRange_lead f1 (lead_cons hx.month (by decide)) (by have := hx.monthR; omega) (by have := hx.monthR; omega)]
  simp only [R.ok_bind, eat_cons]
  rw [hRange_lead f2 (lead_cons hx.day (by decide)) (by have := hx.dayR; omega) (by have := hx.dayR; omega)]
  simp only [R.ok_bind, eat_cons]
  rw [hRange_lead f3 (lead_cons hx.hour (by decide)) (by omega) (by have := hx.hourR; omega)]
  simp only [R.ok_bind, eat_cons]
  rw [hRange_lead f4 (lead_cons hx.minute (by decide)) (by omega) (by have := hx.minuteR; omega)]
  simp only [R.ok_bind, eat_cons]
  rw [hRange_lead f5 ⟨rfl, hx.second, frac_head _ _ z _⟩ (by omega) (by have := hx.secondR; omega)]
  simp only [R.ok_bind]
  rw [frac_lead hx.frac (zone_head _ z r) f5.tail]
  simp only [R.ok_bind]
  rw [zone_lead z hzr f5.tail.tail]
  simp only [R.ok_bind]
  have : endOrSpace r = .ok () := by
    cases r with
    | nil => rfl
    | cons c r =>
      rcases hr with hr | hr
      · cases hr
      · simp at hr; subst hr; rfl
  rw [this]
  rfl

theorem rfc5424Syntax_inv {p : Bytes} (hp : FewDigits p) {t : Ts} {r : Bytes}
    (h : rfc5424Syntax p = .ok (t, r)) :
    ∃ x : Stamp, x.Valid ∧ p = x.text ++ r ∧ (r = [] ∨ r.head? = some (ch! ' ')) ∧ t = tsOf x := by
  unfold rfc5424Syntax at h
  simp only [R.bind_eq_ok] at h
  obtain ⟨⟨v1, q1⟩, e1, q2, e2, h⟩ := h
  obtain ⟨year, ⟨rfl, dy, _⟩, rfl⟩ := hParseInt_inv hp e1
  have e2' := eat_inv e2; subst e2'; clear e2 e1
  replace hp := hp.tail.tail1
  obtain ⟨⟨v1, q1⟩, e1, q2', e2, h⟩ := h
  obtain ⟨month, ⟨rfl, dmo, _⟩, rfl, m1, m2⟩ := hRange_inv hp e1
  have e2' := eat_inv e2; subst e2'; clear e2 e1
  replace hp := hp.tail.tail1
  obtain ⟨⟨v1, q1⟩, e1, q2', e2, h⟩ := h
  obtain ⟨day, ⟨rfl, dd, _⟩, rfl, d1, d2⟩ := hRange_inv hp e1
  have e2' := eat_inv e2; subst e2'; clear e2 e1
  replace hp := hp.tail.tail1
  obtain ⟨⟨v1, q1⟩, e1, q2', e2, h⟩ := h
  obtain ⟨hour, ⟨rfl, dh, _⟩, rfl, h1, h2⟩ := hRange_inv hp e1
  have e2' := eat_inv e2; subst e2'; clear e2 e1
  replace hp := hp.tail.tail1
  obtain ⟨⟨v1, q1⟩, e1, q2', e2, h⟩ := h
  obtain ⟨minute, ⟨rfl, dmi, _⟩, rfl, i1, i2⟩ := hRange_inv hp e1
  have e2' := eat_inv e2; subst e2'; clear e2 e1
  replace hp := hp.tail.tail1
  obtain ⟨⟨v1, q1⟩, e1, h⟩ := h
  obtain ⟨second, ⟨rfl, ds, _⟩, rfl, s1, s2⟩ := hRange_inv hp e1
  clear e1
  replace hp := hp.tail
  obtain ⟨⟨v1, n1, q1⟩, e1, ⟨a, b, c, q2⟩, e2, ⟨⟩, e3, e4⟩ := h
  obtain ⟨f, rfl, hf, rfl, rfl⟩ := frac_inv hp e1
  obtain ⟨z, rfl, hz, rfl, rfl, rfl⟩ := zone_inv hp.tail e2
  simp only [R.pure_eq, R.ok.injEq, Prod.mk.injEq] at e4
  obtain ⟨rfl, rfl⟩ := e4
  refine ⟨⟨year, month, day, hour, minute, second, f, z⟩,
    ⟨dy, dmo, dd, dh, dmi, ds, hf, hz, by dsimp only; omega, by dsimp only; omega, by dsimp only; omega,
      by dsimp only; omega, by dsimp only; omega⟩, by simp [Stamp.text], ?_, rfl⟩
  cases q2 with
  | nil => exact .inl rfl
  | cons c q => simp [endOrSpace, R.guard_eq_ok] at e3; simp [e3]

theorem rfc5424Syntax_defined {p : Bytes} (hp : FewDigits p) : (rfc5424Syntax p).Defined := by
  have := rfc5424Syntax_post (U := True) p (fun _ => hp)
  cases h : rfc5424Syntax p with
  | ok a => simp
  | fail => simp
  | ub k => exact absurd h (this.2.2 trivial k)
  | oof => exact absurd h this.2.1

/-! ### RFC3164 -/

theorem isLetter_eq (x c : UInt8) (hx : 97 ≤ x.toNat ∧ x.toNat ≤ 122) : isLetter x c = (toLower c == x) := by
  have hc := c.toNat_lt
  have e1 : (x - 32).toNat = x.toNat - 32 := by
    rw [UInt8.toNat_sub_of_le]
    · rfl
    · rw [UInt8.le_iff_toNat_le]; simp; omega
  have e2 : (c + 32).toNat = (c.toNat + 32) % 256 := by rw [UInt8.toNat_add]; rfl
  rw [Bool.eq_iff_iff]
  unfold isLetter toLower isUpper
  simp only [Bool.or_eq_true, beq_iff_eq, Bool.and_eq_true, decide_eq_true_eq, UInt8.le_iff_toNat_le]
  split
  · rename_i h
    simp at h
    rw [u8_eq, u8_eq, u8_eq, e1, e2]; omega
  · rename_i h
    simp at h
    rw [u8_eq, u8_eq, e1]; omega

theorem rfc3164Month_inv {a b c : UInt8} {m : Int} (h : rfc3164Month a b c = .ok m) :
    ∃ k : Nat, m = k ∧ 1 ≤ k ∧ monthNames[k - 1]? = some [toLower a, toLower b, toLower c] := by
  unfold rfc3164Month at h
  simp only [isLetter_eq _ _ (by decide : 97 ≤ (ch! 'j' : UInt8).toNat ∧ _),
    isLetter_eq _ _ (by decide : 97 ≤ (ch! 'a' : UInt8).toNat ∧ _),
    isLetter_eq _ _ (by decide : 97 ≤ (ch! 'n' : UInt8).toNat ∧ _),
    isLetter_eq _ _ (by decide : 97 ≤ (ch! 'u' : UInt8).toNat ∧ _),
    isLetter_eq _ _ (by decide : 97 ≤ (ch! 'l' : UInt8).toNat ∧ _),
    isLetter_eq _ _ (by decide : 97 ≤ (ch! 'f' : UInt8).toNat ∧ _),
    isLetter_eq _ _ (by decide : 97 ≤ (ch! 'e' : UInt8).toNat ∧ _),
    isLetter_eq _ _ (by decide : 97 ≤ (ch! 'b' : UInt8).toNat ∧ _),
    isLetter_eq _ _ (by decide : 97 ≤ (ch! 'm' : UInt8).toNat ∧ _),
    isLetter_eq _ _ (by decide : 97 ≤ (ch! 'r' : UInt8).toNat ∧ _),
    isLetter_eq _ _ (by decide : 97 ≤ (ch! 'y' : UInt8).toNat ∧ _),
    isLetter_eq _ _ (by decide : 97 ≤ (ch! 'p' : UInt8).toNat ∧ _),
    isLetter_eq _ _ (by decide : 97 ≤ (ch! 'g' : UInt8).toNat ∧ _),
    isLetter_eq _ _ (by decide : 97 ≤ (ch! 's' : UInt8).toNat ∧ _),
    isLetter_eq _ _ (by decide : 97 ≤ (ch! 'o' : UInt8).toNat ∧ _),
    isLetter_eq _ _ (by decide : 97 ≤ (ch! 'c' : UInt8).toNat ∧ _),
    isLetter_eq _ _ (by decide : 97 ≤ (ch! 't' : UInt8).toNat ∧ _),
    isLetter_eq _ _ (by decide : 97 ≤ (ch! 'v' : UInt8).toNat ∧ _),
    isLetter_eq _ _ (by decide : 97 ≤ (ch! 'd' : UInt8).toNat ∧ _), beq_iff_eq] at h
  generalize toLower a = a at h ⊢
  generalize toLower b = b at h ⊢
  generalize toLower c = c at h ⊢
  repeat' split at h
  all_goals first
    | (cases h; done)
    | (cases h; subst_vars
       first
        | exact ⟨1, rfl, by decide, rfl⟩ | exact ⟨2, rfl, by decide, rfl⟩ | exact ⟨3, rfl, by decide, rfl⟩
        | exact ⟨4, rfl, by decide, rfl⟩ | exact ⟨5, rfl, by decide, rfl⟩ | exact ⟨6, rfl, by decide, rfl⟩
        | exact ⟨7, rfl, by decide, rfl⟩ | exact ⟨8, rfl, by decide, rfl⟩ | exact ⟨9, rfl, by decide, rfl⟩
        | exact ⟨10, rfl, by decide, rfl⟩ | exact ⟨11, rfl, by decide, rfl⟩ | exact ⟨12, rfl, by decide, rfl⟩)

theorem rfc3164Month_ok {a b c : UInt8} {k : Nat} (h1 : 1 ≤ k)
    (h : monthNames[k - 1]? = some [toLower a, toLower b, toLower c]) : rfc3164Month a b c = .ok (k : Int) := by
  have hk : k ≤ 12 := by
    have := (List.getElem?_eq_some_iff.1 h).1
    simp [monthNames] at this; omega
  unfold rfc3164Month
  simp only [isLetter_eq _ _ (by decide : 97 ≤ (ch! 'j' : UInt8).toNat ∧ _),
    isLetter_eq _ _ (by decide : 97 ≤ (ch! 'a' : UInt8).toNat ∧ _),
    isLetter_eq _ _ (by decide : 97 ≤ (ch! 'n' : UInt8).toNat ∧ _),
    isLetter_eq _ _ (by decide : 97 ≤ (ch! 'u' : UInt8).toNat ∧ _),
    isLetter_eq _ _ (by decide : 97 ≤ (ch! 'l' : UInt8).toNat ∧ _),
    isLetter_eq _ _ (by decide : 97 ≤ (ch! 'f' : UInt8).toNat ∧ _),
    isLetter_eq _ _ (by decide : 97 ≤ (ch! 'e' : UInt8).toNat ∧ _),
    isLetter_eq _ _ (by decide : 97 ≤ (ch! 'b' : UInt8).toNat ∧ _),
    isLetter_eq _ _ (by decide : 97 ≤ (ch! 'm' : UInt8).toNat ∧ _),
    isLetter_eq _ _ (by decide : 97 ≤ (ch! 'r' : UInt8).toNat ∧ _),
    isLetter_eq _ _ (by decide : 97 ≤ (ch! 'y' : UInt8).toNat ∧ _),
    isLetter_eq _ _ (by decide : 97 ≤ (ch! 'p' : UInt8).toNat ∧ _),
    isLetter_eq _ _ (by decide : 97 ≤ (ch! 'g' : UInt8).toNat ∧ _),
    isLetter_eq _ _ (by decide : 97 ≤ (ch! 's' : UInt8).toNat ∧ _),
    isLetter_eq _ _ (by decide : 97 ≤ (ch! 'o' : UInt8).toNat ∧ _),
    isLetter_eq _ _ (by decide : 97 ≤ (ch! 'c' : UInt8).toNat ∧ _),
    isLetter_eq _ _ (by decide : 97 ≤ (ch! 't' : UInt8).toNat ∧ _),
    isLetter_eq _ _ (by decide : 97 ≤ (ch! 'v' : UInt8).toNat ∧ _),
    isLetter_eq _ _ (by decide : 97 ≤ (ch! 'd' : UInt8).toNat ∧ _), beq_iff_eq]
  generalize toLower a = a at h ⊢
  generalize toLower b = b at h ⊢
  generalize toLower c = c at h ⊢
  match k, h1, hk with
  | 1, _, _ | 2, _, _ | 3, _, _ | 4, _, _ | 5, _, _ | 6, _, _ | 7, _, _ | 8, _, _ | 9, _, _ | 10, _, _ | 11, _, _
  | 12, _, _ =>
    simp [monthNames] at h
    obtain ⟨rfl, rfl, rfl⟩ := h
    rfl

/-- the numbers of an RFC3164 timestamp -/
def ts3Of (x : Stamp3) (mon : Nat) : Ts :=
  ⟨0, mon, decVal x.day, decVal x.hour, decVal x.minute, decVal x.second, 0, 0, 0, 0, ch! '+'⟩

theorem year_lead {y : Option Bytes} {h r : Bytes} (hy : ∀ g, y = some g → Digits g ∧ 1970 < decVal g ∧ decVal g < 2100)
    (hh : Digits h) (hr : decVal h ≤ 23) (hp : FewDigits (yearText y ++ (h ++ ch! ':' :: r))) :
    (hParseInt (yearText y ++ (h ++ ch! ':' :: r)) >>= fun x => rfc3164Year x.1 x.2) =
      .ok ((decVal h : Int), ch! ':' :: r) := by
  cases y with
  | none =>
    simp only [yearText, List.nil_append] at hp ⊢
    rw [hParseInt_lead hp (lead_cons hh (by decide))]
    simp only [R.ok_bind, rfc3164Year]
    rw [if_neg]
    simp; omega
  | some g =>
    obtain ⟨g1, g2, g3⟩ := hy g rfl
    have e : yearText (some g) ++ (h ++ ch! ':' :: r) = g ++ ch! ' ' :: (h ++ ch! ':' :: r) := by simp [yearText]
    rw [e] at hp ⊢
    rw [hParseInt_lead hp (lead_cons g1 (by decide))]
    simp only [R.ok_bind, rfc3164Year]
    rw [if_pos (by simp; omega), eat_cons]
    simp only [R.ok_bind]
    rw [hParseInt_lead hp.tail.tail1 (lead_cons hh (by decide))]

theorem year_inv {p : Bytes} (hp : FewDigits p) {v1 v : Int} {q1 q : Bytes} (h1 : hParseInt p = .ok (v1, q1))
    (h2 : rfc3164Year v1 q1 = .ok (v, q)) :
    ∃ y h, p = yearText y ++ (h ++ q) ∧ Digits h ∧ v = decVal h ∧
      (∀ g, y = some g → Digits g ∧ 1970 < decVal g ∧ decVal g < 2100) := by
  obtain ⟨d, ⟨rfl, l1, l2⟩, rfl⟩ := hParseInt_inv hp h1
  unfold rfc3164Year at h2
  split at h2
  · rename_i hy
    simp at hy
    simp only [R.bind_eq_ok] at h2
    obtain ⟨q2, e1, e2⟩ := h2
    have := eat_inv e1; subst this
    obtain ⟨d2, ⟨rfl, l3, l4⟩, rfl⟩ := hParseInt_inv hp.tail.tail1 e2
    exact ⟨some d, d2, by simp [yearText], l3, rfl, fun g hg => by cases hg; exact ⟨l1, by omega, by omega⟩⟩
  · cases h2
    exact ⟨none, d, rfl, l1, rfl, by simp⟩

theorem rfc3164Syntax_ok {p : Bytes} (hp : FewDigits p) {x : Stamp3} {mon : Nat} {r : Bytes} (hx : x.Valid mon)
    (e : p = x.text ++ r)
    (hr : x.colon = [] → ∀ c, r.head? = some c → isDigit c = false ∧ c ≠ ch! ':') :
    rfc3164Syntax p = .ok (ts3Of x mon, r) := by
  subst e
  obtain ⟨hm1, hm2⟩ := hx.monthN
  obtain ⟨a, b, c, hm⟩ : ∃ a b c, x.month = [a, b, c] := by
    have hl : x.month.length = 3 := by
      have := (List.getElem?_eq_some_iff.1 hm2)
      obtain ⟨h1, h2⟩ := this
      have : ∀ w ∈ monthNames, w.length = 3 := by decide
      have := this _ (h2 ▸ List.getElem_mem h1)
      simpa using this
    match h : x.month, hl with
    | [a, b, c], _ => exact ⟨a, b, c, rfl⟩
  have e : x.text ++ r = a :: b :: c :: ch! ' ' :: (x.pad ++ (x.day ++ ch! ' ' :: (yearText x.year ++ (x.hour ++ ch! ':' ::
    (x.minute ++ ch! ':' :: (x.second ++ (x.colon ++ r))))))) := by
    simp [Stamp3.text, hm]
  rw [e] at hp ⊢
  rw [hm] at hm2
  simp only [rfc3164Syntax]
  rw [rfc3164Month_ok hm1 hm2]
  simp only [R.ok_bind, rfc3164Rest, eat_cons]
  have f0 := hp.tail1.tail1.tail1.tail1
  have hsk : skip1 (ch! ' ') (x.pad ++ (x.day ++ ch! ' ' :: (yearText x.year ++ (x.hour ++ ch! ':' ::
    (x.minute ++ ch! ':' :: (x.second ++ (x.colon ++ r))))))) = x.day ++ ch! ' ' :: (yearText x.year ++ (x.hour ++ ch! ':' ::
    (x.minute ++ ch! ':' :: (x.second ++ (x.colon ++ r))))) := by
    rcases hx.pad with h | h
    · rw [h, List.nil_append]
      cases hd : x.day with
      | nil => have := hx.dayR; rw [hd] at this; simp [decVal] at this
      | cons d ds =>
        have := hx.day d (by rw [hd]; simp)
        simp only [List.cons_append, skip1]
        rw [if_neg]
        rintro rfl; revert this; decide
    · rw [h]; simp [skip1]
  have f1 : FewDigits (x.day ++ ch! ' ' :: (yearText x.year ++ (x.hour ++ ch! ':' ::
    (x.minute ++ ch! ':' :: (x.second ++ (x.colon ++ r)))))) := f0.tail
  have f2 := f1.tail.tail1
  have f3 := f2.tail.tail.tail1
  have f4 := f3.tail.tail1
  rw [hsk]
  rw [hRange_lead f1 (lead_cons hx.day (by decide)) (by have := hx.dayR; omega) (by have := hx.dayR; omega)]
  simp only [R.ok_bind, eat_cons]
  have hy := year_lead hx.year hx.hour hx.hourR f2
  rw [R.bind_eq_ok] at hy
  obtain ⟨⟨v1, q1⟩, hy1, hy2⟩ := hy
  rw [hy1]
  simp only [R.ok_bind]
  simp only at hy2
  rw [hy2]
  simp only [R.ok_bind]
  have hg : (decide (0 ≤ (decVal x.hour : Int)) && decide ((decVal x.hour : Int) ≤ 23)) = true := by
    have := hx.hourR; simp; omega
  rw [hg]
  simp only [R.guard_true, R.ok_bind, eat_cons]
  rw [hRange_lead f3 (lead_cons hx.minute (by decide)) (by omega) (by have := hx.minuteR; omega)]
  simp only [R.ok_bind, eat_cons]
  have hl : Lead (x.second ++ (x.colon ++ r)) x.second (x.colon ++ r) := by
    refine ⟨rfl, hx.second, ?_⟩
    rcases hx.colon with h | h
    · intro c hc; rw [h] at hc; exact (hr h c hc).1
    · intro c hc; rw [h] at hc; simp at hc; rw [← hc]; decide
  rw [hRange_lead f4 hl (by omega) (by have := hx.secondR; omega)]
  simp only [R.ok_bind]
  have : skip1 (ch! ':') (x.colon ++ r) = r := by
    rcases hx.colon with h | h
    · rw [h, List.nil_append]
      cases r with
      | nil => rfl
      | cons c r => simp only [skip1]; rw [if_neg (hr h c rfl).2]
    · rw [h]; simp [skip1]
  rw [this]
  rfl

theorem rfc3164Syntax_inv {p : Bytes} (hp : FewDigits p) {t : Ts} {r : Bytes}
    (h : rfc3164Syntax p = .ok (t, r)) :
    ∃ (x : Stamp3) (mon : Nat), x.Valid mon ∧ p = x.text ++ r ∧
      (x.colon = [] → ∀ c, r.head? = some c → isDigit c = false ∧ c ≠ ch! ':') ∧ t = ts3Of x mon := by
  unfold rfc3164Syntax at h
  split at h
  · rename_i p a b c p'
    rw [R.bind_eq_ok] at h
    obtain ⟨m, h1, h⟩ := h
    obtain ⟨mon, rfl, k1, k2⟩ := rfc3164Month_inv h1
    unfold rfc3164Rest at h
    simp only [R.bind_eq_ok] at h
    obtain ⟨q, e1, h⟩ := h
    have e1' := eat_inv e1; subst e1'; clear e1
    replace hp := hp.tail1.tail1.tail1.tail1
    obtain ⟨pad, hpad, hq⟩ : ∃ pad, (pad = [] ∨ pad = [ch! ' ']) ∧ q = pad ++ skip1 (ch! ' ') q := by
      cases q with
      | nil => exact ⟨[], .inl rfl, rfl⟩
      | cons c q =>
        by_cases hc : c = ch! ' '
        · exact ⟨[ch! ' '], .inr rfl, by simp [skip1, hc]⟩
        · exact ⟨[], .inl rfl, by simp [skip1, hc]⟩
    rw [hq] at hp
    rw [hq]
    generalize skip1 (ch! ' ') q = q' at h hp ⊢
    clear hq
    replace hp := hp.tail
    obtain ⟨⟨v1, q1⟩, e1, q2, e2, h⟩ := h
    obtain ⟨day, ⟨rfl, dd, _⟩, rfl, d1, d2⟩ := hRange_inv hp e1
    have e2' := eat_inv e2; subst e2'; clear e2 e1
    replace hp := hp.tail.tail1
    obtain ⟨⟨v1, q1⟩, e1, ⟨v2, q3⟩, e2, ⟨⟩, e3, q4, e4, h⟩ := h
    obtain ⟨y, hour, rfl, dh, rfl, hy⟩ := year_inv hp e1 e2
    have e4' := eat_inv e4; subst e4'; clear e4
    rw [R.guard_eq_ok] at e3
    simp at e3
    replace hp := hp.tail.tail.tail1
    obtain ⟨⟨v1, q1⟩, e1, q2', e2, h⟩ := h
    obtain ⟨minute, ⟨rfl, dmi, _⟩, rfl, i1, i2⟩ := hRange_inv hp e1
    have e2' := eat_inv e2; subst e2'; clear e2 e1
    replace hp := hp.tail.tail1
    obtain ⟨⟨v1, q1⟩, e1, h⟩ := h
    obtain ⟨second, ⟨rfl, ds, hq1⟩, rfl, s1, s2⟩ := hRange_inv hp e1
    simp only [R.pure_eq, R.ok.injEq, Prod.mk.injEq] at h
    obtain ⟨rfl, rfl⟩ := h
    obtain ⟨colon, hcol, hq, hno⟩ : ∃ colon, (colon = [] ∨ colon = [ch! ':']) ∧ q1 = colon ++ skip1 (ch! ':') q1 ∧
        (colon = [] → ∀ c, (skip1 (ch! ':') q1).head? = some c → isDigit c = false ∧ c ≠ ch! ':') := by
      cases q1 with
      | nil => exact ⟨[], .inl rfl, rfl, by simp [skip1]⟩
      | cons c q =>
        by_cases hc : c = ch! ':'
        · exact ⟨[ch! ':'], .inr rfl, by simp [skip1, hc], by simp⟩
        · refine ⟨[], .inl rfl, by simp [skip1, hc], ?_⟩
          intro _ d hd
          simp [skip1, hc] at hd
          subst hd
          exact ⟨hq1 c rfl, hc⟩
    refine ⟨⟨[a, b, c], pad, day, y, hour, minute, second, colon⟩, mon,
      ⟨⟨k1, by simpa using k2⟩, hpad, dd, hy, dh, dmi, ds, hcol, by dsimp only; omega, by dsimp only; omega,
        by dsimp only; omega, by dsimp only; omega⟩, ?_, hno, rfl⟩
    simp only [Stamp3.text]
    conv => lhs; rw [hq]
    simp
  · cases h

theorem rfc3164Syntax_defined {p : Bytes} (hp : FewDigits p) : (rfc3164Syntax p).Defined := by
  have := rfc3164Syntax_post (U := True) p (fun _ => hp)
  cases h : rfc3164Syntax p with
  | ok a => simp
  | fail => simp
  | ub k => exact absurd h (this.2.2 trivial k)
  | oof => exact absurd h this.2.1

end LN
