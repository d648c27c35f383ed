import Verif.Proofs.Fields
/-
C23, C34: kernel timestamps and IPv4 addresses.
-/
set_option autoImplicit false
namespace LN
open Spec

variable {s : Bytes} {offs : Nat}

/-! ### C34 -/

/-- the leading up to three digits -/
def oct3 (t : Bytes) : Bytes := (t.take 3).takeWhile isDigit

private theorem atP_drop {p : UInt8 → Bool} {s : Bytes} {i : Nat} :
    atP p s i = match (s.drop i).head? with | some c => p c | none => false := by
  unfold atP; rw [List.head?_drop]; cases s[i]? <;> rfl

theorem chkByte (s : Bytes) (i : Nat) (h : i ≤ s.length) :
    Chk (chkIPv4AddrByte s i) (oct3 (s.drop i) ≠ [] ∧ decVal (oct3 (s.drop i)) ≤ 255)
      (i + (oct3 (s.drop i)).length) := by
  unfold chkIPv4AddrByte
  have hl : s.length = i + (s.drop i).length := by simp; omega
  have h1 : ∀ k, i + k ≤ s.length → rd s (i + k) = rd (s.drop i) k := fun k _ => (rd_drop h).symm
  have ha1 : atP isDigit s (i + 1) = match ((s.drop i).drop 1).head? with
      | some c => isDigit c | none => false := by rw [atP_drop, List.drop_drop]
  have ha2 : atP isDigit s (i + 1 + 1) = match ((s.drop i).drop 2).head? with
      | some c => isDigit c | none => false := by rw [atP_drop, List.drop_drop]
  have hr0 : rd s i = rd (s.drop i) 0 := rd_drop0 h
  have hr1 : rd s (i + 1) = rd (s.drop i) 1 := (rd_drop h).symm
  have hr2 : rd s (i + 1 + 1) = rd (s.drop i) 2 := (rd_drop h).symm
  dsimp only
  simp only [hr0, hr1, hr2, ha1, ha2]
  by_cases hend : i = s.length
  · have : s.drop i = [] := List.drop_of_length_le (by omega)
    rw [this]
    simp [hend, Chk, oct3]
  have hg : decide (i ≠ s.length) = true := by simpa using hend
  rw [hg]
  simp only [R.guard_true, R.ok_bind]
  rcases hd : s.drop i with _ | ⟨c0, t⟩
  · rw [hd] at hl; simp at hl; omega
  have e0 : ∀ t', rd (c0 :: t') 0 = .ok c0 := fun _ => rfl
  simp only [e0, R.ok_bind]
  by_cases hc0 : isDigit c0 = true
  rotate_left
  · simp [hc0, Chk, oct3]
  simp only [hc0, R.guard_true, R.ok_bind]
  rcases t with _ | ⟨c1, t⟩
  · have eo : oct3 [c0] = [c0] := by simp [oct3, hc0]
    rw [eo]
    simp only [List.drop_succ_cons, List.drop_nil, List.head?_nil, Bool.false_eq_true, if_false]
    refine (Chk.guardPure _ _).congr ?_
    simp [decVal]
  have e1 : ∀ t', rd (c0 :: c1 :: t') 1 = .ok c1 := fun _ => rfl
  simp only [e1, List.drop_succ_cons, List.drop_zero, List.head?_cons]
  by_cases hc1 : isDigit c1 = true
  rotate_left
  · have eo : oct3 (c0 :: c1 :: t) = [c0] := by simp [oct3, hc0, hc1]
    rw [eo]
    simp only [hc1, Bool.false_eq_true, if_false]
    refine (Chk.guardPure _ _).congr ?_
    simp [decVal]
  simp only [hc1, if_true, R.ok_bind]
  rcases t with _ | ⟨c2, t⟩
  · have eo : oct3 [c0, c1] = [c0, c1] := by simp [oct3, hc0, hc1]
    rw [eo]
    simp only [List.head?_nil, Bool.false_eq_true, if_false]
    refine (Chk.guardPure _ _).congr ?_
    simp [decVal]
  have e2 : rd (c0 :: c1 :: c2 :: t) 2 = .ok c2 := rfl
  simp only [List.head?_cons, e2]
  by_cases hc2 : isDigit c2 = true
  · have eo : oct3 (c0 :: c1 :: c2 :: t) = [c0, c1, c2] := by simp [oct3, hc0, hc1, hc2]
    rw [eo]
    simp only [hc2, if_true, R.ok_bind]
    refine (Chk.guardPure _ _).congr ?_
    simp [decVal]
  · have eo : oct3 (c0 :: c1 :: c2 :: t) = [c0, c1] := by simp [oct3, hc0, hc1, hc2]
    rw [eo]
    simp only [hc2, Bool.false_eq_true, if_false]
    refine (Chk.guardPure _ _).congr ?_
    simp [decVal]

theorem eatDotChk (s : Bytes) (i : Nat) (h : i ≤ s.length) :
    Chk (eatDot s i) ((s.drop i).head? = some (ch! '.')) (i + 1) := by
  unfold eatDot
  by_cases hend : i = s.length
  · subst hend; simp [Chk]
  · have hlt : i < s.length := by omega
    rw [List.head?_drop, List.getElem?_eq_getElem hlt]
    refine (Chk.bind (Chk.guard _) (Chk.bind (Q := True) (Chk.char (rd_lt hlt)) ?_)).congr ?_
    · exact Chk.pure _
    simp [hend, u8_eq]

theorem oct3_le (t : Bytes) : (oct3 t).length ≤ t.length := by
  unfold oct3
  have h1 := (List.takeWhile_prefix (l := t.take 3) isDigit).length_le
  have h2 : (t.take 3).length ≤ t.length := by simp; omega
  omega

theorem oct3_octet {t : Bytes} (h : oct3 t ≠ [] ∧ decVal (oct3 t) ≤ 255) : Octet (oct3 t) := by
  refine ⟨List.length_pos_iff.2 h.1, ?_, ?_, h.2⟩
  · unfold oct3
    have h1 := (List.takeWhile_prefix (l := t.take 3) isDigit).length_le
    have h2 : (t.take 3).length ≤ 3 := by simp; omega
    omega
  · intro c hc; exact takeWhile_mem hc

theorem oct3_split (t : Bytes) : ∃ r, t = oct3 t ++ r := by
  have : oct3 t <+: t := (List.takeWhile_prefix isDigit).trans (List.take_prefix 3 t)
  obtain ⟨r, hr⟩ := this
  exact ⟨r, hr.symm⟩

/-- an octet not followed by a further digit it could take is what the scan finds -/
theorem oct3_of_octet {a r : Bytes} (ha : Octet a)
    (hr : a.length = 3 ∨ ∀ x, r.head? = some x → isDigit x = false) : oct3 (a ++ r) = a := by
  obtain ⟨h1, h2, h3, _⟩ := ha
  unfold oct3
  by_cases h3' : a.length = 3
  · rw [← h3', List.take_left']
    · exact takeWhile_all h3
    · rfl
  · have hr' : ∀ x, r.head? = some x → isDigit x = false := by
      rcases hr with hr | hr
      · exact absurd hr h3'
      · exact hr
    rw [List.take_append, List.take_of_length_le (by omega)]
    cases r with
    | nil => simp; exact takeWhile_all h3
    | cons x r =>
      have hx := hr' x rfl
      obtain ⟨k, hk⟩ : ∃ k, 3 - a.length = k + 1 := ⟨2 - a.length, by omega⟩
      rw [hk, List.take_succ_cons]
      exact takeWhile_stop h3 hx

theorem dot_not_digit : isDigit (ch! '.') = false := by decide

theorem oct3_drop (t : Bytes) : t = oct3 t ++ t.drop (oct3 t).length := by
  have : oct3 t <+: t := (List.takeWhile_prefix isDigit).trans (List.take_prefix 3 t)
  have := List.prefix_iff_eq_take.1 this
  conv => lhs; rw [← List.take_append_drop (oct3 t).length t, ← this]

theorem head_cons {t : Bytes} {x : UInt8} (h : t.head? = some x) : t = x :: t.drop 1 := by
  cases t <;> simp_all

/-- C34 ipv4. -/
theorem C34_ipv4 (h : offs ≤ s.length) (want : Bool) :
    Implements (parseIPv4 s offs want) (ipv4 (s.drop offs)) (text want (s.drop offs)) := by
  -- the specification, solved
  have hsolve : ∀ n, ipv4 (s.drop offs) n →
      ∃ a b c d r, s.drop offs = a ++ bs! "." ++ (b ++ bs! "." ++ (c ++ bs! "." ++ (d ++ r))) ∧
      Octet a ∧ Octet b ∧ Octet c ∧ Octet d ∧
      oct3 (s.drop offs) = a ∧ oct3 (b ++ bs! "." ++ (c ++ bs! "." ++ (d ++ r))) = b ∧
      oct3 (c ++ bs! "." ++ (d ++ r)) = c ∧ oct3 (d ++ r) = d ∧
      n = a.length + b.length + c.length + d.length + 3 := by
    rintro n ⟨a, b, c, d, r, e, ha, hb, hc, hd, hr, hn⟩
    have dot : ∀ x (r : Bytes), (bs! "." ++ r).head? = some x → isDigit x = false := by
      intro x r hx; simp at hx; subst hx; decide
    have e' : s.drop offs = a ++ bs! "." ++ (b ++ bs! "." ++ (c ++ bs! "." ++ (d ++ r))) := by
      rw [e]; simp only [List.append_assoc]
    refine ⟨a, b, c, d, r, e', ha, hb, hc, hd, ?_, ?_, ?_, ?_, hn⟩
    · rw [e', List.append_assoc]; exact oct3_of_octet ha (.inr (fun x => dot x _))
    · rw [List.append_assoc]; exact oct3_of_octet hb (.inr (fun x => dot x _))
    · rw [List.append_assoc]; exact oct3_of_octet hc (.inr (fun x => dot x _))
    · exact oct3_of_octet hd hr
  -- steps of the computation
  have hlen : ∀ i, i ≤ s.length → i + (oct3 (s.drop i)).length ≤ s.length := by
    intro i hi; have := oct3_le (s.drop i); simp at this; omega
  by_cases hex : ∃ n, ipv4 (s.drop offs) n
  · obtain ⟨n, hn⟩ := hex
    obtain ⟨a, b, c, d, r, e, ha, hb, hc, hd, oa, ob, oc, od, en⟩ := hsolve n hn
    have huniq : ∀ m, ipv4 (s.drop offs) m → m = n := by
      intro m hm
      obtain ⟨a', b', c', d', r', e', _, _, _, _, oa', ob', oc', od', en'⟩ := hsolve m hm
      have ha' : a' = a := by rw [← oa', oa]
      subst ha'
      have h1 : b' ++ bs! "." ++ (c' ++ bs! "." ++ (d' ++ r'))
          = b ++ bs! "." ++ (c ++ bs! "." ++ (d ++ r)) :=
        List.append_cancel_left (e'.symm.trans e)
      have hb' : b' = b := by rw [← ob', ← ob, h1]
      subst hb'
      have h2 := List.append_cancel_left h1
      have hc' : c' = c := by rw [← oc', ← oc, h2]
      subst hc'
      have h3 := List.append_cancel_left h2
      have hd' : d' = d := by rw [← od', ← od, h3]
      subst hd'
      omega
    have hok : parseIPv4 s offs want = .ok (n, text want (s.drop offs) n) := by
      have hL : s.length = offs + (s.drop offs).length := by simp; omega
      have hL' := congrArg List.length e
      simp only [List.length_append, List.length_cons, List.length_nil] at hL'
      have o1 := ha.1; have o2 := hb.1; have o3 := hc.1; have o4 := hd.1
      have d1 : s.drop (offs + a.length + 1) = b ++ bs! "." ++ (c ++ bs! "." ++ (d ++ r)) := by
        rw [Nat.add_assoc, ← List.drop_drop, e]
        simp [← List.drop_drop]
      have d2 : s.drop (offs + a.length + 1 + b.length + 1) = c ++ bs! "." ++ (d ++ r) := by
        rw [Nat.add_assoc (offs + a.length + 1), ← List.drop_drop, d1]
        simp [← List.drop_drop]
      have d3 : s.drop (offs + a.length + 1 + b.length + 1 + c.length + 1) = d ++ r := by
        rw [Nat.add_assoc (offs + a.length + 1 + b.length + 1), ← List.drop_drop, d2]
        simp [← List.drop_drop]
      have ne : ∀ {w : Bytes}, Octet w → w ≠ [] ∧ decVal w ≤ 255 := by
        intro w hw; exact ⟨List.length_pos_iff.1 hw.1, hw.2.2.2⟩
      have c1 := (chkByte s offs h).1 (by rw [oa]; exact ne ha)
      have c2 := (chkByte s (offs + a.length + 1) (by omega)).1 (by rw [d1, ob]; exact ne hb)
      have c3 := (chkByte s (offs + a.length + 1 + b.length + 1) (by omega)).1
        (by rw [d2, oc]; exact ne hc)
      have c4 := (chkByte s (offs + a.length + 1 + b.length + 1 + c.length + 1) (by omega)).1
        (by rw [d3, od]; exact ne hd)
      rw [oa] at c1
      rw [d1, ob] at c2
      rw [d2, oc] at c3
      rw [d3, od] at c4
      have dd : ∀ (i : Nat) (w q : Bytes), s.drop i = w ++ bs! "." ++ q →
          (s.drop (i + w.length)).head? = some (ch! '.') := by
        intro i w q hw
        rw [← List.drop_drop, hw]; simp
      have g1 := (eatDotChk s (offs + a.length) (by omega)).1 (dd _ _ _ e)
      have g2 := (eatDotChk s (offs + a.length + 1 + b.length) (by omega)).1 (dd _ _ _ d1)
      have g3 := (eatDotChk s (offs + a.length + 1 + b.length + 1 + c.length) (by omega)).1
        (dd _ _ _ d2)
      have hg : decide (offs + 7 ≤ s.length) = true := by simp; omega
      unfold parseIPv4
      rw [hg, c1]
      simp only [R.guard_true, R.ok_bind, g1, c2, g2, c3, g3, c4, R.pure_eq, strRes_eq]
      rw [show offs + a.length + 1 + b.length + 1 + c.length + 1 + d.length - offs = n by omega]
    exact ⟨fun m hm => by rw [huniq m hm]; exact hok, fun hno => absurd hn (hno n)⟩
  · refine ⟨fun n hn => absurd ⟨n, hn⟩ hex, fun _ => ?_⟩
    -- otherwise some check fails
    have hstep : ∀ i, i ≤ s.length → (s.drop i).head? = some (ch! '.') → i + 1 ≤ s.length := by
      intro i hi hh
      apply Decidable.byContradiction; intro hn
      rw [List.drop_of_length_le (by omega)] at hh; simp at hh
    unfold parseIPv4
    by_cases h7 : offs + 7 ≤ s.length
    rotate_left
    · simp [h7]
    simp only [h7, decide_true, R.guard_true, R.ok_bind]
    rcases (chkByte s offs h).cases with ⟨p1, e1⟩ | ⟨_, e1⟩
    rotate_left
    · rw [e1]; rfl
    rw [e1, R.ok_bind]
    rcases (eatDotChk s _ (hlen offs h)).cases with ⟨q1, f1⟩ | ⟨_, f1⟩
    rotate_left
    · rw [f1]; rfl
    have l1 := hstep _ (hlen offs h) q1
    rw [f1, R.ok_bind]
    generalize hi1 : offs + (oct3 (s.drop offs)).length + 1 = i1 at *
    rcases (chkByte s i1 l1).cases with ⟨p2, e2⟩ | ⟨_, e2⟩
    rotate_left
    · rw [e2]; rfl
    rw [e2, R.ok_bind]
    rcases (eatDotChk s _ (hlen i1 l1)).cases with ⟨q2, f2⟩ | ⟨_, f2⟩
    rotate_left
    · rw [f2]; rfl
    have l2 := hstep _ (hlen i1 l1) q2
    rw [f2, R.ok_bind]
    generalize hi2 : i1 + (oct3 (s.drop i1)).length + 1 = i2 at *
    rcases (chkByte s i2 l2).cases with ⟨p3, e3⟩ | ⟨_, e3⟩
    rotate_left
    · rw [e3]; rfl
    rw [e3, R.ok_bind]
    rcases (eatDotChk s _ (hlen i2 l2)).cases with ⟨q3, f3⟩ | ⟨_, f3⟩
    rotate_left
    · rw [f3]; rfl
    have l3 := hstep _ (hlen i2 l2) q3
    rw [f3, R.ok_bind]
    generalize hi3 : i2 + (oct3 (s.drop i2)).length + 1 = i3 at *
    rcases (chkByte s i3 l3).cases with ⟨p4, e4⟩ | ⟨_, e4⟩
    rotate_left
    · rw [e4]; rfl
    exfalso
    apply hex
    have cut : ∀ i, (s.drop (i + (oct3 (s.drop i)).length)).head? = some (ch! '.') →
        s.drop i = oct3 (s.drop i) ++ bs! "." ++ s.drop (i + (oct3 (s.drop i)).length + 1) := by
      intro i hh
      have h1 := oct3_drop (s.drop i)
      rw [List.drop_drop] at h1
      have h2 := head_cons hh
      rw [List.drop_drop] at h2
      conv => lhs; rw [h1, h2]
      simp
    have c1 := cut offs q1
    have c2 := cut i1 q2
    have c3 := cut i2 q3
    have c4 := oct3_drop (s.drop i3)
    rw [hi1] at c1; rw [hi2] at c2; rw [hi3] at c3
    refine ⟨_, oct3 (s.drop offs), oct3 (s.drop i1), oct3 (s.drop i2), oct3 (s.drop i3),
      (s.drop i3).drop (oct3 (s.drop i3)).length, ?_, oct3_octet p1, oct3_octet p2, oct3_octet p3,
      oct3_octet p4, ?_, rfl⟩
    · conv => lhs; rw [c1, c2, c3, c4]
      simp only [List.append_assoc]
    · -- the last octet is maximal
      by_cases h3 : (oct3 (s.drop i3)).length = 3
      · exact .inl h3
      · refine .inr ?_
        intro x hx
        apply Decidable.byContradiction
        intro hd
        have hd : isDigit x = true := by simpa using hd
        have hcons := head_cons hx
        have hlt3 : (oct3 (s.drop i3)).length < 3 := by
          have := (oct3_octet p4).2.1; omega
        have hall : oct3 (oct3 (s.drop i3) ++ (s.drop i3).drop (oct3 (s.drop i3)).length)
            = oct3 (s.drop i3) := by rw [← c4]
        rw [hcons] at hall
        generalize oct3 (s.drop i3) = a at *
        have hda : ∀ c ∈ a, isDigit c = true := by
          intro c hc; rw [← hall] at hc; exact takeWhile_mem hc
        unfold oct3 at hall
        rw [List.take_append, List.take_of_length_le (by omega)] at hall
        obtain ⟨k, hk⟩ : ∃ k, 3 - a.length = k + 1 := ⟨2 - a.length, by omega⟩
        rw [hk, List.take_succ_cons] at hall
        rw [List.takeWhile_append_of_pos hda, List.takeWhile_cons, if_pos hd] at hall
        have := congrArg List.length hall
        simp at this

example : parseIPv4 (bs! "ip 192.168.0.255 x") 3 true
    = .ok (13, some (.str (bs! "192.168.0.255"))) := by rfl
example : parseIPv4 (bs! "192.168.0.256") 0 true = .fail := by rfl
example : parseIPv4 (bs! "1.2.3.4444") 0 true = .fail := by rfl

/-! ### C23 -/

private theorem len6 {t : Bytes} (h : 6 ≤ t.length) :
    ∃ c0 c1 c2 c3 c4 c5 t', t = c0 :: c1 :: c2 :: c3 :: c4 :: c5 :: t' := by
  rcases t with _ | ⟨c0, _ | ⟨c1, _ | ⟨c2, _ | ⟨c3, _ | ⟨c4, _ | ⟨c5, t'⟩⟩⟩⟩⟩⟩
  all_goals first
    | (exfalso; revert h; simp; done)
    | exact ⟨c0, c1, c2, c3, c4, c5, t', rfl⟩

theorem Chk.digit' {t : Bytes} {k : Nat} {c : UInt8} (h : rd t k = .ok c) :
    Chk (guardDigit t k) (isDigit c = true) () := (Chk.digit h).congr isDigit_iff.symm
theorem Chk.char' {t : Bytes} {k : Nat} {c x : UInt8} (h : rd t k = .ok c) :
    Chk (guardChar t k x) (c = x) () := (Chk.char h).congr u8_eq.symm

/-- the up to seven further digits of the seconds -/
def more7 (t : Bytes) : Bytes := (t.take 7).takeWhile isDigit

private theorem more7_drop (t : Bytes) : t = more7 t ++ t.drop (more7 t).length := by
  have : more7 t <+: t := (List.takeWhile_prefix isDigit).trans (List.take_prefix 7 t)
  have := List.prefix_iff_eq_take.1 this
  conv => lhs; rw [← List.take_append_drop (more7 t).length t, ← this]

private theorem more7_of {a r : Bytes} {x : UInt8} (ha : ∀ c ∈ a, isDigit c = true)
    (hl : a.length ≤ 7) (hx : isDigit x = false) : more7 (a ++ x :: r) = a := by
  unfold more7
  by_cases h7 : a.length = 7
  · rw [← h7, List.take_left' rfl]; exact takeWhile_all ha
  · rw [List.take_append, List.take_of_length_le (by omega)]
    obtain ⟨k, hk⟩ : ∃ k, 7 - a.length = k + 1 := ⟨6 - a.length, by omega⟩
    rw [hk, List.take_succ_cons]
    exact takeWhile_stop ha hx

/-- the fraction: `.dddddd]` -/
private def frac (u : Bytes) : Bool :=
  fits [is 46, isDigit, isDigit, isDigit, isDigit, isDigit, isDigit, is 93] u

private theorem kernelTs_iff (t : Bytes) (n : Nat) : kernelTs t n ↔
    fits [is 91, isDigit, isDigit, isDigit, isDigit, isDigit] t = true ∧
    frac ((t.drop 6).drop (more7 (t.drop 6)).length) = true ∧
    n = (more7 (t.drop 6)).length + 14 := by
  constructor
  · rintro ⟨a, b, r, e, ha, ha1, ha2, hb, hb1, hn⟩
    obtain ⟨a0, a1, a2, a3, a4, a, rfl⟩ := len5 ha1
    simp only [List.cons_append, List.nil_append, List.append_assoc, List.mem_cons,
      forall_eq_or_imp, List.length_cons] at e ha ha2 hn
    obtain ⟨g0, g1, g2, g3, g4, g⟩ := ha
    subst e
    simp only [List.drop_succ_cons, List.drop_zero]
    rw [more7_of g (by omega) (by decide)]
    rcases b with _ | ⟨b0, _ | ⟨b1, _ | ⟨b2, _ | ⟨b3, _ | ⟨b4, _ | ⟨b5, _ | ⟨b6, b⟩⟩⟩⟩⟩⟩⟩ <;>
      simp at hb1
    simp only [List.mem_cons, forall_eq_or_imp] at hb
    simp [fits, frac, is, g0, g1, g2, g3, g4, hb]
    omega
  · rintro ⟨h1, h2, h3⟩
    obtain ⟨c0, c1, c2, c3, c4, c5, t, rfl⟩ := len6 (fits_length h1)
    simp only [List.drop_succ_cons, List.drop_zero] at h2 h3
    have hsp := more7_drop t
    have hd : ∀ c ∈ more7 t, isDigit c = true := fun c hc => takeWhile_mem hc
    have hl : (more7 t).length ≤ 7 := by
      have h1 := (List.takeWhile_prefix (l := t.take 7) isDigit).length_le
      have h2 : (t.take 7).length ≤ 7 := by simp; omega
      unfold more7; omega
    obtain ⟨d0, d1, d2, d3, d4, d5, d6, d7, u, hu⟩ := len8 (fits_length h2)
    rw [hu] at hsp h2
    simp [fits, is] at h1
    simp [fits, frac, is] at h2
    refine ⟨c1 :: c2 :: c3 :: c4 :: c5 :: more7 t, [d1, d2, d3, d4, d5, d6], u, ?_, ?_, ?_, ?_,
      ?_, rfl, ?_⟩
    · conv => lhs; rw [hsp]
      simp [h1, h2]
    · simp only [List.mem_cons, forall_eq_or_imp]
      exact ⟨h1.2.1, h1.2.2.1, h1.2.2.2.1, h1.2.2.2.2.1, h1.2.2.2.2.2, hd⟩
    · simp
    · simp; omega
    · simp [h2]
    · simp [h3]

/-- C23 kernel-timestamp. -/
theorem C23_kernel_timestamp (h : offs ≤ s.length) (want : Bool) :
    Implements (parseKernelTimestamp s offs want) (kernelTs (s.drop offs))
      (text want (s.drop offs)) := by
  refine implements_of_chk (n0 := (more7 ((s.drop offs).drop 6)).length + 14)
    (fun n hn => ((kernelTs_iff _ n).1 hn).2.2) ?_
  rw [kernelTs_iff]
  unfold parseKernelTimestamp
  have h0 : guardChar s offs (ch! '[') = guardChar (s.drop offs) 0 (ch! '[') :=
    guardChar_drop (k := 0) h
  have hL : s.length = offs + (s.drop offs).length := by simp; omega
  dsimp only
  simp only [h0, guardDigit_drop h, strRes_eq]
  by_cases h14 : offs + 14 ≤ s.length
  rotate_left
  · constructor
    · rintro ⟨h1, h2, _⟩
      exfalso
      have h2 := fits_length h2
      simp only [List.length_drop, List.length_cons, List.length_nil] at h2
      omega
    · intro _
      simp only [h14, decide_false, R.guard_false, R.fail_bind]
      have : (rd (s.drop offs) 0).Defined := rd_defined (by omega)
      unfold guardChar
      rcases this with ⟨c, hc⟩ | hc
      · rw [hc, R.ok_bind]; cases hd : decide (c = 91) <;> rfl
      · rw [hc]; rfl
  have hd6 : s.drop (offs + 6) = (s.drop offs).drop 6 := by rw [List.drop_drop]
  have hlt : 14 ≤ (s.drop offs).length := by omega
  obtain ⟨c0, c1, c2, c3, c4, c5, t, ht⟩ := len6 (t := s.drop offs) (by omega)
  have hd6' : (s.drop offs).drop 6 = t := by rw [ht]; rfl
  have hm : (((s.drop (offs + 6)).take 7).takeWhile isDigit) = more7 t := by
    rw [hd6, hd6']; rfl
  have hml : (more7 t).length ≤ t.length := by
    have := congrArg List.length (more7_drop t); simp at this; omega
  have hlen : s.length = offs + 6 + t.length := by rw [hL, ht]; simp; omega
  have htop : fits [is 91, isDigit, isDigit, isDigit, isDigit, isDigit] (s.drop offs) = true ↔
      (c0 = 91 ∧ isDigit c1 = true ∧ isDigit c2 = true ∧ isDigit c3 = true ∧ isDigit c4 = true ∧
        isDigit c5 = true) := by
    rw [ht]; simp [fits, is]
  rw [htop, hd6']
  simp only [hm]
  have hgd : ∀ k, guardDigit s (offs + 6 + (more7 t).length + k)
      = guardDigit (t.drop (more7 t).length) k := by
    intro k
    rw [guardDigit_drop (by omega), ← List.drop_drop, hd6, hd6']
  have hgc : ∀ k x, guardChar s (offs + 6 + (more7 t).length + k) x
      = guardChar (t.drop (more7 t).length) k x := by
    intro k x
    rw [guardChar_drop (by omega), ← List.drop_drop, hd6, hd6']
  have hgc0 : guardChar s (offs + 6 + (more7 t).length) (ch! '.')
      = guardChar (t.drop (more7 t).length) 0 (ch! '.') := hgc 0 _
  have e1 : offs + 6 + (more7 t).length + 1 + 7 - offs = (more7 t).length + 14 := by omega
  simp only [Nat.add_assoc (offs + 6 + (more7 t).length) 1, hgd, hgc, hgc0]
  have hr : ∀ k c, (c0 :: c1 :: c2 :: c3 :: c4 :: c5 :: t)[k]? = some c → rd (s.drop offs) k = .ok c := by
    intro k c hk; rw [rd_eq_ok, ht]; exact .inl hk
  refine (Chk.bind (Chk.char' (hr 0 c0 rfl)) (Chk.bind (Chk.guard _)
    (Chk.bind (Chk.digit' (hr 1 c1 rfl)) (Chk.bind (Chk.digit' (hr 2 c2 rfl))
    (Chk.bind (Chk.digit' (hr 3 c3 rfl)) (Chk.bind (Chk.digit' (hr 4 c4 rfl))
    (Chk.bind (Chk.digit' (hr 5 c5 rfl))
      (Q := frac (t.drop (more7 t).length) = true) ?_))))))).congr ?_
  rotate_left
  · simp only [h14, decide_true, true_and, and_true]
    constructor
    · rintro ⟨a, b, c, d, e, f, g⟩; exact ⟨⟨a, b, c, d, e, f⟩, g⟩
    · rintro ⟨⟨a, b, c, d, e, f⟩, g⟩; exact ⟨a, b, c, d, e, f, g⟩
  have hul : (t.drop (more7 t).length).length = t.length - (more7 t).length := by simp
  by_cases h8 : 8 ≤ (t.drop (more7 t).length).length
  · have g1 : decide (offs + 6 + (more7 t).length < s.length) = true := by simp; omega
    have g2 : decide (offs + 6 + (more7 t).length + (1 + 7) ≤ s.length) = true := by simp; omega
    rw [g1, g2]
    obtain ⟨d0, d1, d2, d3, d4, d5, d6, d7, u, hu⟩ := len8 h8
    rw [hu]
    simp only [R.guard_true, R.ok_bind]
    rw [show offs + 6 + (more7 t).length + (1 + 7) - offs = (more7 t).length + 14 by omega]
    refine (Chk.bind (Chk.char' rfl) (Chk.bind (Chk.digit' rfl) (Chk.bind (Chk.digit' rfl)
      (Chk.bind (Chk.digit' rfl) (Chk.bind (Chk.digit' rfl) (Chk.bind (Chk.digit' rfl)
      (Chk.bind (Chk.digit' rfl) (Chk.bind (Q := True) (Chk.char' rfl) ?_)))))))).congr ?_
    · exact Chk.pure _
    · simp [frac, fits, is]
  · constructor
    · intro hf; exact absurd (fits_length hf) h8
    · intro _
      have g2 : decide (offs + 6 + (more7 t).length + (1 + 7) ≤ s.length) = false := by
        simp; omega
      rw [g2]
      by_cases g1 : offs + 6 + (more7 t).length < s.length
      · simp only [g1, decide_true, R.guard_true, R.ok_bind, R.guard_false, R.fail_bind]
        have : (rd (t.drop (more7 t).length) 0).Defined := rd_defined (by omega)
        unfold guardChar
        rcases this with ⟨c, hc⟩ | hc
        · rw [hc, R.ok_bind]; cases hd : decide (c = 46) <;> rfl
        · rw [hc]; rfl
      · simp [g1]

example : parseKernelTimestamp (bs! "[12345.123456] x") 0 true
    = .ok (14, some (.str (bs! "[12345.123456]"))) := by rfl
example : parseKernelTimestamp (bs! "[123456789012.123456]") 0 true
    = .ok (21, some (.str (bs! "[123456789012.123456]"))) := by rfl
example : parseKernelTimestamp (bs! "[1234567890123.123456]") 0 true = .fail := by rfl

end LN
