import Verif.Model.V1Samp
import Verif.Proofs.V1Within
import Verif.Props.FieldsE
import Verif.Props.FieldsH
import Verif.Props.Dates
/- version 1 field types: lemmas -/
set_option autoImplicit false
namespace LN
open Spec
variable {s : Bytes} {offs : Nat}

/-! ### number -/

theorem v1Number_implements (s : Bytes) (offs : Nat) : Implements (v1Number s offs) (runOf isDigit (s.drop offs)) (fun _ => none) := by
  unfold v1Number
  simp only [scan_eq]
  obtain ⟨t, ht⟩ : ∃ t, s.drop offs = t := ⟨_, rfl⟩
  simp only [ht]
  refine implements_of_chk (fun n hn => Run.eq hn.2) ?_
  have e : offs + (t.takeWhile isDigit).length - offs = (t.takeWhile isDigit).length := by omega
  rw [e]
  have hr := takeWhile_run isDigit t
  refine ⟨fun h => ?_, fun h => ?_⟩
  · rw [if_neg (by have := h.1; omega)]
  · rw [if_pos]
    rcases Nat.eq_zero_or_pos (t.takeWhile isDigit).length with h0 | h0
    · omega
    · exact absurd ⟨h0, hr⟩ h

/-! ### name-value -/

theorem v1NameValue1_fwd {name val rest : Bytes} {i : Nat} (hi : i ≤ s.length)
    (hd : s.drop i = name ++ ch! '=' :: val ++ rest) (h0 : name ≠ []) (hn : ∀ c ∈ name, isValidNameChar c = true)
    (hv : ∀ c ∈ val, isSpace c = false) (hr : ∀ c, rest.head? = some c → isSpace c = true) :
    v1NameValue1 s i = .ok (i + (name.length + 1 + val.length), name, val) := by
  have hl : s.length = i + (name.length + 1 + val.length + rest.length) := by
    have := congrArg List.length hd
    simp at this; omega
  have e1 : scan isValidNameChar s i = i + name.length := by
    rw [scan_eq, hd, List.append_assoc, List.cons_append, takeWhile_stop hn (by decide)]
  have hd2 : s.drop (i + name.length) = ch! '=' :: (val ++ rest) := by
    rw [← List.drop_drop, hd]; simp
  have hd3 : s.drop (i + name.length + 1) = val ++ rest := by
    rw [← List.drop_drop, hd2]; rfl
  have e2 : scan (fun c => !isSpace c) s (i + name.length + 1) = i + name.length + 1 + val.length := by
    rw [scan_eq, hd3]
    cases rest with
    | nil => rw [List.append_nil, takeWhile_all (by intro c hc; simp [hv c hc])]
    | cons c r => rw [takeWhile_stop (by intro c hc; simp [hv c hc]) (by simp [hr c rfl])]
  have hg : guardChar s (i + name.length) (ch! '=') = .ok () := by
    rw [guardChar, ← rd_drop (by omega : i ≤ s.length), hd]
    rw [List.append_assoc, List.cons_append, rd_append]
    rfl
  unfold v1NameValue1
  rw [e1]
  have hp : 0 < name.length := by cases name with | nil => exact absurd rfl h0 | cons _ _ => simp
  have hgd : decide (i + name.length ≠ i) = true := by simp; omega
  simp only [hgd, R.guard_true, R.ok_bind, hg, e2, slice]
  rw [hd, hd3]
  have a1 : i + name.length - i = name.length := by omega
  have a2 : i + name.length + 1 + val.length - (i + name.length + 1) = val.length := by omega
  rw [a1, a2]
  simp
  omega

theorem v1NvLoop_fwd {t : Bytes} {l : List (Bytes × Bytes)} (h : V1Nv t l) : ∀ fuel i o, i ≤ s.length → s.drop i = t → t.length < fuel →
    v1NvLoop s fuel i o = .ok (s.length, l.foldl (fun o p => Obj.add o p.1 (.str p.2)) o) := by
  induction h with
  | nil =>
    intro fuel i o hi hd hf
    obtain ⟨fuel, rfl⟩ : ∃ k, fuel = k + 1 := ⟨fuel - 1, by simp at hf; omega⟩
    have : i = s.length := by
      have := congrArg List.length hd
      simp at this; omega
    rw [v1NvLoop, if_neg (by omega), this]
    rfl
  | @cons name val sp t l h0 hn hv hsp h1 h2 _ ih =>
    intro fuel i o hi hd hf
    obtain ⟨fuel, rfl⟩ : ∃ k, fuel = k + 1 := ⟨fuel - 1, by simp at hf; omega⟩
    have hl : s.length = i + (name.length + 1 + val.length + sp.length + t.length) := by
      have := congrArg List.length hd
      simp at this; omega
    rw [v1NvLoop, if_pos (by omega)]
    have hd' : s.drop i = name ++ ch! '=' :: val ++ (sp ++ t) := by rw [hd]; simp
    rw [v1NameValue1_fwd hi hd' h0 hn hv]
    · have hd3 : s.drop (i + (name.length + 1 + val.length)) = sp ++ t := by
        rw [← List.drop_drop, hd']
        rw [List.drop_append_of_le_length (by simp; omega)]
        rw [List.drop_of_length_le (by simp; omega)]
        rfl
      have e : scan isSpace s (i + (name.length + 1 + val.length)) = i + (name.length + 1 + val.length) + sp.length := by
        rw [scan_eq, hd3]
        cases t with
        | nil => rw [List.append_nil, takeWhile_all hsp]
        | cons c r => rw [takeWhile_stop hsp (h2 c rfl)]
      show v1NvLoop s fuel (scan isSpace s _) _ = _
      rw [e, ih fuel _ _ (by omega) ?_ ?_]
      · rfl
      · rw [← List.drop_drop, hd3]; simp
      · simp at hf; omega
    · intro c hc
      cases sp with
      | nil => rw [h1 rfl] at hc; simp at hc
      | cons d sp => simp at hc; subst hc; exact hsp _ (by simp)

theorem head_dropWhile {p : UInt8 → Bool} {l : Bytes} {c : UInt8} (h : (l.dropWhile p).head? = some c) : p c = false := by
  have := List.head?_dropWhile_not p l
  rw [h] at this
  simpa using this

theorem v1NameValue1_inv {i j : Nat} {n v : Bytes} (hi : i ≤ s.length) (h : v1NameValue1 s i = .ok (j, n, v)) :
    ∃ w, s.drop i = n ++ ch! '=' :: v ++ w ∧ s.drop j = w ∧ n ≠ [] ∧ (∀ c ∈ n, isValidNameChar c = true) ∧
      (∀ c ∈ v, isSpace c = false) ∧ ∀ c, w.head? = some c → isSpace c = true := by
  unfold v1NameValue1 at h
  obtain ⟨_, g1, h⟩ := R.bind_eq_ok.1 h
  obtain ⟨_, g2, h⟩ := R.bind_eq_ok.1 h
  obtain ⟨c, g3, g4⟩ := R.bind_eq_ok.1 g2
  have h' := R.ok.inj h
  obtain ⟨ej, en, ev⟩ : _ ∧ _ ∧ _ := ⟨congrArg (·.1) h', congrArg (·.2.1) h', congrArg (·.2.2) h'⟩
  dsimp only at ej en ev
  have hc : c = ch! '=' := by
    by_cases hc : c = ch! '='
    · exact hc
    · simp [R.guard, hc] at g4
  subst hc
  have hk := scan_le (p := isValidNameChar) hi
  have hk2 := @scan_ge isValidNameChar s i
  have hkn : slice s i (scan isValidNameChar s i - i) = (s.drop i).takeWhile isValidNameChar := by
    rw [scan_eq, slice, Nat.add_sub_cancel_left, take_takeWhile]
  have hkl : scan isValidNameChar s i = i + ((s.drop i).takeWhile isValidNameChar).length := scan_eq ..
  rw [hkn] at en
  rw [en] at hkl
  have hdk : s.drop i = n ++ s.drop (scan isValidNameChar s i) := by
    rw [hkl, ← List.drop_drop]
    have : n <+: s.drop i := by rw [← en]; exact List.takeWhile_prefix _
    obtain ⟨q, hq⟩ := this
    rw [← hq]; simp
  have hne : n ≠ [] := by
    rintro rfl
    simp at hkl
    simp [R.guard, hkl] at g1
  generalize scan isValidNameChar s i = k at *
  have hlen : k < s.length := by
    rcases Nat.lt_or_ge k s.length with h' | h'
    · exact h'
    · have : k = s.length := by omega
      rw [this, rd_end] at g3
      cases g3
  have hcs : s.drop k = ch! '=' :: s.drop (k + 1) := by
    rw [rd_lt hlen] at g3
    rw [List.drop_eq_getElem_cons hlen, R.ok.inj g3]
  have hvv : slice s (k + 1) (scan (fun c => !isSpace c) s (k + 1) - (k + 1)) = (s.drop (k + 1)).takeWhile (fun c => !isSpace c) := by
    rw [scan_eq, slice, Nat.add_sub_cancel_left, take_takeWhile]
  rw [hvv] at ev
  have hdj : s.drop j = (s.drop (k + 1)).dropWhile (fun c => !isSpace c) := by
    rw [← ej, scan_eq, ← List.drop_drop]
    have : ∀ p (l : Bytes), l.drop (l.takeWhile p).length = l.dropWhile p := by
      intro p l
      induction l with
      | nil => rfl
      | cons c l ih => by_cases hc : p c = true <;> simp [hc, ih]
    exact this _ _
  refine ⟨s.drop j, ?_, rfl, hne, ?_, ?_, ?_⟩
  · rw [hdk, hcs, hdj, ← ev, List.append_assoc, List.cons_append, List.takeWhile_append_dropWhile]
  · intro c hc; rw [← en] at hc; exact takeWhile_mem hc
  · intro c hc; rw [← ev] at hc; simpa using takeWhile_mem hc
  · intro c hc; rw [hdj] at hc; simpa using head_dropWhile hc

theorem v1NvLoop_inv : ∀ fuel i o r, i ≤ s.length → v1NvLoop s fuel i o = .ok r → ∃ l, V1Nv (s.drop i) l := by
  intro fuel
  induction fuel with
  | zero => intro i o r _ h; cases h
  | succ fuel ih =>
    intro i o r hi h
    rw [v1NvLoop] at h
    by_cases hlt : i < s.length
    · rw [if_pos hlt] at h
      obtain ⟨⟨j, n, v⟩, hj, h⟩ := R.bind_eq_ok.1 (show (v1NameValue1 s i >>= _) = _ from h)
      dsimp only at h
      have hp := (v1NameValue1_post (U := True) hi).1 _ hj
      dsimp only at hp
      obtain ⟨l, hl⟩ := ih _ _ _ (scan_le hp.2) h
      obtain ⟨w, e, ew, h1, h2, h3, h4⟩ := v1NameValue1_inv hi hj
      rw [scan_eq, ← List.drop_drop, ew] at hl
      have hww : w = w.takeWhile isSpace ++ w.drop (w.takeWhile isSpace).length := by
        obtain ⟨q, hq⟩ := List.takeWhile_prefix (l := w) isSpace
        have : ∀ a b : Bytes, w = a ++ b → w = a ++ w.drop a.length := by rintro a b rfl; simp
        exact this _ _ hq.symm
      refine ⟨(n, v) :: l, ?_⟩
      rw [e, hww, ← List.append_assoc]
      have hdw : w.drop (w.takeWhile isSpace).length = w.dropWhile isSpace := by
        have h5 : w = w.takeWhile isSpace ++ w.dropWhile isSpace := (List.takeWhile_append_dropWhile).symm
        have : ∀ a b : Bytes, w = a ++ b → w.drop a.length = b := by rintro a b rfl; simp
        exact this _ _ h5
      refine V1Nv.cons h1 h2 h3 (fun c hc => takeWhile_mem hc) ?_ ?_ hl
      · intro h0
        cases w with
        | nil => rfl
        | cons d w' => simp [h4 d rfl] at h0
      · intro c hc; rw [hdw] at hc; exact head_dropWhile hc
    · have : s.drop i = [] := List.drop_of_length_le (by omega)
      exact ⟨[], this ▸ V1Nv.nil⟩

/-! ### cisco-interface-spec -/

theorem v1Number_eq (hf : Digits18 s) (i : Nat) : parseNumber s i none false = v1Number s i := by
  have h1 := v1Number_implements s i
  have h2 := C20_number_partial (s := s) (offs := i) none false (by
    have h := hf i
    have key : ∀ (ds : Bytes) (v : Nat), (∀ c ∈ ds, isDigit c = true) →
        ds.foldl (fun v c => v * 10 + (c.toNat - 48)) v < (v + 1) * 10 ^ ds.length := by
      intro ds
      induction ds with
      | nil => intro v _; simp
      | cons c ds ih =>
        intro v hd
        have hc : c.toNat - 48 ≤ 9 := by
          have := hd c (by simp)
          simp [isDigit, UInt8.le_iff_toNat_le] at this
          omega
        have := ih (v * 10 + (c.toNat - 48)) fun c hc => hd c (by simp [hc])
        simp only [List.foldl_cons, List.length_cons, Nat.pow_succ]
        calc _ < _ := this
          _ ≤ (v * 10 + 10) * 10 ^ ds.length := Nat.mul_le_mul_right _ (by omega)
          _ = _ := by rw [show v * 10 + 10 = (v + 1) * 10 by omega, Nat.mul_assoc, Nat.mul_comm 10]
    have h3 := key _ 0 (fun c hc => takeWhile_mem (p := isDigit) (l := s.drop i) hc)
    have h4 : (10 : Nat) ^ ((s.drop i).takeWhile isDigit).length ≤ 10 ^ 18 := Nat.pow_le_pow_right (by omega) h
    unfold decVal int64Max
    omega)
  have h2' : Implements (parseNumber s i none false) (runOf isDigit (s.drop i)) (fun _ => none) := by
    refine ⟨fun n hn => ?_, fun hno => h2.2 fun n hn => hno n ⟨hn.1, hn.2.1⟩⟩
    rw [h2.1 n ⟨hn.1, hn.2, by simp⟩]
    rfl
  rcases h1.cases with ⟨n, hn, e⟩ | e
  · rw [e, h2'.1 n hn]
  · by_cases hx : ∃ n, runOf isDigit (s.drop i) n
    · obtain ⟨n, hn⟩ := hx
      rw [h1.1 n hn] at e; cases e
    · rw [e, h2'.2 fun n hn => hx ⟨n, hn⟩]

theorem v1CiscoSecond_eq (hf : Digits18 s) (i : Nat) : ciscoSecond s i = v1CiscoSecond s i := by
  unfold ciscoSecond v1CiscoSecond
  simp only [v1Number_eq hf]
  rfl

theorem v1CiscoSecond_ok (i : Nat) : ∃ o, v1CiscoSecond s i = .ok o := by
  have hp := v1CiscoSecond_post (s := s) (U := True) i
  rcases hr : v1CiscoSecond s i with o | _ | k | _
  · exact ⟨o, rfl⟩
  · exfalso
    unfold v1CiscoSecond at hr
    split at hr
    · dsimp only at hr
      rcases h1 : R.attempt (parseIPv4 s (i + 2) false) with a | _ | _ | _ <;> rw [h1] at hr
      · simp only [R.ok_bind] at hr
        rcases a with _ | ⟨n, v⟩
        · cases hr
        · dsimp only at hr
          rcases h2 : R.attempt (v1Number s (i + 2 + n + 1)) with b | _ | _ | _ <;> rw [h2] at hr
          · simp only [R.ok_bind] at hr
            rcases b with _ | ⟨m, w⟩
            · cases hr
            · dsimp only at hr
              split at hr <;> cases hr
          · unfold R.attempt at h2
            split at h2 <;> cases h2
          · cases hr
          · cases hr
      · unfold R.attempt at h1
        split at h1 <;> cases h1
      · cases hr
      · cases hr
    · cases hr
  · exact absurd hr (hp.2.2 trivial k)
  · exact absurd hr hp.2.1

theorem v1Cisco_ok_inv (hf : Digits18 s) {n : Nat} {w : Option Json} (hok : v1Cisco s offs = .ok (n, w)) :
    parseCisco s offs true ≠ .fail := by
  intro hfail
  unfold v1Cisco at hok
  unfold parseCisco at hfail
  obtain ⟨c, h1, hok⟩ := R.bind_eq_ok.1 hok
  obtain ⟨_, h2, hok⟩ := R.bind_eq_ok.1 hok
  obtain ⟨⟨ifc, a, b, i⟩, h3, hok⟩ := R.bind_eq_ok.1 hok
  dsimp only at hok
  obtain ⟨_, h4, hok⟩ := R.bind_eq_ok.1 hok
  obtain ⟨_, h5, hok⟩ := R.bind_eq_ok.1 hok
  obtain ⟨⟨l, v⟩, h6, hok⟩ := R.bind_eq_ok.1 hok
  rw [h1, R.ok_bind, h2, R.ok_bind, h3, R.ok_bind] at hfail
  dsimp only at hfail
  rw [h4, R.ok_bind, h5, R.ok_bind, v1Number_eq hf, h6, R.ok_bind] at hfail
  dsimp only at hfail
  obtain ⟨o, ho⟩ := v1CiscoSecond_ok (s := s) (i + 1 + l)
  rw [v1CiscoSecond_eq hf, ho, R.ok_bind] at hfail
  cases hfail

theorem v1Cisco_head (h : offs ≤ s.length) (hf : Digits18 s) {iface : Option Bytes} {ip port r : Bytes}
    (hh : CiscoHead (s.drop offs) iface ip port r) :
    v1Cisco s offs = if r = [] then .ok (s.length - offs, none) else parseCisco s offs true := by
  obtain ⟨c, ifc, j, q1, q2, q3, q4, q5, q6, q7, q8, q9⟩ := ciscoHead_ok h hf hh
  have hlt := lt_of_drop_cons q6
  have hi1 : j + ip.length + 1 + port.length ≤ s.length := by
    have hpl := congrArg List.length (drop_of_cons q6)
    simp at hpl
    omega
  have g : decide (j + ip.length ≠ s.length) = true := by simp; omega
  unfold v1Cisco parseCisco
  rw [q1]
  simp only [R.ok_bind, q2, R.guard_true, q3]
  rw [g, slash_ok q6]
  simp only [R.guard_true, R.ok_bind, q7]
  rw [v1Number_eq hf] at q7
  rw [q7]
  simp only [R.ok_bind]
  by_cases hr : r = []
  · have : j + ip.length + 1 + port.length = s.length := by
      have h1 := congrArg List.length q9
      rw [hr] at h1
      simp at h1; omega
    rw [if_pos this, if_pos hr, this]
    rfl
  · have : ¬ j + ip.length + 1 + port.length = s.length := by
      intro h0
      rw [h0, List.drop_length] at q9
      exact hr q9.symm
    rw [if_neg this, if_neg hr, v1CiscoSecond_eq hf]
    rfl

theorem v1TypeNames_ok : ∀ p ∈ v1TypeNames, v1Type p.1 = some (.fn p.2, .none) := by decide

end LN
