import Verif.Spec.Fields
import Verif.Proofs.RLemmas
/- Tools for the proofs about single parsers. -/
namespace LN
open Spec

theorem u8_eq {a b : UInt8} : a = b ↔ a.toNat = b.toNat := by
  constructor
  · intro h; rw [h]
  · exact UInt8.toNat_inj.1
theorem isDigit_iff {c : UInt8} : isDigit c = true ↔ 48 ≤ c.toNat ∧ c.toNat ≤ 57 := by
  simp [isDigit, UInt8.le_iff_toNat_le]

theorem guardDigit_drop {s : Bytes} {i k : Nat} (h : i ≤ s.length) :
    guardDigit s (i + k) = guardDigit (s.drop i) k := by simp [guardDigit, rd_drop h]
theorem guardChar_drop {s : Bytes} {i k : Nat} {x} (h : i ≤ s.length) :
    guardChar s (i + k) x = guardChar (s.drop i) k x := by simp [guardChar, rd_drop h]
theorem guardRange_drop {s : Bytes} {i k : Nat} {x y} (h : i ≤ s.length) :
    guardRange s (i + k) x y = guardRange (s.drop i) k x y := by simp [guardRange, rd_drop h]
theorem guardX_drop {s : Bytes} {i k : Nat} (h : i ≤ s.length) :
    guardX s (i + k) = guardX (s.drop i) k := by simp [guardX, rd_drop h]
theorem rd_drop0 {s : Bytes} {i : Nat} (h : i ≤ s.length) : rd s i = rd (s.drop i) 0 := by
  rw [rd_drop h]; rfl

theorem fits_length {ps : List (UInt8 → Bool)} {t : Bytes} (h : fits ps t = true) :
    ps.length ≤ t.length := by
  induction ps generalizing t with
  | nil => simp
  | cons p ps ih =>
    cases t with
    | nil => simp [fits] at h
    | cons c t => simp [fits] at h; simpa using ih h.2

theorem len2 {t : Bytes} (h : 2 ≤ t.length) :
    ∃ c0 c1 t', t = c0 :: c1 :: t' := by
  rcases t with _ | ⟨c0, _ | ⟨c1, t'⟩⟩
  all_goals first
    | (exfalso; revert h; simp; done)
    | exact ⟨c0, c1, t', rfl⟩

theorem len5 {t : Bytes} (h : 5 ≤ t.length) :
    ∃ c0 c1 c2 c3 c4 t', t = c0 :: c1 :: c2 :: c3 :: c4 :: t' := by
  rcases t with _ | ⟨c0, _ | ⟨c1, _ | ⟨c2, _ | ⟨c3, _ | ⟨c4, t'⟩⟩⟩⟩⟩
  all_goals first
    | (exfalso; revert h; simp; done)
    | exact ⟨c0, c1, c2, c3, c4, t', rfl⟩

theorem len8 {t : Bytes} (h : 8 ≤ t.length) :
    ∃ c0 c1 c2 c3 c4 c5 c6 c7 t', t = c0 :: c1 :: c2 :: c3 :: c4 :: c5 :: c6 :: c7 :: t' := by
  rcases t with _ | ⟨c0, _ | ⟨c1, _ | ⟨c2, _ | ⟨c3, _ | ⟨c4, _ | ⟨c5, _ | ⟨c6, _ | ⟨c7, t'⟩⟩⟩⟩⟩⟩⟩⟩
  all_goals first
    | (exfalso; revert h; simp; done)
    | exact ⟨c0, c1, c2, c3, c4, c5, c6, c7, t', rfl⟩

theorem len10 {t : Bytes} (h : 10 ≤ t.length) :
    ∃ c0 c1 c2 c3 c4 c5 c6 c7 c8 c9 t', t = c0 :: c1 :: c2 :: c3 :: c4 :: c5 :: c6 :: c7 :: c8 :: c9 :: t' := by
  rcases t with _ | ⟨c0, _ | ⟨c1, _ | ⟨c2, _ | ⟨c3, _ | ⟨c4, _ | ⟨c5, _ | ⟨c6, _ | ⟨c7, _ | ⟨c8, _ | ⟨c9, t'⟩⟩⟩⟩⟩⟩⟩⟩⟩⟩
  all_goals first
    | (exfalso; revert h; simp; done)
    | exact ⟨c0, c1, c2, c3, c4, c5, c6, c7, c8, c9, t', rfl⟩

theorem len17 {t : Bytes} (h : 17 ≤ t.length) :
    ∃ c0 c1 c2 c3 c4 c5 c6 c7 c8 c9 c10 c11 c12 c13 c14 c15 c16 t', t = c0 :: c1 :: c2 :: c3 :: c4 :: c5 :: c6 :: c7 :: c8 :: c9 :: c10 :: c11 :: c12 :: c13 :: c14 :: c15 :: c16 :: t' := by
  rcases t with _ | ⟨c0, _ | ⟨c1, _ | ⟨c2, _ | ⟨c3, _ | ⟨c4, _ | ⟨c5, _ | ⟨c6, _ | ⟨c7, _ | ⟨c8, _ | ⟨c9, _ | ⟨c10, _ | ⟨c11, _ | ⟨c12, _ | ⟨c13, _ | ⟨c14, _ | ⟨c15, _ | ⟨c16, t'⟩⟩⟩⟩⟩⟩⟩⟩⟩⟩⟩⟩⟩⟩⟩⟩⟩
  all_goals first
    | (exfalso; revert h; simp; done)
    | exact ⟨c0, c1, c2, c3, c4, c5, c6, c7, c8, c9, c10, c11, c12, c13, c14, c15, c16, t', rfl⟩

/-! ### runs -/

theorem takeWhile_run (p : UInt8 → Bool) (t : Bytes) : Run p t (t.takeWhile p).length := by
  induction t with
  | nil => simp [Run]
  | cons c t ih =>
    obtain ⟨h1, h2, h3⟩ := ih
    by_cases hc : p c = true
    · simp only [List.takeWhile_cons, hc, if_true, List.length_cons]
      refine ⟨by simpa using h1, ?_, by simpa using h3⟩
      intro x hx
      rw [List.take_succ_cons, List.mem_cons] at hx
      rcases hx with rfl | hx
      · exact hc
      · exact h2 x hx
    · simp only [List.takeWhile_cons, hc]
      refine ⟨by simp, by simp, ?_⟩
      intro x hx
      simp at hx
      subst hx; simpa using hc

theorem Run.eq {p : UInt8 → Bool} {t : Bytes} {n : Nat} (h : Run p t n) :
    n = (t.takeWhile p).length := by
  induction t generalizing n with
  | nil => obtain ⟨h1, _, _⟩ := h; simpa using h1
  | cons c t ih =>
    obtain ⟨h1, h2, h3⟩ := h
    cases n with
    | zero =>
      have := h3 c rfl
      simp [this]
    | succ n =>
      have hc : p c = true := h2 c (by simp)
      simp only [List.takeWhile_cons, hc, if_true, List.length_cons]
      rw [ih (n := n) ⟨by simpa using h1, fun x hx => h2 x (by simp [hx]), by simpa using h3⟩]

theorem run_iff {p : UInt8 → Bool} {t : Bytes} {n : Nat} : Run p t n ↔ n = (t.takeWhile p).length :=
  ⟨Run.eq, fun h => h ▸ takeWhile_run p t⟩

theorem scan_sub (p : UInt8 → Bool) (s : Bytes) (offs : Nat) :
    scan p s offs - offs = ((s.drop offs).takeWhile p).length := by simp [scan]

/-- building `Implements` from a computation rule with a decidable condition -/
theorem implements_of_eq {x : PR} {spec : Nat → Prop} {val : Nat → Option Json} {n0 : Nat}
    (huniq : ∀ n, spec n → n = n0) (hok : spec n0 → x = .ok (n0, val n0))
    (hfail : ¬ spec n0 → x = .fail) : Implements x spec val :=
  ⟨fun n hn => by have h := huniq n hn; subst h; exact hok hn, fun h => hfail (h n0)⟩

end LN

/-! ### computations without undefined behaviour, as a condition and a result -/
namespace LN

/-- `x` yields `a` if `P` holds and "no match" otherwise -/
def Chk {α : Type} (x : R α) (P : Prop) (a : α) : Prop := (P → x = .ok a) ∧ (¬ P → x = .fail)

namespace Chk
variable {α β : Type} {P Q : Prop}

theorem ok (a : α) : Chk (R.ok a) True a := ⟨fun _ => rfl, fun h => absurd trivial h⟩
theorem pure (a : α) : Chk (Pure.pure a : R α) True a := ok a
theorem fail {a : α} : Chk (R.fail : R α) False a := ⟨fun h => h.elim, fun _ => rfl⟩
theorem guard (b : Bool) : Chk (R.guard b) (b = true) () := by
  cases b <;> simp [Chk]
theorem bind {x : R α} {f : α → R β} {a : α} {b : β} (hx : Chk x P a) (hf : Chk (f a) Q b) :
    Chk (x >>= f) (P ∧ Q) b := by
  by_cases hp : P
  · rw [show x = .ok a from hx.1 hp]
    exact ⟨fun h => hf.1 h.2, fun h => hf.2 (fun hq => h ⟨hp, hq⟩)⟩
  · rw [show x = .fail from hx.2 hp]
    exact ⟨fun h => absurd h.1 hp, fun _ => rfl⟩
theorem okBind {c : α} {f : α → R β} {b : β} (hf : Chk (f c) Q b) : Chk (R.ok c >>= f) Q b := hf
theorem ite {c : Prop} [Decidable c] {x y : R α} {a : α} (hx : Chk x P a) (hy : Chk y Q a) :
    Chk (if c then x else y) ((c ∧ P) ∨ (¬ c ∧ Q)) a := by
  by_cases hc : c <;> simp [hc] <;> assumption
theorem congr {x : R α} {a : α} (hx : Chk x P a) (h : P ↔ Q) : Chk x Q a :=
  ⟨fun q => hx.1 (h.2 q), fun q => hx.2 (fun p => q (h.1 p))⟩

theorem digit {t : Bytes} {k : Nat} {c : UInt8} (h : rd t k = .ok c) :
    Chk (guardDigit t k) (48 ≤ c.toNat ∧ c.toNat ≤ 57) () := by
  unfold guardDigit; rw [h]
  exact okBind ((guard _).congr isDigit_iff)
theorem char {t : Bytes} {k : Nat} {c x : UInt8} (h : rd t k = .ok c) :
    Chk (guardChar t k x) (c.toNat = x.toNat) () := by
  unfold guardChar; rw [h]
  exact okBind ((guard _).congr (by simp [u8_eq]))
theorem range {t : Bytes} {k : Nat} {c x y : UInt8} (h : rd t k = .ok c) :
    Chk (guardRange t k x y) (x.toNat ≤ c.toNat ∧ c.toNat ≤ y.toNat) () := by
  unfold guardRange; rw [h]
  exact okBind ((guard _).congr (by simp [UInt8.le_iff_toNat_le]))
theorem rdBind {t : Bytes} {k : Nat} {c : UInt8} {f : UInt8 → R β} {b : β} (h : rd t k = .ok c)
    (hf : Chk (f c) Q b) : Chk (rd t k >>= f) Q b := by rw [h]; exact hf

end Chk

open Spec in
theorem implements_of_chk {x : PR} {spec : Nat → Prop} {val : Nat → Option Json} {n0 : Nat}
    (huniq : ∀ n, spec n → n = n0) (h : Chk x (spec n0) (n0, val n0)) :
    Implements x spec val := implements_of_eq huniq h.1 h.2

end LN

namespace LN
open Spec

theorem scan_eq (p : UInt8 → Bool) (s : Bytes) (offs : Nat) :
    scan p s offs = offs + ((s.drop offs).takeWhile p).length := by rw [scan]

theorem strRes_eq (want : Bool) (s : Bytes) (offs n : Nat) :
    strRes want s offs n = (n, text want (s.drop offs) n) := rfl

theorem takeWhile_all {p : UInt8 → Bool} {l : Bytes} (h : ∀ c ∈ l, p c = true) :
    l.takeWhile p = l := by
  induction l with
  | nil => rfl
  | cons c l ih =>
    rw [List.takeWhile_cons, if_pos (h c (by simp)), ih (fun x hx => h x (by simp [hx]))]

theorem takeWhile_stop {p : UInt8 → Bool} {l r : Bytes} {w : UInt8} (h : ∀ c ∈ l, p c = true)
    (hw : p w = false) : (l ++ w :: r).takeWhile p = l := by
  induction l with
  | nil => simp [hw]
  | cons c l ih =>
    rw [List.cons_append, List.takeWhile_cons, if_pos (h c (by simp)),
      ih (fun x hx => h x (by simp [hx]))]

theorem takeWhile_mem {p : UInt8 → Bool} {l : Bytes} {c : UInt8} (h : c ∈ l.takeWhile p) :
    p c = true := by
  induction l with
  | nil => simp at h
  | cons x l ih =>
    rw [List.takeWhile_cons] at h
    split at h
    · rcases List.mem_cons.1 h with h | h
      · rw [h]; assumption
      · exact ih h
    · simp at h

/-- a list splits at the end of its leading run -/
theorem takeWhile_split (p : UInt8 → Bool) (l : Bytes) :
    l = l.takeWhile p ∨ ∃ w r, l = l.takeWhile p ++ w :: r ∧ p w = false := by
  induction l with
  | nil => exact .inl rfl
  | cons c l ih =>
    by_cases hc : p c = true
    · rw [List.takeWhile_cons, if_pos hc]
      rcases ih with ih | ⟨w, r, ih, hw⟩
      · exact .inl (by rw [← ih])
      · exact .inr ⟨w, r, by rw [List.cons_append, ← ih], hw⟩
    · rw [List.takeWhile_cons, if_neg hc]
      exact .inr ⟨c, l, rfl, by simpa using hc⟩

theorem cstr_noNul {l : Bytes} (h : ∀ c ∈ l, c ≠ 0) : cstr l = l :=
  takeWhile_all (fun c hc => by simpa using h c hc)

theorem take_takeWhile (p : UInt8 → Bool) (t : Bytes) :
    t.take (t.takeWhile p).length = t.takeWhile p :=
  (List.prefix_iff_eq_take.1 (List.takeWhile_prefix _)).symm

theorem rd_append {a b : Bytes} {c : UInt8} : rd (a ++ c :: b) a.length = .ok c := by
  simp [rd]

end LN

namespace LN
theorem Chk.guardPure {α : Type} (b : Bool) (a : α) :
    Chk (R.guard b >>= fun _ => (Pure.pure a : R α)) (b = true) a := by
  cases b <;> simp [Chk]
theorem Chk.cases {α : Type} {x : R α} {P : Prop} {a : α} (h : Chk x P a) :
    (P ∧ x = .ok a) ∨ (¬ P ∧ x = .fail) := by
  by_cases hp : P
  · exact .inl ⟨hp, h.1 hp⟩
  · exact .inr ⟨hp, h.2 hp⟩
theorem Chk.defined {α : Type} {x : R α} {P : Prop} {a : α} (h : Chk x P a) : x.Defined := by
  rcases h.cases with ⟨_, h⟩ | ⟨_, h⟩ <;> simp [h]
theorem Chk.of_ok {α : Type} {x : R α} {P : Prop} {a b : α} (h : Chk x P a) (hb : x = .ok b) :
    P ∧ b = a := by
  rcases h.cases with ⟨hp, h⟩ | ⟨_, h⟩
  · rw [h] at hb; exact ⟨hp, by simpa using hb.symm⟩
  · rw [h] at hb; simp at hb
end LN
