import Verif.Model.Basic
/- Rewriting lemmas for the result type and the read primitives. -/
namespace LN
namespace R
variable {α β : Type}

@[simp] theorem pure_eq (a : α) : (pure a : R α) = .ok a := rfl
@[simp] theorem ok_bind (a : α) (f : α → R β) : (R.ok a >>= f) = f a := rfl
@[simp] theorem fail_bind (f : α → R β) : ((R.fail : R α) >>= f) = .fail := rfl
@[simp] theorem ub_bind (k : UB) (f : α → R β) : ((R.ub k : R α) >>= f) = .ub k := rfl
@[simp] theorem oof_bind (f : α → R β) : ((R.oof : R α) >>= f) = .oof := rfl
@[simp] theorem ok_bind' (a : α) (f : α → R β) : (R.ok a).bind f = f a := rfl
@[simp] theorem fail_bind' (f : α → R β) : (R.fail : R α).bind f = .fail := rfl
@[simp] theorem ub_bind' (k : UB) (f : α → R β) : (R.ub k : R α).bind f = .ub k := rfl
@[simp] theorem oof_bind' (f : α → R β) : (R.oof : R α).bind f = .oof := rfl
theorem bind_def (x : R α) (f : α → R β) : (x >>= f) = x.bind f := rfl

theorem bind_eq_ok {x : R α} {f : α → R β} {b : β} :
    (x >>= f) = .ok b ↔ ∃ a, x = .ok a ∧ f a = .ok b := by
  cases x <;> simp
theorem bind'_eq_ok {x : R α} {f : α → R β} {b : β} :
    x.bind f = .ok b ↔ ∃ a, x = .ok a ∧ f a = .ok b := bind_eq_ok
theorem bind_eq_fail {x : R α} {f : α → R β} :
    (x >>= f) = .fail ↔ x = .fail ∨ ∃ a, x = .ok a ∧ f a = .fail := by
  cases x <;> simp

@[simp] theorem guard_true : guard true = .ok () := rfl
@[simp] theorem guard_false : guard false = .fail := rfl
theorem guard_eq_ok {b : Bool} {u : Unit} : guard b = .ok u ↔ b = true := by
  cases b <;> simp [guard]
theorem guard_bind (b : Bool) (f : Unit → R β) :
    (guard b >>= f) = if b then f () else .fail := by
  cases b <;> simp

@[simp] theorem attempt_ok (a : α) : (R.ok a).attempt = .ok (some a) := rfl
@[simp] theorem attempt_fail : (R.fail : R α).attempt = .ok none := rfl
@[simp] theorem attempt_ub (k : UB) : (R.ub k : R α).attempt = .ub k := rfl
@[simp] theorem attempt_oof : (R.oof : R α).attempt = .oof := rfl
theorem attempt_eq_some {x : R α} {a : α} : x.attempt = .ok (some a) ↔ x = .ok a := by
  cases x <;> simp
theorem attempt_eq_none {x : R α} : x.attempt = .ok none ↔ x = .fail := by
  cases x <;> simp

theorem Defined.ok {a : α} : (R.ok a).Defined := .inl ⟨a, rfl⟩
theorem Defined.fail : (R.fail : R α).Defined := .inr rfl
@[simp] theorem defined_ok (a : α) : (R.ok a).Defined := .inl ⟨a, rfl⟩
@[simp] theorem defined_fail : (R.fail : R α).Defined := .inr rfl
@[simp] theorem not_defined_ub (k : UB) : ¬ (R.ub k : R α).Defined := by simp [Defined]
@[simp] theorem not_defined_oof : ¬ (R.oof : R α).Defined := by simp [Defined]
theorem Defined.bind {x : R α} {f : α → R β} (hx : x.Defined)
    (hf : ∀ a, x = .ok a → (f a).Defined) : (x >>= f).Defined := by
  cases x <;> simp_all
theorem Defined.bind' {x : R α} {f : α → R β} (hx : x.Defined)
    (hf : ∀ a, x = .ok a → (f a).Defined) : (x.bind f).Defined := Defined.bind hx hf
@[simp] theorem defined_guard (b : Bool) : (guard b).Defined := by cases b <;> simp
theorem defined_attempt {x : R α} (h : x.Defined) : x.attempt.Defined := by
  cases x <;> simp_all
theorem Defined.ite {c : Prop} [Decidable c] {x y : R α} (hx : c → x.Defined)
    (hy : ¬ c → y.Defined) : (if c then x else y).Defined := by
  split <;> simp_all

end R

/-! ### reads -/

theorem rd_lt {s : Bytes} {i : Nat} (h : i < s.length) : rd s i = .ok s[i] := by
  simp [rd, h]
theorem rd_end (s : Bytes) : rd s s.length = .ok 0 := by simp [rd]
theorem rd_defined {s : Bytes} {i : Nat} (h : i ≤ s.length) : (rd s i).Defined := by
  unfold rd; split
  · simp
  · have : i = s.length := by omega
    simp [this]
theorem rd_eq_ok {s : Bytes} {i : Nat} {c : UInt8} :
    rd s i = .ok c ↔ (s[i]? = some c) ∨ (i = s.length ∧ c = 0) := by
  unfold rd
  split
  · rename_i h; simp [List.getElem?_eq_getElem h]; omega
  · rename_i h
    split <;> simp_all [eq_comm]
/-- reading a byte other than NUL means there is such a byte -/
theorem rd_eq_ok_ne {s : Bytes} {i : Nat} {c : UInt8} (hc : c ≠ 0) :
    rd s i = .ok c ↔ s[i]? = some c := by
  rw [rd_eq_ok]; constructor
  · rintro (h | ⟨_, h⟩)
    · exact h
    · exact absurd h hc
  · exact .inl
theorem rd_drop {s : Bytes} {i k : Nat} (h : i ≤ s.length) : rd (s.drop i) k = rd s (i + k) := by
  unfold rd
  simp only [List.length_drop, List.getElem_drop]
  split
  · rw [dif_pos (by omega)]
  · rw [dif_neg (by omega)]
    split
    · rw [if_pos (by omega)]
    · rw [if_neg (by omega)]

end LN
