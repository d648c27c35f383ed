import Verif.Proofs.RLemmas
import Verif.Model.Pdag
/- More fuel never changes an outcome that was reached: the fuel only bounds the length of the
execution that the model follows. -/
set_option autoImplicit false
namespace LN

/-- `y` is what `x` turns into when it is given more fuel -/
def FuelLe {α : Type} (x y : R α) : Prop := x = .oof ∨ x = y

theorem FuelLe.refl {α : Type} (x : R α) : FuelLe x x := .inr rfl

theorem FuelLe.bind {α β : Type} {x y : R α} {f g : α → R β} (h : FuelLe x y)
    (hfg : ∀ a, FuelLe (f a) (g a)) : FuelLe (x >>= f) (y >>= g) := by
  rcases h with rfl | rfl
  · exact .inl rfl
  · cases x
    · exact hfg _
    all_goals exact .inr rfl

theorem FuelLe.ite {α : Type} {c : Prop} [Decidable c] {x y x' y' : R α} (h1 : FuelLe x x')
    (h2 : FuelLe y y') : FuelLe (if c then x else y) (if c then x' else y') := by
  split <;> assumption

theorem FuelLe.trans {α : Type} {x y z : R α} (h1 : FuelLe x y) (h2 : FuelLe y z) : FuelLe x z := by
  rcases h1 with rfl | rfl
  · exact .inl rfl
  · exact h2

def RecLe (f g : Rec) : Prop :=
  ∀ st dag offs part json, FuelLe (f st dag offs part json) (g st dag offs part json)

variable {env : Env} {ctx : Ctx} {s : Bytes}

theorem repeatLoop_fuelLe {f g : Rec} (h : RecLe f g) (pn wn : NodeId) (permit : Bool) (save : Nat) :
    ∀ n m, n ≤ m → ∀ st so good arr, FuelLe (repeatLoop f pn wn permit save n st so good arr)
      (repeatLoop g pn wn permit save m st so good arr) := by
  intro n
  induction n with
  | zero => intro m _ st so good arr; exact .inl rfl
  | succ n ih =>
    intro m hm st so good arr
    cases m with
    | zero => omega
    | succ m =>
      simp only [repeatLoop]
      refine FuelLe.bind (h _ _ _ _ _) fun r => ?_
      refine FuelLe.ite (FuelLe.refl _) ?_
      refine FuelLe.bind (h _ _ _ _ _) fun w => ?_
      exact FuelLe.ite (ih m (by omega) _ _ _ _) (FuelLe.refl _)

theorem tryParser_fuelLe {f g : Rec} (h : RecLe f g) {n m : Nat} (hnm : n ≤ m) (st : Npb) (offs : Nat)
    (p : Parser) : FuelLe (tryParser env ctx s f n st offs p) (tryParser env ctx s g m st offs p) := by
  unfold tryParser
  split
  · split
    · exact FuelLe.refl _
    · exact FuelLe.bind (h _ _ _ _ _) fun r => FuelLe.refl _
  · split
    · exact FuelLe.refl _
    · exact FuelLe.bind (repeatLoop_fuelLe h _ _ _ _ _ _ hnm _ _ _ _) fun r => FuelLe.refl _
  · exact FuelLe.refl _

theorem tryLoop_fuelLe {f g : Rec} (h : RecLe f g) {n m : Nat} (hnm : n ≤ m) (dag : NodeId) (offs : Nat)
    (part : Bool) : ∀ ps st pt json, FuelLe (tryLoop env ctx s f n dag offs part ps st pt json)
      (tryLoop env ctx s g m dag offs part ps st pt json) := by
  intro ps
  induction ps with
  | nil => intros; exact FuelLe.refl _
  | cons p ps ih =>
    intro st pt json
    simp only [tryLoop]
    refine FuelLe.bind (tryParser_fuelLe h hnm _ _ _) fun ⟨st', res⟩ => ?_
    cases res with
    | none => exact ih _ _ _
    | some a =>
      refine FuelLe.bind (h _ _ _ _ _) fun sub => ?_
      exact FuelLe.ite (FuelLe.refl _) (ih _ _ _)

theorem normRec_fuelLe : ∀ n m, n ≤ m → RecLe (normRec env ctx s n) (normRec env ctx s m) := by
  intro n
  induction n with
  | zero => intro m _ st dag offs part json; exact .inl rfl
  | succ n ih =>
    intro m hm st dag offs part json
    cases m with
    | zero => omega
    | succ m =>
      simp only [normRec]
      unfold normStep
      exact FuelLe.bind (tryLoop_fuelLe (ih m (by omega)) (by omega) _ _ _ _ _ _ _) fun r => FuelLe.refl _

theorem normalize_fuelLe {n m : Nat} (h : n ≤ m) (stats : NodeId → Stats) (json0 : Obj) :
    FuelLe (normalize env n ctx stats s json0) (normalize env m ctx stats s json0) := by
  unfold normalize
  exact FuelLe.bind (normRec_fuelLe n m h _ _ _ _ _) fun r => FuelLe.refl _

end LN
