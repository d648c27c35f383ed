import Verif.Spec.Safety
import Verif.Props.FieldsA
import Verif.Props.FieldsB
import Verif.Props.FieldsD
import Verif.Props.FieldsC
/- Every parser stays inside the message: Hoare-style proof per parser. -/
set_option autoImplicit false
namespace LN

/-- postcondition `Q` on success, never out of fuel, no undefined behaviour if `U` -/
def Post {α : Type} (U : Prop) (Q : α → Prop) (x : R α) : Prop :=
  (∀ a, x = .ok a → Q a) ∧ x ≠ .oof ∧ (U → ∀ k, x ≠ .ub k)

namespace Post
variable {α β : Type} {U : Prop} {Q : β → Prop} {P : α → Prop}

theorem ok {b : β} (h : Q b) : Post U Q (R.ok b) := by
  refine ⟨fun a ha => ?_, by simp, by simp⟩
  cases ha; exact h
theorem pure {b : β} (h : Q b) : Post U Q (Pure.pure b : R β) := ok h
theorem fail : Post U Q (R.fail : R β) := by simp [Post]
theorem ub {k : UB} (h : ¬ U) : Post U Q (R.ub k : R β) := ⟨by simp, by simp, fun u => absurd u h⟩
theorem bind {x : R α} {f : α → R β} (hx : Post U P x) (hf : ∀ a, P a → Post U Q (f a)) :
    Post U Q (x >>= f) := by
  cases x with
  | ok a => exact hf a (hx.1 a rfl)
  | fail => exact fail
  | ub k => exact ⟨by simp, by simp, fun u => absurd rfl (hx.2.2 u k)⟩
  | oof => exact absurd rfl hx.2.1
theorem bind' {x : R α} {f : α → R β} (hx : Post U P x) (hf : ∀ a, P a → Post U Q (f a)) :
    Post U Q (x.bind f) := bind hx hf
theorem mono {x : R α} {P' : α → Prop} (hx : Post U P x) (h : ∀ a, P a → P' a) : Post U P' x :=
  ⟨fun a ha => h a (hx.1 a ha), hx.2⟩
theorem ite {c : Prop} [Decidable c] {x y : R β} (hx : c → Post U Q x) (hy : ¬ c → Post U Q y) :
    Post U Q (if c then x else y) := by split <;> simp_all
theorem guard (b : Bool) : Post U (fun _ => b = true) (R.guard b) := by
  cases b <;> simp [Post]
theorem attempt {x : R α} (hx : Post U P x) :
    Post U (fun o => ∀ a, o = some a → P a) x.attempt := by
  cases x with
  | ok a => exact ok (fun b hb => by cases hb; exact hx.1 a rfl)
  | fail => exact ok (by simp)
  | ub k => exact ⟨by simp, by simp, fun u => absurd rfl (hx.2.2 u k)⟩
  | oof => exact absurd rfl hx.2.1
theorem rd {s : Bytes} {i : Nat} (h : i ≤ s.length) :
    Post U (fun c => (i < s.length ∧ s[i]? = some c) ∨ (i = s.length ∧ c = 0)) (LN.rd s i) := by
  by_cases h' : i < s.length
  · rw [rd_lt h']; exact ok (.inl ⟨h', by simp [h']⟩)
  · have : i = s.length := by omega
    subst this; rw [rd_end]; exact ok (.inr ⟨rfl, rfl⟩)
theorem defined {x : R α} (hd : x.Defined) (h : ∀ a, x = .ok a → P a) : Post U P x := by
  rcases hd with ⟨a, rfl⟩ | rfl
  · exact ok (h a rfl)
  · exact fail

theorem guardDigit {s : Bytes} {i : Nat} (h : i ≤ s.length) :
    Post U (fun _ => i < s.length) (LN.guardDigit s i) := by
  unfold LN.guardDigit
  refine bind (rd h) fun c hc => (guard _).mono fun _ hb => ?_
  rcases hc with ⟨h, _⟩ | ⟨_, rfl⟩
  · exact h
  · simp [isDigit] at hb
theorem guardChar {s : Bytes} {i : Nat} {x : UInt8} (h : i ≤ s.length) (hx : x ≠ 0) :
    Post U (fun _ => i < s.length) (LN.guardChar s i x) := by
  unfold LN.guardChar
  refine bind (rd h) fun c hc => (guard _).mono fun _ hb => ?_
  rcases hc with ⟨h, _⟩ | ⟨_, rfl⟩
  · exact h
  · simp at hb; exact absurd hb.symm hx

end Post

theorem contained_iff {s : Bytes} {offs : Nat} {U : Prop} {x : PR} :
    Contained s offs U x ↔ Post U (fun r => offs + r.1 ≤ s.length) x := by
  unfold Contained Post
  constructor
  · rintro ⟨h1, h2⟩; exact ⟨fun a ha => h1 a.1 a.2 ha, h2⟩
  · rintro ⟨h1, h2⟩; exact ⟨fun n v hv => h1 (n, v) hv, h2⟩

theorem Spec.Implements.cases {x : PR} {spec : Nat → Prop} {val : Nat → Option Json}
    (h : Spec.Implements x spec val) : (∃ n, spec n ∧ x = .ok (n, val n)) ∨ x = .fail := by
  by_cases he : ∃ n, spec n
  · obtain ⟨n, hn⟩ := he; exact .inl ⟨n, hn, h.1 n hn⟩
  · exact .inr (h.2 fun n hn => he ⟨n, hn⟩)

/-- what is implemented exactly is contained -/
theorem contained_of_implements {s : Bytes} {offs : Nat} {U : Prop} {x : PR} {spec : Nat → Prop}
    {val : Nat → Option Json} (h : Spec.Implements x spec val) (ho : offs ≤ s.length)
    (hs : ∀ n, spec n → n ≤ (s.drop offs).length) : Contained s offs U x := by
  rcases h.cases with ⟨n, hn, rfl⟩ | rfl
  · have := hs n hn
    rw [List.length_drop] at this
    refine ⟨fun m v h => ?_, by simp, by simp⟩
    cases h; omega
  · simp [Contained]

theorem scan_le {p : UInt8 → Bool} {s : Bytes} {i : Nat} (h : i ≤ s.length) :
    scan p s i ≤ s.length := by
  have : ((s.drop i).takeWhile p).length ≤ (s.drop i).length := (List.takeWhile_prefix _).length_le
  rw [List.length_drop] at this
  unfold scan; omega
theorem scan_ge {p : UInt8 → Bool} {s : Bytes} {i : Nat} : i ≤ scan p s i := by
  unfold scan; omega
theorem atP_lt {p : UInt8 → Bool} {s : Bytes} {i : Nat} (h : atP p s i = true) : i < s.length := by
  unfold atP at h
  split at h
  · rename_i hc; exact (List.getElem?_eq_some_iff.1 hc).1
  · simp at h

end LN
