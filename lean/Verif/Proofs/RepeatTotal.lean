import Verif.Proofs.RepeatOpt
import Verif.Props.Safety
/- Reading is deterministic, and for sane fields it always has an outcome. -/
set_option autoImplicit false
namespace LN

section
variable {env : Env} {s : Bytes}

/-- no other outcome -/
def Reading.Det (env : Env) (s : Bytes) : Reading → Prop
  | .takes f off off' v => (∀ o' v', Reads env s (.takes f off o' v') → o' = off' ∧ v' = v) ∧ ¬ Reads env s (.refuses f off)
  | .refuses f off => ∀ o' v', ¬ Reads env s (.takes f off o' v')
  | .all fs off vs off' => (∀ vs' o', Reads env s (.all fs off vs' o') → vs' = vs ∧ o' = off') ∧ ∀ a, ¬ Reads env s (.stuck fs off a)
  | .stuck fs off a => (∀ a', Reads env s (.stuck fs off a') → a' = a) ∧ ∀ vs o', ¬ Reads env s (.all fs off vs o')
  | .list el sep permit off vs off' => (∀ vs' o', Reads env s (.list el sep permit off vs' o') → vs' = vs ∧ o' = off') ∧
      (∀ a, ¬ Reads env s (.stuck el off a)) ∧ (permit = false → ¬ Reads env s (.broken el sep off))
  | .broken el sep off => ∀ vs o', ¬ Reads env s (.list el sep false off vs o')

theorem Reads.det {j : Reading} (h : Reads env s j) : j.Det env s := by
  induction h with
  | plain h =>
    refine ⟨fun o' v' h' => ?_, fun h' => ?_⟩
    · cases h' with
      | plain h' => rw [h] at h'; cases h'; exact ⟨rfl, rfl⟩
    · cases h' with
      | noPlain h' => rw [h] at h'; cases h'
  | noPlain h =>
    intro o' v' h'
    cases h' with
    | plain h' => rw [h] at h'; cases h'
  | rep h ih =>
    refine ⟨fun o' v' h' => ?_, fun h' => ?_⟩
    · cases h' with
      | rep h' => obtain ⟨rfl, rfl⟩ := ih.1 _ _ h'; exact ⟨rfl, rfl⟩
      | repNone h' => exact absurd h' (ih.2.1 _)
    · cases h' with
      | noRep h' => exact absurd h' (ih.2.2 rfl)
  | repNone h ih =>
    refine ⟨fun o' v' h' => ?_, fun h' => ?_⟩
    · cases h' with
      | repNone h' => exact ⟨rfl, rfl⟩
      | rep h' =>
        cases h' with
        | last h' _ => exact absurd h' (ih.2 _ _)
        | giveBack h' _ _ => exact absurd h' (ih.2 _ _)
        | more h' _ _ => exact absurd h' (ih.2 _ _)
    · cases h'
  | noRep h ih =>
    intro o' v' h'
    cases h' with
    | rep h' => exact absurd h' (ih _ _)
  | nil =>
    refine ⟨fun vs' o' h' => ?_, fun a h' => ?_⟩
    · cases h'; exact ⟨rfl, rfl⟩
    · cases h'
  | cons h t ih1 ih2 =>
    refine ⟨fun vs' o' h' => ?_, fun a h' => ?_⟩
    · cases h' with
      | cons h' t' =>
        obtain ⟨rfl, rfl⟩ := ih1.1 _ _ h'
        obtain ⟨rfl, rfl⟩ := ih2.1 _ _ t'
        exact ⟨rfl, rfl⟩
    · cases h' with
      | here h' => exact ih1.2 h'
      | later h' t' =>
        obtain ⟨rfl, rfl⟩ := ih1.1 _ _ h'
        exact ih2.2 _ t'
  | here h ih =>
    refine ⟨fun a' h' => ?_, fun vs o' h' => ?_⟩
    · cases h' with
      | here h' => rfl
      | later h' t' => exact absurd h' (ih _ _)
    · cases h' with
      | cons h' t' => exact absurd h' (ih _ _)
  | later h t ih1 ih2 =>
    refine ⟨fun a' h' => ?_, fun vs o' h' => ?_⟩
    · cases h' with
      | here h' => exact absurd h' ih1.2
      | later h' t' =>
        obtain ⟨rfl, rfl⟩ := ih1.1 _ _ h'
        exact ih2.1 _ t'
    · cases h' with
      | cons h' t' =>
        obtain ⟨rfl, rfl⟩ := ih1.1 _ _ h'
        exact ih2.2 _ _ t'
  | last h t ih1 ih2 =>
    refine ⟨fun vs' o' h' => ?_, ih1.2, fun hp h' => ?_⟩
    · cases h' with
      | last h' t' => obtain ⟨rfl, rfl⟩ := ih1.1 _ _ h'; exact ⟨rfl, rfl⟩
      | giveBack h' hs' t' => obtain ⟨rfl, rfl⟩ := ih1.1 _ _ h'; exact absurd hs' (ih2.2 _ _)
      | more h' hs' t' => obtain ⟨rfl, rfl⟩ := ih1.1 _ _ h'; exact absurd hs' (ih2.2 _ _)
    · cases h' with
      | none_ h' => exact ih1.2 _ h'
      | after h' hs' t' => obtain ⟨rfl, rfl⟩ := ih1.1 _ _ h'; exact absurd hs' (ih2.2 _ _)
  | giveBack h hs t ih1 ih2 ih3 =>
    refine ⟨fun vs' o' h' => ?_, ih1.2, fun hp h' => ?_⟩
    · cases h' with
      | last h' t' => obtain ⟨rfl, rfl⟩ := ih1.1 _ _ h'; exact ⟨rfl, rfl⟩
      | giveBack h' hs' t' => obtain ⟨rfl, rfl⟩ := ih1.1 _ _ h'; exact ⟨rfl, rfl⟩
      | more h' hs' t' =>
        obtain ⟨rfl, rfl⟩ := ih1.1 _ _ h'
        obtain ⟨rfl, rfl⟩ := ih2.1 _ _ hs'
        cases t' with
        | last h' _ => exact absurd h' (ih3.2 _ _)
        | giveBack h' _ _ => exact absurd h' (ih3.2 _ _)
        | more h' _ _ => exact absurd h' (ih3.2 _ _)
    · cases hp
  | more h hs t ih1 ih2 ih3 =>
    refine ⟨fun vs' o' h' => ?_, ih1.2, fun hp h' => ?_⟩
    · cases h' with
      | last h' t' => obtain ⟨rfl, rfl⟩ := ih1.1 _ _ h'; exact absurd t' (ih2.2 _)
      | giveBack h' hs' t' =>
        obtain ⟨rfl, rfl⟩ := ih1.1 _ _ h'
        obtain ⟨rfl, rfl⟩ := ih2.1 _ _ hs'
        exact absurd t' (ih3.2.1 _)
      | more h' hs' t' =>
        obtain ⟨rfl, rfl⟩ := ih1.1 _ _ h'
        obtain ⟨rfl, rfl⟩ := ih2.1 _ _ hs'
        obtain ⟨rfl, rfl⟩ := ih3.1 _ _ t'
        exact ⟨rfl, rfl⟩
    · cases h' with
      | none_ h' => exact ih1.2 _ h'
      | after h' hs' t' =>
        obtain ⟨rfl, rfl⟩ := ih1.1 _ _ h'
        obtain ⟨rfl, rfl⟩ := ih2.1 _ _ hs'
        exact ih3.2.2 hp t'
  | none_ h ih =>
    intro vs o' h'
    cases h' with
    | last h' _ => exact absurd h' (ih.2 _ _)
    | more h' _ _ => exact absurd h' (ih.2 _ _)
  | after h hs t ih1 ih2 ih3 =>
    intro vs o' h'
    cases h' with
    | last h' t' => obtain ⟨rfl, rfl⟩ := ih1.1 _ _ h'; exact absurd t' (ih2.2 _)
    | more h' hs' t' =>
      obtain ⟨rfl, rfl⟩ := ih1.1 _ _ h'
      obtain ⟨rfl, rfl⟩ := ih2.1 _ _ hs'
      exact ih3 _ _ t'

/-- there is an outcome at each position -/
def Outcome (env : Env) (s : Bytes) (f : Fld) : Prop :=
  ∀ off, off ≤ s.length → (∃ off' v, Reads env s (.takes f off off' v) ∧ off' ≤ s.length) ∨ Reads env s (.refuses f off)
def OutcomeAll (env : Env) (s : Bytes) (fs : List Fld) : Prop :=
  ∀ off, off ≤ s.length → (∃ vs off', Reads env s (.all fs off vs off') ∧ off' ≤ s.length) ∨ ∃ a, Reads env s (.stuck fs off a) ∧ a ≤ s.length

theorem outcome_list {el sep : List Fld} (he : OutcomeAll env s el) (hs : OutcomeAll env s sep)
    (hpr : ∀ (off e e' : Nat) (vs us : List (Option Bytes × Option Json)), Reads env s (.all el off vs e) → Reads env s (.all sep e us e') → off < e') (permit : Bool) :
    ∀ (n off : Nat), s.length - off < n → off ≤ s.length →
      (∃ vs off', Reads env s (.list el sep permit off vs off') ∧ off' ≤ s.length) ∨
      (permit = true ∧ ∃ a, Reads env s (.stuck el off a)) ∨ (permit = false ∧ Reads env s (.broken el sep off)) := by
  intro n
  induction n with
  | zero => intro off h; omega
  | succ n ih =>
    intro off hn hoff
    rcases he off hoff with ⟨vs, e, h1, h2⟩ | ⟨a, h1, _⟩
    · rcases hs e h2 with ⟨us, e', h3, h4⟩ | ⟨a, h3, _⟩
      · have := hpr _ _ _ _ _ h1 h3
        rcases ih e' (by omega) h4 with ⟨xs, off', h5, h6⟩ | ⟨rfl, a, h5⟩ | ⟨rfl, h5⟩
        · exact .inl ⟨_, _, .more h1 h3 h5, h6⟩
        · exact .inl ⟨_, _, .giveBack h1 h3 h5, h2⟩
        · exact .inr (.inr ⟨rfl, .after h1 h3 h5⟩)
      · exact .inl ⟨_, _, .last h1 h3, h2⟩
    · cases permit with
      | true => exact .inr (.inl ⟨rfl, a, h1⟩)
      | false => exact .inr (.inr ⟨rfl, .none_ h1⟩)

mutual
theorem Fld.Sane.outcome (hte : env.TokOK) (ht : Tame s) : ∀ (f : Fld), f.Sane env s → Outcome env s f
  | .plain k nm, h => by
    rw [Fld.Sane] at h
    intro off hoff
    obtain ⟨h1, h2, h3⟩ := runParser_within (s := s) (offs := off) env hte k nm.isSome hoff h.1
    cases hr : runParser env s off k nm.isSome with
    | ok x => obtain ⟨len, v⟩ := x; exact .inl ⟨_, _, .plain hr, h1 _ hr⟩
    | fail => exact .inr (.noPlain hr)
    | oof => exact absurd hr h2
    | ub u => exact absurd hr (h3 ⟨ht, h.2⟩ u)
  | .rep nm el sep permit, h => by
    rw [Fld.Sane] at h
    intro off hoff
    rcases outcome_list (Fld.SaneAll.outcome hte ht el h.1) (Fld.SaneAll.outcome hte ht sep h.2.1) h.2.2 permit _ off (Nat.lt_succ_self _) hoff with
      ⟨vs, off', h1, h2⟩ | ⟨rfl, a, h1⟩ | ⟨rfl, h1⟩
    · exact .inl ⟨_, _, .rep h1, h2⟩
    · exact .inl ⟨_, _, .repNone h1, hoff⟩
    · exact .inr (.noRep h1)
theorem Fld.SaneAll.outcome (hte : env.TokOK) (ht : Tame s) : ∀ (fs : List Fld), Fld.SaneAll env s fs → OutcomeAll env s fs
  | [], _ => fun off hoff => .inl ⟨_, _, .nil, hoff⟩
  | f :: fs, h => by
    rw [Fld.SaneAll] at h
    intro off hoff
    rcases Fld.Sane.outcome hte ht f h.1 off hoff with ⟨mid, v, h1, h2⟩ | h1
    · rcases Fld.SaneAll.outcome hte ht fs h.2 mid h2 with ⟨vs, off', h3, h4⟩ | ⟨a, h3, h4⟩
      · exact .inl ⟨_, _, .cons h1 h3, h4⟩
      · exact .inr ⟨_, .later h1 h3, h4⟩
    · exact .inr ⟨_, .here h1, hoff⟩
end

end
theorem Reads.all_le {env : Env} {s : Bytes} {j : Reading} (h : Reads env s j) :
    match j with
    | .takes _ a b _ => a ≤ b
    | .all _ a _ b => a ≤ b
    | .list _ _ _ a _ b => a ≤ b
    | _ => True := by
  induction h with
  | plain h => exact Nat.le_add_right ..
  | noPlain h => trivial
  | rep h ih => exact ih
  | repNone h ih => exact Nat.le_refl _
  | noRep h ih => trivial
  | nil => exact Nat.le_refl _
  | cons h t ih1 ih2 => exact Nat.le_trans ih1 ih2
  | here h ih => trivial
  | later h t ih1 ih2 => trivial
  | last h t ih1 ih2 => exact ih1
  | giveBack h hs t ih1 ih2 ih3 => exact ih1
  | more h hs t ih1 ih2 ih3 => exact Nat.le_trans ih1 (Nat.le_trans ih2 ih3)
  | none_ h ih => trivial
  | after h hs t ih1 ih2 ih3 => trivial

end LN
