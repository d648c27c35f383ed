import Verif.Proofs.SampDoc
/- The version of a context: once a rulebase of version 2 was begun, it stays 2. -/
set_option autoImplicit false
namespace LN
variable {env : Env} {srt : Sorter} {fs : Bytes → Option Bytes}

/-- version 2 is kept -/
def KeepsV2 (st : LoadSt) (r : R (LoadSt × Bool)) : Prop :=
  ∀ st' ok, r = .ok (st', ok) → st.version = 2 → st'.version = 2

theorem addSampText_ver {st st' : LoadSt} {dag : NodeId} {text : Bytes} {tags : Option (List Bytes)}
    (h : addSampText env st dag text tags = .ok st') : st'.version = st.version := by
  unfold addSampText at h
  dsimp only at h
  split at h
  · obtain ⟨b, _, hb⟩ := R.bind_eq_ok.1 h
    cases hb; rfl
  · obtain ⟨b, _, hb⟩ := R.bind_eq_ok.1 h
    cases hb; rfl
  · obtain ⟨⟨b, res⟩, _, hb⟩ := R.bind_eq_ok.1 h
    cases res with
    | none => cases hb; rfl
    | some n => cases hb

theorem keepsV2_refl {st st1 : LoadSt} {ok : Bool} (he : st1.version = st.version) : KeepsV2 st (.ok (st1, ok)) := by
  intro st' ok h hx
  cases h
  rw [he]; exact hx

theorem keepsV2_bind {st : LoadSt} {x : R LoadSt} (h : ∀ st', x = .ok st' → st'.version = st.version) :
    KeepsV2 st (x.bind fun st => .ok (st, true)) := by
  intro st' ok h1 h0
  obtain ⟨y, hy, h2⟩ := R.bind_eq_ok.1 h1
  cases h2
  rw [h _ hy]; exact h0

theorem processSamp_ver {inc : IncludeRec} {fuel : Nat} (hinc : ∀ st f, KeepsV2 st (inc st f)) (st : LoadSt) (l : Bytes) :
    KeepsV2 st (processSamp env inc fuel st l) := by
  unfold processSamp
  dsimp only
  split
  · exact keepsV2_refl rfl
  · split
    · exact keepsV2_refl rfl
    · split
      · split
        · split
          · exact keepsV2_refl rfl
          · intro _ _ h; cases h
        · exact keepsV2_refl rfl
      · split
        · refine keepsV2_bind fun st' h => ?_
          unfold processRule at h
          split at h
          · cases h; rfl
          · cases h
          · cases h
          · split at h
            · cases h; rfl
            · exact addSampText_ver h
        · split
          · refine keepsV2_bind fun st' h => ?_
            unfold processType at h
            split at h
            · cases h; rfl
            · cases h; rfl
            · split at h
              · cases h; rfl
              · dsimp only at h
                exact (addSampText_ver h).trans rfl
          · split
            · refine keepsV2_bind fun st' h => ?_
              unfold processAnnotate at h
              dsimp only at h
              split at h
              · split at h
                · cases h; rfl
                · obtain ⟨⟨a, x⟩, _, h⟩ := R.bind_eq_ok.1 h
                  cases a <;> cases x <;> cases h <;> rfl
              · cases h; rfl
            · split
              · unfold processInclude
                split
                · intro _ _ h; cases h
                · intro st' ok h e
                  obtain ⟨⟨y, ok1⟩, hy, h2⟩ := R.bind_eq_ok.1 h
                  cases h2
                  have := hinc st _ _ _ hy e
                  exact this
              · exact keepsV2_refl rfl

theorem readAll_ver {inc : IncludeRec} {fuel : Nat} {src : Src} (hinc : ∀ st f, KeepsV2 st (inc st f)) :
    ∀ (rounds : Nat) (st : LoadSt) (inp : Bytes), KeepsV2 st (readAll env inc fuel src rounds st inp)
  | 0, st, inp => by intro _ _ h; cases h
  | rounds + 1, st, inp => by
    intro st' ok h e
    rw [readAll_succ] at h
    obtain ⟨⟨st1, ok1⟩, h1, h2⟩ := R.bind_eq_ok.1 h
    have he1 : st1.version = 2 := by
      unfold afterLine at h1
      dsimp only at h1
      split at h1
      · cases h1; exact e
      · exact processSamp_ver hinc _ _ _ _ h1 e
    dsimp only at h2
    split at h2
    · cases h2; exact he1
    · split at h2
      · cases h2; exact he1
      · exact readAll_ver hinc rounds _ _ _ _ h2 he1

theorem optimizeTop_ver {st st' : LoadSt} (h : optimizeTop srt st = .ok st') : st'.version = st.version := by
  unfold optimizeTop at h
  split at h
  · obtain ⟨b, _, hb⟩ := R.bind_eq_ok.1 h
    cases hb; rfl
  · cases h; rfl

theorem versionLine_prefix (c : Bytes) : versionLine.isPrefixOf c = true ↔ bs! "version=2\n" <+: c := List.isPrefixOf_iff_prefix

theorem sampLoad_ver {inc : IncludeRec} {fuel : Nat} (hinc : ∀ st f, KeepsV2 st (inc st f)) {st st' : LoadSt} {c : Bytes} {ok : Bool}
    (h : sampLoad env srt inc fuel st (some c) = .ok (st', ok)) (h0 : st.version = 2 ∨ bs! "version=2\n" <+: c ∧ ok = true) : st'.version = 2 := by
  unfold sampLoad at h
  cases c with
  | nil =>
    cases h
    rcases h0 with h0 | h0
    · exact h0
    · exact absurd h0.1 (by decide)
  | cons a c =>
    dsimp only at h
    by_cases hp : versionLine.isPrefixOf (a :: c) = true
    · simp only [hp, if_true] at h
      split at h
      · cases h
        rcases h0 with h0 | h0
        · exact h0
        · cases h0.2
      · rw [if_neg (by decide)] at h
        obtain ⟨⟨st2, ok2⟩, h3, h4⟩ := R.bind_eq_ok.1 h
        have he2 := readAll_ver hinc _ _ _ _ _ h3 rfl
        dsimp only at h4
        split at h4
        · cases h4; exact he2
        · obtain ⟨st3, h5, h6⟩ := R.bind_eq_ok.1 h4
          cases h6
          rw [optimizeTop_ver h5]; exact he2
    · rcases h0 with h0 | h0
      · simp only [hp, Bool.false_eq_true, if_false, h0] at h
        rw [if_pos (by decide)] at h
        cases h; exact h0
      · exact absurd ((versionLine_prefix _).2 h0.1) hp

theorem loadSamples_ver : ∀ (fuel : Nat) {st : LoadSt} {f : Bytes}, KeepsV2 st (loadSamples env srt fs fuel st f)
  | 0, st, f => by intro _ _ h; cases h
  | fuel + 1, st, f => by
    intro st' ok h e
    unfold loadSamples at h
    obtain ⟨⟨st1, ok1⟩, h1, h2⟩ := R.bind_eq_ok.1 h
    cases h2
    show st1.version = 2
    cases hf : fs f with
    | none => rw [hf] at h1; cases h1; exact e
    | some c =>
      rw [hf] at h1
      exact sampLoad_ver (fun st f => loadSamples_ver fuel) h1 (.inl e)

/-- loading a file of version 2 with success makes the version 2 -/
theorem loadSamples_v2 {fuel : Nat} {st st' : LoadSt} {f c : Bytes} (hf : fs f = some c) (hc : bs! "version=2\n" <+: c)
    (h : loadSamples env srt fs fuel st f = .ok (st', true)) : st'.version = 2 := by
  cases fuel with
  | zero => cases h
  | succ n =>
    unfold loadSamples at h
    obtain ⟨⟨st1, ok1⟩, h1, h2⟩ := R.bind_eq_ok.1 h
    cases h2
    rw [hf] at h1
    have := sampLoad_ver (fun st f => loadSamples_ver (fs := fs) n) h1 (.inr ⟨hc, rfl⟩)
    exact this

/-- loading a file of version 1 does nothing but noting the version, or is refused -/
theorem loadSamples_v1 {fuel : Nat} {st : LoadSt} {f c : Bytes} (hf : fs f = some c) (hne : c ≠ []) (hc : ¬ bs! "version=2\n" <+: c) :
    loadSamples env srt fs (fuel + 1) st f = .ok (if st.version ≠ 0 ∧ st.version ≠ 1 then
      ({ st with file := none, line := 0, errs := st.errs ++ [.version] }, false) else ({ st with file := none, line := 0, version := 1 }, true)) := by
  have hp : versionLine.isPrefixOf c = false := by
    cases h : versionLine.isPrefixOf c with
    | false => rfl
    | true => exact absurd ((versionLine_prefix c).1 h) hc
  unfold loadSamples sampLoad
  rw [hf]
  cases c with
  | nil => exact absurd rfl hne
  | cons a c =>
    dsimp only
    rw [hp]
    simp only [Bool.false_eq_true, if_false, if_true]
    by_cases hv : st.version ≠ 0 ∧ st.version ≠ 1
    · rw [if_pos hv, if_pos ⟨hv.1, fun e => hv.2 e.symm⟩]; rfl
    · rw [if_neg hv, if_neg (fun e => hv ⟨e.1, fun h => e.2 h.symm⟩)]; rfl

end LN
