import Verif.Proofs.SampDoc
/- Error messages of the loader are never taken back. -/
set_option autoImplicit false
namespace LN
variable {env : Env} {srt : Sorter} {fs : Bytes → Option Bytes}

/-- the messages so far are kept -/
def KeepsErrs (st : LoadSt) (r : R (LoadSt × Bool)) : Prop :=
  ∀ st' ok, r = .ok (st', ok) → ∀ e ∈ st.errs, e ∈ st'.errs

theorem addSampText_errs {st st' : LoadSt} {dag : NodeId} {text : Bytes} {tags : Option (List Bytes)}
    (h : addSampText env st dag text tags = .ok st') : st'.errs = st.errs ++ (lexRule env text).errs := by
  unfold addSampText at h
  dsimp only at h
  split at h
  · obtain ⟨b, _, hb⟩ := R.bind_eq_ok.1 h
    cases hb; rfl
  · obtain ⟨b, _, hb⟩ := R.bind_eq_ok.1 h
    cases hb; rfl
  · obtain ⟨⟨b, res⟩, _, hb⟩ := R.bind_eq_ok.1 h
    cases res with
    | none => cases hb; rfl
    | some n => cases hb

theorem keepsErrs_err {st : LoadSt} {ok : Bool} (e : LoadErr) : KeepsErrs st (.ok (st.err e, ok)) := by
  intro st' ok h x hx
  cases h
  exact List.mem_append_left _ hx

theorem keepsErrs_refl {st st1 : LoadSt} {ok : Bool} (he : st1.errs = st.errs) : KeepsErrs st (.ok (st1, ok)) := by
  intro st' ok h x hx
  cases h
  rw [he]; exact hx

theorem keepsErrs_bind {st : LoadSt} {x : R LoadSt} (h : ∀ st', x = .ok st' → ∀ e ∈ st.errs, e ∈ st'.errs) :
    KeepsErrs st (x.bind fun st => .ok (st, true)) := by
  intro st' ok h1
  obtain ⟨y, hy, h2⟩ := R.bind_eq_ok.1 h1
  cases h2
  exact h _ hy

theorem processSamp_errs {inc : IncludeRec} {fuel : Nat} (hinc : ∀ st f, KeepsErrs st (inc st f)) (st : LoadSt) (l : Bytes) :
    KeepsErrs st (processSamp env inc fuel st l) := by
  unfold processSamp
  dsimp only
  split
  · exact keepsErrs_refl rfl
  · split
    · exact keepsErrs_refl rfl
    · split
      · split
        · split
          · exact keepsErrs_refl rfl
          · intro _ _ h; cases h
        · exact keepsErrs_refl rfl
      · split
        · refine keepsErrs_bind fun st' h e he => ?_
          unfold processRule at h
          split at h
          · cases h; exact he
          · cases h
          · cases h
          · split at h
            · cases h; exact List.mem_append_left _ he
            · rw [addSampText_errs h]; exact List.mem_append_left _ he
        · split
          · refine keepsErrs_bind fun st' h e he => ?_
            unfold processType at h
            split at h
            · cases h; exact he
            · cases h; exact List.mem_append_left _ he
            · split at h
              · cases h; exact List.mem_append_left _ he
              · dsimp only at h
                rw [addSampText_errs h]; exact List.mem_append_left _ he
          · split
            · refine keepsErrs_bind fun st' h e he => ?_
              unfold processAnnotate at h
              dsimp only at h
              split at h
              · split at h
                · cases h; exact he
                · obtain ⟨⟨a, x⟩, _, h⟩ := R.bind_eq_ok.1 h
                  cases a <;> cases x <;> cases h <;> first | exact he | exact List.mem_append_left _ he
              · cases h; exact he
            · split
              · unfold processInclude
                split
                · intro _ _ h; cases h
                · intro st' ok h e he
                  obtain ⟨⟨y, ok1⟩, hy, h2⟩ := R.bind_eq_ok.1 h
                  cases h2
                  exact hinc st _ _ _ hy e he
              · exact keepsErrs_err _

theorem readAll_errs {inc : IncludeRec} {fuel : Nat} {src : Src} (hinc : ∀ st f, KeepsErrs st (inc st f)) :
    ∀ (rounds : Nat) (st : LoadSt) (inp : Bytes), KeepsErrs st (readAll env inc fuel src rounds st inp)
  | 0, st, inp => by intro _ _ h; cases h
  | rounds + 1, st, inp => by
    intro st' ok h e he
    rw [readAll_succ] at h
    obtain ⟨⟨st1, ok1⟩, h1, h2⟩ := R.bind_eq_ok.1 h
    have he1 : e ∈ st1.errs := by
      unfold afterLine at h1
      dsimp only at h1
      split at h1
      · cases h1; exact List.mem_append_left _ he
      · exact processSamp_errs hinc _ _ _ _ h1 e (List.mem_append_left _ he)
    dsimp only at h2
    split at h2
    · cases h2; exact he1
    · split at h2
      · cases h2; exact he1
      · exact readAll_errs hinc rounds _ _ _ _ h2 e he1

theorem optimizeTop_errs {st st' : LoadSt} (h : optimizeTop srt st = .ok st') : st'.errs = st.errs := by
  unfold optimizeTop at h
  split at h
  · obtain ⟨b, _, hb⟩ := R.bind_eq_ok.1 h
    cases hb; rfl
  · cases h; rfl

theorem loadSamples_errs : ∀ (fuel : Nat) {st : LoadSt} {f : Bytes}, KeepsErrs st (loadSamples env srt fs fuel st f)
  | 0, st, f => by intro _ _ h; cases h
  | fuel + 1, st, f => by
    intro st' ok h e he
    unfold loadSamples at h
    obtain ⟨⟨st1, ok1⟩, h1, h2⟩ := R.bind_eq_ok.1 h
    cases h2
    show e ∈ st1.errs
    unfold sampLoad at h1
    split at h1
    · cases h1; exact List.mem_append_left _ he
    · cases h1; exact List.mem_append_left _ he
    · dsimp only at h1
      generalize (if versionLine.isPrefixOf _ = true then 2 else 1 : Nat) = v at h1
      split at h1
      · cases h1; exact List.mem_append_left _ he
      · split at h1
        · cases h1; exact he
        · obtain ⟨⟨st2, ok2⟩, h3, h4⟩ := R.bind_eq_ok.1 h1
          have he2 := readAll_errs (fun st f => loadSamples_errs fuel) _ _ _ _ _ h3 e he
          dsimp only at h4
          split at h4
          · cases h4; exact he2
          · obtain ⟨st3, h5, h6⟩ := R.bind_eq_ok.1 h4
            cases h6
            rw [optimizeTop_errs h5]; exact he2

theorem procLast_errs {proc : LoadSt → Bytes → R (LoadSt × Bool)} (hproc : ∀ st l, KeepsErrs st (proc st l)) {st st' : LoadSt} {l : Bytes} {ok : Bool}
    (h : procLast proc st l = .ok (st', ok)) : ∀ e ∈ st.errs, e ∈ st'.errs := by
  intro e he
  unfold procLast at h
  split at h
  · cases h; exact he
  · split at h
    · cases h; exact he
    · exact hproc _ _ _ _ h e he

theorem procLines_keeps {proc : LoadSt → Bytes → R (LoadSt × Bool)} (hproc : ∀ st l, KeepsErrs st (proc st l)) :
    ∀ (ls : List Bytes) {st st' : LoadSt} {ok : Bool}, procLines proc st ls = .ok (st', ok) → ∀ e ∈ st.errs, e ∈ st'.errs
  | [], st, st', ok, h, e, he => by cases h; exact he
  | l :: ls, st, st', ok, h, e, he => by
    unfold procLines at h
    split at h
    · exact procLines_keeps hproc ls h e he
    · obtain ⟨⟨st1, ok1⟩, h1, h2⟩ := R.bind_eq_ok.1 h
      have he1 := hproc _ _ _ _ h1 e he
      dsimp only at h2
      split at h2
      · exact procLines_keeps hproc ls h2 e he1
      · cases h2; exact he1

theorem procLines_errs {proc : LoadSt → Bytes → R (LoadSt × Bool)} (hproc : ∀ st l, KeepsErrs st (proc st l)) {x : Bytes} {e : LoadErr} :
    ∀ (ls : List Bytes) {st st' : LoadSt}, x ∈ ls → skipped x = false →
    (∀ st st', proc st x = .ok (st', true) → e ∈ st'.errs) →
    procLines proc st ls = .ok (st', true) → e ∈ st'.errs
  | [], _, _, hx, _, _, _ => by cases hx
  | l :: ls, st, st', hx, hs, he, h => by
    unfold procLines at h
    rcases List.mem_cons.1 hx with rfl | hx
    · rw [hs] at h
      simp only [Bool.false_eq_true, if_false] at h
      obtain ⟨⟨st1, ok1⟩, h1, h2⟩ := R.bind_eq_ok.1 h
      dsimp only at h2
      split at h2
      · rename_i hok
        subst hok
        exact procLines_keeps hproc ls h2 e (he _ _ h1)
      · cases h2
    · split at h
      · exact procLines_errs hproc ls hx hs he h
      · obtain ⟨⟨st1, ok1⟩, h1, h2⟩ := R.bind_eq_ok.1 h
        dsimp only at h2
        split at h2
        · exact procLines_errs hproc ls hx hs he h2
        · cases h2

theorem processSamp_unknown {inc : IncludeRec} {fuel : Nat} {kind t : Bytes} (hne : kind ≠ []) (hk : kind ∉ knownKinds) (heq : ch! '=' ∉ kind)
    (h0 : ∀ c ∈ kind, c ≠ 0) {st st' : LoadSt} {ok : Bool} (h : processSamp env inc fuel st (kind ++ bs! "=" ++ t) = .ok (st', ok)) :
    .invalidRecord kind ∈ st'.errs := by
  have hl : lineType (kind ++ bs! "=" ++ t) = (kind, t) := by
    unfold lineType
    have hp : ∀ c ∈ kind, (fun c => c != ch! '=') c = true := by
      intro c hc
      have : c ≠ ch! '=' := fun e => heq (e ▸ hc)
      simpa using this
    rw [List.append_assoc, List.takeWhile_append_of_pos hp, List.dropWhile_append_of_pos hp]
    simp
  have hn : noNul kind = kind := by
    unfold noNul
    rw [List.filter_eq_self]
    intro c hc
    simpa using h0 c hc
  unfold processSamp at h
  rw [hl] at h
  simp only [knownKinds, List.mem_cons, List.not_mem_nil, or_false, not_or] at hk
  dsimp only at h
  rw [if_neg hne, if_neg hk.1, if_neg hk.2.1, if_neg hk.2.2.1, if_neg hk.2.2.2.1, if_neg hk.2.2.2.2.1, if_neg hk.2.2.2.2.2, hn] at h
  cases h
  exact List.mem_append_right _ (List.mem_singleton.2 rfl)

end LN
