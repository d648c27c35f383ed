import Verif.Props.Samp
/-
C66: loading arbitrary texts keeps the graph intact.
-/
set_option autoImplicit false
namespace LN
variable {env : Env} {srt : Sorter} {fs : Bytes → Option Bytes}

/-- a call of the API -/
inductive LoadCall where
  /-- `ln_loadSamples(ctx, name)` -/
  | file (name : Bytes)
  /-- `ln_loadSamplesFromString(ctx, text)` -/
  | string (text : Bytes)

/-- the call, whatever its return code -/
def LoadCall.run (env : Env) (srt : Sorter) (fs : Bytes → Option Bytes) (fuel : Nat) (st : LoadSt) (c : LoadCall) : R LoadSt :=
  (match c with
    | .file name => loadSamples env srt fs fuel st name
    | .string text => loadSamplesFromString env srt fs fuel st text).bind fun r => .ok r.1

theorem LoadCall.run_good {fuel : Nat} {st : LoadSt} (h : st.Good) (c : LoadCall) : MemT True LoadSt.Good (c.run env srt fs fuel st) := by
  refine MemT.bind (P := fun r : LoadSt × Bool => r.1.Good) ?_ fun r hr => hr
  cases c with
  | file name => exact loadSamples_good (rank := fun _ => 0) fuel st name h (.inl trivial)
  | string text => exact loadFromString_good (rank := fun _ => 0) fuel st text h (.inl trivial)

theorem loads_good {fuel : Nat} : ∀ (cs : List LoadCall) {st : LoadSt}, st.Good →
    MemT True LoadSt.Good (cs.foldlM (LoadCall.run env srt fs fuel) st)
  | [], st, h => h
  | c :: cs, st, h => by
    rw [List.foldlM_cons]
    exact MemT.bind (LoadCall.run_good h c) fun x hx => loads_good cs hx

/-- **C66** Whatever texts and files are loaded, in whatever order, and whether or not they are well formed: the loader never
touches a freed node of the graph; and if it comes to its end (see C53 for this, C50 and C51 for crashes), deleting
the context succeeds and leaves no node behind, unless some node ever got 256 parsers. -/
theorem C66_loads_keep_graph (cs : List LoadCall) (fuel : Nat) :
    cs.foldlM (LoadCall.run env srt fs fuel) {} ≠ .ub .useAfterFree ∧
    ∀ st, cs.foldlM (LoadCall.run env srt fs fuel) {} = .ok st →
      ∃ b', exitBld st.b = .ok b' ∧ (st.b.wrapped = false → ∀ n, b'.heap n = none) := by
  have h := loads_good (env := env) (srt := srt) (fs := fs) (fuel := fuel) cs (st := {}) initBld_inv
  refine ⟨fun he => ?_, fun st hst => ?_⟩
  · rw [he] at h; exact h rfl
  · rw [hst] at h
    obtain ⟨b', h1, h2, h3⟩ := pdagDelete_list st.b.ctxRefs st.b [] 0 (by rw [List.append_nil]; exact h)
      (fun r _ => Nat.zero_le r)
    refine ⟨b', h1, fun hw => h2.empty ?_⟩
    rw [h3.wrapped]; exact hw

/-- three loads, with malformed and well formed lines; the last one ends without error -/
example : ((([.string (bs! "rule=:a%\nrule=:ab%n:number%\n"), .file (bs! "missing"), .string (bs! "type=@t:x\nrule=t:q%f:@t%\n")] : List LoadCall).foldlM
    (LoadCall.run Ex.env stableSorter (fun _ => none) 20) {}).bind fun st => .ok (st.errs, st.b.types.length)) =
    .ok ([.open_], 1) := by decide +kernel

/-- **C66 violated** for memory in general: a rule text which ends behind the percent sign and a blank makes the loader read
beyond the end of the text; an `include=` line without file name makes it read in front of a buffer. -/
theorem C66_out_of_bounds_violated :
    (∃ k, Ex.load (bs! "rule=:a%%% ") = .ub k) ∧ (∃ k, Ex.load (bs! "include=\n") = .ub k) :=
  ⟨⟨.oobRead, by rfl⟩, ⟨.oobRead, by rfl⟩⟩

end LN
