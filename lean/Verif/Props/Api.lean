import Verif.Spec.Api
import Verif.Props.LoadMem
/- C59, C60, C67, C68: histories of API calls. -/
set_option autoImplicit false
namespace LN
variable {w : World}

/-! ### invariants of histories -/

theorem Api.set_self (a : Api) (h : Nat) : a.set h (a.cells h) = a := by
  cases a with
  | mk cells next =>
    simp only [Api.set, Api.mk.injEq, and_true]
    funext k
    by_cases hk : k = h
    · simp [hk]
    · simp [hk]

/-- what all reachable states satisfy -/
structure Api.Inv (a : Api) : Prop where
  good : ∀ h c, a.cells h = .live c → c.ld.Good
  fresh : ∀ h, a.next ≤ h → a.cells h = .none

/-! ### version 1 files -/

theorem v1AnnotLoop_mem : ∀ (fuel : Nat) (a : Annot) (s : Bytes), MemT True (fun _ => True) (v1AnnotLoop fuel a s)
  | fuel, a, s => by
    unfold v1AnnotLoop
    split
    · trivial
    · cases fuel with
      | zero => trivial
      | succ n =>
        dsimp only
        split
        · trivial
        · exact v1AnnotLoop_mem n _ _
        · exact v1AnnotLoop_mem n _ _

theorem v1ProcessSamp_mem (E : V1Env) (self : V1CtxId) (fuel : Nat) (st : V1Load) (buf : Bytes) :
    MemT True (fun _ => True) (v1ProcessSamp E self fuel st buf) := by
  unfold v1ProcessSamp
  dsimp only
  split
  · trivial
  split
  · split
    · split
      · trivial
      · exact fun h => by cases h
    · trivial
  split
  · unfold v1ProcessRule
    have h1 := tagLoop_result (lineType buf).2 none []
    split
    · trivial
    · rename_i k hk
      intro e
      rw [e] at hk
      exact h1.2 hk
    · trivial
    · split <;> trivial
  split
  · unfold v1ProcessAnnotate
    dsimp only
    split
    · split
      · trivial
      · refine (v1AnnotLoop_mem _ _ _).bind fun a _ => ?_
        cases a <;> trivial
    · trivial
  · trivial

theorem v1ReadAll_mem (E : V1Env) (self : V1CtxId) (fuel : Nat) : ∀ (rounds : Nat) (st : V1Load) (inp : Bytes),
    MemT True (fun _ => True) (v1ReadAll E self fuel rounds st inp)
  | 0, _, _ => trivial
  | rounds + 1, st, inp => by
    unfold v1ReadAll
    refine MemT.bind (P := fun _ => True) ?_ fun st' _ => ?_
    · split
      · trivial
      · exact v1ProcessSamp_mem E self fuel st _
    · split
      · trivial
      · exact v1ReadAll_mem E self fuel rounds st' _

theorem ctxLoad_good {r : CtxRules} {f : Bytes} (hg : r.1.Good) : MemT True (fun x => x.1.1.Good) (ctxLoad w r f) := by
  unfold ctxLoad
  refine (loadSamples_good (env := w.env) (srt := w.srt) (fs := w.fs) (T := True) (rank := fun _ => 0) w.fuel r.1 f hg (.inl trivial)).bind fun x hx => ?_
  obtain ⟨ld, ok⟩ := x
  dsimp only at hx ⊢
  by_cases hv : ok = true ∧ ld.version = 1
  · rw [if_pos hv]
    unfold oldCruft
    cases w.disk f with
    | none => exact hx
    | some text => exact MemT.bind (P := fun _ => True) (v1ReadAll_mem _ _ _ _ _ _) fun L _ => hx
  · rw [if_neg hv]; exact hx

theorem onCtx_good {c : CtxCell} {op : ApiOp} {c' : Cell} {r : Reply} (hg : c.ld.Good)
    (h : op.onCtx w c = .ok (c', r)) : ∀ d, c' = .live d → d.ld.Good := by
  intro d hd
  cases op with
  | setOpts o => simp only [ApiOp.onCtx, R.ok.injEq, Prod.mk.injEq] at h; rw [← h.1] at hd; cases hd; exact hg
  | enableDebug o => simp only [ApiOp.onCtx, R.ok.injEq, Prod.mk.injEq] at h; rw [← h.1] at hd; cases hd; exact hg
  | setDebugCB o => simp only [ApiOp.onCtx, R.ok.injEq, Prod.mk.injEq] at h; rw [← h.1] at hd; cases hd; exact hg
  | setErrMsgCB o => simp only [ApiOp.onCtx, R.ok.injEq, Prod.mk.injEq] at h; rw [← h.1] at hd; cases hd; exact hg
  | loadSamples f =>
    have hl := ctxLoad_good (w := w) (r := (c.ld, c.tree)) (f := f) hg
    simp only [ApiOp.onCtx] at h
    obtain ⟨x, hx, h⟩ := R.bind_eq_ok.1 h
    rw [hx] at hl
    simp only [R.ok.injEq, Prod.mk.injEq] at h
    rw [← h.1] at hd; cases hd; exact hl
  | loadString f =>
    have hl := loadFromString_good (env := w.env) (srt := w.srt) (fs := w.fs) (T := True) (rank := fun _ => 0) w.fuel c.ld f hg (.inl trivial)
    simp only [ApiOp.onCtx] at h
    obtain ⟨x, hx, h⟩ := R.bind_eq_ok.1 h
    rw [hx] at hl
    simp only [R.ok.injEq, Prod.mk.injEq] at h
    rw [← h.1] at hd; cases hd; exact hl
  | normalize m j =>
    simp only [ApiOp.onCtx] at h
    split at h
    · obtain ⟨x, hx, h⟩ := R.bind_eq_ok.1 h
      simp only [R.ok.injEq, Prod.mk.injEq] at h
      rw [← h.1] at hd; cases hd; exact hg
    · obtain ⟨x, hx, h⟩ := R.bind_eq_ok.1 h
      simp only [R.ok.injEq, Prod.mk.injEq] at h
      rw [← h.1] at hd; cases hd; exact hg
  | exit =>
    simp only [ApiOp.onCtx] at h
    obtain ⟨x, hx, h⟩ := R.bind_eq_ok.1 h
    simp only [R.ok.injEq, Prod.mk.injEq] at h
    rw [← h.1] at hd; cases hd

theorem onCell_ok {cl : Cell} {op : ApiOp} {c' : Cell} {r : Reply} (h : op.onCell w cl = .ok (c', r)) :
    (∃ c, cl = .live c ∧ op.onCtx w c = .ok (c', r)) ∨ (∃ m, cl = .other m ∧ c' = cl ∧ r = { rc := -1 } ∧ op.checks = true ∧ m ≠ objIdCtx) := by
  cases cl with
  | none => cases h
  | freed b => cases h
  | live c => exact .inl ⟨c, rfl, h⟩
  | other m =>
    simp only [ApiOp.onCell] at h
    split at h
    · rename_i hc
      simp only [R.ok.injEq, Prod.mk.injEq] at h
      exact .inr ⟨m, rfl, h.1.symm, h.2.symm, hc.1, hc.2⟩
    · cases h

theorem Api.Inv.step {a a' : Api} {c : ApiCall} {r : Reply} (hi : a.Inv) (h : c.run w a = .ok (a', r)) :
    a'.Inv ∧ a.next ≤ a'.next := by
  cases c with
  | init =>
    simp only [ApiCall.run, R.ok.injEq, Prod.mk.injEq] at h
    rw [← h.1]
    refine ⟨⟨fun k c hk => ?_, fun k hk => ?_⟩, Nat.le_succ _⟩
    · simp only [Api.set] at hk
      split at hk
      · cases hk; exact initBld_inv
      · exact hi.good k c hk
    · simp only [Api.set] at hk ⊢
      rw [if_neg (by omega)]
      exact hi.fresh k (by omega)
  | on k op =>
    simp only [ApiCall.run] at h
    obtain ⟨⟨c', r'⟩, hx, h⟩ := R.bind_eq_ok.1 h
    simp only [R.ok.injEq, Prod.mk.injEq] at h
    rw [← h.1]
    have hlt : k < a.next := by
      apply Nat.lt_of_not_le
      intro hle
      rw [hi.fresh k hle] at hx
      cases hx
    refine ⟨⟨fun j c hj => ?_, fun j hj => ?_⟩, Nat.le_refl _⟩
    · simp only [Api.set] at hj
      split at hj
      · rcases onCell_ok hx with ⟨c0, h0, h1⟩ | ⟨m, h0, h1, _⟩
        · exact onCtx_good (hi.good k c0 h0) h1 c hj
        · rw [h1, h0] at hj; cases hj
      · exact hi.good j c hj
    · simp only [Api.set] at hj ⊢
      rw [if_neg (by omega)]
      exact hi.fresh j hj

theorem runApi_inv : ∀ (cs : List ApiCall) {a a' : Api} {rs : List Reply}, a.Inv → runApi w a cs = .ok (a', rs) → a'.Inv
  | [], a, a', rs, hi, h => by
    simp only [runApi, R.ok.injEq, Prod.mk.injEq] at h
    rw [← h.1]; exact hi
  | c :: cs, a, a', rs, hi, h => by
    simp only [runApi] at h
    obtain ⟨⟨a1, r1⟩, h1, h⟩ := R.bind_eq_ok.1 h
    obtain ⟨⟨a2, r2⟩, h2, h⟩ := R.bind_eq_ok.1 h
    simp only [R.ok.injEq, Prod.mk.injEq] at h
    rw [← h.1]
    exact runApi_inv cs (hi.step h1).1 h2

theorem Api.Start.inv {a : Api} (h : a.Start) : a.Inv := ⟨fun k c hk => (h.1 k c hk).elim, h.2⟩

/-! ### C59 -/

/-- **C59 (1)** The functions which set callbacks, load rules and delete a context do nothing and return -1 if the handle
points to an object of another kind. -/
theorem C59_foreign_rejected (a : Api) (h : Nat) (m : UInt32) (op : ApiOp) (ho : a.cells h = .other m)
    (hm : m ≠ 0xFEFE0001)
    (hop : (∃ r, op = .setDebugCB r) ∨ (∃ r, op = .setErrMsgCB r) ∨ (∃ f, op = .loadSamples f) ∨ (∃ s, op = .loadString s) ∨ op = .exit) :
    (ApiCall.on h op).run w a = .ok (a, { rc := -1, json := none, out := [] }) := by
  have hc : op.checks = true := by rcases hop with ⟨_, h⟩ | ⟨_, h⟩ | ⟨_, h⟩ | ⟨_, h⟩ | h <;> rw [h] <;> rfl
  have hr : op.onCell w (a.cells h) = .ok (.other m, { rc := -1 }) := by
    rw [ho]
    simp only [ApiOp.onCell]
    rw [if_pos ⟨hc, hm⟩]
  simp only [ApiCall.run, hr, R.ok_bind']
  rw [← ho, Api.set_self]

/-- **C59 (1)**, not so for the others: `ln_normalize`, `ln_setCtxOpts` and `ln_enableDebug` take whatever object they are given for a context
and read it as one. -/
theorem C59_foreign_violated (a : Api) (h : Nat) (m : UInt32) (op : ApiOp) (ho : a.cells h = .other m)
    (hop : (∃ t j, op = .normalize t j) ∨ (∃ o, op = .setOpts o) ∨ (∃ i, op = .enableDebug i)) :
    (ApiCall.on h op).run w a = .ub .oobRead := by
  have hr : op.onCell w (a.cells h) = .ub .oobRead := by
    rw [ho]
    rcases hop with ⟨_, _, rfl⟩ | ⟨_, rfl⟩ | ⟨_, rfl⟩ <;> rfl
  simp only [ApiCall.run, hr]
  rfl

/-- **C59 (2)** After any history of calls which got through, deleting a live context succeeds, leaves all other objects as they
are, and leaves no node of the context's graph behind, unless some node of it ever got 256 parsers. -/
theorem C59_exit_partial (a0 : Api) (h0 : a0.Start) (cs : List ApiCall) (a : Api) (rs : List Reply)
    (hrun : runApi w a0 cs = .ok (a, rs)) (h : Nat) (c : CtxCell) (hl : a.cells h = .live c) :
    ∃ (b : Bld) (out : List Delivery) (a' : Api),
      (ApiCall.on h .exit).run w a = .ok (a', { rc := 0, json := none, out := out }) ∧
      a'.cells h = .freed b ∧ (∀ k, k ≠ h → a'.cells k = a.cells k) ∧
      (c.ld.b.wrapped = false → ∀ n, b.heap n = none) := by
  have hg := (runApi_inv cs h0.inv hrun).good h c hl
  obtain ⟨b', h1, h2, h3⟩ := pdagDelete_list c.ld.b.ctxRefs c.ld.b [] 0 (by rw [List.append_nil]; exact hg)
    (fun r _ => Nat.zero_le r)
  have hx : exitBld c.ld.b = .ok b' := h1
  refine ⟨b', deliver c [] [] (w.traces c .exit + 1), a.set h (.freed b'), ?_, by simp [Api.set], fun k hk => by simp [Api.set, hk], fun hw => h2.empty (by rw [h3.wrapped]; exact hw)⟩
  · simp only [ApiCall.run, hl, ApiOp.onCell, ApiOp.onCtx, hx, R.ok_bind']

/-- **C59 (3)** No call after any history touches freed memory, unless its handle was deleted (or it is `ln_normalize`,
which only reads the graph). -/
theorem C59_no_use_after_free (a0 : Api) (h0 : a0.Start) (cs : List ApiCall) (a : Api) (rs : List Reply)
    (hrun : runApi w a0 cs = .ok (a, rs)) (h : Nat) (hl : ∀ b, a.cells h ≠ .freed b) (op : ApiOp)
    (hop : ∀ m j, op ≠ .normalize m j) : (ApiCall.on h op).run w a ≠ .ub .useAfterFree := by
  have hi := runApi_inv cs h0.inv hrun
  have key : op.onCell w (a.cells h) ≠ .ub .useAfterFree := by
    cases hcl : a.cells h with
    | none => simp [ApiOp.onCell]
    | freed b => exact (hl b hcl).elim
    | other m => simp only [ApiOp.onCell]; split <;> simp
    | live c =>
      have hg := hi.good h c hcl
      simp only [ApiOp.onCell]
      cases op with
      | setOpts o => simp [ApiOp.onCtx]
      | enableDebug o => simp [ApiOp.onCtx]
      | setDebugCB o => simp [ApiOp.onCtx]
      | setErrMsgCB o => simp [ApiOp.onCtx]
      | normalize m j => exact (hop m j rfl).elim
      | loadSamples f =>
        have hl := ctxLoad_good (w := w) (r := (c.ld, c.tree)) (f := f) hg
        simp only [ApiOp.onCtx]
        cases hx : ctxLoad w (c.ld, c.tree) f with
        | ok r => simp [R.ok_bind']
        | fail => exact fun h => by cases h
        | oof => exact fun h => by cases h
        | ub k => rw [hx] at hl; intro he; cases he; exact hl rfl
      | loadString f =>
        have hl := loadFromString_good (env := w.env) (srt := w.srt) (fs := w.fs) (T := True) (rank := fun _ => 0) w.fuel c.ld f hg (.inl trivial)
        simp only [ApiOp.onCtx]
        cases hx : loadSamplesFromString w.env w.srt w.fs w.fuel c.ld f with
        | ok r => simp [R.ok_bind']
        | fail => exact fun h => by cases h
        | oof => exact fun h => by cases h
        | ub k => rw [hx] at hl; intro he; cases he; exact hl rfl
      | exit =>
        obtain ⟨b', h1, h2, h3⟩ := pdagDelete_list c.ld.b.ctxRefs c.ld.b [] 0 (by rw [List.append_nil]; exact hg)
          (fun r _ => Nat.zero_le r)
        have hx : exitBld c.ld.b = .ok b' := h1
        simp [ApiOp.onCtx, hx, R.ok_bind']
  simp only [ApiCall.run]
  cases hx : op.onCell w (a.cells h) with
  | ok r => simp [R.ok_bind']
  | fail => exact fun h => by cases h
  | oof => exact fun h => by cases h
  | ub k => rw [hx] at key; intro he; cases he; exact key rfl

namespace Ex
/-- an environment without files, with one trace message per call -/
def world : World where
  env := env
  srt := stableSorter
  disk := fun _ => none
  rulebases := none
  fuel := 40
  toDbl := fun _ => bs! "0.0"
  truth := fun _ => false
  v1errs := fun _ _ => 0
  traces := fun _ _ => 1

/-- nothing but one object which is no context, at address 0 -/
def api0 : Api := ⟨fun k => if k = 0 then .other 0x12345678 else .none, 1⟩

theorem api0_start : api0.Start := by
  refine ⟨fun h c => ?_, fun h hh => ?_⟩
  · simp only [api0]; split <;> exact fun h => by cases h
  · simp only [api0] at hh ⊢; rw [if_neg (by omega)]

/-- the replies of a history which starts with one foreign object at address 0 -/
def replies (cs : List ApiCall) : R (List Reply) := (runApi world api0 cs).bind fun r => .ok r.2
end Ex

/-- two contexts; loading, normalizing, and deleting each once; a foreign object is refused -/
example : Ex.replies [.init, .init, .on 1 (.setDebugCB ⟨some 5, 6⟩), .on 1 (.loadString (bs! "rule=:a%n:number%\n")), .on 0 .exit,
      .on 2 .exit, .on 1 (.normalize (bs! "a7") []), .on 1 .exit] =
    .ok [{}, {}, {}, { out := [⟨false, 5, 6⟩] }, { rc := -1 }, {}, { json := some [(bs! "n", .str (bs! "7"))], out := [⟨false, 5, 6⟩] },
      { out := [⟨false, 5, 6⟩, ⟨false, 5, 6⟩] }] := by decide +kernel

/-- **C59 violated** for a handle which was deleted before: the magic number which is to prevent a second deletion is
the same one as that of a live context, so the check cannot tell them apart, and the memory is gone anyhow. -/
theorem C59_double_exit_violated : objIdNone = objIdCtx ∧ Ex.replies [.init, .on 1 .exit, .on 1 .exit] = .ub .useAfterFree := by
  decide +kernel

/-- **C59 violated** for the functions without check: setting options of, or normalizing with, a foreign object -/
theorem C59_unchecked_violated : Ex.replies [.on 0 (.setOpts 4)] = .ub .oobRead ∧ Ex.replies [.on 0 (.enableDebug 1)] = .ub .oobRead ∧
    Ex.replies [.on 0 (.normalize (bs! "a") [])] = .ub .oobRead := by
  decide +kernel

/-! ### C60 -/

theorem debugReg_eq (h : Nat) (cs : List ApiCall) : debugReg h cs = cs.foldl (fun r c => match c with
      | .on k (.setDebugCB r') => if k = h then r' else r
      | _ => r) {} := by cases cs <;> rfl
theorem errorReg_eq (h : Nat) (cs : List ApiCall) : errorReg h cs = cs.foldl (fun r c => match c with
      | .on k (.setErrMsgCB r') => if k = h then r' else r
      | _ => r) {} := by cases cs <;> rfl

/-- registrations as seen from a given start -/
theorem runApi_regs (h : Nat) : ∀ (cs : List ApiCall) {a a' : Api} {rs : List Reply} (d0 e0 : CbReg), a.Inv →
    runApi w a cs = .ok (a', rs) →
    (∀ c, a.cells h = .live c → c.dbg = d0 ∧ c.err = e0) → (a.cells h = .none → d0 = {} ∧ e0 = {}) →
    (∀ c, a'.cells h = .live c →
      c.dbg = cs.foldl (fun r c => match c with
        | .on k (.setDebugCB r') => if k = h then r' else r
        | _ => r) d0 ∧
      c.err = cs.foldl (fun r c => match c with
        | .on k (.setErrMsgCB r') => if k = h then r' else r
        | _ => r) e0)
  | [], a, a', rs, d0, e0, hi, hr, h1, h2 => by
    simp only [runApi, R.ok.injEq, Prod.mk.injEq] at hr
    rw [← hr.1]; exact h1
  | c :: cs, a, a', rs, d0, e0, hi, hr, h1, h2 => by
    simp only [runApi] at hr
    obtain ⟨⟨a1, r1⟩, hs, hr⟩ := R.bind_eq_ok.1 hr
    obtain ⟨⟨a2, r2⟩, h3, hr⟩ := R.bind_eq_ok.1 hr
    simp only [R.ok.injEq, Prod.mk.injEq] at hr
    rw [← hr.1]
    have hi1 := (hi.step hs).1
    simp only [List.foldl_cons]
    refine runApi_regs h cs _ _ hi1 h3 ?_ ?_
    · intro d hd
      cases c with
      | init =>
        simp only [ApiCall.run, R.ok.injEq, Prod.mk.injEq] at hs
        rw [← hs.1] at hd
        simp only [Api.set] at hd
        split at hd
        · rename_i hk
          cases hd
          have := h2 (by rw [hk]; exact hi.fresh _ (Nat.le_refl _))
          exact ⟨this.1.symm, this.2.symm⟩
        · exact h1 d hd
      | on k op =>
        simp only [ApiCall.run] at hs
        obtain ⟨⟨c', r'⟩, hx, hs⟩ := R.bind_eq_ok.1 hs
        simp only [R.ok.injEq, Prod.mk.injEq] at hs
        rw [← hs.1] at hd
        simp only [Api.set] at hd
        by_cases hk : h = k
        · rw [if_pos hk] at hd
          rcases onCell_ok hx with ⟨c0, h0, hx⟩ | ⟨m, h0, h4, _⟩
          · obtain ⟨hA, hB⟩ := h1 c0 (by rw [hk]; exact h0)
            cases op with
            | setOpts o => simp only [ApiOp.onCtx, R.ok.injEq, Prod.mk.injEq] at hx; rw [← hx.1] at hd; cases hd; exact ⟨hA, hB⟩
            | enableDebug o => simp only [ApiOp.onCtx, R.ok.injEq, Prod.mk.injEq] at hx; rw [← hx.1] at hd; cases hd; exact ⟨hA, hB⟩
            | setDebugCB o =>
              simp only [ApiOp.onCtx, R.ok.injEq, Prod.mk.injEq] at hx; rw [← hx.1] at hd; cases hd
              simp only [hk, if_true]; exact ⟨trivial, hB⟩
            | setErrMsgCB o =>
              simp only [ApiOp.onCtx, R.ok.injEq, Prod.mk.injEq] at hx; rw [← hx.1] at hd; cases hd
              simp only [hk, if_true]; exact ⟨hA, trivial⟩
            | loadSamples f =>
              simp only [ApiOp.onCtx] at hx
              obtain ⟨x, _, hx⟩ := R.bind_eq_ok.1 hx
              simp only [R.ok.injEq, Prod.mk.injEq] at hx
              rw [← hx.1] at hd; cases hd; exact ⟨hA, hB⟩
            | loadString f =>
              simp only [ApiOp.onCtx] at hx
              obtain ⟨x, _, hx⟩ := R.bind_eq_ok.1 hx
              simp only [R.ok.injEq, Prod.mk.injEq] at hx
              rw [← hx.1] at hd; cases hd; exact ⟨hA, hB⟩
            | normalize m j =>
              simp only [ApiOp.onCtx] at hx
              split at hx
              · obtain ⟨x, _, hx⟩ := R.bind_eq_ok.1 hx
                simp only [R.ok.injEq, Prod.mk.injEq] at hx
                rw [← hx.1] at hd; cases hd; exact ⟨hA, hB⟩
              · obtain ⟨x, _, hx⟩ := R.bind_eq_ok.1 hx
                simp only [R.ok.injEq, Prod.mk.injEq] at hx
                rw [← hx.1] at hd; cases hd; exact ⟨hA, hB⟩
            | exit =>
              simp only [ApiOp.onCtx] at hx
              obtain ⟨x, _, hx⟩ := R.bind_eq_ok.1 hx
              simp only [R.ok.injEq, Prod.mk.injEq] at hx
              rw [← hx.1] at hd; cases hd
          · rw [h4, h0] at hd; cases hd
        · rw [if_neg hk] at hd
          have hk' : k ≠ h := fun e => hk e.symm
          cases op <;> simp only [hk', if_false] <;> exact h1 d hd
    · intro hn
      cases c with
      | init =>
        simp only [ApiCall.run, R.ok.injEq, Prod.mk.injEq] at hs
        rw [← hs.1] at hn
        simp only [Api.set] at hn
        split at hn
        · cases hn
        · exact h2 hn
      | on k op =>
        simp only [ApiCall.run] at hs
        obtain ⟨⟨c', r'⟩, hx, hs⟩ := R.bind_eq_ok.1 hs
        simp only [R.ok.injEq, Prod.mk.injEq] at hs
        rw [← hs.1] at hn
        simp only [Api.set] at hn
        by_cases hk : h = k
        · rw [if_pos hk] at hn
          rcases onCell_ok hx with ⟨c0, h0, hx⟩ | ⟨m, h0, h4, _⟩
          · exfalso
            cases op <;> simp only [ApiOp.onCtx] at hx
            any_goals simp only [R.ok.injEq, Prod.mk.injEq] at hx
            any_goals (rw [← hx.1] at hn; cases hn; done)
            any_goals (obtain ⟨x, _, hx⟩ := R.bind_eq_ok.1 hx; simp only [R.ok.injEq, Prod.mk.injEq] at hx; rw [← hx.1] at hn; cases hn; done)
            split at hx <;>
              (obtain ⟨x, _, hx⟩ := R.bind_eq_ok.1 hx; simp only [R.ok.injEq, Prod.mk.injEq] at hx; rw [← hx.1] at hn; cases hn)
          · rw [h4, h0] at hn; cases hn
        · rw [if_neg hk] at hn
          have hk' : k ≠ h := fun e => hk e.symm
          cases op <;> simp only [hk', if_false] <;> exact h2 hn

theorem mem_dbgPrintf {c : CtxCell} {d : Delivery} (h : d ∈ dbgPrintf c) : d.isErr = false ∧ c.dbg = ⟨some d.cb, d.cookie⟩ := by
  unfold dbgPrintf at h
  rcases c with ⟨⟨cb, ck⟩, e, o, g, l, st⟩
  cases cb with
  | none => simp at h
  | some f => simp only [List.mem_singleton] at h; rw [h]; exact ⟨rfl, rfl⟩

theorem mem_deliver {c : CtxCell} {e e' : List LoadErr} {n : Nat} {d : Delivery} (h : d ∈ deliver c e e' n) :
    (d.isErr = false → c.dbg = ⟨some d.cb, d.cookie⟩) ∧ (d.isErr = true → c.err.cb = some d.cb ∧ d.cookie = c.dbg.cookie) := by
  unfold deliver at h
  rcases List.mem_append.1 h with h | h
  · obtain ⟨_, _, h⟩ := List.mem_flatMap.1 h
    unfold errPrintf at h
    cases hc : c.err.cb with
    | none => rw [hc] at h; simp at h
    | some f =>
      rw [hc] at h
      dsimp only at h
      rcases List.mem_cons.1 h with h | h
      · rw [h]; exact ⟨fun h => Bool.noConfusion h, fun _ => ⟨rfl, rfl⟩⟩
      · have := mem_dbgPrintf h
        exact ⟨fun _ => this.2, fun h => by rw [this.1] at h; cases h⟩
  · obtain ⟨l, hl, h⟩ := List.mem_flatten.1 h
    rw [(List.mem_replicate.1 hl).2] at h
    have := mem_dbgPrintf h
    exact ⟨fun _ => this.2, fun h => by rw [this.1] at h; cases h⟩

theorem onCell_out {cl : Cell} {op : ApiOp} {c' : Cell} {r : Reply} (h : op.onCell w cl = .ok (c', r)) {d : Delivery}
    (hd : d ∈ r.out) : ∃ c, cl = .live c ∧ (d.isErr = false → c.dbg = ⟨some d.cb, d.cookie⟩) ∧
      (d.isErr = true → c.err.cb = some d.cb ∧ d.cookie = c.dbg.cookie) := by
  rcases onCell_ok h with ⟨c0, h0, hx⟩ | ⟨m, h0, h4, h5, _⟩
  · refine ⟨c0, h0, ?_⟩
    cases op with
    | setOpts o => simp only [ApiOp.onCtx, R.ok.injEq, Prod.mk.injEq] at hx; rw [← hx.2] at hd; cases hd
    | enableDebug o => simp only [ApiOp.onCtx, R.ok.injEq, Prod.mk.injEq] at hx; rw [← hx.2] at hd; cases hd
    | setDebugCB o => simp only [ApiOp.onCtx, R.ok.injEq, Prod.mk.injEq] at hx; rw [← hx.2] at hd; cases hd
    | setErrMsgCB o => simp only [ApiOp.onCtx, R.ok.injEq, Prod.mk.injEq] at hx; rw [← hx.2] at hd; cases hd
    | loadSamples f =>
      simp only [ApiOp.onCtx] at hx
      obtain ⟨x, _, hx⟩ := R.bind_eq_ok.1 hx
      simp only [R.ok.injEq, Prod.mk.injEq] at hx
      rw [← hx.2] at hd; exact mem_deliver hd
    | loadString f =>
      simp only [ApiOp.onCtx] at hx
      obtain ⟨x, _, hx⟩ := R.bind_eq_ok.1 hx
      simp only [R.ok.injEq, Prod.mk.injEq] at hx
      rw [← hx.2] at hd; exact mem_deliver hd
    | normalize m j =>
      simp only [ApiOp.onCtx] at hx
      split at hx
      · obtain ⟨x, _, hx⟩ := R.bind_eq_ok.1 hx
        simp only [R.ok.injEq, Prod.mk.injEq] at hx
        rw [← hx.2] at hd; exact mem_deliver hd
      · obtain ⟨x, _, hx⟩ := R.bind_eq_ok.1 hx
        simp only [R.ok.injEq, Prod.mk.injEq] at hx
        rw [← hx.2] at hd; exact mem_deliver hd
    | exit =>
      simp only [ApiOp.onCtx] at hx
      obtain ⟨x, _, hx⟩ := R.bind_eq_ok.1 hx
      simp only [R.ok.injEq, Prod.mk.injEq] at hx
      rw [← hx.2] at hd; exact mem_deliver hd
  · rw [h5] at hd; cases hd

/-- what is delivered during a call, in terms of the calls before -/
theorem delivery_regs (a0 : Api) (h0 : a0.Start) (cs : List ApiCall) (a : Api) (rs : List Reply) (hrun : runApi w a0 cs = .ok (a, rs))
    (h : Nat) (op : ApiOp) (a' : Api) (r : Reply) (hc : (ApiCall.on h op).run w a = .ok (a', r)) (d : Delivery) (hd : d ∈ r.out) :
    (d.isErr = false → debugReg h cs = ⟨some d.cb, d.cookie⟩) ∧
    (d.isErr = true → (errorReg h cs).cb = some d.cb ∧ d.cookie = (debugReg h cs).cookie) := by
  simp only [ApiCall.run] at hc
  obtain ⟨⟨c', r'⟩, hx, hc⟩ := R.bind_eq_ok.1 hc
  simp only [R.ok.injEq, Prod.mk.injEq] at hc
  obtain ⟨c, hl, h1, h2⟩ := onCell_out hx (d := d) (by rw [hc.2]; exact hd)
  have hreg := runApi_regs h cs {} {} h0.inv hrun (fun c hc => (h0.1 h c hc).elim) (fun _ => ⟨rfl, rfl⟩) c hl
  rw [← debugReg_eq, ← errorReg_eq] at hreg
  rw [← hreg.1, ← hreg.2]
  exact ⟨h1, h2⟩

/-- **C60, debug callback** Whatever the history of calls, a debug message sent during a call for a context goes to the debug callback
registered last for this very context, with the cookie registered together with it. -/
theorem C60_debug (a0 : Api) (h0 : a0.Start) (cs : List ApiCall) (a : Api) (rs : List Reply) (hrun : runApi w a0 cs = .ok (a, rs))
    (h : Nat) (op : ApiOp) (a' : Api) (r : Reply) (hc : (ApiCall.on h op).run w a = .ok (a', r)) (d : Delivery) (hd : d ∈ r.out)
    (hk : d.isErr = false) : debugReg h cs = ⟨some d.cb, d.cookie⟩ :=
  (delivery_regs a0 h0 cs a rs hrun h op a' r hc d hd).1 hk

/-- **C60, error callback, partial** An error message goes to the error callback registered last for this context; its cookie is
the right one if it is the same as the one of the debug callback. (In general it is the debug callback's, `C60_error_cookie`.) -/
theorem C60_error_partial (a0 : Api) (h0 : a0.Start) (cs : List ApiCall) (a : Api) (rs : List Reply) (hrun : runApi w a0 cs = .ok (a, rs))
    (h : Nat) (op : ApiOp) (a' : Api) (r : Reply) (hc : (ApiCall.on h op).run w a = .ok (a', r)) (d : Delivery) (hd : d ∈ r.out)
    (hk : d.isErr = true) :
    (errorReg h cs).cb = some d.cb ∧
    ((errorReg h cs).cookie = (debugReg h cs).cookie → errorReg h cs = ⟨some d.cb, d.cookie⟩) := by
  have := (delivery_regs a0 h0 cs a rs hrun h op a' r hc d hd).2 hk
  refine ⟨this.1, fun he => ?_⟩
  rw [this.2, ← he, ← this.1]

/-- the cookie the error callback gets is always the one registered for the *debug* callback -/
theorem C60_error_cookie (a0 : Api) (h0 : a0.Start) (cs : List ApiCall) (a : Api) (rs : List Reply) (hrun : runApi w a0 cs = .ok (a, rs))
    (h : Nat) (op : ApiOp) (a' : Api) (r : Reply) (hc : (ApiCall.on h op).run w a = .ok (a', r)) (d : Delivery) (hd : d ∈ r.out)
    (hk : d.isErr = true) : d.cookie = (debugReg h cs).cookie :=
  ((delivery_regs a0 h0 cs a rs hrun h op a' r hc d hd).2 hk).2

/-- both callbacks with the same cookie; a line without rule text is complained about -/
example : Ex.replies [.init, .on 1 (.setDebugCB ⟨some 5, 6⟩), .on 1 (.setErrMsgCB ⟨some 8, 6⟩), .on 1 (.loadString (bs! "rubbish\n"))] =
    .ok [{}, {}, {}, { rc := 0, out := [⟨true, 8, 6⟩, ⟨false, 5, 6⟩, ⟨false, 5, 6⟩] }] := by decide +kernel

/-- **C60 violated** for the error callback: it was registered with cookie 7 and is called with cookie 0 (NULL), if there is no debug
callback, or with the cookie of the debug callback -/
theorem C60_error_violated :
    Ex.replies [.init, .on 1 (.setErrMsgCB ⟨some 8, 7⟩), .on 1 (.loadString (bs! "rubbish\n"))] =
      .ok [{}, {}, { rc := 0, out := [⟨true, 8, 0⟩] }] ∧
    Ex.replies [.init, .on 1 (.setErrMsgCB ⟨some 8, 7⟩), .on 1 (.setDebugCB ⟨some 5, 6⟩), .on 1 (.loadString (bs! "rubbish\n"))] =
      .ok [{}, {}, {}, { rc := 0, out := [⟨true, 8, 6⟩, ⟨false, 5, 6⟩, ⟨false, 5, 6⟩] }] := by
  decide +kernel

/-! ### C68: contexts are independent -/

theorem run_other {a a' : Api} {c : ApiCall} {r : Reply} {h : Nat} (hr : c.run w a = .ok (a', r)) (hlt : h < a.next)
    (hc : ∀ op, c ≠ .on h op) : a'.cells h = a.cells h := by
  cases c with
  | init =>
    simp only [ApiCall.run, R.ok.injEq, Prod.mk.injEq] at hr
    rw [← hr.1]
    simp only [Api.set]
    rw [if_neg (by omega)]
  | on k op =>
    simp only [ApiCall.run] at hr
    obtain ⟨⟨c', r'⟩, hx, hr⟩ := R.bind_eq_ok.1 hr
    simp only [R.ok.injEq, Prod.mk.injEq] at hr
    rw [← hr.1]
    simp only [Api.set]
    rw [if_neg (fun e => hc op (by rw [e]))]

theorem run_next {a a' : Api} {c : ApiCall} {r : Reply} (hr : c.run w a = .ok (a', r)) : a.next ≤ a'.next := by
  cases c with
  | init => simp only [ApiCall.run, R.ok.injEq, Prod.mk.injEq] at hr; rw [← hr.1]; exact Nat.le_succ _
  | on k op =>
    simp only [ApiCall.run] at hr
    obtain ⟨⟨c', r'⟩, hx, hr⟩ := R.bind_eq_ok.1 hr
    simp only [R.ok.injEq, Prod.mk.injEq] at hr
    rw [← hr.1]; exact Nat.le_refl _

/-- **C68** What a program observes of one context, and the state it ends up in, are determined by the calls for this
context alone: leave out all calls for other contexts, and start with any other contexts around, and the replies are the same. -/
theorem C68_contexts_independent (h : Nat) : ∀ (cs : List ApiCall) (a a' b : Api) (rs : List Reply), h < a.next →
    runApi w a cs = .ok (a', rs) → b.cells h = a.cells h →
    ∃ b', runApi w b (callsOn h cs) = .ok (b', repliesOn h cs rs) ∧ b'.cells h = a'.cells h
  | [], a, a', b, rs, hlt, hr, hb => by
    simp only [runApi, R.ok.injEq, Prod.mk.injEq] at hr
    refine ⟨b, ?_, by rw [hb, hr.1]⟩
    rw [← hr.2]; rfl
  | c :: cs, a, a', b, rs, hlt, hr, hb => by
    simp only [runApi] at hr
    obtain ⟨⟨a1, r1⟩, hs, hr⟩ := R.bind_eq_ok.1 hr
    obtain ⟨⟨a2, r2⟩, h3, hr⟩ := R.bind_eq_ok.1 hr
    simp only [R.ok.injEq, Prod.mk.injEq] at hr
    obtain ⟨rfl, rfl⟩ := hr
    have hn := run_next hs
    by_cases hc : ∃ op, c = .on h op
    · obtain ⟨op, rfl⟩ := hc
      simp only [ApiCall.run] at hs
      obtain ⟨⟨c', r'⟩, hx, hs⟩ := R.bind_eq_ok.1 hs
      simp only [R.ok.injEq, Prod.mk.injEq] at hs
      obtain ⟨ha, rfl⟩ := hs
      obtain ⟨b', hb1, hb2⟩ := C68_contexts_independent h cs a1 a2 (b.set h c') r2 (by omega) h3 (by rw [← ha]; simp [Api.set])
      refine ⟨b', ?_, hb2⟩
      have hcl : callsOn h (.on h op :: cs) = .on h op :: callsOn h cs := by simp [callsOn]
      have hrp : repliesOn h (.on h op :: cs) (r' :: r2) = r' :: repliesOn h cs r2 := by simp [repliesOn]
      have hbr : (ApiCall.on h op).run w b = .ok (b.set h c', r') := by
        simp only [ApiCall.run, hb, hx, R.ok_bind']
      rw [hcl, hrp]
      simp only [runApi, hbr, R.ok_bind', hb1]
    · have hc' : ∀ op, c ≠ .on h op := fun op e => hc ⟨op, e⟩
      obtain ⟨b', hb1, hb2⟩ := C68_contexts_independent h cs a1 a2 b r2 (by omega) h3 (by rw [run_other hs hlt hc']; exact hb)
      refine ⟨b', ?_, hb2⟩
      cases c with
      | init => exact hb1
      | on k op =>
        have hk : k ≠ h := fun e => hc' op (by rw [e])
        have hcl : callsOn h (.on k op :: cs) = callsOn h cs := by simp [callsOn, hk]
        have hrp : repliesOn h (.on k op :: cs) (r1 :: r2) = repliesOn h cs r2 := by simp [repliesOn, hk]
        rw [hcl, hrp]; exact hb1

/-- interleaved use of two contexts -/
example : Ex.replies [.init, .init, .on 1 (.loadString (bs! "rule=:a%n:number%\n")), .on 2 (.loadString (bs! "rule=:b\n")),
      .on 1 (.normalize (bs! "a7") []), .on 2 (.normalize (bs! "a7") [])] =
    .ok [{}, {}, {}, {}, { json := some [(bs! "n", .str (bs! "7"))] },
      { rc := 1, json := some [(bs! "originalmsg", .str (bs! "a7")), (bs! "unparsed-data", .str (bs! "a7"))] }] := by decide +kernel

/-! ### C67: texts of messages -/

theorem fmtBuf_len (full : Bytes) : (fmtBuf full).2 = (fmtBuf full).1.length ∧ (fmtBuf full).1.length ≤ 8191 := by
  unfold fmtBuf snprintfTo
  dsimp only
  split
  · rename_i h
    have h4 : (bs! "...\n").length = 4 := by decide
    simp only [List.length_append, List.length_take, h4]
    omega
  · rename_i h
    simp only [List.length_take]
    omega

/-- **C67, debug messages** The length handed to the debug callback is the length of the text; a text of at most 8191 bytes
arrives unchanged. -/
theorem C67_debug_length (full : Bytes) :
    (dbgText full).2 = (dbgText full).1.length ∧ (full.length ≤ 8191 → dbgText full = (full, full.length)) := by
  refine ⟨(fmtBuf_len full).1, fun h => ?_⟩
  unfold dbgText fmtBuf snprintfTo
  dsimp only
  rw [if_neg (by omega), List.take_of_length_le (by omega)]

/-- **C67, error messages, partial** The same for error messages, provided that file name and message together are not too long: without
file name there is no restriction. (The description of an error code has at most 1022 bytes.) -/
theorem C67_error_length_partial (full : Bytes) (eno : Option Bytes) (loc : Option (Bytes × Bytes))
    (he : ∀ e, eno = some e → e.length ≤ 1022)
    (hl : ∀ f l, loc = some (f, l) → f.length + l.length + full.length + ((eno.map (fun e => e.length + 2)).getD 0) + 18 ≤ 9215 ∧ full.length ≤ 8191) :
    (errText full eno loc).2 = (errText full eno loc).1.length := by
  have hb := fmtBuf_len full
  unfold errText
  cases loc with
  | none =>
    cases eno with
    | none => exact hb.1
    | some e =>
      have := he e rfl
      have h2 : (bs! ": ").length = 2 := by decide
      simp only [snprintfTo, List.length_take, List.length_append, h2]
      omega
  | some fl =>
    obtain ⟨f, l⟩ := fl
    obtain ⟨hf, h8⟩ := hl f l rfl
    have hfb : fmtBuf full = (full, full.length) := (C67_debug_length full).2 h8
    have h1 : (bs! "rulebase file ").length = 14 := by decide
    have h2 : (bs! "[").length = 1 := by decide
    have h3 : (bs! "]: ").length = 3 := by decide
    have h4 : (bs! ": ").length = 2 := by decide
    cases eno with
    | none =>
      simp only [Option.map_none, Option.getD_none] at hf
      simp only [hfb, snprintfTo, List.length_take, List.length_append, h1, h2, h3]
      omega
    | some e =>
      have := he e rfl
      simp only [Option.map_some, Option.getD_some] at hf
      simp only [hfb, snprintfTo, List.length_take, List.length_append, h1, h2, h3, h4]
      omega

/-- **C67, error messages** What an error message consists of, as long as nothing is cut: position in the rulebase (if it is about one), text, description of the error code (if
there is one). -/
theorem C67_error_text_partial {full : Bytes} {eno : Option Bytes} {loc : Option (Bytes × Bytes)} (h8 : full.length ≤ 8191)
    (hl : ((eno.map (fun e => e.length + 2)).getD 0) + full.length + ((loc.map (fun p => p.1.length + p.2.length + 18)).getD 0) ≤ 9215) :
    (errText full eno loc).1 =
      (match loc with
        | some (file, line) => bs! "rulebase file " ++ file ++ bs! "[" ++ line ++ bs! "]: "
        | none => []) ++ full ++
      (match eno with
        | some e => bs! ": " ++ e
        | none => []) := by
  have hfb : fmtBuf full = (full, full.length) := (C67_debug_length full).2 h8
  have h1 : (bs! "rulebase file ").length = 14 := by decide
  have h2 : (bs! "[").length = 1 := by decide
  have h3 : (bs! "]: ").length = 3 := by decide
  have h4 : (bs! ": ").length = 2 := by decide
  unfold errText
  rw [hfb]
  cases loc with
  | none =>
    cases eno with
    | none => simp
    | some e =>
      simp only [Option.map_some, Option.getD_some, Option.map_none, Option.getD_none] at hl
      simp only [snprintfTo, List.nil_append, List.append_assoc]
      exact List.take_of_length_le (by simp only [List.length_append, h4]; omega)
  | some fl =>
    obtain ⟨f, l⟩ := fl
    cases eno with
    | none =>
      simp only [Option.map_some, Option.getD_some, Option.map_none, Option.getD_none] at hl
      simp only [snprintfTo, List.append_nil]
      exact List.take_of_length_le (by simp only [List.length_append, h1, h2, h3]; omega)
    | some e =>
      simp only [Option.map_some, Option.getD_some] at hl
      simp only [snprintfTo, List.append_assoc]
      rw [List.take_of_length_le (l := full ++ _) (by simp only [List.length_append, h4]; omega)]
      exact List.take_of_length_le (by simp only [List.length_append, h1, h2, h3, h4]; omega)

/-- a message with file name, line and error description -/
example : errText (bs! "cannot open file") (some (bs! "No such file")) (some (bs! "rb", bs! "3")) =
    (bs! "rulebase file rb[3]: cannot open file: No such file", 51) := by decide +kernel

/-- whatever is sent, the text fits into its buffer -/
theorem C67_text_bounded (full : Bytes) (eno : Option Bytes) (loc : Option (Bytes × Bytes)) :
    (errText full eno loc).1.length ≤ 9215 := by
  have hb := fmtBuf_len full
  unfold errText
  cases loc with
  | none =>
    cases eno with
    | none => dsimp only; omega
    | some e => simp only [snprintfTo, List.length_take]; omega
  | some fl => simp only [snprintfTo, List.length_take]; omega

/-- **C67 violated** A message about a rulebase whose name is long is cut, but the length handed to the callback is the one of the
whole text: a callback which trusts it reads behind the end of the buffer of 9216 bytes. -/
theorem C67_error_length_violated :
    ∃ full f l, full.length ≤ 8191 ∧ 9216 < (errText full none (some (f, l))).2 ∧ (errText full none (some (f, l))).1.length = 9215 := by
  obtain ⟨full, hfull⟩ : ∃ l : Bytes, l.length = 8000 := ⟨List.replicate 8000 97, List.length_replicate⟩
  obtain ⟨f, hf⟩ : ∃ l : Bytes, l.length = 2000 := ⟨List.replicate 2000 97, List.length_replicate⟩
  have h8 : fmtBuf full = (full, full.length) := (C67_debug_length full).2 (by omega)
  refine ⟨full, f, bs! "1", by omega, ?_, ?_⟩
  · simp only [errText, h8, snprintfTo, List.length_append]
    omega
  · simp only [errText, h8, snprintfTo, List.length_append, List.length_take]
    omega

end LN
