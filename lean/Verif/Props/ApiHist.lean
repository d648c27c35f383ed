import Verif.Props.Api
import Verif.Props.Engine
/- C77: what a context does depends on the rule bases loaded into it and on its options only. -/
set_option autoImplicit false
namespace LN
variable {w : World}

/-- an object of another kind never becomes a context -/
theorem runApi_other (h : Nat) (m : UInt32) : ∀ (cs : List ApiCall) {a a' : Api} {rs : List Reply}, a.Inv → runApi w a cs = .ok (a', rs) →
    a.cells h = .other m → ∀ d, a'.cells h ≠ .live d
  | [], a, a', rs, _, hr, h1, d, hd => by
    simp only [runApi, R.ok.injEq, Prod.mk.injEq] at hr
    rw [← hr.1, h1] at hd; cases hd
  | x :: cs, a, a', rs, hi, hr, h1, d, hd => by
    simp only [runApi] at hr
    obtain ⟨⟨a1, r1⟩, hs, hr⟩ := R.bind_eq_ok.1 hr
    obtain ⟨⟨a2, r2⟩, h3, hr⟩ := R.bind_eq_ok.1 hr
    simp only [R.ok.injEq, Prod.mk.injEq] at hr
    rw [← hr.1] at hd
    refine runApi_other h m cs (hi.step hs).1 h3 ?_ d hd
    cases x with
    | init =>
      have hlt : h ≠ a.next := by
        intro e
        rw [hi.fresh h (by omega)] at h1; cases h1
      simp only [ApiCall.run, R.ok.injEq, Prod.mk.injEq] at hs
      rw [← hs.1]
      simp only [Api.set, if_neg hlt, h1]
    | on k op =>
      simp only [ApiCall.run] at hs
      obtain ⟨⟨c', r'⟩, hx, hs⟩ := R.bind_eq_ok.1 hs
      simp only [R.ok.injEq, Prod.mk.injEq] at hs
      rw [← hs.1]
      simp only [Api.set]
      by_cases hk : h = k
      · subst hk
        rw [if_pos rfl]
        rcases onCell_ok hx with ⟨c0, h0, _⟩ | ⟨m', h0, h4, _⟩
        · rw [h1] at h0; cases h0
        · rw [h4, h1]
      · rw [if_neg hk, h1]

/-- options and rules of a context, as seen from a given start -/
theorem runApi_view (h : Nat) : ∀ (cs : List ApiCall) {a a' : Api} {rs : List Reply} (o0 : UInt32) (l0 : CtxRules), a.Inv →
    runApi w a cs = .ok (a', rs) →
    (∀ c, a.cells h = .live c → c.opts = o0 ∧ (c.ld, c.tree) = l0) → (a.cells h = .none → o0 = 0 ∧ l0 = ({}, [])) →
    ∀ c, a'.cells h = .live c → c.opts = o0 ||| optsFor h cs ∧ loadAll w l0 (loadsFor h cs) = .ok (c.ld, c.tree)
  | [], a, a', rs, o0, l0, hi, hr, h1, h2 => by
    simp only [runApi, R.ok.injEq, Prod.mk.injEq] at hr
    rw [← hr.1]
    intro c hc
    obtain ⟨e1, e2⟩ := h1 c hc
    exact ⟨by simp [optsFor, e1], by simp [loadsFor, loadAll, e2]⟩
  | x :: cs, a, a', rs, o0, l0, hi, hr, h1, h2 => by
    simp only [runApi] at hr
    obtain ⟨⟨a1, r1⟩, hs, hr⟩ := R.bind_eq_ok.1 hr
    obtain ⟨⟨a2, r2⟩, h3, hr⟩ := R.bind_eq_ok.1 hr
    simp only [R.ok.injEq, Prod.mk.injEq] at hr
    rw [← hr.1]
    have hi1 := (hi.step hs).1
    cases x with
    | init =>
      simp only [ApiCall.run, R.ok.injEq, Prod.mk.injEq] at hs
      refine runApi_view h cs o0 l0 hi1 h3 ?_ ?_
      · intro d hd
        rw [← hs.1] at hd
        simp only [Api.set] at hd
        split at hd
        · rename_i hk
          cases hd
          have := h2 (by rw [hk]; exact hi.fresh _ (Nat.le_refl _))
          exact ⟨this.1.symm, this.2.symm⟩
        · exact h1 d hd
      · intro hn
        rw [← hs.1] at hn
        simp only [Api.set] at hn
        split at hn
        · cases hn
        · exact h2 hn
    | on k op =>
      simp only [ApiCall.run] at hs
      obtain ⟨⟨c', r'⟩, hx, hs⟩ := R.bind_eq_ok.1 hs
      simp only [R.ok.injEq, Prod.mk.injEq] at hs
      have hcell : a1.cells h = if h = k then c' else a.cells h := by rw [← hs.1]; rfl
      by_cases hk : k = h
      · subst hk
        rw [if_pos rfl] at hcell
        rcases onCell_ok hx with ⟨c0, h0, hx⟩ | ⟨m, h0, h4, _⟩
        · obtain ⟨hA, hB⟩ := h1 c0 h0
          cases op with
          | setOpts o =>
            simp only [ApiOp.onCtx, R.ok.injEq, Prod.mk.injEq] at hx
            intro d hd
            have := runApi_view k cs (o0 ||| o) l0 hi1 h3 (fun d hd => by rw [hcell, ← hx.1] at hd; cases hd; exact ⟨by rw [hA], hB⟩)
              (fun hn => by rw [hcell, ← hx.1] at hn; cases hn) d hd
            exact ⟨by rw [this.1]; simp [optsFor, UInt32.or_assoc], this.2⟩
          | enableDebug o =>
            simp only [ApiOp.onCtx, R.ok.injEq, Prod.mk.injEq] at hx
            exact runApi_view k cs o0 l0 hi1 h3 (fun d hd => by rw [hcell, ← hx.1] at hd; cases hd; exact ⟨hA, hB⟩)
              (fun hn => by rw [hcell, ← hx.1] at hn; cases hn)
          | setDebugCB o =>
            simp only [ApiOp.onCtx, R.ok.injEq, Prod.mk.injEq] at hx
            exact runApi_view k cs o0 l0 hi1 h3 (fun d hd => by rw [hcell, ← hx.1] at hd; cases hd; exact ⟨hA, hB⟩)
              (fun hn => by rw [hcell, ← hx.1] at hn; cases hn)
          | setErrMsgCB o =>
            simp only [ApiOp.onCtx, R.ok.injEq, Prod.mk.injEq] at hx
            exact runApi_view k cs o0 l0 hi1 h3 (fun d hd => by rw [hcell, ← hx.1] at hd; cases hd; exact ⟨hA, hB⟩)
              (fun hn => by rw [hcell, ← hx.1] at hn; cases hn)
          | loadSamples f =>
            simp only [ApiOp.onCtx] at hx
            obtain ⟨y, hy, hx⟩ := R.bind_eq_ok.1 hx
            simp only [R.ok.injEq, Prod.mk.injEq] at hx
            intro d hd
            have := runApi_view k cs o0 y.1 hi1 h3 (fun d hd => by rw [hcell, ← hx.1] at hd; cases hd; exact ⟨hA, rfl⟩)
              (fun hn => by rw [hcell, ← hx.1] at hn; cases hn) d hd
            refine ⟨this.1, ?_⟩
            rw [hB] at hy
            simp only [loadsFor, if_true, loadAll, hy, R.ok_bind', this.2]
          | loadString f =>
            simp only [ApiOp.onCtx] at hx
            obtain ⟨y, hy, hx⟩ := R.bind_eq_ok.1 hx
            simp only [R.ok.injEq, Prod.mk.injEq] at hx
            intro d hd
            have := runApi_view k cs o0 (y.1, l0.2) hi1 h3 (fun d hd => by rw [hcell, ← hx.1] at hd; cases hd; exact ⟨hA, by rw [← hB]⟩)
              (fun hn => by rw [hcell, ← hx.1] at hn; cases hn) d hd
            refine ⟨this.1, ?_⟩
            have hB1 : c0.ld = l0.1 := by rw [← hB]
            rw [hB1] at hy
            simp only [loadsFor, if_true, loadAll, hy, R.ok_bind', this.2]
          | normalize m j =>
            simp only [ApiOp.onCtx] at hx
            split at hx
            · obtain ⟨y, _, hx⟩ := R.bind_eq_ok.1 hx
              simp only [R.ok.injEq, Prod.mk.injEq] at hx
              exact runApi_view k cs o0 l0 hi1 h3 (fun d hd => by rw [hcell, ← hx.1] at hd; cases hd; exact ⟨hA, hB⟩)
                (fun hn => by rw [hcell, ← hx.1] at hn; cases hn)
            · obtain ⟨y, _, hx⟩ := R.bind_eq_ok.1 hx
              simp only [R.ok.injEq, Prod.mk.injEq] at hx
              exact runApi_view k cs o0 l0 hi1 h3 (fun d hd => by rw [hcell, ← hx.1] at hd; cases hd; exact ⟨hA, hB⟩)
                (fun hn => by rw [hcell, ← hx.1] at hn; cases hn)
          | exit =>
            simp only [ApiOp.onCtx] at hx
            obtain ⟨y, _, hx⟩ := R.bind_eq_ok.1 hx
            simp only [R.ok.injEq, Prod.mk.injEq] at hx
            exact runApi_view k cs o0 l0 hi1 h3 (fun d hd => by rw [hcell, ← hx.1] at hd; cases hd)
                (fun hn => by rw [hcell, ← hx.1] at hn; cases hn)
        · -- an object of another kind stays what it is: it is no context later on
          intro d hd
          exact absurd hd (runApi_other k m cs hi1 h3 (by rw [hcell, h4, h0]) d)
      · rw [if_neg (fun e => hk e.symm)] at hcell
        have e1 : optsFor h (.on k op :: cs) = optsFor h cs := by cases op <;> simp [optsFor, hk]
        have e2 : loadsFor h (.on k op :: cs) = loadsFor h cs := by cases op <;> simp [loadsFor, hk]
        rw [e1, e2]
        exact runApi_view h cs o0 l0 hi1 h3 (fun d hd => h1 d (by rw [← hcell]; exact hd)) (fun hn => h2 (by rw [← hcell]; exact hn))

/-- **C77** Whatever the history of calls - on this and other contexts, with callbacks, debugging, messages normalised before -
`ln_normalize` returns what it returns for a new context into which the rule bases loaded into this context are loaded, in the same order, and whose options are
those asked for at any time, together. -/
theorem C77_history (a0 : Api) (h0 : a0.Start) (cs : List ApiCall) (a : Api) (rs : List Reply) (hrun : runApi w a0 cs = .ok (a, rs))
    (h : Nat) (c : CtxCell) (hl : a.cells h = .live c) :
    ∃ rules, loadAll w ({}, []) (loadsFor h cs) = .ok rules ∧
      ∀ (msg : Bytes) (json0 : Obj),
        ((ApiCall.on h (.normalize msg json0)).run w a).bind (fun x => .ok (x.2.rc, x.2.json)) = normWith w rules (optsFor h cs) msg json0 := by
  obtain ⟨e1, e2⟩ := runApi_view (w := w) h cs 0 ({}, []) h0.inv hrun (fun c hc => (h0.1 h c hc).elim) (fun _ => ⟨rfl, rfl⟩) c hl
  refine ⟨(c.ld, c.tree), e2, fun msg json0 => ?_⟩
  have e3 : c.opts = optsFor h cs := by rw [e1]; simp
  rw [← e3]
  unfold normWith
  by_cases hv : c.ld.version = 1
  · simp only [ApiCall.run, hl, ApiOp.onCell, ApiOp.onCtx, if_pos hv]
    cases v1NormN w.v1Env { xs := c.tree, annots := c.ld.annots, rulePrefix := c.ld.rulePrefix } w.fuel .root msg json0 <;> rfl
  have hst := C08_stats_do_not_matter (env := w.env) (fuel := w.fuel) (ctx := c.ld.b.toCtx c.opts.toNat c.ld.annots) (s := msg) (json0 := json0)
    c.stats (fun _ => {})
  simp only [ApiCall.run, hl, ApiOp.onCell, ApiOp.onCtx, if_neg hv]
  cases h1 : normalize w.env w.fuel (c.ld.b.toCtx c.opts.toNat c.ld.annots) c.stats msg json0 <;>
    cases h2 : normalize w.env w.fuel (c.ld.b.toCtx c.opts.toNat c.ld.annots) (fun _ => {}) msg json0 <;>
    rw [h1, h2] at hst <;> simp [observe, R.bind] at hst ⊢
  · exact ⟨by rw [hst.1], hst.2⟩
  · exact hst

/-- **C14, histories** The options of a context are all those asked for by calls of `ln_setCtxOpts` for it, whatever happened in between; no call takes one away. -/
theorem C14_history (a0 : Api) (h0 : a0.Start) (cs : List ApiCall) (a : Api) (rs : List Reply) (hrun : runApi w a0 cs = .ok (a, rs))
    (h : Nat) (c : CtxCell) (hl : a.cells h = .live c) (i : Nat) :
    c.opts.toNat.testBit i = true ↔ ∃ o, ApiCall.on h (.setOpts o) ∈ cs ∧ o.toNat.testBit i = true := by
  obtain ⟨e1, _⟩ := runApi_view (w := w) h cs 0 ({}, []) h0.inv hrun (fun c hc => (h0.1 h c hc).elim) (fun _ => ⟨rfl, rfl⟩) c hl
  have e3 : c.opts = optsFor h cs := by rw [e1]; simp
  rw [e3]
  have key : ∀ cs : List ApiCall, (optsFor h cs).toNat.testBit i = true ↔ ∃ o, ApiCall.on h (.setOpts o) ∈ cs ∧ o.toNat.testBit i = true := by
    intro cs
    induction cs with
    | nil => simp [optsFor]
    | cons x cs ih =>
      cases x with
      | init => simpa [optsFor] using ih
      | on k op =>
        cases op with
        | setOpts o =>
          simp only [optsFor]
          split
          · rename_i hk
            subst hk
            simp only [UInt32.toNat_or, Nat.testBit_or, Bool.or_eq_true, ih, List.mem_cons, ApiCall.on.injEq, true_and, ApiOp.setOpts.injEq]
            constructor
            · rintro (h | ⟨o', h1, h2⟩)
              · exact ⟨o, .inl rfl, h⟩
              · exact ⟨o', .inr h1, h2⟩
            · rintro ⟨o', rfl | h1, h2⟩
              · exact .inl h2
              · exact .inr ⟨o', h1, h2⟩
          · rename_i hk
            simp only [ih, List.mem_cons, ApiCall.on.injEq]
            constructor
            · rintro ⟨o', h1, h2⟩; exact ⟨o', .inr h1, h2⟩
            · rintro ⟨o', h1 | h1, h2⟩
              · exact absurd h1.1.symm hk
              · exact ⟨o', h1, h2⟩
        | _ => simpa [optsFor] using ih
  exact key cs

/-- a history with two contexts; options are set in two steps, and a message is normalised in between -/
def Ex.hist : List ApiCall := [.init, .init, .on 2 (.setOpts 8), .on 1 (.loadString (bs! "rule=:a%n:number%\n")), .on 1 (.setOpts 4),
  .on 1 (.normalize (bs! "a7") []), .on 1 (.setOpts 16), .on 1 (.setDebugCB ⟨some 5, 6⟩)]

example : (optsFor 1 Ex.hist).toNat = 20 ∧ loadsFor 1 Ex.hist = [.text (bs! "rule=:a%n:number%\n")] ∧ loadsFor 2 Ex.hist = [] := ⟨rfl, rfl, rfl⟩

/-- the history gets through, and leaves context 1 alive -/
example : ∃ a rs c, runApi Ex.world Ex.api0 Ex.hist = .ok (a, rs) ∧ a.cells 1 = .live c := by
  have h1 : ((runApi Ex.world Ex.api0 Ex.hist).bind fun r => .ok (match r.1.cells 1 with | .live _ => true | _ => false)) = .ok true := by
    decide +kernel
  obtain ⟨⟨a, rs⟩, h2, h3⟩ := R.bind_eq_ok.1 h1
  simp only [R.ok.injEq] at h3
  split at h3
  · rename_i c hc; exact ⟨a, rs, c, h2, hc⟩
  · cases h3

end LN
