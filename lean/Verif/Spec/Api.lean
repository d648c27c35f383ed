import Verif.Model.Api
/- Specification for the API layer: what a history of calls means, without running it. -/
set_option autoImplicit false
namespace LN

/-- no context exists yet, and the handles to be given out point to nothing -/
def Api.Start (a : Api) : Prop :=
  (∀ h c, a.cells h ≠ .live c) ∧ ∀ h, a.next ≤ h → a.cells h = .none

/-- the last registration of the debug callback of `h`; none registered = NULL -/
def debugReg (h : Nat) : List ApiCall → CbReg
  | [] => {}
  | cs => cs.foldl (fun r c => match c with
      | .on k (.setDebugCB r') => if k = h then r' else r
      | _ => r) {}

/-- the last registration of the error callback of `h` -/
def errorReg (h : Nat) : List ApiCall → CbReg
  | [] => {}
  | cs => cs.foldl (fun r c => match c with
      | .on k (.setErrMsgCB r') => if k = h then r' else r
      | _ => r) {}

/-- the calls which name `h` -/
def callsOn (h : Nat) (cs : List ApiCall) : List ApiCall :=
  cs.filter fun c => match c with
    | .on k _ => k == h
    | .init => false

/-- the replies to the calls which name `h` -/
def repliesOn (h : Nat) : List ApiCall → List Reply → List Reply
  | .on k _ :: cs, r :: rs => if k = h then r :: repliesOn h cs rs else repliesOn h cs rs
  | .init :: cs, _ :: rs => repliesOn h cs rs
  | _, _ => []

/-- what rules are loaded from -/
inductive Source where
  | file (name : Bytes)
  | text (t : Bytes)

/-- the rule bases loaded into `h`, in their order -/
def loadsFor (h : Nat) : List ApiCall → List Source
  | [] => []
  | .on k (.loadSamples f) :: cs => if k = h then .file f :: loadsFor h cs else loadsFor h cs
  | .on k (.loadString t) :: cs => if k = h then .text t :: loadsFor h cs else loadsFor h cs
  | _ :: cs => loadsFor h cs

/-- the options ever asked for `h` -/
def optsFor (h : Nat) : List ApiCall → UInt32
  | [] => 0
  | .on k (.setOpts o) :: cs => if k = h then o ||| optsFor h cs else optsFor h cs
  | _ :: cs => optsFor h cs

/-- load rule bases, one after the other -/
def loadAll (w : World) : CtxRules → List Source → R CtxRules
  | st, [] => .ok st
  | st, .file f :: l => (ctxLoad w st f).bind fun r => loadAll w r.1 l
  | st, .text t :: l => (loadSamplesFromString w.env w.srt w.fs w.fuel st.1 t).bind fun r => loadAll w (r.1, st.2) l

/-- what `ln_normalize` delivers (return code and event) for a context with these rules and options -/
def normWith (w : World) (r : CtxRules) (opts : UInt32) (msg : Bytes) (json0 : Obj) : R (Int × Option Obj) :=
  if r.1.version = 1 then
    (v1NormN w.v1Env { xs := r.2, annots := r.1.annots, rulePrefix := r.1.rulePrefix } w.fuel .root msg json0).bind fun x => .ok (0, some x.json)
  else
    (normalize w.env w.fuel (r.1.b.toCtx opts.toNat r.1.annots) (fun _ => {}) msg json0).bind fun x => .ok (if x.ok then 0 else 1, some x.json)

end LN
