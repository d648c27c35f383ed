import Verif.Props.ApiHist
import Verif.Proofs.SampVer
import Verif.Props.V1Doc
/- C81, C82: where rulebase files are looked for, and version 1 rulebases through the API. -/
set_option autoImplicit false
namespace LN
open Spec
variable {w : World}

/-! ### where files are looked for (doc/configuration.rst, "Includes") -/

/-- the name of a file in a directory; a slash is put in between unless there is one -/
def inDir (dir name : Bytes) : Bytes := dir ++ (if (ch! '/') ∈ dir.getLast? then [] else [ch! '/']) ++ name

/-- the places where a rulebase is looked for, best one first -/
def places (variable_ : Option Bytes) (name : Bytes) : List Bytes :=
  match variable_ with
  | none => [name]
  | some dir => if [ch! '/'] <+: name then [name] else [name, inDir dir name]

/-- the world in which each name is what is found for it here, and in which there is no rulebase directory -/
def World.resolved (w : World) : World := { w with disk := fun n => (places w.rulebases n).findSome? w.disk, rulebases := none }

theorem fs_places (w : World) (n : Bytes) : w.fs n = (places w.rulebases n).findSome? w.disk := by
  unfold World.fs places
  cases h : w.disk n with
  | some c =>
    cases w.rulebases with
    | none => simp [h]
    | some d => by_cases hp : [ch! '/'] <+: n <;> simp [hp, h]
  | none =>
    cases w.rulebases with
    | none => simp [h]
    | some d =>
      have he : expandName d n = inDir d n := by
        unfold expandName inDir
        by_cases hl : d.getLast? = some (ch! '/')
        · rw [if_pos hl, if_pos (by rw [hl]; rfl), List.append_nil]
        · rw [if_neg hl, if_neg (fun hm => hl (Option.mem_def.1 hm)), List.append_assoc]; rfl
      by_cases hp : [ch! '/'] <+: n
      · have : n.head? = some (ch! '/') := by obtain ⟨t, rfl⟩ := hp; rfl
        simp [hp, h, this]
      · have : n.head? ≠ some (ch! '/') := by
          intro hh
          cases n with
          | nil => cases hh
          | cons a t => cases hh; exact hp ⟨t, rfl⟩
        simp [hp, h, this, he]

theorem resolved_fs (w : World) : w.resolved.fs = w.fs := by
  funext n
  rw [fs_places w.resolved, fs_places w]
  show List.findSome? (fun n => (places w.rulebases n).findSome? w.disk) [n] = _
  cases h : (places w.rulebases n).findSome? w.disk <;> simp [h]

theorem loadSamples_not1 {r : LoadSt} {name : Bytes} (hv : ∀ c, w.fs name = some c → bs! "version=2\n" <+: c) {ld : LoadSt} {ok : Bool}
    (hl : loadSamples w.env w.srt w.fs w.fuel r name = .ok (ld, ok)) : ¬ (ok = true ∧ ld.version = 1) := by
  rintro ⟨rfl, h1⟩
  cases hc : w.fs name with
  | none =>
    cases hfu : w.fuel with
    | zero => rw [hfu] at hl; cases hl
    | succ n =>
      rw [hfu] at hl
      unfold loadSamples sampLoad at hl
      rw [hc, R.ok_bind'] at hl
      simp at hl
  | some c =>
    rw [loadSamples_v2 hc (hv c hc) hl] at h1
    cases h1

theorem ctxLoad_v2 {r : CtxRules} {name : Bytes} (hv : ∀ c, w.fs name = some c → bs! "version=2\n" <+: c) :
    ctxLoad w r name = (loadSamples w.env w.srt w.fs w.fuel r.1 name).bind fun x => .ok ((x.1, r.2), x.2) := by
  unfold ctxLoad
  have h := @loadSamples_not1 w r.1 name hv
  revert h
  generalize loadSamples w.env w.srt w.fs w.fuel r.1 name = x
  intro h
  cases x with
  | fail => rfl
  | ub k => rfl
  | oof => rfl
  | ok x =>
    obtain ⟨ld, ok⟩ := x
    rw [R.ok_bind', R.ok_bind']
    dsimp only
    rw [if_neg (h rfl)]

/-- **C81** Loading a rulebase by its name, and all that is included from it, reads what is first found among the places documented: a file of this
name, and else, if the name is not absolute and `LIBLOGNORM_RULEBASES` is set, the file of this name in that directory. It is as if
these files had these names. For rulebases of version 2; for version 1 this is violated, see below. -/
theorem C81_search (r : CtxRules) (name : Bytes) (hv : ∀ c, (places w.rulebases name).findSome? w.disk = some c → bs! "version=2\n" <+: c) :
    ctxLoad w r name = ctxLoad w.resolved r name := by
  have hv' : ∀ c, w.fs name = some c → bs! "version=2\n" <+: c := fun c hc => hv c (by rw [← fs_places, hc])
  rw [ctxLoad_v2 hv', ctxLoad_v2 (w := w.resolved) (by rw [resolved_fs]; exact hv'), resolved_fs]
  rfl

/-- **C81 is violated** for rulebases of version 1: one which is found in the rulebase directory only is not loaded (it is opened a second time, under the
bare name), and from then on the context takes rulebases of version 1 only. -/
theorem C81_version1_violated (r : CtxRules) (name dir c : Bytes) (hfuel : w.fuel ≠ 0) (h0 : w.disk name = none) (h1 : w.rulebases = some dir)
    (h2 : ¬ [ch! '/'] <+: name) (h3 : w.disk (inDir dir name) = some c) (hne : c ≠ []) (hc : ¬ bs! "version=2\n" <+: c) (hv : r.1.version = 0 ∨ r.1.version = 1) :
    ∃ ld, ctxLoad w r name = .ok ((ld, []), false) ∧ ld.version = 1 ∧ ld.b = r.1.b := by
  have hf : w.fs name = some c := by rw [fs_places, h1, places, if_neg h2]; simp [h0, h3]
  obtain ⟨n, hn⟩ : ∃ n, w.fuel = n + 1 := ⟨w.fuel - 1, by omega⟩
  refine ⟨({ r.1 with file := none, line := 0, version := 1 } : LoadSt).err .open_, ?_, rfl, rfl⟩
  unfold ctxLoad
  rw [hn, loadSamples_v1 hf hne hc, if_neg (by omega), R.ok_bind']
  dsimp only
  rw [if_pos ⟨rfl, rfl⟩, oldCruft, h0]

/-! ### version 1 rulebases through the API -/

section
variable {ls : List RLine} {last : RLine}

/-- **C82** From the name of a version 1 rulebase to the event: after whatever history in which exactly this rulebase was loaded into a context, `ln_normalize` for this
context returns 0, and it delivers what the rules say (as in C74). Missing: as for C74. -/
theorem C82_end_to_end_partial (w : World) {rules : List V1Rule} {name : Bytes} (hdisk : w.disk name = some (textOf (ls.map RLine.text) last.text))
    (hne : textOf (ls.map RLine.text) last.text ≠ []) (hv : ¬ bs! "version=2\n" <+: textOf (ls.map RLine.text) last.text)
    (hu : w.env.unescape [] = []) (he : w.env.TokOK)
    (hl : ∀ l ∈ ls ++ [last], l.OK1 ∧ V1LineOK l.text) (hext : ExtendOK none (ls ++ [last]))
    (hr : docTexts none (ls ++ [last]) = rules.map fun r => (r.tags, r.text)) (hrules : ∀ r ∈ rules, r.OK w.v1Env)
    (htypes : ∀ r ∈ rules, ∀ q ∈ rules, ∀ x ∈ r.types, ∀ y ∈ q.types, x.fn = y.fn → x.extra = y.extra → x.ty = y.ty)
    {s : Bytes} (hz : (0 : UInt8) ∉ s) (hlen : s.length < 2 ^ 64) (hd : ∀ i, ((s.drop i).takeWhile isDigit).length ≤ 9)
    (hfol : ∀ r ∈ rules, ∀ x ∈ r.types, x.Followed w.v1Env s) :
    ∃ n₀, ∀ n, n₀ ≤ n → ∀ w' : World, w' = { w with fuel := n } →
      (∃ rules', ctxLoad w' ({}, []) name = .ok (rules', true)) ∧
      ∀ (a0 : Api) (_ : a0.Start) (cs : List ApiCall) (a : Api) (rs : List Reply), runApi w' a0 cs = .ok (a, rs) →
      ∀ (h : Nat) (c : CtxCell), a.cells h = .live c → loadsFor h cs = [.file name] →
      ∀ o : Obj, ∃ (json : Obj) (matched : Bool),
        ((ApiCall.on h (.normalize s o)).run w' a).bind (fun x => .ok (x.2.rc, x.2.json)) = .ok (0, some json) ∧
        (matched = true → ∃ (i : Nat) (r : V1Rule) (vs : List (Bytes × Json)), rules[i]? = some r ∧ r.Matches w.v1Env s vs ∧
          (∀ (j : Nat) (q : V1Rule), i < j → rules[j]? = some q → ¬ q.Same w.v1Env r) ∧ v1Outcome (docAnnots [] (ls ++ [last])) o vs r.tags json) ∧
        ((∃ r ∈ rules, ∃ vs, r.Ascii w.v1Env ∧ r.MatchesIn w.v1Env s vs) → matched = true) ∧
        (matched = false → ∃ i, i ≤ s.length ∧ json = Obj.add (Obj.add o (bs! "originalmsg") (.str s)) (bs! "unparsed-data") (.str (s.drop i))) := by
  have hlens : ∀ l ∈ ls ++ [last], l.text.length ≤ ((ls ++ [last]).map fun l => l.text.length).sum := by
    intro l hm
    have hm' : l.text.length ∈ (ls ++ [last]).map fun l => l.text.length := List.mem_map.2 ⟨l, hm, rfl⟩
    generalize (ls ++ [last]).map (fun l => l.text.length) = xs at hm'
    induction xs with
    | nil => cases hm'
    | cons a xs ih =>
      rw [List.sum_cons]
      rcases List.mem_cons.1 hm' with h | h
      · omega
      · have := ih h; omega
  generalize hN : ((ls ++ [last]).map fun l => l.text.length).sum = N at hlens
  obtain ⟨L, hL, n₀, hnorm⟩ := C74_end_to_end_partial (E := w.v1Env) hu he hl hext hlens hr hrules htypes hz hlen hd hfol
  refine ⟨N + n₀ + 1, fun n hn w' hw' => ?_⟩
  have hE : w'.v1Env = w.v1Env := by rw [hw']; rfl
  have hw1 : w'.fuel = n := by rw [hw']
  have hw2 : w'.disk = w.disk := by rw [hw']
  have hload := C74_lines_partial (E := w.v1Env) (self := .root) (st := {}) hl hext (fuel := n) (fun l hm => Nat.le_trans (hlens l hm) (by omega))
  have hload0 := C74_lines_partial (E := w.v1Env) (self := .root) (st := {}) hl hext hlens
  rw [hL] at hload0
  cases hload0
  generalize hLd : ({ xs := ([] : List V1Sample) ++ (docTexts none (ls ++ [last])).map fun p => v1Lex w.v1Env .root (tagBucket p.1) p.2
                      annots := docAnnots [] (ls ++ [last]), rulePrefix := docPrefix none (ls ++ [last]) } : V1Load) = L at hload hnorm
  have hfs : w'.fs name = some (textOf (ls.map RLine.text) last.text) := by unfold World.fs; rw [hw2, hdisk]
  have hctx : ∃ ld : LoadSt, ctxLoad w' ({}, []) name = .ok ((ld, L.xs), true) ∧ ld.version = 1 ∧ ld.annots = L.annots ∧ ld.rulePrefix = L.rulePrefix := by
    unfold ctxLoad
    obtain ⟨m, hm⟩ : ∃ m, w'.fuel = m + 1 := ⟨w'.fuel - 1, by omega⟩
    rw [hm, loadSamples_v1 hfs hne hv, if_neg (by decide), R.ok_bind']
    dsimp only
    rw [if_pos ⟨rfl, rfl⟩, oldCruft, hw2, hdisk, hE, hw1]
    dsimp only
    have : v1LoadText w.v1Env .root n { annots := [], rulePrefix := none } (textOf (ls.map RLine.text) last.text) = .ok L := hload
    rw [this]
    exact ⟨_, rfl, rfl, rfl, rfl⟩
  obtain ⟨ld, hctx, hver, hann, hpre⟩ := hctx
  refine ⟨⟨_, hctx⟩, fun a0 h0 cs a rs hrun h c hc hloads o => ?_⟩
  obtain ⟨rules', h1, h2⟩ := C77_history a0 h0 cs a rs hrun h c hc
  rw [hloads] at h1
  simp only [loadAll, hctx, R.ok_bind'] at h1
  cases h1
  obtain ⟨res, h3, h4⟩ := hnorm n (by omega) o
  refine ⟨res.json, res.matched, ?_, h4⟩
  rw [h2, normWith, if_pos hver]
  dsimp only
  rw [hann, hpre, hE, hw1, h3]
  rfl
end

/-- **C81 is violated** for the rulebases which rules of version 1 refer to (`descent`): the rulebase directory plays no part, whatever it is; neither in
loading a rulebase of version 1 nor in using it. -/
theorem C81_version1_embedded_violated (r : CtxRules) (name c : Bytes) (h0 : w.disk name = some c) (hne : c ≠ []) (hc : ¬ bs! "version=2\n" <+: c)
    (dir : Option Bytes) :
    ctxLoad { w with rulebases := dir } r name = ctxLoad w r name ∧
    ∀ r' : CtxRules, r'.1.version = 1 → ∀ opts msg o, normWith { w with rulebases := dir } r' opts msg o = normWith w r' opts msg o := by
  constructor
  · have hf : w.fs name = some c := by unfold World.fs; rw [h0]
    have hf' : ({ w with rulebases := dir } : World).fs name = some c := by unfold World.fs; dsimp only; rw [h0]
    have hl : ∀ n, loadSamples w.env w.srt ({ w with rulebases := dir } : World).fs n r.1 name = loadSamples w.env w.srt w.fs n r.1 name := by
      intro n
      cases n with
      | zero => rfl
      | succ n => rw [loadSamples_v1 hf hne hc, loadSamples_v1 hf' hne hc]
    unfold ctxLoad
    exact congrArg (fun z => R.bind z _) (hl w.fuel)
  · intro r' hv opts msg o
    unfold normWith
    rw [if_pos hv, if_pos hv]
    rfl

/-- **C82 is violated** for two rulebases of version 1: "samples are added to set already loaded in the current context" (liblognorm.h:215); but the rules there are thrown
away: whatever they were, loading the second rulebase has the same effect. -/
theorem C82_second_rulebase_violated (ld : LoadSt) (t t' : List V1Sample) (name c : Bytes) (hf : w.fs name = some c) (hne : c ≠ [])
    (hc : ¬ bs! "version=2\n" <+: c) (hv : ld.version = 0 ∨ ld.version = 1) : ctxLoad w (ld, t) name = ctxLoad w (ld, t') name := by
  unfold ctxLoad
  cases hfu : w.fuel with
  | zero => rfl
  | succ n =>
    dsimp only
    rw [loadSamples_v1 hf hne hc, if_neg (by omega), R.ok_bind', R.ok_bind']
    dsimp only
    rw [if_pos ⟨rfl, rfl⟩, if_pos ⟨rfl, rfl⟩]

/-- **C82 is violated** for a rulebase given as a text after one of version 1: if it is accepted, the rules of version 1 are not used any longer. -/
theorem C82_text_violated (ld ld' : LoadSt) (t t' : List V1Sample) (text : Bytes) (ok : Bool)
    (h : loadSamplesFromString w.env w.srt w.fs w.fuel ld text = .ok (ld', ok)) (opts : UInt32) (msg : Bytes) (o : Obj) :
    normWith w (ld', t) opts msg o = normWith w (ld', t') opts msg o := by
  unfold loadSamplesFromString sampLoadFromString at h
  obtain ⟨⟨st1, ok1⟩, h1, h2⟩ := R.bind_eq_ok.1 h
  obtain ⟨⟨st2, ok2⟩, h3, h4⟩ := R.bind_eq_ok.1 h1
  have hv := readAll_ver (fun st f => loadSamples_ver (fs := w.fs) w.fuel) _ _ _ _ _ h3 rfl
  have hv1 : st1.version = 2 := by
    dsimp only at h4
    split at h4
    · cases h4; exact hv
    · obtain ⟨st3, h5, h6⟩ := R.bind_eq_ok.1 h4
      cases h6
      rw [optimizeTop_ver h5]; exact hv
  cases h2
  unfold normWith
  dsimp only
  rw [hv1, if_neg (by decide), if_neg (by decide)]

/-- **C82, versions** A file of the other version is refused, and what the context does with messages stays the same. -/
theorem C82_versions (r : CtxRules) (name c : Bytes) (hfuel : w.fuel ≠ 0) (hf : w.fs name = some c) (hne : c ≠ [])
    (hv : r.1.version = 2 ∧ ¬ bs! "version=2\n" <+: c ∨ r.1.version = 1 ∧ bs! "version=2\n" <+: c) :
    ∃ r', ctxLoad w r name = .ok (r', false) ∧ r'.1.errs = r.1.errs ++ [.version] ∧
      ∀ opts msg o, normWith w r' opts msg o = normWith w r opts msg o := by
  obtain ⟨n, hn⟩ : ∃ n, w.fuel = n + 1 := ⟨w.fuel - 1, by omega⟩
  refine ⟨({ r.1 with file := none, line := 0, errs := r.1.errs ++ [.version] }, r.2), ?_, rfl, fun _ _ _ => rfl⟩
  unfold ctxLoad
  rcases hv with ⟨h1, h2⟩ | ⟨h1, h2⟩
  · rw [hn, loadSamples_v1 hf hne h2, if_pos (by rw [h1]; decide), R.ok_bind']
    dsimp only
    rw [if_neg (by simp)]
  · have : loadSamples w.env w.srt w.fs (n + 1) r.1 name = .ok ({ r.1 with file := none, line := 0, errs := r.1.errs ++ [.version] }, false) := by
      unfold loadSamples sampLoad
      rw [hf]
      have hp := (versionLine_prefix c).2 h2
      cases c with
      | nil => exact absurd rfl hne
      | cons a c =>
        dsimp only
        rw [hp]
        simp only [if_true, h1]
        rw [if_pos (by decide)]
        rfl
    rw [hn, this, R.ok_bind']
    dsimp only
    rw [if_neg (by simp)]

namespace Ex
/-- files: `a.rb` (version 1) and `b.rb` (version 1) in the working directory, `c.rb` (version 2, including `d.rb`), `d.rb` and `e.rb` (version 1) in `/lib` -/
def diskA : Bytes → Option Bytes := fun n =>
  if n = bs! "a.rb" then some (textOf (docA.map RLine.text) (RLine.skip []).text)
  else if n = bs! "b.rb" then some (bs! "rule=:<%w:number%>\n")
  else if n = bs! "/lib/c.rb" then some (bs! "version=2\ninclude=d.rb\n")
  else if n = bs! "/lib/d.rb" then some (bs! "version=2\nrule=:x%n:number%\n")
  else if n = bs! "/lib/e.rb" then some (bs! "rule=:y%n:number%\n")
  else none
/-- with `LIBLOGNORM_RULEBASES=/lib` -/
def worldA : World where
  env := Ex.envJ
  srt := stableSorter
  disk := diskA
  rulebases := some (bs! "/lib")
  fuel := 40
  toDbl := fun _ => bs! "0.0"
  truth := fun _ => false
  v1errs := fun _ _ => 0
  traces := fun _ _ => 0
/-- return codes and events -/
def repliesA (cs : List ApiCall) : R (List Reply) := (runApi worldA api0 cs).bind fun r => .ok r.2

theorem tNum_okA : tNum.OK worldA.v1Env := ⟨⟨by decide, by decide, by decide, by simp⟩, by decide, rfl, trivial, by decide⟩
theorem tInt_okA : tInt.OK worldA.v1Env := ⟨tNum_okA, rfl, by decide⟩
theorem tInts_okA : tInts.OK worldA.v1Env := ⟨tInt_okA, ⟨by decide, by decide, by decide⟩, by decide, by decide, by decide, by decide⟩
theorem tWord_okA : tWord.OK worldA.v1Env := ⟨⟨by decide, by decide, by decide, by simp⟩, by decide, rfl, trivial, by decide⟩
theorem rulesA_okA : ∀ r ∈ rulesA, r.OK worldA.v1Env := by
  intro r hr
  simp only [rulesA, List.mem_cons, List.not_mem_nil, or_false] at hr
  rcases hr with rfl | rfl
  · refine ⟨?_, by decide, ?_⟩
    · intro p hp
      simp only [List.mem_cons, List.not_mem_nil, or_false] at hp
      subst hp
      exact ⟨⟨by decide, by decide, by decide⟩, by decide, by decide, tInts_okA⟩
    · intro a b nm l h
      rcases a with _ | ⟨x, a⟩ <;> simp at h
  · refine ⟨?_, by decide, ?_⟩
    · intro p hp
      simp only [List.mem_cons, List.not_mem_nil, or_false] at hp
      rcases hp with rfl | rfl
      · exact ⟨⟨by decide, by decide, by decide⟩, by decide, by decide, tWord_okA⟩
      · exact ⟨⟨by decide, by decide, by decide⟩, by decide, by decide⟩
    · intro a b nm l h
      rcases a with _ | ⟨x, _ | ⟨y, a⟩⟩ <;> simp at h
      obtain ⟨-, ⟨-, rfl⟩, rfl⟩ := h
      exact ⟨by decide, rfl⟩
end Ex

/-- the hypotheses of `C82_end_to_end_partial` hold for the rulebase `a.rb` and the message `[1, 22]` -/
example : ∃ n₀, ∀ n, n₀ ≤ n → ∃ rules', ctxLoad { Ex.worldA with fuel := n } ({}, []) (bs! "a.rb") = .ok (rules', true) := by
  have h := C82_end_to_end_partial Ex.worldA (ls := Ex.docA) (last := .skip []) (rules := Ex.rulesA) (name := bs! "a.rb") (s := bs! "[1, 22]") rfl
    (by rw [Ex.docA_text]; decide) (by rw [Ex.docA_text]; decide) (by decide) Ex.E1_tok Ex.docA_lines Ex.docA_extend Ex.docA_texts Ex.rulesA_okA
    (by decide +kernel) (by decide) (by decide) (fun i => Nat.le_trans (List.takeWhile_sublist _).length_le (by simp [List.length_drop]; omega)) ?_
  · obtain ⟨n₀, h⟩ := h
    exact ⟨n₀, fun n hn => (h n hn _ rfl).1⟩
  · intro r hr x hx
    simp only [Ex.rulesA, List.mem_cons, List.not_mem_nil, or_false] at hr
    rcases hr with rfl | rfl <;> simp [V1Rule.types] at hx <;> subst hx <;> trivial

/-- loading `a.rb`, and normalising: a match, and none; the return code is 0 both times -/
example : Ex.repliesA [.init, .on 1 (.loadSamples (bs! "a.rb")), .on 1 (.normalize (bs! "[1, 22]") []), .on 1 (.normalize (bs! "[1") [])] =
    .ok [{}, {}, { json := some [(bs! "n", .arr [.int 1, .int 22]), (bs! "event.tags", .arr [.str (bs! "a")]), (bs! "l", .str (bs! "w")), (bs! "k", .str (bs! "v"))] },
      { json := some [(bs! "originalmsg", .str (bs! "[1")), (bs! "unparsed-data", .str (bs! "1"))] }] := by decide +kernel

/-- the second rulebase of version 1 makes the rules of the first one disappear (but not its prefix) -/
example : Ex.repliesA [.init, .on 1 (.loadSamples (bs! "a.rb")), .on 1 (.loadSamples (bs! "b.rb")), .on 1 (.normalize (bs! "[1, 22]") []),
      .on 1 (.normalize (bs! "[x<7>") [])] =
    .ok [{}, {}, {}, { json := some [(bs! "originalmsg", .str (bs! "[1, 22]")), (bs! "unparsed-data", .str (bs! "1, 22]"))] },
      { json := some [(bs! "w", .str (bs! "7"))] }] := by decide +kernel

/-- a file of version 2 is refused; a rulebase given as text makes rules of version 1 disappear -/
example : Ex.repliesA [.init, .on 1 (.loadSamples (bs! "b.rb")), .on 1 (.loadSamples (bs! "c.rb")), .on 1 (.normalize (bs! "<7>") []),
      .on 1 (.loadString (bs! "rule=:z\n")), .on 1 (.normalize (bs! "<7>") [])] =
    .ok [{}, {}, { rc := 1 }, { json := some [(bs! "w", .str (bs! "7"))] }, {},
      { rc := 1, json := some [(bs! "originalmsg", .str (bs! "<7>")), (bs! "unparsed-data", .str (bs! "<7>"))] }] := by decide +kernel

/-- `c.rb` and the file it includes are found in `/lib`; `e.rb` is found, but not loaded -/
example : places Ex.worldA.rulebases (bs! "c.rb") = [bs! "c.rb", bs! "/lib/c.rb"] ∧
    Ex.repliesA [.init, .on 1 (.loadSamples (bs! "c.rb")), .on 1 (.normalize (bs! "x12") []), .init, .on 2 (.loadSamples (bs! "e.rb"))] =
    .ok [{}, {}, { json := some [(bs! "n", .str (bs! "12"))] }, {}, { rc := 1 }] := by decide +kernel

end LN
