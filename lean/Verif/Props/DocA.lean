import Verif.Proofs.AltD
import Verif.Props.Include
import Verif.Props.DocR
/- C88: rule bases with `alternative`, from text to event. -/
set_option autoImplicit false
namespace LN
open Spec

section
variable {env : Env} {srt : Sorter} {fs : Bytes → Option Bytes}

/-- messages are normalised with the rules -/
def NormalisesAsA (env : Env) (ls : List RLine) (rules : List RuleA) (st : LoadSt) : Prop :=
  ∀ (opts : Nat) (s : Bytes), Tame s →
    (∀ r ∈ rules, ∀ p ∈ r.parts, ∀ c ∈ p.1.choices, ∀ off, off ≤ s.length → c.1.InScope env c.2 s off (fieldName c.2).isSome) →
    (opts.testBit 3 = true → ∀ d, TakenFrom rules d → d.Shows env) →
    ∀ (stats : NodeId → Stats) (json0 : Obj), ∃ N, ∀ fuel, N ≤ fuel → ∃ res,
      normalize env fuel (st.b.toCtx opts st.annots) stats s json0 = .ok res ∧ AltOutcome env ls rules opts s json0 res.ok res.json

/-- **C88** Loading a rule base of version 2 with alternatives from its text and normalising a message with it gives what the text says: see `AltOutcome`.
A part of a rule may be an alternative between any number of fields (`{"type":"alternative", "parser":[ … ]}`); alternatives of different rules keep apart
(see `KeepApart`; else `C88_leak_violated`, `C88_lost_violated`).
Rules may be malformed (see `RuleA.breaks`, `Breaks`): the messages are exactly those about them, and they match nothing.
Missing: sequences of fields inside of an alternative (`C88_sequence_violated`); `alternative` beside user-defined types and `repeat`; a choice of more than
255 different fields at a point; messages and fields out of scope (C06, C75). -/
theorem C88_end_to_end_partial (he : env.TokOK) (ls : List RLine) (hok : ∀ l ∈ ls, l.OK) (hline : ∀ l ∈ ls, LineOK l.text)
    (hext : ExtendOK none ls) (hty : ∀ l ∈ ls, ∀ nm t, l ≠ .type nm t) (fuel : Nat) (hfuel : ∀ l ∈ ls, l.text.length ≤ fuel)
    (rules : List RuleA) (hrules : docRules none (numbered (bs! "--NO-FILE--") 0 ls) = rules.map fun r => (r.tags, r.text, r.file, r.line))
    (hrok : ∀ r ∈ rules, r.OK env) (happ : KeepApart env rules) (hlen : NarrowA env rules) :
    ∃ st, loadSamplesFromString env srt fs fuel {} (docText ls) = .ok (st, true) ∧
      st.errs = docMsgs ls (rules.map RuleA.msgs) ∧ NormalisesAsA env ls rules st := by
  have hwhat := numbered_what (bs! "--NO-FILE--") ls 0
  obtain ⟨b, h1, hsafe, herrs, h2⟩ := doc_coreA (srt := srt) he _ ls hwhat hok (fun l hl c hc => ((hline l hl).1 c hc).2.1) hext hty rules hrules hrok (by
    intro r hr
    obtain ⟨l, hl, e⟩ := docRules_file _ none (r.tags, r.text, r.file, r.line) (by rw [hrules]; exact List.mem_map.2 ⟨r, hr, rfl⟩)
    change l.file = r.file at e
    rw [← e, numbered_file ls 0 l hl]
    decide) happ hlen
  refine ⟨_, by rw [load_document ls hok hline hsafe fuel hfuel, docOps_numbered, h1, R.ok_bind'], (docErrs_defErrs ls none).trans (by rw [herrs]), ?_⟩
  unfold NormalisesAsA
  exact h2

/-- **C88** with included files and lines broken inside of field descriptions (see C78) -/
theorem C88_string_end_to_end_partial (he : env.TokOK) (is : List Item) (hok : itemsOK fs .string is) (ls : List RLine)
    (hls : (itemsLines (bs! "--NO-FILE--") 0 is).map (·.what) = ls) (hext : ExtendOK none ls) (hty : ∀ l ∈ ls, ∀ nm t, l ≠ .type nm t)
    (rules : List RuleA)
    (hrules : docRules none (itemsLines (bs! "--NO-FILE--") 0 is) = rules.map fun r => (r.tags, r.text, r.file, r.line))
    (hrok : ∀ r ∈ rules, r.OK env) (happ : KeepApart env rules) (hlen : NarrowA env rules) :
    ∃ st, (∀ fuel, itemsSize is ≤ fuel → loadSamplesFromString env srt fs fuel {} (itemsText is) = .ok (st, true)) ∧ st.version = 2 ∧
      st.errs = itemsMsgs is (rules.map RuleA.msgs) ∧
      NormalisesAsA env ls rules st := by
  have hl := items_lines_ok (fs := fs) (src := .string) (file := bs! "--NO-FILE--") (by decide) is 0 hok
  have hl' : ∀ l ∈ ls, l.OK ∧ ∀ c ∈ l.text, c ≠ 0 := by
    intro l h
    rw [← hls] at h
    obtain ⟨x, hx, rfl⟩ := List.mem_map.1 h
    exact ⟨(hl x hx).1, (hl x hx).2.1⟩
  obtain ⟨b, h1, hsafe, herrs, h2⟩ := doc_coreA (srt := srt) he _ ls hls (fun l h => (hl' l h).1) (fun l h => (hl' l h).2) hext hty rules hrules hrok (by
    intro r hr
    obtain ⟨l, g1, g2⟩ := docRules_file _ none (r.tags, r.text, r.file, r.line) (by rw [hrules]; exact List.mem_map.2 ⟨r, hr, rfl⟩)
    change l.file = r.file at g2
    rw [← g2]
    exact (hl l g1).2.2) happ hlen
  refine ⟨_, fun fuel hfuel => by rw [C78_string is hok (by rw [hls]; exact hsafe) fuel hfuel, h1, R.ok_bind'], rfl, ?_, ?_⟩
  · rw [← herrs]; exact items_errs is _ _ hls
  · rw [hls]; exact h2

/-- **C88** the same for files -/
theorem C88_file_end_to_end_partial (he : env.TokOK) (name : Bytes) (hname : ∀ c ∈ name, c ≠ 0) (is : List Item)
    (hfile : fs name = some (bs! "version=2\n" ++ itemsText is)) (hok : itemsOK fs .file is) (ls : List RLine)
    (hls : (itemsLines name 1 is).map (·.what) = ls) (hext : ExtendOK none ls) (hty : ∀ l ∈ ls, ∀ nm t, l ≠ .type nm t)
    (rules : List RuleA)
    (hrules : docRules none (itemsLines name 1 is) = rules.map fun r => (r.tags, r.text, r.file, r.line))
    (hrok : ∀ r ∈ rules, r.OK env) (happ : KeepApart env rules) (hlen : NarrowA env rules) :
    ∃ st, (∀ fuel, itemsSize is ≤ fuel → loadSamples env srt fs (fuel + 1) {} name = .ok (st, true)) ∧ st.version = 2 ∧
      st.errs = itemsMsgs is (rules.map RuleA.msgs) ∧
      NormalisesAsA env ls rules st := by
  have hl := items_lines_ok (fs := fs) (src := .file) (file := name) hname is 1 hok
  have hl' : ∀ l ∈ ls, l.OK ∧ ∀ c ∈ l.text, c ≠ 0 := by
    intro l h
    rw [← hls] at h
    obtain ⟨x, hx, rfl⟩ := List.mem_map.1 h
    exact ⟨(hl x hx).1, (hl x hx).2.1⟩
  obtain ⟨b, h1, hsafe, herrs, h2⟩ := doc_coreA (srt := srt) he _ ls hls (fun l h => (hl' l h).1) (fun l h => (hl' l h).2) hext hty rules hrules hrok (by
    intro r hr
    obtain ⟨l, g1, g2⟩ := docRules_file _ none (r.tags, r.text, r.file, r.line) (by rw [hrules]; exact List.mem_map.2 ⟨r, hr, rfl⟩)
    change l.file = r.file at g2
    rw [← g2]
    exact (hl l g1).2.2) happ hlen
  refine ⟨_, fun fuel hfuel => by rw [C78_file name is hfile hok (by rw [hls]; exact hsafe) fuel hfuel, h1, R.ok_bind'], rfl, ?_, ?_⟩
  · rw [← herrs]; exact items_errs is _ _ hls
  · rw [hls]; exact h2

end

instance decTok : DecidableEq (FType × Obj) := inferInstance
instance decToks : DecidableEq (List (FType × Obj)) := inferInstance
instance decOffs : DecidableEq (List (List (FType × Obj))) := inferInstance
instance decEv : DecidableEq (Bool × Obj) := inferInstance

/-- to see that rules keep apart it is enough to compare them place by place -/
def apartB (env : Env) (rules : List RuleA) : Bool :=
  rules.all fun r => rules.all fun r' => (List.range (r.offers env).length).all fun k =>
    !decide ((r.offers env).take k = (r'.offers env).take k) ||
      (((r.offers env)[k]?).getD []).all fun t => !decide (t ∈ ((r'.offers env)[k]?).getD []) || decide ((r.offers env)[k]?.getD [] = (r'.offers env)[k]?.getD [])

theorem keepApart_of {env : Env} {rules : List RuleA} (h : apartB env rules = true) : KeepApart env rules := by
  rintro r hr r' hr' pre I J ⟨u, hu⟩ ⟨v, hv⟩ ⟨t, ht, ht'⟩
  have h1 : (r.offers env).take pre.length = pre := by rw [← hu]; simp
  have h2 : (r'.offers env).take pre.length = pre := by rw [← hv]; simp
  have h3 : (r.offers env)[pre.length]? = some I := by rw [← hu]; simp
  have h4 : (r'.offers env)[pre.length]? = some J := by rw [← hv]; simp
  unfold apartB at h
  have h5 := List.all_eq_true.1 (List.all_eq_true.1 (List.all_eq_true.1 h r hr) r' hr') pre.length (List.mem_range.2 (List.getElem?_eq_some_iff.1 h3).1)
  rw [h1, h2, h3, h4] at h5
  simp only [decide_true, Bool.not_true, Bool.false_or, Option.getD_some] at h5
  have h6 := List.all_eq_true.1 h5 t ht
  simpa [ht'] using h6

namespace Ex

def altText : Bytes := bs! "{\"type\":\"alternative\",\"parser\":[{\"name\":\"n\",\"type\":\"number\"},{\"name\":\"w\",\"type\":\"word\"}]}"
def altObj : Obj := [(bs! "type", .str (bs! "alternative")), (bs! "parser", .arr [.obj fNum.conf, .obj fWord.conf])]
def envAlt : Env := { env with tok := fun b => if altText.isPrefixOf b then some (.obj altObj, altText.length) else none }

/-- two rules with the same alternative, which differ behind it -/
def docAlt : List RLine := [.prefix_ (bs! "a "), .rule [bs! "t"] (bs! "%" ++ altText ++ bs! "% end"), .rule [bs! "u"] (bs! "%" ++ altText ++ bs! "%"),
  .annotate (bs! "t") [([], bs! "k", bs! "v")]]

def partAltA : PartA := ⟨.json [] altText, altObj, [(.number, fNum.conf), (.word, fWord.conf)]⟩

def rulesAlt : List RuleA := [
  { tags := [bs! "t"], lit := bs! "a ", parts := [(partAltA, bs! " end")], line := 2 },
  { tags := [bs! "u"], lit := bs! "a ", parts := [(partAltA, [])], line := 3 }]

theorem tokEnvAlt : envAlt.TokOK := by
  intro t v n h
  simp only [envAlt] at h
  split at h
  · rename_i ht
    cases h
    exact (List.isPrefixOf_iff_prefix.1 ht).length_le
  · cases h

theorem partAltA_ok : partAltA.OK envAlt where
  decl := .json (by simp [Blanks]) (.inl rfl) (by
    intro rest
    simp only [envAlt]
    rw [if_pos]
    · rfl
    · exact List.isPrefixOf_iff_prefix.2 (List.prefix_append ..))
  desc := .inr ⟨rfl, rfl, by simp [partAltA], by
    intro c hc
    simp only [partAltA, List.mem_cons, List.not_mem_nil, or_false] at hc
    rcases hc with rfl | rfl
    · exact fNum_ok.desc
    · exact fWord_ok.desc⟩

theorem docAlt_ok : (∀ l ∈ docAlt, l.OK) ∧ (∀ l ∈ docAlt, LineOK l.text) ∧ ExtendOK none docAlt ∧ (∀ l ∈ docAlt, ∀ nm t, l ≠ .type nm t) ∧
    (∀ l ∈ docAlt, l.text.length ≤ 1000) ∧
    docRules none (numbered (bs! "--NO-FILE--") 0 docAlt) = rulesAlt.map fun r => (r.tags, r.text, r.file, r.line) := by
  refine ⟨?_, by decide +kernel, ?_, ?_, by decide +kernel, by decide +kernel⟩
  · intro l hl
    simp only [docAlt, List.mem_cons, List.not_mem_nil, or_false] at hl
    rcases hl with rfl | rfl | rfl | rfl
    · trivial
    · exact ⟨by simp [TagOK], by decide⟩
    · exact ⟨by simp [TagOK], by decide⟩
    · exact ⟨⟨by decide, by decide⟩, by simp [Blanks, Word]; decide⟩
  · simp [ExtendOK, docAlt, RLine.nextPrefix]
  · intro l hl nm t
    simp only [docAlt, List.mem_cons, List.not_mem_nil, or_false] at hl
    rcases hl with rfl | rfl | rfl | rfl <;> intro h <;> cases h

theorem rulesAlt_ok : ∀ r ∈ rulesAlt, r.OK envAlt := by
  intro r hr
  simp only [rulesAlt, List.mem_cons, List.not_mem_nil, or_false] at hr
  rcases hr with rfl | rfl <;> exact ⟨fun p hp => by
    simp only [List.mem_cons, List.not_mem_nil, or_false] at hp; subst hp; exact partAltA_ok, fun x hx => by cases hx⟩

theorem rulesAlt_apart : KeepApart envAlt rulesAlt := keepApart_of (by decide +kernel)

/-- the rule with the number of the alternative -/
def takenAlt : RuleD := { tags := [bs! "t"], lit := bs! "a ", parts := [(⟨.json [] altText, .number, fNum.conf⟩, bs! " end")], line := 2 }

theorem takenAlt_takes : TakenFrom rulesAlt takenAlt :=
  ⟨rulesAlt[0], List.mem_cons_self .., rfl, rfl, rfl, rfl, rfl, .cons ⟨rfl, List.mem_cons_self .., rfl⟩ .nil⟩

theorem msgAlt_tame : Tame (bs! "a 12 end") := by
  refine ⟨by decide, ?_, by decide⟩
  have h : ∀ i < 9, (((bs! "a 12 end").drop i).takeWhile isDigit).length ≤ 9 := by decide
  intro i
  by_cases hi : i < 9
  · have := h i hi
    omega
  · have : (bs! "a 12 end").drop i = [] := List.drop_eq_nil_of_le (by simp; omega)
    rw [this]; simp

/-- `docAlt` and the message meet the hypotheses: the message is reported as matched -/
example (srt : Sorter) (fs : Bytes → Option Bytes) : ∃ st, loadSamplesFromString envAlt srt fs 1000 {} (docText docAlt) = .ok (st, true) ∧ ∃ N, ∀ fuel, N ≤ fuel →
    ∃ res, normalize envAlt fuel (st.b.toCtx 0 st.annots) (fun _ => {}) (bs! "a 12 end") [] = .ok res ∧ res.ok = true := by
  obtain ⟨h1, h2, h3, h4, h5, h6⟩ := docAlt_ok
  obtain ⟨st, hl, _, hn⟩ := C88_end_to_end_partial (srt := srt) (fs := fs) tokEnvAlt docAlt h1 h2 h3 h4 1000 h5 rulesAlt h6 rulesAlt_ok rulesAlt_apart (narrowA_of (by decide +kernel))
  refine ⟨st, hl, ?_⟩
  obtain ⟨N, hN⟩ := hn 0 (bs! "a 12 end") msgAlt_tame (by
    intro r hr p hp c hc off _
    simp only [rulesAlt, List.mem_cons, List.not_mem_nil, or_false] at hr
    rcases hr with rfl | rfl <;> simp only [List.mem_cons, List.not_mem_nil, or_false] at hp <;> subst hp <;>
      simp only [partAltA, List.mem_cons, List.not_mem_nil, or_false] at hc <;> rcases hc with rfl | rfl <;> trivial)
    (fun h => by simp at h) (fun _ => {}) []
  refine ⟨N, fun fuel hf => ?_⟩
  obtain ⟨res, hres, ho⟩ := hN fuel hf
  have hm : takenAlt.Matches envAlt (bs! "a 12 end") [(some (bs! "n"), some (.str (bs! "12")))] :=
    ⟨rfl, bs! "12 end", by decide, .cons (n := 2) (t' := []) ⟨⟨by decide, ⟨by decide, by decide, by decide⟩, by decide⟩, rfl⟩ (by decide) .nil⟩
  exact ⟨res, hres, ho.iff.2 ⟨takenAlt, takenAlt_takes, _, hm⟩⟩

/-- a rule which breaks off behind an alternative -/
def docAltW : List RLine := docAlt ++ [.rule [bs! "v"] (bs! "%" ++ altText ++ bs! "%x%oops%")]
def rulesAltW : List RuleA := rulesAlt ++
  [{ tags := [bs! "v"], lit := bs! "a ", parts := [(partAltA, bs! "x")], line := 5, breaks := some (bs! "%oops%", [.fieldDescr]) }]

theorem rulesAltW_ok : ∀ r ∈ rulesAltW, r.OK envAlt := by
  intro r hr
  rcases List.mem_append.1 hr with hr | hr
  · exact rulesAlt_ok r hr
  · simp only [List.mem_cons, List.not_mem_nil, or_false] at hr
    subst hr
    refine ⟨fun p hp => ?_, fun x hx => ?_⟩
    · simp only [List.mem_cons, List.not_mem_nil, or_false] at hp
      subst hp
      exact partAltA_ok
    · cases hx
      exact .malformed (.noColon (lead := []) (c := ch! 'o') (b := bs! "ops%") (by simp [Blanks]) (by decide) (by decide))

/-- with a rule which breaks off: there is the message about it, and a message is matched iff the other rules match it -/
example (srt : Sorter) (fs : Bytes → Option Bytes) : ∃ st, loadSamplesFromString envAlt srt fs 1000 {} (docText docAltW) = .ok (st, true) ∧
    st.errs = [.fieldDescr] ∧ ∃ N, ∀ fuel, N ≤ fuel →
    ∃ res, normalize envAlt fuel (st.b.toCtx 0 st.annots) (fun _ => {}) (bs! "a 12 end") [] = .ok res ∧ res.ok = true := by
  obtain ⟨h1, _, _, h4, _, _⟩ := docAlt_ok
  have g1 : ∀ l ∈ docAltW, l.OK := by
    intro l hl
    rcases List.mem_append.1 hl with hl | hl
    · exact h1 l hl
    · simp only [List.mem_cons, List.not_mem_nil, or_false] at hl
      subst hl
      exact ⟨by simp [TagOK], by decide⟩
  have g4 : ∀ l ∈ docAltW, ∀ nm t, l ≠ .type nm t := by
    intro l hl nm t
    rcases List.mem_append.1 hl with hl | hl
    · exact h4 l hl nm t
    · simp only [List.mem_cons, List.not_mem_nil, or_false] at hl
      subst hl
      intro h; cases h
  obtain ⟨st, hl, he, hn⟩ := C88_end_to_end_partial (srt := srt) (fs := fs) tokEnvAlt docAltW g1 (by decide +kernel)
    (by simp [ExtendOK, docAltW, docAlt, RLine.nextPrefix]) g4 1000 (by decide +kernel) rulesAltW (by decide +kernel) rulesAltW_ok
    (keepApart_of (by decide +kernel)) (narrowA_of (by decide +kernel))
  refine ⟨st, hl, by rw [he]; decide +kernel, ?_⟩
  obtain ⟨N, hN⟩ := hn 0 (bs! "a 12 end") msgAlt_tame (by
    intro r hr p hp c hc off _
    simp only [rulesAltW, rulesAlt, List.cons_append, List.nil_append, List.mem_cons, List.not_mem_nil, or_false] at hr
    rcases hr with rfl | rfl | rfl <;> simp only [List.mem_cons, List.not_mem_nil, or_false] at hp <;> subst hp <;>
      simp only [partAltA, List.mem_cons, List.not_mem_nil, or_false] at hc <;> rcases hc with rfl | rfl <;> trivial)
    (fun h => by simp at h) (fun _ => {}) []
  refine ⟨N, fun fuel hf => ?_⟩
  obtain ⟨res, hres, ho⟩ := hN fuel hf
  have hm : takenAlt.Matches envAlt (bs! "a 12 end") [(some (bs! "n"), some (.str (bs! "12")))] :=
    ⟨rfl, bs! "12 end", by decide, .cons (n := 2) (t' := []) ⟨⟨by decide, ⟨by decide, by decide, by decide⟩, by decide⟩, rfl⟩ (by decide) .nil⟩
  obtain ⟨r, hr, ht⟩ := takenAlt_takes
  exact ⟨res, hres, ho.iff.2 ⟨takenAlt, ⟨r, List.mem_append_left _ hr, ht⟩, _, hm⟩⟩

/-- what the rule base makes of messages; of two fields which fit that with the higher priority is taken -/
def runAlt (env : Env) (text msg : Bytes) : R (Bool × Bool × Obj) :=
  (loadSamplesFromString env stableSorter (fun _ => none) 200 {} text).bind fun x =>
    (normalize env 50 (x.1.b.toCtx 0 x.1.annots) (fun _ => {}) msg []).bind fun r => .ok (x.2, r.ok, r.json)

example : runAlt envAlt (docText docAlt) (bs! "a 12 end") = .ok (true, true, [(bs! "n", .str (bs! "12")), (bs! "event.tags", .arr [.str (bs! "t")]), (bs! "k", .str (bs! "v"))]) ∧
    runAlt envAlt (docText docAlt) (bs! "a x end") = .ok (true, true, [(bs! "w", .str (bs! "x")), (bs! "event.tags", .arr [.str (bs! "t")]), (bs! "k", .str (bs! "v"))]) ∧
    runAlt envAlt (docText docAlt) (bs! "a x") = .ok (true, true, [(bs! "w", .str (bs! "x")), (bs! "event.tags", .arr [.str (bs! "u")])]) ∧
    runAlt envAlt (docText docAlt) (bs! "a x e") = .ok (true, false, [(bs! "originalmsg", .str (bs! "a x e")), (bs! "unparsed-data", .str (bs! " e"))]) := by
  decide +kernel

/-! ### where alternatives do not mean what is written -/

/-- the name `foo` or a number -/
def fooObj : Obj := [(bs! "type", .str (bs! "literal")), (bs! "text", .str (bs! "foo")), (bs! "name", .str (bs! "f"))]
def altFoo : Obj := [(bs! "type", .str (bs! "alternative")), (bs! "parser", .arr [.obj fooObj, .obj fNum.conf])]
def altFooText : Bytes := bs! "{\"type\":\"alternative\",\"parser\":[{\"type\":\"literal\",\"text\":\"foo\",\"name\":\"f\"},{\"name\":\"n\",\"type\":\"number\"}]}"
/-- a number, or `x` and a number -/
def altSeq : Obj := [(bs! "type", .str (bs! "alternative")), (bs! "parser", .arr [.obj fNum.conf,
  .arr [.obj [(bs! "type", .str (bs! "literal")), (bs! "text", .str (bs! "x"))], .obj fNum.conf]])]
def altSeqText : Bytes := bs! "{\"type\":\"alternative\",\"parser\":[{\"name\":\"n\",\"type\":\"number\"},[{\"type\":\"literal\",\"text\":\"x\"},{\"name\":\"n\",\"type\":\"number\"}]]}"
/-- an alternative inside of an alternative -/
def altIn : Obj := [(bs! "type", .str (bs! "alternative")), (bs! "parser", .arr [.obj altFoo, .obj fWord.conf])]
def altInText : Bytes := bs! "{\"type\":\"alternative\",\"parser\":[" ++ altFooText ++ bs! ",{\"name\":\"w\",\"type\":\"word\"}]}"
def tokAltF (b : Bytes) : Option (Json × Nat) :=
  if altFooText.isPrefixOf b then some (.obj altFoo, altFooText.length)
  else if altSeqText.isPrefixOf b then some (.obj altSeq, altSeqText.length)
  else if altInText.isPrefixOf b then some (.obj altIn, altInText.length) else none
def envAltF : Env := { env with tok := tokAltF }

def partFoo : PartA := ⟨.json [] altFooText, altFoo, [(.literal, fooObj), (.number, fNum.conf)]⟩
def partNum : PartA := ⟨fNum.written, fNum.conf, [(.number, fNum.conf)]⟩
/-- rules `a <foo or number> x` and `a <number> y` -/
def rulesAltF : List RuleA := [{ tags := [], lit := bs! "a ", parts := [(partFoo, bs! " x")], line := 1 }, { tags := [], lit := bs! "a ", parts := [(partNum, bs! " y")], line := 2 }]
def textAltF : Bytes := bs! "rule=:a %" ++ altFooText ++ bs! "% x\nrule=:a %n:number% y\n"
/-- the same rules, in the other order -/
def textAltF' : Bytes := bs! "rule=:a %n:number% y\nrule=:a %" ++ altFooText ++ bs! "% x\n"

/-- no rule makes up `a foo y` -/
theorem foo_y_not : ∀ d, TakenFrom rulesAltF d → ∀ vs, ¬ d.Matches envAltF (bs! "a foo y") vs := by
  rintro ⟨tags, lit, parts, file, line, brk⟩ ⟨r, hr, ht⟩ vs ⟨_, t, h1, h2⟩
  have hl := ht.lit
  have hp := ht.parts
  dsimp only at hl hp h1 h2
  simp only [rulesAltF, List.mem_cons, List.not_mem_nil, or_false] at hr
  rcases hr with rfl | rfl <;> dsimp only at hl hp <;> rw [hl] at h1
  · have h1 : bs! "a " ++ bs! "foo y" = bs! "a " ++ t := h1
    have := List.append_cancel_left h1
    subst this
    cases hp with
    | @cons _ q _ qs hq hqs =>
      cases hqs
      cases h2 with
      | @cons _ t' l f n v _ _ hm hd hf =>
        cases hf
        have e := hq.2.2
        dsimp only at e
        subst e
        have hd : (bs! "foo y").drop n = bs! " x" ++ [] := hd
        have hn : n < 6 ∨ 6 ≤ n := by omega
        rcases hn with hn | hn
        · have : ∀ n < 6, (bs! "foo y").drop n ≠ bs! " x" ++ [] := by decide
          exact this n hn hd
        · rw [List.drop_eq_nil_of_le (by simp; omega)] at hd
          cases hd
  · have h1 : bs! "a " ++ bs! "foo y" = bs! "a " ++ t := h1
    have := List.append_cancel_left h1
    subst this
    cases hp with
    | @cons _ q _ qs hq hqs =>
      cases h2 with
      | @cons _ t' l f n v _ _ hm hd hf =>
        have e := hq.2.1
        dsimp only [partNum] at e
        rw [List.mem_singleton, Prod.mk.injEq] at e
        rw [e.1, e.2] at hm
        obtain ⟨⟨h0, ⟨h3, h4, _⟩, _⟩, _⟩ := hm
        have := h4 (ch! 'f') (by
          cases n with
          | zero => omega
          | succ n => show (ch! 'f') ∈ List.take (n + 1) _; simp)
        exact absurd this (by decide)

/-- the first rule makes up `a foo x`, with the literal of its alternative -/
theorem foo_x : ∃ d, TakenFrom rulesAltF d ∧ d.Matches envAltF (bs! "a foo x") [(some (bs! "f"), some (.str (bs! "foo")))] :=
  ⟨⟨[], bs! "a ", [(⟨.json [] altFooText, .literal, fooObj⟩, bs! " x")], bs! "--NO-FILE--", 1, none⟩,
    ⟨_, List.mem_cons_self .., rfl, rfl, rfl, rfl, rfl, .cons ⟨rfl, List.mem_cons_self .., rfl⟩ .nil⟩,
    rfl, bs! "foo x", by decide, .cons (n := 3) (t' := []) ⟨bs! "foo", ⟨rfl, by decide⟩, ⟨by decide, rfl⟩, rfl⟩ (by decide) .nil⟩

end Ex

/-- **C88 is violated** without `KeepApart`: if a later rule has a field which an alternative of an earlier one offers, the later rule accepts what the
alternative accepts. With `a <foo or number> x` and `a <number> y` the message `a foo y` is reported as matched. -/
theorem C88_leak_violated : Ex.runAlt Ex.envAltF Ex.textAltF (bs! "a foo y") = .ok (true, true, [(bs! "f", .str (bs! "foo"))]) ∧
    ∀ d, TakenFrom Ex.rulesAltF d → ∀ vs, ¬ d.Matches Ex.envAltF (bs! "a foo y") vs :=
  ⟨by decide +kernel, Ex.foo_y_not⟩

/-- **C88 is violated** without `KeepApart`: if an earlier rule has a field which an alternative of a later one offers, other fields of the alternative are lost.
With `a <number> y` and `a <foo or number> x` the message `a foo x` is not matched. -/
theorem C88_lost_violated : Ex.runAlt Ex.envAltF Ex.textAltF' (bs! "a foo x") =
      .ok (true, false, [(bs! "originalmsg", .str (bs! "a foo x")), (bs! "unparsed-data", .str (bs! " x"))]) ∧
    (∃ d, TakenFrom Ex.rulesAltF d ∧ d.Matches Ex.envAltF (bs! "a foo x") [(some (bs! "f"), some (.str (bs! "foo")))]) ∧
    Ex.runAlt Ex.envAltF Ex.textAltF (bs! "a foo x") = .ok (true, true, [(bs! "f", .str (bs! "foo"))]) :=
  ⟨by decide +kernel, Ex.foo_x, by decide +kernel⟩

/-- **C88 is violated** for sequences of fields in an alternative, unless they come first: `<number, or x and number>` does not accept `12`; what it means is `<number or x>`
and then a number. -/
theorem C88_sequence_violated : Ex.runAlt Ex.envAltF (bs! "rule=:%" ++ Ex.altSeqText ++ bs! "%
") (bs! "12") =
      .ok (true, false, [(bs! "originalmsg", .str (bs! "12")), (bs! "unparsed-data", .str [])]) ∧
    Ex.runAlt Ex.envAltF (bs! "rule=:%" ++ Ex.altSeqText ++ bs! "%
") (bs! "x12") = .ok (true, true, [(bs! "n", .str (bs! "12"))]) := by
  decide +kernel

/-- **C88 is violated** for alternatives inside of alternatives: the rule is lost, although loading is reported as successful. -/
theorem C88_nested_violated : Ex.runAlt Ex.envAltF (bs! "rule=:%" ++ Ex.altInText ++ bs! "%
") (bs! "12") =
      .ok (true, false, [(bs! "originalmsg", .str (bs! "12")), (bs! "unparsed-data", .str (bs! "12"))]) ∧
    Ex.runAlt Ex.envAltF (bs! "rule=:%" ++ Ex.altInText ++ bs! "%
") (bs! "foo") =
      .ok (true, false, [(bs! "originalmsg", .str (bs! "foo")), (bs! "unparsed-data", .str (bs! "foo"))]) := by
  decide +kernel

end LN
