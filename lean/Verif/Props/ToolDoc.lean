import Verif.Props.ToolMain
import Verif.Props.DocT
import Verif.Props.DocRs
import Verif.Props.DocA
/-
C87 for rulebases with user-defined types (C79), `repeat` (C80) and `alternative` (C88): from the rulebase file and the log file to the output of the tool.
-/
set_option autoImplicit false
namespace LN
open Spec
variable {w : World} {cw : Bytes → Bool} {ptr : NodeId → Bytes} {argv : List Bytes} {os : List Opt}

/-! ### user-defined types -/

theorem fitsT_names {env : Env} {ds : List RuleT} {t rest : Bytes} {ps : List (FieldT × Bytes)} {vs : List (Option Bytes × Option Json)}
    (h : RuleT.Fits env ds t ps vs rest) : ∀ x ∈ vs, ∃ p ∈ ps, x.1 = fieldName p.1.conf := by
  induction h with
  | nil t => intro x hx; cases hx
  | plain h1 h2 h3 h4 ih =>
    intro x hx
    rcases List.mem_cons.1 hx with rfl | hx
    · exact ⟨_, List.mem_cons_self, rfl⟩
    · obtain ⟨p, hp, e⟩ := ih x hx
      exact ⟨p, List.mem_cons_of_mem _ hp, e⟩
  | user h1 h2 h3 hb h4 h5 h6 h7 ih1 ih2 =>
    intro x hx
    rcases List.mem_cons.1 hx with rfl | hx
    · exact ⟨_, List.mem_cons_self, rfl⟩
    · obtain ⟨p, hp, e⟩ := ih2 x hx
      exact ⟨p, List.mem_cons_of_mem _ hp, e⟩

theorem docDefs_tags : ∀ (ls : List Loc) (pfx : Option Bytes) (x : Option Bytes × List Bytes × Bytes × Bytes × Nat), x ∈ docDefs pfx ls →
    x.2.1 = [] ∨ ∃ l ∈ ls, ∃ t, l.what = .rule x.2.1 t
  | [], _, x, h => by cases h
  | l :: ls, pfx, x, h => by
    simp only [docDefs] at h
    rcases List.mem_append.1 h with h | h
    · cases hw : l.what with
      | rule tags t =>
        rw [hw] at h
        rw [List.mem_singleton] at h
        subst h
        exact .inr ⟨l, List.mem_cons_self, t, hw⟩
      | type nm t =>
        rw [hw] at h
        rw [List.mem_singleton] at h
        subst h
        exact .inl rfl
      | _ => rw [hw] at h; cases h
    · rcases docDefs_tags ls _ x h with h | ⟨l', h1, h2⟩
      · exact .inl h
      · exact .inr ⟨l', List.mem_cons_of_mem _ h1, h2⟩

theorem tags_cleanT {locs : List Loc} {ds : List RuleT} (hok : ∀ l ∈ locs, l.what.OK)
    (hdefs : docDefs none locs = ds.map fun r => (r.type, r.tags, r.text, r.file, r.line)) : ∀ r ∈ ds, ∀ t ∈ r.tags, ∀ c ∈ t, c ≠ 0 := by
  intro r hr t ht c hc
  rcases docDefs_tags locs none (r.type, r.tags, r.text, r.file, r.line) (by rw [hdefs]; exact List.mem_map.2 ⟨r, hr, rfl⟩) with h | ⟨l, hl, x, hx⟩
  · change r.tags = [] at h
    rw [h] at ht; cases ht
  · have := hok l hl
    rw [hx] at this
    exact ((this.1 t ht).2 c hc).2.2

/-- names of fields of rules and annotations do not get in the way of the tool; inside of types names do not matter -/
structure QuietNamesT (ls : List RLine) (ds : List RuleT) : Prop where
  fields : ∀ r ∈ ds, r.type = none → ∀ p ∈ r.parts, QuietName (fieldName p.1.conf)
  annots : QuietAnnots ls

theorem quiet_eventT {env : Env} {ls : List RLine} {ds : List RuleT} {opts : Nat} {s : Bytes} {ok : Bool} {json : Obj} (hq : QuietNamesT ls ds)
    (ht : ∀ r ∈ ds, ∀ t ∈ r.tags, ∀ c ∈ t, c ≠ 0) (h : DocOutcomeT env ls ds opts s [] ok json) :
    TagList json ∧ (ok = true → Obj.get json (bs! "unparsed-data") = none) := by
  cases ok with
  | false =>
    obtain ⟨i, _, _, rfl⟩ := h.nomatch_ rfl
    exact ⟨quiet_none _ _, fun e => by cases e⟩
  | true =>
    obtain ⟨r, q, j, vs, extra, hr, hrt, hqr, _, ⟨_, t, _, hfit⟩, _, _, _, hj⟩ := h.match_ rfl
    obtain ⟨h1, h2⟩ := quiet_core (tags := q.tags) (fun x hx => by
      obtain ⟨p, hp, e⟩ := fitsT_names hfit x hx
      rw [e]; exact hq.fields r hr hrt p hp) hq.annots (ht q (List.mem_of_getElem? hqr)) hj
    exact ⟨h1, fun _ => h2⟩

/-- messages which the rules and definitions are about -/
def InScopeT (env : Env) (ds : List RuleT) (s : Bytes) : Prop := Tame s ∧ (∀ r ∈ ds, r.InScope env s) ∧ Unambiguous env ds s

/-- **C87** `lognormalizer -r FILE` with a rulebase file with user-defined types: for each line the output is the one for the event described in `DocOutcomeT`.
Missing as in `C87_file_partial` and C79. -/
theorem C87_types_file_partial (he : w.env.TokOK) (name : Bytes) (hname : ∀ c ∈ name, c ≠ 0) (is : List Item)
    (hfile : w.fs name = some (bs! "version=2\n" ++ itemsText is)) (hok : itemsOK w.fs .file is) (ls : List RLine)
    (hls : (itemsLines name 1 is).map (·.what) = ls) (hext : ExtendOK none ls) (ds : List RuleT)
    (hdefs : docDefs none (itemsLines name 1 is) = ds.map fun r => (r.type, r.tags, r.text, r.file, r.line))
    (hrok : ∀ r ∈ ds, r.OK w.env) (hdef : Defined ds) (hlay : Layered ds) (hlen : ∀ t, Narrow ((ds.filter fun r => r.type = t).map (·.toks w.env)))
    (hq : QuietNamesT ls ds) {opts : UInt32} (ha : Asks cw argv os (.file name) opts) (h8 : opts.toNat.testBit 3 = true → ∀ r ∈ ds, r.Shows w.env)
    (log : List (Bytes × Bytes)) (hlog : ∀ p ∈ log, LogLine p) (hs : ∀ p ∈ log, InScopeT w.env ds p.1) :
    ∃ N, ∀ fuel, N ≤ fuel → ∃ m, toolMain { w with fuel := fuel } cw ptr argv (joinLines log) = .ok m ∧
      ToolPrints w.env os (fun msg ok event => DocOutcomeT w.env ls ds opts.toNat msg [] ok event) (log.map Prod.fst) m := by
  obtain ⟨st, hl, hver, _, hN⟩ := C79_file_end_to_end_partial (srt := w.srt) he name hname is hfile hok ls hls hext ds hdefs hrok hdef hlay hlen
  exact run_file hl hver ha log hlog (fun p hp => hN opts.toNat p.1 (hs p hp).1 (hs p hp).2.1 (hs p hp).2.2 h8 _ _)
    (fun msg ok json h => quiet_eventT hq (tags_cleanT (fun l hl => (items_lines_ok hname is 1 hok l hl).1) hdefs) h)

/-- **C87** the same for `lognormalizer -R TEXT` -/
theorem C87_types_text_partial (he : w.env.TokOK) (is : List Item) (hok : itemsOK w.fs .string is) (ls : List RLine)
    (hls : (itemsLines (bs! "--NO-FILE--") 0 is).map (·.what) = ls) (hext : ExtendOK none ls) (ds : List RuleT)
    (hdefs : docDefs none (itemsLines (bs! "--NO-FILE--") 0 is) = ds.map fun r => (r.type, r.tags, r.text, r.file, r.line))
    (hrok : ∀ r ∈ ds, r.OK w.env) (hdef : Defined ds) (hlay : Layered ds) (hlen : ∀ t, Narrow ((ds.filter fun r => r.type = t).map (·.toks w.env)))
    (hq : QuietNamesT ls ds) {opts : UInt32} (ha : Asks cw argv os (.text (itemsText is)) opts) (h8 : opts.toNat.testBit 3 = true → ∀ r ∈ ds, r.Shows w.env)
    (log : List (Bytes × Bytes)) (hlog : ∀ p ∈ log, LogLine p) (hs : ∀ p ∈ log, InScopeT w.env ds p.1) :
    ∃ N, ∀ fuel, N ≤ fuel → ∃ m, toolMain { w with fuel := fuel } cw ptr argv (joinLines log) = .ok m ∧
      ToolPrints w.env os (fun msg ok event => DocOutcomeT w.env ls ds opts.toNat msg [] ok event) (log.map Prod.fst) m := by
  obtain ⟨st, hl, hver, _, hN⟩ := C79_string_end_to_end_partial (srt := w.srt) he is hok ls hls hext ds hdefs hrok hdef hlay hlen
  exact run_text hl hver ha log hlog (fun p hp => hN opts.toNat p.1 (hs p hp).1 (hs p hp).2.1 (hs p hp).2.2 h8 _ _)
    (fun msg ok json h => quiet_eventT hq (tags_cleanT (fun l hl => (items_lines_ok (file := bs! "--NO-FILE--") (by decide) is 0 hok l hl).1) hdefs) h)

/-! ### `repeat` -/

theorem reads_names {env : Env} {s : Bytes} : ∀ (fs : List Fld) (i j : Nat) (vs : List (Option Bytes × Option Json)), Reads env s (.all fs i vs j) →
    ∀ x ∈ vs, ∃ f ∈ fs, x.1 = f.name
  | [], i, j, vs, h, x, hx => by cases h; cases hx
  | f :: fs, i, j, vs, h, x, hx => by
    cases h with
    | cons h t =>
      rcases List.mem_cons.1 hx with rfl | hx
      · exact ⟨f, List.mem_cons_self, rfl⟩
      · obtain ⟨g, hg, e⟩ := reads_names fs _ _ _ t x hx
        exact ⟨g, List.mem_cons_of_mem _ hg, e⟩

/-- names of fields of rules and annotations do not get in the way of the tool; inside of repetitions names do not matter -/
structure QuietNamesR (ls : List RLine) (rules : List RuleR) : Prop where
  fields : ∀ r ∈ rules, ∀ p ∈ r.parts, QuietName p.field.name
  annots : QuietAnnots ls

theorem quiet_fields {env : Env} {r : RuleR} (h : ∀ p ∈ r.parts, QuietName p.field.name) : ∀ f ∈ r.fields env, QuietName f.name := by
  have hl : ∀ t, ∀ f ∈ RuleR.litFields t, QuietName f.name := by
    intro t f hf
    obtain ⟨c, _, rfl⟩ := List.mem_map.1 hf
    exact (by decide : QuietName none)
  intro f hf
  rcases List.mem_append.1 hf with hf | hf
  · exact hl _ f hf
  · obtain ⟨p, hp, hf⟩ := List.mem_flatMap.1 hf
    rcases List.mem_cons.1 hf with rfl | hf
    · exact h p hp
    · exact hl _ f hf

theorem quiet_eventRs {env : Env} {ls : List RLine} {rules : List RuleR} {opts : Nat} {s : Bytes} {ok : Bool} {json : Obj} (hq : QuietNamesR ls rules)
    (ht : ∀ r ∈ rules, ∀ t ∈ r.tags, ∀ c ∈ t, c ≠ 0) (h : OutcomeRs env ls rules opts s [] ok json) :
    TagList json ∧ (ok = true → Obj.get json (bs! "unparsed-data") = none) := by
  cases ok with
  | false =>
    obtain ⟨i, _, rfl, _⟩ := h.nomatch_ rfl
    exact ⟨quiet_none _ _, fun e => by cases e⟩
  | true =>
    obtain ⟨r, hr, vs, hvs⟩ := h.iff.1 rfl
    have hj := h.match_ r hr vs hvs
    obtain ⟨h1, h2⟩ := quiet_core (tags := r.tags) (opts := opts) (s := s) (ls := ls) (vs := vs) (json := json)
      (m := if opts.testBit 4 then [(bs! "location", Json.obj [(bs! "file", .str r.file), (bs! "line", .int r.line)])] else []) (fun x hx => by
      obtain ⟨f, hf, e⟩ := reads_names _ _ _ _ hvs x hx
      rw [e]; exact quiet_fields (hq.fields r hr) f hf) hq.annots (ht r hr) (by
        rw [hj]
        unfold RuleR.event
        cases opts.testBit 4 <;> rfl)
    exact ⟨h1, fun _ => h2⟩

/-- messages which the rules are about -/
def InScopeRs (env : Env) (rules : List RuleR) (s : Bytes) : Prop := Tame s ∧ (∀ r ∈ rules, Fld.SaneAll env s (r.fields env)) ∧ TellsApart env s rules

/-- **C87** `lognormalizer -r FILE` with a rulebase file with `repeat`: for each line the output is the one for the event described in `OutcomeRs`.
Missing as in `C87_file_partial` and C80; `-o addRule`. -/
theorem C87_repeat_file_partial (he : w.env.TokOK) (name : Bytes) (hname : ∀ c ∈ name, c ≠ 0) (is : List Item)
    (hfile : w.fs name = some (bs! "version=2\n" ++ itemsText is)) (hok : itemsOK w.fs .file is) (ls : List RLine)
    (hls : (itemsLines name 1 is).map (·.what) = ls) (hext : ExtendOK none ls) (hty : ∀ l ∈ ls, ∀ nm t, l ≠ .type nm t) (rules : List RuleR)
    (hrules : docRules none (itemsLines name 1 is) = rules.map fun r => (r.tags, r.text, r.file, r.line)) (hf : ∀ r ∈ rules, ∀ p ∈ r.parts, p.OK w.env)
    (hn : Narrow (rules.map (·.items w.env))) (hdist : rules.Pairwise fun r r' => r.items w.env ≠ r'.items w.env) (hq : QuietNamesR ls rules)
    {opts : UInt32} (ha : Asks cw argv os (.file name) opts) (h8 : opts.toNat.testBit 3 = false)
    (log : List (Bytes × Bytes)) (hlog : ∀ p ∈ log, LogLine p) (hs : ∀ p ∈ log, InScopeRs w.env rules p.1) :
    ∃ N, ∀ fuel, N ≤ fuel → ∃ m, toolMain { w with fuel := fuel } cw ptr argv (joinLines log) = .ok m ∧
      ToolPrints w.env os (fun msg ok event => OutcomeRs w.env ls rules opts.toNat msg [] ok event) (log.map Prod.fst) m := by
  obtain ⟨st, hl, hver, _, hN⟩ := C80_rules_file_end_to_end_partial (srt := w.srt) he name hname is hfile hok ls hls hext hty rules hrules hf hn hdist
  exact run_file hl hver ha log hlog (fun p hp => hN opts.toNat p.1 (hs p hp).1 (hs p hp).2.1 (hs p hp).2.2 h8 _ _)
    (fun msg ok json h => quiet_eventRs hq (tags_clean (fun l hl => (items_lines_ok hname is 1 hok l hl).1) hrules) h)

/-- **C87** the same for `lognormalizer -R TEXT` -/
theorem C87_repeat_text_partial (he : w.env.TokOK) (is : List Item) (hok : itemsOK w.fs .string is) (ls : List RLine)
    (hls : (itemsLines (bs! "--NO-FILE--") 0 is).map (·.what) = ls) (hext : ExtendOK none ls) (hty : ∀ l ∈ ls, ∀ nm t, l ≠ .type nm t) (rules : List RuleR)
    (hrules : docRules none (itemsLines (bs! "--NO-FILE--") 0 is) = rules.map fun r => (r.tags, r.text, r.file, r.line))
    (hf : ∀ r ∈ rules, ∀ p ∈ r.parts, p.OK w.env)
    (hn : Narrow (rules.map (·.items w.env))) (hdist : rules.Pairwise fun r r' => r.items w.env ≠ r'.items w.env) (hq : QuietNamesR ls rules)
    {opts : UInt32} (ha : Asks cw argv os (.text (itemsText is)) opts) (h8 : opts.toNat.testBit 3 = false)
    (log : List (Bytes × Bytes)) (hlog : ∀ p ∈ log, LogLine p) (hs : ∀ p ∈ log, InScopeRs w.env rules p.1) :
    ∃ N, ∀ fuel, N ≤ fuel → ∃ m, toolMain { w with fuel := fuel } cw ptr argv (joinLines log) = .ok m ∧
      ToolPrints w.env os (fun msg ok event => OutcomeRs w.env ls rules opts.toNat msg [] ok event) (log.map Prod.fst) m := by
  obtain ⟨st, hl, hver, _, hN⟩ := C80_rules_string_end_to_end_partial (srt := w.srt) he is hok ls hls hext hty rules hrules hf hn hdist
  exact run_text hl hver ha log hlog (fun p hp => hN opts.toNat p.1 (hs p hp).1 (hs p hp).2.1 (hs p hp).2.2 h8 _ _)
    (fun msg ok json h => quiet_eventRs hq (tags_clean (fun l hl => (items_lines_ok (file := bs! "--NO-FILE--") (by decide) is 0 hok l hl).1) hrules) h)

/-! ### `alternative` -/

/-- names of fields and annotations do not get in the way of the tool -/
structure QuietNamesA (ls : List RLine) (rules : List RuleA) : Prop where
  fields : ∀ r ∈ rules, ∀ p ∈ r.parts, ∀ c ∈ p.1.choices, QuietName (fieldName c.2)
  annots : QuietAnnots ls

theorem forall₂_mem_right {α β : Type} {R : α → β → Prop} {xs : List α} {ys : List β} (h : List.Forall₂ R xs ys) : ∀ y ∈ ys, ∃ x ∈ xs, R x y := by
  induction h with
  | nil => intro y hy; cases hy
  | cons h1 h2 ih =>
    intro y hy
    rcases List.mem_cons.1 hy with rfl | hy
    · exact ⟨_, List.mem_cons_self, h1⟩
    · obtain ⟨x, hx, e⟩ := ih y hy
      exact ⟨x, List.mem_cons_of_mem _ hx, e⟩

theorem quiet_eventA {env : Env} {ls : List RLine} {rules : List RuleA} {opts : Nat} {s : Bytes} {ok : Bool} {json : Obj} (hq : QuietNamesA ls rules)
    (ht : ∀ r ∈ rules, ∀ t ∈ r.tags, ∀ c ∈ t, c ≠ 0) (h : AltOutcome env ls rules opts s [] ok json) :
    TagList json ∧ (ok = true → Obj.get json (bs! "unparsed-data") = none) := by
  cases ok with
  | false =>
    obtain ⟨i, _, _, _, rfl⟩ := h.nomatch_ rfl
    exact ⟨quiet_none _ _, fun e => by cases e⟩
  | true =>
    obtain ⟨r, q, Q, j, vs, ⟨R, hR, hTR⟩, hQ, hTQ, ⟨_, t, _, hfit⟩, _, _, _, _, hj, _⟩ := h.match_ rfl
    obtain ⟨h1, h2⟩ := quiet_core (tags := q.tags) (fun x hx => by
      obtain ⟨p, hp, e⟩ := fits_names hfit x hx
      obtain ⟨p', hp', _, h3, _⟩ := forall₂_mem_right hTR.parts p hp
      rw [e]; exact hq.fields R hR p' hp' _ h3) hq.annots (by rw [hTQ.tags]; exact ht Q (List.mem_of_getElem? hQ)) hj
    exact ⟨h1, fun _ => h2⟩

/-- messages which the rules are about -/
def InScopeA (env : Env) (rules : List RuleA) (s : Bytes) : Prop :=
  Tame s ∧ ∀ r ∈ rules, ∀ p ∈ r.parts, ∀ c ∈ p.1.choices, ∀ off, off ≤ s.length → c.1.InScope env c.2 s off (fieldName c.2).isSome

/-- **C87** `lognormalizer -r FILE` with a rulebase file with `alternative`: for each line the output is the one for the event described in `AltOutcome`.
Missing as in `C87_file_partial` and C88. -/
theorem C87_alternative_file_partial (he : w.env.TokOK) (name : Bytes) (hname : ∀ c ∈ name, c ≠ 0) (is : List Item)
    (hfile : w.fs name = some (bs! "version=2\n" ++ itemsText is)) (hok : itemsOK w.fs .file is) (ls : List RLine)
    (hls : (itemsLines name 1 is).map (·.what) = ls) (hext : ExtendOK none ls) (hty : ∀ l ∈ ls, ∀ nm t, l ≠ .type nm t) (rules : List RuleA)
    (hrules : docRules none (itemsLines name 1 is) = rules.map fun r => (r.tags, r.text, r.file, r.line))
    (hrok : ∀ r ∈ rules, r.OK w.env) (happ : KeepApart w.env rules) (hlen : NarrowA w.env rules) (hq : QuietNamesA ls rules)
    {opts : UInt32} (ha : Asks cw argv os (.file name) opts) (h8 : opts.toNat.testBit 3 = true → ∀ d, TakenFrom rules d → d.Shows w.env)
    (log : List (Bytes × Bytes)) (hlog : ∀ p ∈ log, LogLine p) (hs : ∀ p ∈ log, InScopeA w.env rules p.1) :
    ∃ N, ∀ fuel, N ≤ fuel → ∃ m, toolMain { w with fuel := fuel } cw ptr argv (joinLines log) = .ok m ∧
      ToolPrints w.env os (fun msg ok event => AltOutcome w.env ls rules opts.toNat msg [] ok event) (log.map Prod.fst) m := by
  obtain ⟨st, hl, hver, _, hN⟩ := C88_file_end_to_end_partial (srt := w.srt) he name hname is hfile hok ls hls hext hty rules hrules hrok happ hlen
  exact run_file hl hver ha log hlog (fun p hp => hN opts.toNat p.1 (hs p hp).1 (hs p hp).2 h8 _ _)
    (fun msg ok json h => quiet_eventA hq (tags_clean (fun l hl => (items_lines_ok hname is 1 hok l hl).1) hrules) h)

/-- **C87** the same for `lognormalizer -R TEXT` -/
theorem C87_alternative_text_partial (he : w.env.TokOK) (is : List Item) (hok : itemsOK w.fs .string is) (ls : List RLine)
    (hls : (itemsLines (bs! "--NO-FILE--") 0 is).map (·.what) = ls) (hext : ExtendOK none ls) (hty : ∀ l ∈ ls, ∀ nm t, l ≠ .type nm t) (rules : List RuleA)
    (hrules : docRules none (itemsLines (bs! "--NO-FILE--") 0 is) = rules.map fun r => (r.tags, r.text, r.file, r.line))
    (hrok : ∀ r ∈ rules, r.OK w.env) (happ : KeepApart w.env rules) (hlen : NarrowA w.env rules) (hq : QuietNamesA ls rules)
    {opts : UInt32} (ha : Asks cw argv os (.text (itemsText is)) opts) (h8 : opts.toNat.testBit 3 = true → ∀ d, TakenFrom rules d → d.Shows w.env)
    (log : List (Bytes × Bytes)) (hlog : ∀ p ∈ log, LogLine p) (hs : ∀ p ∈ log, InScopeA w.env rules p.1) :
    ∃ N, ∀ fuel, N ≤ fuel → ∃ m, toolMain { w with fuel := fuel } cw ptr argv (joinLines log) = .ok m ∧
      ToolPrints w.env os (fun msg ok event => AltOutcome w.env ls rules opts.toNat msg [] ok event) (log.map Prod.fst) m := by
  obtain ⟨st, hl, hver, _, hN⟩ := C88_string_end_to_end_partial (srt := w.srt) he is hok ls hls hext hty rules hrules hrok happ hlen
  exact run_text hl hver ha log hlog (fun p hp => hN opts.toNat p.1 (hs p hp).1 (hs p hp).2 h8 _ _)
    (fun msg ok json h => quiet_eventA hq (tags_clean (fun l hl => (items_lines_ok (file := bs! "--NO-FILE--") (by decide) is 0 hok l hl).1) hrules) h)

/-! ### concrete cases -/

namespace Ex

/-- the lines of a rulebase, each in one piece -/
def oneLine (ls : List RLine) : List Item := ls.map fun l => .line l [l.text]

theorem oneLine_lines (file : Bytes) : ∀ (ls : List RLine) (n : Nat), itemsLines file n (oneLine ls) = numbered file n ls
  | [], _ => rfl
  | l :: ls, n => by
    have ih := oneLine_lines file ls (n + 1)
    simp only [oneLine, List.map_cons, itemsLines, Item.lines, Item.height, numbered, List.length_cons, List.length_nil, List.cons_append, List.nil_append] at ih ⊢
    rw [ih]

theorem oneLine_ok {fs : Bytes → Option Bytes} {src : Src} : ∀ (ls : List RLine), (∀ l ∈ ls, l.OK) → (∀ l ∈ ls, LineOK l.text) → itemsOK fs src (oneLine ls)
  | [], _, _ => trivial
  | l :: ls, h1, h2 => ⟨⟨h1 l List.mem_cons_self, pieces_one (h2 l List.mem_cons_self)⟩, (fun t h => by cases h), (fun t h => by cases h),
      oneLine_ok ls (fun x hx => h1 x (List.mem_cons_of_mem _ hx)) (fun x hx => h2 x (List.mem_cons_of_mem _ hx))⟩

/-- `lognormalizer -R TEXT -e raw -p` -/
def optsText (t : Bytes) : List Opt := [(ch! 'R', t), (ch! 'p', []), (ch! 'e', bs! "raw")]
theorem asksText (t : Bytes) : Asks (fun _ => false) [bs! "-R", t, bs! "-peraw"] (optsText t) (.text t) 0 where
  opts_of := .separate [] (ch! 'R') t (by decide) (by decide)
    (.attached (bs! "p") (ch! 'e') (bs! "raw") (by decide) (by decide) (by decide) .nil)
  accepted := ⟨by rfl, by rfl, by intro n hn; simp [optsText] at hn, by intro f hf; simp [optsText, outFiles] at hf⟩
  rules := ⟨by rfl, by rfl⟩
  noReport := ⟨by rfl, by rfl, by rfl, by rfl⟩
  bits := by intro i; simp [optsText]
  printable := fun h => by cases (show OutFmt.raw = .csv from h)

theorem logLine_of {t : Bytes} (h : ch! '\n' ∉ t ∧ (0 : UInt8) ∉ t ∧ t.getLast? ≠ some (ch! '\r')) : LogLine (t, bs! "\n") := ⟨h.1, h.2.1, h.2.2, .inl rfl⟩

/-- types: the rulebase of C79 -/
example : ∃ N, ∀ fuel, N ≤ fuel → ∃ m, toolMain { world with fuel := fuel } (fun _ => false) toolPtr [bs! "-R", itemsText (oneLine docU), bs! "-peraw"] (bs! "xp(12)\n") = .ok m ∧
    m.code = 0 ∧ m.out = bs! "xp(12)\n" := by
  obtain ⟨h1, h2, h3, _, h6, h7⟩ := docU_ok
  obtain ⟨N, hN⟩ := C87_types_text_partial (w := world) (ptr := toolPtr) Ex.tokEnv (oneLine docU) (oneLine_ok _ h1 h2) docU
    (by rw [oneLine_lines]; exact numbered_what _ _ _) h3 defsU (by rw [oneLine_lines]; exact h6) h7 defsU_defined defsU_layered (fun _ => narrow_filter (by decide))
    ⟨fun r hr _ p hp => by
      simp only [defsU, List.mem_cons, List.not_mem_nil, or_false] at hr
      rcases hr with rfl | rfl | rfl | rfl | rfl <;> simp only [dEnd1, dEnd2, dPair, rX, rY, List.mem_cons, List.not_mem_nil, or_false] at hp <;> subst hp <;> decide,
     fun l hl tag ops e o ho => by
      subst e
      simp only [docU, List.mem_cons, List.not_mem_nil, or_false, reduceCtorEq, false_or] at hl
      cases hl
      simp only [List.mem_cons, List.not_mem_nil, or_false] at ho
      subst ho; decide⟩ (asksText _) (fun h => absurd h (by decide)) [(bs! "xp(12)", bs! "\n")]
    (by intro p hp; rw [List.mem_singleton.1 hp]; exact logLine_of (by decide))
    (by intro p hp; rw [List.mem_singleton.1 hp]; exact ⟨msgU_tame, defsU_scope _, defsU_unambiguous _⟩)
  refine ⟨N, fun fuel hf => ?_⟩
  obtain ⟨m, h1, h2⟩ := hN fuel hf
  refine ⟨m, h1, h2.code, ?_⟩
  obtain ⟨ev, h3, h4, _⟩ := h2.prints
  have e1 : (ev (bs! "xp(12)")).1 = true := (h3 _ List.mem_cons_self).iff.2 ⟨rX, by simp [defsU], rfl, _, rX_matches⟩
  rw [h4]
  show lineOutput _ (settings (optsText _)) 1 (bs! "xp(12)") (ev (bs! "xp(12)")).1 _ ++ [] = _
  rw [e1]
  rfl

/-- `repeat`: the rulebase of C80 -/
example : ∃ N, ∀ fuel, N ≤ fuel → ∃ m, toolMain { { world with env := envR } with fuel := fuel } (fun _ => false) toolPtr [bs! "-R", itemsText (oneLine docRs), bs! "-peraw"]
    (bs! "a 1:2-3, 4: end\n") = .ok m ∧ m.code = 0 ∧ m.out = bs! "a 1:2-3, 4: end\n" := by
  obtain ⟨h1, h2, h3, h4, _, h6⟩ := docRs_ok
  obtain ⟨N, hN⟩ := C87_repeat_text_partial (w := { world with env := envR }) (ptr := toolPtr) tokEnvR (oneLine docRs) (oneLine_ok _ h1 h2) docRs
    (by rw [oneLine_lines]; exact numbered_what _ _ _) h3 h4 rulesRs (by rw [oneLine_lines]; exact h6) rulesRs_ok (narrow_of_length (by decide)) rulesRs_dist
    ⟨fun r hr p hp => by
      simp only [rulesRs, List.mem_cons, List.not_mem_nil, or_false] at hr
      rcases hr with rfl | rfl | rfl
      · simp only [ruleRep, List.mem_cons, List.not_mem_nil, or_false] at hp; subst hp; exact (by decide : QuietName (some (bs! "l")))
      · simp only [ruleStop, List.mem_cons, List.not_mem_nil, or_false] at hp; subst hp; exact (by decide : QuietName (some (bs! "l")))
      · exact absurd hp List.not_mem_nil,
     fun l hl tag ops e o ho => by
      subst e
      simp only [docRs, docRep, List.cons_append, List.nil_append, List.mem_cons, List.not_mem_nil, or_false, reduceCtorEq, false_or] at hl
      cases hl
      simp only [List.mem_cons, List.not_mem_nil, or_false] at ho
      subst ho; decide⟩ (asksText _) (by decide) [(bs! "a 1:2-3, 4: end", bs! "\n")]
    (by intro p hp; rw [List.mem_singleton.1 hp]; exact logLine_of (by decide))
    (by intro p hp; rw [List.mem_singleton.1 hp]; exact ⟨msgR_tame, rulesRs_sane _ (by decide), rulesRs_apart _ (by decide)⟩)
  refine ⟨N, fun fuel hf => ?_⟩
  obtain ⟨m, h1, h2⟩ := hN fuel hf
  refine ⟨m, h1, h2.code, ?_⟩
  obtain ⟨ev, h3, h4, _⟩ := h2.prints
  have e1 : (ev (bs! "a 1:2-3, 4: end")).1 = true := (h3 _ List.mem_cons_self).iff.2 ⟨ruleRep, by simp [rulesRs], _, ruleRep_reads⟩
  rw [h4]
  show lineOutput _ (settings (optsText _)) 1 (bs! "a 1:2-3, 4: end") (ev (bs! "a 1:2-3, 4: end")).1 _ ++ [] = _
  rw [e1]
  rfl

/-- `alternative`: the rulebase of C88 -/
example : ∃ N, ∀ fuel, N ≤ fuel → ∃ m, toolMain { { world with env := envAlt } with fuel := fuel } (fun _ => false) toolPtr [bs! "-R", itemsText (oneLine docAlt), bs! "-peraw"]
    (bs! "a 12 end\n") = .ok m ∧ m.code = 0 ∧ m.out = bs! "a 12 end\n" := by
  obtain ⟨h1, h2, h3, h4, _, h6⟩ := docAlt_ok
  obtain ⟨N, hN⟩ := C87_alternative_text_partial (w := { world with env := envAlt }) (ptr := toolPtr) tokEnvAlt (oneLine docAlt) (oneLine_ok _ h1 h2) docAlt
    (by rw [oneLine_lines]; exact numbered_what _ _ _) h3 h4 rulesAlt (by rw [oneLine_lines]; exact h6) rulesAlt_ok rulesAlt_apart (narrowA_of (by decide +kernel))
    ⟨fun r hr p hp c hc => by
      simp only [rulesAlt, List.mem_cons, List.not_mem_nil, or_false] at hr
      rcases hr with rfl | rfl <;> simp only [List.mem_cons, List.not_mem_nil, or_false] at hp <;> subst hp <;>
        simp only [partAltA, List.mem_cons, List.not_mem_nil, or_false] at hc <;> rcases hc with rfl | rfl <;> decide,
     fun l hl tag ops e o ho => by
      subst e
      simp only [docAlt, List.mem_cons, List.not_mem_nil, or_false, reduceCtorEq, false_or] at hl
      cases hl
      simp only [List.mem_cons, List.not_mem_nil, or_false] at ho
      subst ho; decide⟩ (asksText _) (fun h => absurd h (by decide)) [(bs! "a 12 end", bs! "\n")]
    (by intro p hp; rw [List.mem_singleton.1 hp]; exact logLine_of (by decide))
    (by
      intro p hp; rw [List.mem_singleton.1 hp]
      refine ⟨msgAlt_tame, fun r hr p hp c hc off _ => ?_⟩
      simp only [rulesAlt, List.mem_cons, List.not_mem_nil, or_false] at hr
      rcases hr with rfl | rfl <;> simp only [List.mem_cons, List.not_mem_nil, or_false] at hp <;> subst hp <;>
        simp only [partAltA, List.mem_cons, List.not_mem_nil, or_false] at hc <;> rcases hc with rfl | rfl <;> trivial)
  refine ⟨N, fun fuel hf => ?_⟩
  obtain ⟨m, h1, h2⟩ := hN fuel hf
  refine ⟨m, h1, h2.code, ?_⟩
  obtain ⟨ev, h3, h4, _⟩ := h2.prints
  have hm : takenAlt.Matches envAlt (bs! "a 12 end") [(some (bs! "n"), some (.str (bs! "12")))] :=
    ⟨rfl, bs! "12 end", by decide, .cons (n := 2) (t' := []) ⟨⟨by decide, ⟨by decide, by decide, by decide⟩, by decide⟩, rfl⟩ (by decide) .nil⟩
  have e1 : (ev (bs! "a 12 end")).1 = true := (h3 _ List.mem_cons_self).iff.2 ⟨takenAlt, takenAlt_takes, _, hm⟩
  rw [h4]
  show lineOutput _ (settings (optsText _)) 1 (bs! "a 12 end") (ev (bs! "a 12 end")).1 _ ++ [] = _
  rw [e1]
  rfl

end Ex
end LN
