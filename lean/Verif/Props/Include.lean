import Verif.Proofs.Include
import Verif.Props.Doc
/-
C78: rule bases made of several files and of lines which are broken inside of field descriptions.
-/
set_option autoImplicit false
namespace LN
open Spec

section
variable {env : Env} {srt : Sorter} {fs : Bytes → Option Bytes}

/-- what has been loaded from these lines -/
def loaded (ls : List RLine) (n : Nat) (errs : List LoadErr) (b : Bld) : LoadSt :=
  { b := b, annots := annotSet (ls.flatMap RLine.annots), rulePrefix := ls.foldl RLine.nextPrefix none
    line := n, version := 2, errs := errs }

/-- **C78** Loading a rule base from a string adds to the graph what its lines say (`RLine.ops`), in the order in which they stand, where the lines
of an included file stand in the place of the `include=` line and a line may be broken inside of field descriptions; then the graph is optimised. Rules
carry the name of the file they stand in and the number of their (last) line there. Annotations, the prefix and error messages are those of the
lines in this order. A field description (in a file) which does not end before the next `rule=` line is reported and its line dropped. -/
theorem C78_string (is : List Item) (hok : itemsOK fs .string is)
    (hsafe : DocSafe env none ((itemsLines (bs! "--NO-FILE--") 0 is).map (·.what))) (fuel : Nat) (hfuel : itemsSize is ≤ fuel) :
    loadSamplesFromString env srt fs fuel {} (itemsText is) =
      (runOps env srt (locOps env none (itemsLines (bs! "--NO-FILE--") 0 is) ++ [.optimize])).bind fun b =>
        .ok (loaded ((itemsLines (bs! "--NO-FILE--") 0 is).map (·.what)) (is.map Item.height).sum (itemsErrs env none is) b, true) := by
  have h := readAll_items (env := env) (srt := srt) fuel is .string ((itemsText is).length + 1)
    { file := some (bs! "--NO-FILE--"), line := 0, level := 1, version := 2 } hok hsafe hfuel (by have := items_length .string is hok; omega) rfl (Nat.le_refl _)
  unfold loadSamplesFromString sampLoadFromString
  change ((readAll env _ fuel .string _ { file := some (bs! "--NO-FILE--"), line := 0, level := 1, version := 2 } (itemsText is)).bind _).bind _ = _
  rw [h, R_bind_assoc, R_bind_assoc]
  unfold runOps
  rw [foldlM_append_R, R_bind_assoc]
  refine R_bind_congr _ fun b => ?_
  rw [R.ok_bind', List.foldlM_cons]
  simp only [Bool.not_true, Bool.false_eq_true, if_false]
  change ((optimizeTop srt _).bind _).bind _ = ((pdagOptimize srt b).bind _).bind _
  unfold optimizeTop
  rw [if_pos (by rfl)]
  change (((pdagOptimize srt b).bind _).bind _).bind _ = _
  cases pdagOptimize srt b with
  | ok b' =>
    simp only [R.ok_bind', List.foldlM_nil, pure]
    simp [locAfter, loaded, annotSet, itemsHeight]
  | fail => rfl
  | ub k => rfl
  | oof => rfl

/-- **C78** the same for files, whose first line is `version=2` -/
theorem C78_file (name : Bytes) (is : List Item) (hfile : fs name = some (bs! "version=2\n" ++ itemsText is)) (hok : itemsOK fs .file is)
    (hsafe : DocSafe env none ((itemsLines name 1 is).map (·.what))) (fuel : Nat) (hfuel : itemsSize is ≤ fuel) :
    loadSamples env srt fs (fuel + 1) {} name =
      (runOps env srt (locOps env none (itemsLines name 1 is) ++ [.optimize])).bind fun b =>
        .ok (loaded ((itemsLines name 1 is).map (·.what)) (1 + (is.map Item.height).sum) (itemsErrs env none is) b, true) := by
  have h := readAll_items (env := env) (srt := srt) fuel is .file ((itemsText is).length + 1)
    { file := some name, line := 1, level := 1, version := 2 } hok hsafe hfuel (by have := items_length .file is hok; omega) rfl (Nat.le_refl _)
  have h1 : versionLine.isPrefixOf (versionLine ++ itemsText is) = true := by
    rw [List.isPrefixOf_iff_prefix]; exact List.prefix_append ..
  have h2 : (versionLine ++ itemsText is).drop versionLine.length = itemsText is := by simp
  have hf : fs name = some (versionLine ++ itemsText is) := hfile
  unfold loadSamples sampLoad
  rw [hf]
  generalize hc : versionLine ++ itemsText is = c at h1 h2 ⊢
  have hne : c ≠ [] := by rw [← hc]; simp [versionLine]
  cases c with
  | nil => exact absurd rfl hne
  | cons x c =>
    dsimp only
    rw [h1, if_pos rfl, if_neg (by simp), if_neg (by decide), h2]
    change ((readAll env _ fuel .file _ { file := some name, line := 1, level := 1, version := 2 } (itemsText is)).bind _).bind _ = _
    rw [h, R_bind_assoc, R_bind_assoc]
    unfold runOps
    rw [foldlM_append_R, R_bind_assoc]
    refine R_bind_congr _ fun b => ?_
    rw [R.ok_bind', List.foldlM_cons]
    simp only [Bool.not_true, Bool.false_eq_true, if_false]
    change ((optimizeTop srt _).bind _).bind _ = ((pdagOptimize srt b).bind _).bind _
    unfold optimizeTop
    rw [if_pos (by rfl)]
    change (((pdagOptimize srt b).bind _).bind _).bind _ = _
    cases pdagOptimize srt b with
    | ok b' =>
      simp only [R.ok_bind', List.foldlM_nil, pure]
      simp [locAfter, loaded, annotSet, itemsHeight]
    | fail => rfl
    | ub k => rfl
    | oof => rfl

mutual
theorem item_lines_ok {src : Src} {file : Bytes} (hfile : ∀ c ∈ file, c ≠ 0) : ∀ (i : Item) (n : Nat), i.OK fs src →
    ∀ l ∈ i.lines file n, l.what.OK ∧ (∀ c ∈ l.what.text, c ≠ 0) ∧ ∀ c ∈ l.file, c ≠ 0
  | .line l ps, n, h, x, hx => by
    rw [Item.OK] at h
    rw [Item.lines] at hx
    rw [List.mem_singleton] at hx
    subst hx
    refine ⟨h.1, ?_, hfile⟩
    intro c hc
    change c ∈ l.text at hc
    rw [← h.2.join] at hc
    obtain ⟨p, hp, hc⟩ := List.mem_flatten.1 hc
    exact (h.2.chars p hp c hc).2.1
  | .include_ name is, n, h, x, hx => by
    rw [Item.OK] at h
    rw [Item.lines] at hx
    exact items_lines_ok (fun c hc => (h.1.chars c hc).2.1) is 1 h.2.2 x hx
  | .open_ t, n, h, x, hx => by
    rw [Item.lines] at hx
    rw [List.mem_singleton] at hx
    subst hx
    exact ⟨rfl, (by intro c hc; cases hc), hfile⟩
  | .last l, n, h, x, hx => by
    rw [Item.OK] at h
    rw [Item.lines] at hx
    rw [List.mem_singleton] at hx
    subst hx
    exact ⟨h.1, fun c hc => (h.2.2.1 c hc).2.1, hfile⟩
theorem items_lines_ok {src : Src} {file : Bytes} (hfile : ∀ c ∈ file, c ≠ 0) : ∀ (is : List Item) (n : Nat), itemsOK fs src is →
    ∀ l ∈ itemsLines file n is, l.what.OK ∧ (∀ c ∈ l.what.text, c ≠ 0) ∧ ∀ c ∈ l.file, c ≠ 0
  | [], n, _, x, hx => by
    rw [itemsLines] at hx
    cases hx
  | i :: is, n, h, x, hx => by
    rw [itemsOK] at h
    rw [itemsLines] at hx
    rcases List.mem_append.1 hx with hx | hx
    · exact item_lines_ok hfile i n h.1 x hx
    · exact items_lines_ok hfile is _ h.2.2.2 x hx
end

/-- the messages of the lines are about unknown kinds only -/
def DocQuiet (env : Env) : Option Bytes → List RLine → Prop
  | _, [] => True
  | pfx, l :: ls => l.errs env pfx = (match l with | .unknown k _ => [.invalidRecord k] | _ => []) ∧ DocQuiet env (l.nextPrefix pfx) ls

theorem docQuiet_append : ∀ (a c : List RLine) (pfx : Option Bytes),
    DocQuiet env pfx (a ++ c) ↔ DocQuiet env pfx a ∧ DocQuiet env (a.foldl RLine.nextPrefix pfx) c
  | [], c, pfx => ⟨fun h => ⟨trivial, h⟩, fun h => h.2⟩
  | l :: a, c, pfx => by
    show _ ∧ DocQuiet env (l.nextPrefix pfx) (a ++ c) ↔ (_ ∧ DocQuiet env (l.nextPrefix pfx) a) ∧ _
    rw [docQuiet_append a c]
    exact ⟨fun h => ⟨⟨h.1, h.2.1⟩, h.2.2⟩, fun h => ⟨h.1.1, h.1.2, h.2⟩⟩

mutual
theorem item_quiet : ∀ (i : Item) (pfx : Option Bytes) (f : Bytes) (n : Nat), DocQuiet env pfx ((i.lines f n).map (·.what)) → i.errs env pfx = i.reports
  | .line l ps, pfx, f, n, h => by
    rw [Item.lines] at h
    rw [Item.errs]
    have h1 := h.1
    cases l <;> simp only [Item.reports] <;> exact h1
  | .include_ name is, pfx, f, n, h => by
    rw [Item.lines] at h
    rw [Item.errs, Item.reports]
    exact items_quiet is pfx _ _ h
  | .open_ t, pfx, f, n, h => by rw [Item.errs, Item.reports]
  | .last l, pfx, f, n, h => by
    rw [Item.lines] at h
    rw [Item.errs]
    have h1 := h.1
    cases l <;> simp only [Item.reports] <;> exact h1
theorem items_quiet : ∀ (is : List Item) (pfx : Option Bytes) (f : Bytes) (n : Nat), DocQuiet env pfx ((itemsLines f n is).map (·.what)) →
    itemsErrs env pfx is = itemsReports is
  | [], pfx, f, n, h => by rw [itemsErrs, itemsReports]
  | i :: is, pfx, f, n, h => by
    rw [itemsLines, List.map_append, docQuiet_append] at h
    rw [itemsErrs, itemsReports, item_quiet i pfx f n h.1, lines_what i [] f 0 n, items_quiet is _ f _ h.2]
end

theorem defErrs_append : ∀ (a c : List RLine) (pfx : Option Bytes),
    defErrs env pfx (a ++ c) = defErrs env pfx a ++ defErrs env (a.foldl RLine.nextPrefix pfx) c
  | [], c, pfx => rfl
  | l :: a, c, pfx => by
    show _ ++ defErrs env (l.nextPrefix pfx) (a ++ c) = (_ ++ defErrs env (l.nextPrefix pfx) a) ++ _
    rw [defErrs_append a c, List.append_assoc]; rfl

theorem defErrs_length : ∀ (ls : List RLine) (pfx : Option Bytes), (defErrs env pfx ls).length = ls.countP RLine.isDef
  | [], _ => rfl
  | l :: ls, pfx => by
    unfold defErrs
    rw [List.length_append, defErrs_length ls, List.countP_cons, Nat.add_comm]
    cases l.isDef <;> rfl

theorem docMsgs_one (l : RLine) (pfx : Option Bytes) (ms : List (List LoadErr)) : l.errs env pfx = docMsgs [l] (defErrs env pfx [l] ++ ms) := by
  cases l <;> first | rfl | exact (List.append_nil _).symm

mutual
theorem item_msgs : ∀ (i : Item) (pfx : Option Bytes) (f : Bytes) (n : Nat) (ms : List (List LoadErr)),
    i.errs env pfx = i.msgs (defErrs env pfx ((i.lines f n).map (·.what)) ++ ms)
  | .line l ps, pfx, f, n, ms => by rw [Item.lines, Item.errs, Item.msgs]; exact docMsgs_one l pfx ms
  | .include_ name is, pfx, f, n, ms => by rw [Item.lines, Item.errs, Item.msgs]; exact items_msgs is pfx _ _ ms
  | .open_ t, pfx, f, n, ms => by rw [Item.errs, Item.msgs]
  | .last l, pfx, f, n, ms => by rw [Item.lines, Item.errs, Item.msgs]; exact docMsgs_one l pfx ms
theorem items_msgs : ∀ (is : List Item) (pfx : Option Bytes) (f : Bytes) (n : Nat) (ms : List (List LoadErr)),
    itemsErrs env pfx is = itemsMsgs is (defErrs env pfx ((itemsLines f n is).map (·.what)) ++ ms)
  | [], pfx, f, n, ms => by rw [itemsErrs, itemsMsgs]
  | i :: is, pfx, f, n, ms => by
    have hlen : ((i.lines [] 0).countP fun l => l.what.isDef) = (defErrs env pfx ((i.lines f n).map (·.what))).length := by
      rw [defErrs_length, lines_what i f [] n 0, List.countP_map]; rfl
    rw [itemsErrs, itemsMsgs, itemsLines, List.map_append, defErrs_append, List.append_assoc, ← item_msgs i pfx f n, hlen, List.drop_left,
      lines_what i [] f 0 n, ← items_msgs is _ f _ ms]
end

/-- the messages of a rule base -/
theorem items_errs (is : List Item) (f : Bytes) (n : Nat) {ls : List RLine} (hls : (itemsLines f n is).map (·.what) = ls) :
    itemsErrs env none is = itemsMsgs is (defErrs env none ls) := by
  have := items_msgs (env := env) is none f n []
  rwa [List.append_nil, hls] at this

/-- What normalising messages with the loaded rule base yields. -/
def NormalisesAs (env : Env) (ls : List RLine) (rules : List RuleD) (st : LoadSt) : Prop :=
  ∀ (opts : Nat) (s : Bytes), Tame s →
    (∀ r ∈ rules, ∀ p ∈ r.parts, ∀ off, off ≤ s.length → p.1.type.InScope env p.1.conf s off (fieldName p.1.conf).isSome) →
    (opts.testBit 3 = true → ∀ r ∈ rules, r.Shows env) →
    ∀ (stats : NodeId → Stats) (json0 : Obj), ∃ N, ∀ fuel, N ≤ fuel → ∃ res,
      normalize env fuel (st.b.toCtx opts st.annots) stats s json0 = .ok res ∧ DocOutcome env ls rules opts s json0 res.ok res.json

/-- **C78** A rule base with included files and lines which are broken inside of field descriptions, from the text to the event: see `DocOutcome`. The rules carry
the names of the files they stand in (`--NO-FILE--` for the string itself) and the line numbers there.
The last line may lack its newline; then it is said to be the line before (`C78_last_line_number_violated`).
Rules may break off before a field description that is not well formed (`RuleD.breaks`): they are reported and match nothing (`itemsMsgs`, `DocOutcome`).
Missing: user-defined types, `alternative`, `repeat`; more than 255 different ways to go on at a point; messages and fields out of scope (C06, C75); lines of 64 KiB and more. -/
theorem C78_string_end_to_end_partial (he : env.TokOK) (is : List Item) (hok : itemsOK fs .string is) (ls : List RLine)
    (hls : (itemsLines (bs! "--NO-FILE--") 0 is).map (·.what) = ls) (hext : ExtendOK none ls) (hty : ∀ l ∈ ls, ∀ nm t, l ≠ .type nm t)
    (rules : List RuleD)
    (hrules : docRules none (itemsLines (bs! "--NO-FILE--") 0 is) = rules.map fun r => (r.tags, r.text, r.file, r.line))
    (hrok : ∀ r ∈ rules, r.OK env) (hlen : Narrow (rules.map (·.toks env))) :
    ∃ st, (∀ fuel, itemsSize is ≤ fuel → loadSamplesFromString env srt fs fuel {} (itemsText is) = .ok (st, true)) ∧ st.version = 2 ∧
      st.errs = itemsMsgs is (rules.map RuleD.msgs) ∧
      NormalisesAs env ls rules st := by
  have hl := items_lines_ok (fs := fs) (src := .string) (file := bs! "--NO-FILE--") (by decide) is 0 hok
  have hl' : ∀ l ∈ ls, l.OK ∧ ∀ c ∈ l.text, c ≠ 0 := by
    intro l h
    rw [← hls] at h
    obtain ⟨x, hx, rfl⟩ := List.mem_map.1 h
    exact ⟨(hl x hx).1, (hl x hx).2.1⟩
  obtain ⟨b, h1, hsafe, herrs, h2⟩ := doc_core (srt := srt) he _ ls hls (fun l h => (hl' l h).1) (fun l h => (hl' l h).2) hext hty rules hrules hrok (by
    intro r hr
    obtain ⟨l, g1, g2⟩ := docRules_file _ none (r.tags, r.text, r.file, r.line) (by rw [hrules]; exact List.mem_map.2 ⟨r, hr, rfl⟩)
    change l.file = r.file at g2
    rw [← g2]
    exact (hl l g1).2.2) hlen
  refine ⟨_, fun fuel hfuel => by rw [C78_string is hok (by rw [hls]; exact hsafe) fuel hfuel, h1, R.ok_bind'], rfl, ?_, ?_⟩
  · rw [← herrs]; exact items_errs is _ _ hls
  · rw [hls]; exact h2

/-- **C78** the same for files -/
theorem C78_file_end_to_end_partial (he : env.TokOK) (name : Bytes) (hname : ∀ c ∈ name, c ≠ 0) (is : List Item)
    (hfile : fs name = some (bs! "version=2\n" ++ itemsText is)) (hok : itemsOK fs .file is) (ls : List RLine)
    (hls : (itemsLines name 1 is).map (·.what) = ls) (hext : ExtendOK none ls) (hty : ∀ l ∈ ls, ∀ nm t, l ≠ .type nm t)
    (rules : List RuleD)
    (hrules : docRules none (itemsLines name 1 is) = rules.map fun r => (r.tags, r.text, r.file, r.line))
    (hrok : ∀ r ∈ rules, r.OK env) (hlen : Narrow (rules.map (·.toks env))) :
    ∃ st, (∀ fuel, itemsSize is ≤ fuel → loadSamples env srt fs (fuel + 1) {} name = .ok (st, true)) ∧ st.version = 2 ∧
      st.errs = itemsMsgs is (rules.map RuleD.msgs) ∧
      NormalisesAs env ls rules st := by
  have hl := items_lines_ok (fs := fs) (src := .file) (file := name) hname is 1 hok
  have hl' : ∀ l ∈ ls, l.OK ∧ ∀ c ∈ l.text, c ≠ 0 := by
    intro l h
    rw [← hls] at h
    obtain ⟨x, hx, rfl⟩ := List.mem_map.1 h
    exact ⟨(hl x hx).1, (hl x hx).2.1⟩
  obtain ⟨b, h1, hsafe, herrs, h2⟩ := doc_core (srt := srt) he _ ls hls (fun l h => (hl' l h).1) (fun l h => (hl' l h).2) hext hty rules hrules hrok (by
    intro r hr
    obtain ⟨l, g1, g2⟩ := docRules_file _ none (r.tags, r.text, r.file, r.line) (by rw [hrules]; exact List.mem_map.2 ⟨r, hr, rfl⟩)
    change l.file = r.file at g2
    rw [← g2]
    exact (hl l g1).2.2) hlen
  refine ⟨_, fun fuel hfuel => by rw [C78_file name is hfile hok (by rw [hls]; exact hsafe) fuel hfuel, h1, R.ok_bind'], rfl, ?_, ?_⟩
  · rw [← herrs]; exact items_errs is _ _ hls
  · rw [hls]; exact h2

end

/-- **C78, violated** for the last line, if it has no newline: all of the above holds, but rules in such a line are said to stand in the line before. In particular the location of
a rule which is all of a rule base given as a string without newline is line 0. -/
theorem C78_last_line_number_violated {env : Env} {srt : Sorter} {fs : Bytes → Option Bytes} (he : env.TokOK) (r : RuleD) (htags : ∀ w ∈ r.tags, TagOK w) (htext : r.text ≠ [])
    (hline : LineOK (bs! "rule=" ++ tagText r.tags ++ bs! ":" ++ r.text)) (hfile : r.file = bs! "--NO-FILE--") (hn : r.line = 0)
    (hf : ∀ p ∈ r.parts, p.1.OK env) (hw : r.breaks = none) :
    ∃ st, (∀ fuel, (bs! "rule=" ++ tagText r.tags ++ bs! ":" ++ r.text).length ≤ fuel →
        loadSamplesFromString env srt fs fuel {} (bs! "rule=" ++ tagText r.tags ++ bs! ":" ++ r.text) = .ok (st, true)) ∧ st.errs = [] ∧
      ∀ (s : Bytes), Tame s → (∀ p ∈ r.parts, ∀ off, off ≤ s.length → p.1.type.InScope env p.1.conf s off (fieldName p.1.conf).isSome) →
        (∃ vs, r.Matches env s vs) → ∀ (stats : NodeId → Stats), ∃ N, ∀ fuel, N ≤ fuel → ∃ res,
          normalize env fuel (st.b.toCtx 16 st.annots) stats s [] = .ok res ∧ res.ok = true ∧
          Obj.get res.json (bs! "metadata") = some (.obj [(bs! "rule", .obj [(bs! "location",
            .obj [(bs! "file", .str (bs! "--NO-FILE--")), (bs! "line", .int 0)])])]) := by
  have hitems : itemsText [Item.last (.rule r.tags r.text)] = bs! "rule=" ++ tagText r.tags ++ bs! ":" ++ r.text := by
    simp [itemsText, Item.text, RLine.text]
  have hlines : itemsLines (bs! "--NO-FILE--") 0 [Item.last (.rule r.tags r.text)] = [⟨bs! "--NO-FILE--", 0, .rule r.tags r.text⟩] := by
    simp [itemsLines, Item.lines]
  have hok : itemsOK fs .string [Item.last (.rule r.tags r.text)] := by
    simp only [itemsOK, Item.OK, and_true, reduceCtorEq, false_implies, implies_true, true_and]
    exact ⟨⟨htags, htext⟩, rfl, hline⟩
  obtain ⟨st, h1, _, h2, h3⟩ := C78_string_end_to_end_partial (srt := srt) (fs := fs) he _ hok [.rule r.tags r.text] (by rw [hlines]; rfl) ⟨(fun t h => by cases h), trivial⟩
    (by intro l hl nm t h; rw [List.mem_singleton] at hl; rw [hl] at h; cases h) [r] (by rw [hlines, ← hn]; simp [docRules, hfile])
    (by intro x hx; rw [List.mem_singleton] at hx; subst hx; exact ⟨hf, fun y hy => by rw [hw] at hy; cases hy⟩) (narrow_of_length (by simp))
  rw [hitems] at h1
  refine ⟨st, fun fuel hfuel => h1 fuel ?_, ?_, ?_⟩
  · simpa [itemsSize, Item.size, RLine.text] using hfuel
  · rw [h2]; simp [itemsMsgs, Item.msgs, docMsgs, RuleD.msgs, hw]
  intro s hs hsc hm stats
  obtain ⟨N, hN⟩ := h3 16 s hs (by intro x hx; rw [List.mem_singleton] at hx; subst hx; exact hsc) (fun h => absurd h (by decide)) stats []
  refine ⟨N, fun fuel hfuel => ?_⟩
  obtain ⟨res, hres, ho⟩ := hN fuel hfuel
  have hrok : res.ok = true := ho.iff.2 ⟨r, List.mem_singleton.2 rfl, hm⟩
  refine ⟨res, hres, hrok, ?_⟩
  obtain ⟨r', q, j, vs, _, hq, _, _, _, _, _, hj, _⟩ := ho.match_ hrok
  have hqr : q = r := List.mem_singleton.1 (List.mem_of_getElem? hq)
  subst hqr
  rw [hj]
  unfold docEvent
  rw [hfile, hn]
  simp only [show (16 : Nat).testBit 2 = false from by decide, show (16 : Nat).testBit 3 = false from by decide, show (16 : Nat).testBit 4 = true from by decide]
  simp only [Bool.false_eq_true, if_false, if_true, List.nil_append, reduceCtorEq]
  exact Obj.get_add_self ..

namespace Ex

/-- a file which includes another one, with a rule in two pieces -/
def subItems : List Item := [.line (.skip (bs! "# sub")) [bs! "# sub"], .line (.extend (bs! "b ")) [bs! "extendprefix=b "],
  .open_ (bs! "rule=:100%"), .line (.skip []) [[]], .line (.rule [] (bs! "%w:word%")) [bs! "rule=:%w:w", bs! "ord%"]]
def mainItems : List Item := [.line (.prefix_ (bs! "a ")) [bs! "prefix=a "], .include_ (bs! "sub.rb") subItems,
  .line (.rule [bs! "num"] (bs! "c %n:number%")) [bs! "rule=num:c %n:num", bs! "ber%"]]
def incFs (n : Bytes) : Option Bytes :=
  if n = bs! "sub.rb" then some (bs! "version=2\n# sub\nextendprefix=b \nrule=:100%\n\nrule=:%w:w\nord%\n")
  else if n = bs! "main.rb" then some (bs! "version=2\nprefix=a \ninclude=sub.rb\nrule=num:c %n:num\nber%\n") else none

theorem pieces_one {src : Src} {t : Bytes} (h : LineOK t) : Pieces src [t] t where
  join := by simp
  nonempty := by simp
  chars := by intro p hp; rw [List.mem_singleton] at hp; subst hp; exact h.1
  comment := fun _ => rfl
  short := fun hc => by
    rcases h.2 with h | h
    · rw [h] at hc; cases hc
    · exact h.2
  opened := fun i hi => by simp at hi
  closed := fun hc => by
    rcases h.2 with h | h
    · rw [h] at hc; cases hc
    · exact h.1
  file := fun _ p hp => by cases hp

theorem subItems_ok : itemsOK incFs .file subItems := by
  simp only [subItems, itemsOK, Item.OK, and_true, reduceCtorEq, false_implies, implies_true, true_and]
  refine ⟨⟨rfl, pieces_one (by decide +kernel)⟩, ⟨trivial, pieces_one (by decide +kernel)⟩, (by decide +kernel), fun t _ => ?_, ⟨rfl, pieces_one (by decide +kernel)⟩, ⟨by simp, by decide⟩, ?_⟩
  · exact ⟨[[]], bs! ":%w:w\nord%\n", by decide +kernel, by decide⟩
  refine ⟨by decide +kernel, by decide, by decide, by decide, fun _ => by decide, fun i hi => ?_, fun _ => by decide, fun _ => by decide⟩
  have : i = 0 := by simp at hi; omega
  subst this; decide

theorem mainItems_ok : itemsOK incFs .file mainItems := by
  simp only [mainItems, itemsOK, Item.OK, and_true, reduceCtorEq, false_implies, implies_true, true_and]
  refine ⟨⟨trivial, pieces_one (by decide +kernel)⟩, ⟨⟨by decide, by decide, by decide, by decide⟩, by decide +kernel, subItems_ok⟩, ⟨by simp [TagOK], by decide⟩, ?_⟩
  refine ⟨by decide +kernel, by decide, by decide, by decide, fun _ => by decide, fun i hi => ?_, fun _ => by decide, fun _ => by decide⟩
  have : i = 0 := by simp at hi; omega
  subst this; decide

def mainLocs : List Loc := [⟨bs! "main.rb", 2, .prefix_ (bs! "a ")⟩, ⟨bs! "sub.rb", 2, .skip (bs! "# sub")⟩, ⟨bs! "sub.rb", 3, .extend (bs! "b ")⟩,
  ⟨bs! "sub.rb", 4, .skip []⟩, ⟨bs! "sub.rb", 5, .skip []⟩, ⟨bs! "sub.rb", 7, .rule [] (bs! "%w:word%")⟩, ⟨bs! "main.rb", 5, .rule [bs! "num"] (bs! "c %n:number%")⟩]

/-- lines and locations -/
theorem mainItems_lines : itemsLines (bs! "main.rb") 1 mainItems = mainLocs := by
  simp [mainItems, subItems, itemsLines, Item.lines, Item.height, mainLocs]

/-- the rules -/
def rulesM : List RuleD := [
  { tags := [], lit := bs! "a b ", parts := [(fWord, [])], file := bs! "sub.rb", line := 7 },
  { tags := [bs! "num"], lit := bs! "a b c ", parts := [(fNum, [])], file := bs! "main.rb", line := 5 }]

theorem msgM_tame : Tame (bs! "a b c 12") := by
  refine ⟨by decide, fun i => ?_, by decide⟩
  have := (List.takeWhile_prefix (l := (bs! "a b c 12").drop i) isDigit).length_le
  simp at this
  omega

/-- The hypotheses are met: the file is loaded, and the second rule matches its message, which is located in line 5 of `main.rb`. -/
example (srt : Sorter) : ∃ st, loadSamples env srt incFs 1001 {} (bs! "main.rb") = .ok (st, true) ∧ st.errs = [.runaway] ∧ ∃ N, ∀ fuel, N ≤ fuel →
    ∃ (res : Res) (vs : List (Option Bytes × Option Json)), normalize env fuel (st.b.toCtx 16 st.annots) (fun _ => {}) (bs! "a b c 12") [] = .ok res ∧ res.ok = true ∧
      rulesM[1].Matches env (bs! "a b c 12") vs ∧ res.json = docEvent env (mainLocs.map (·.what)) 16 rulesM[1] rulesM[1] vs (bs! "a b c 12") [] := by
  have hrM : ∀ r ∈ rulesM, ∀ p ∈ r.parts, p.1 = fNum ∨ p.1 = fWord := by
    intro r hr p hp
    simp only [rulesM, List.mem_cons, List.not_mem_nil, or_false] at hr
    rcases hr with rfl | rfl <;> simp only [List.mem_cons, List.not_mem_nil, or_false] at hp <;> subst hp
    · exact .inr rfl
    · exact .inl rfl
  have hbM : ∀ r ∈ rulesM, r.breaks = none := by
    intro r hr
    simp only [rulesM, List.mem_cons, List.not_mem_nil, or_false] at hr
    rcases hr with rfl | rfl <;> rfl
  obtain ⟨st, hl, _, her, hn⟩ := C78_file_end_to_end_partial (srt := srt) (fs := incFs) Ex.tokEnv (bs! "main.rb") (by decide) mainItems (by decide +kernel) mainItems_ok
    (mainLocs.map (·.what)) (by rw [mainItems_lines]) (by simp [mainLocs, ExtendOK, RLine.nextPrefix]) (by
      intro l hl nm t h
      subst h
      simp [mainLocs] at hl) rulesM (by rw [mainItems_lines]; decide +kernel)
    (by
      intro r hr
      refine ⟨fun p hp => ?_, fun x hx => by rw [hbM r hr] at hx; cases hx⟩
      rcases hrM r hr p hp with h | h
      · rw [h]; exact fNum_ok
      · rw [h]; exact fWord_ok) (narrow_of_length (by decide))
  refine ⟨st, hl 1000 (by simp [mainItems, subItems, itemsSize, Item.size, RLine.text, tagText]), by rw [her]; decide +kernel, ?_⟩
  obtain ⟨N, hN⟩ := hn 16 (bs! "a b c 12") msgM_tame (by
    intro r hr p hp off _
    rcases hrM r hr p hp with h | h <;> rw [h] <;> trivial) (fun h => absurd h (by decide)) (fun _ => {}) []
  refine ⟨N, fun fuel hf => ?_⟩
  obtain ⟨res, hres, ho⟩ := hN fuel hf
  have hm : rulesM[1].Matches env (bs! "a b c 12") [(some (bs! "n"), some (.str (bs! "12")))] :=
    ⟨rfl, bs! "12", by decide, .cons (n := 2) (t' := []) ⟨⟨by decide, ⟨by decide, by decide, fun c h => by cases h⟩, by decide⟩, rfl⟩ (by decide) .nil⟩
  have hok : res.ok = true := ho.iff.2 ⟨_, List.mem_cons_of_mem _ (List.mem_cons_self ..), _, hm⟩
  have honly : ∀ r ∈ rulesM, ∀ vs, r.Matches env (bs! "a b c 12") vs → r = rulesM[1] := by
    intro r hr vs h
    simp only [rulesM, List.mem_cons, List.not_mem_nil, or_false] at hr
    rcases hr with rfl | rfl
    · obtain ⟨_, t, h, hfit⟩ := h
      have ht : t = bs! "c 12" := by simpa [litMeaning, env] using h.symm
      subst ht
      cases hfit with
      | @cons _ t' l f n v ps vs hmean hdrop hrest =>
        cases hrest
        obtain ⟨⟨h1, h2, h3⟩, _⟩ := hmean
        exfalso
        have hn : n ≤ 4 := h2
        rcases (by omega : n = 1 ∨ n = 2 ∨ n = 3 ∨ n = 4) with rfl | rfl | rfl | rfl
        · exact absurd (congrArg List.length hdrop) (by decide)
        · exact absurd (h3.1 32 (by decide)) (by decide)
        · exact absurd (h3.1 32 (by decide)) (by decide)
        · exact absurd (h3.1 32 (by decide)) (by decide)
    · rfl
  obtain ⟨r, q, j, vs, hr, hq, hrm, ⟨us, hqm⟩, _, _, _, hj, _⟩ := ho.match_ hok
  cases honly r hr vs hrm
  cases honly q (List.mem_of_getElem? hq) us hqm
  exact ⟨res, vs, hres, hok, hrm, hj⟩

example : docEvent env (mainLocs.map (·.what)) 16 rulesM[1] rulesM[1] [(some (bs! "n"), some (.str (bs! "12")))] (bs! "a b c 12") [] =
    [(bs! "n", .str (bs! "12")), (bs! "event.tags", .arr [.str (bs! "num")]), (bs! "metadata", .obj [(bs! "rule", .obj [
       (bs! "location", .obj [(bs! "file", .str (bs! "main.rb")), (bs! "line", .int 5)])])])] := by decide +kernel

/-- `rule=t:x %n:number%` -/
def ruleL : RuleD := { tags := [bs! "t"], lit := bs! "x ", parts := [(fNum, [])], line := 0 }

example (srt : Sorter) : ∃ st, loadSamplesFromString env srt incFs 100 {} (bs! "rule=t:x %n:number%") = .ok (st, true) ∧ st.errs = [] ∧
    ∃ N, ∀ fuel, N ≤ fuel → ∃ res, normalize env fuel (st.b.toCtx 16 st.annots) (fun _ => {}) (bs! "x 12") [] = .ok res ∧ res.ok = true ∧
      Obj.get res.json (bs! "metadata") = some (.obj [(bs! "rule", .obj [(bs! "location", .obj [(bs! "file", .str (bs! "--NO-FILE--")), (bs! "line", .int 0)])])]) := by
  obtain ⟨st, h1, h2, h3⟩ := C78_last_line_number_violated (srt := srt) (fs := incFs) Ex.tokEnv ruleL (by simp [ruleL, TagOK]) (by decide) (by decide +kernel) rfl rfl
    (by intro p hp; cases List.mem_singleton.1 hp; exact fNum_ok) rfl
  refine ⟨st, h1 100 (by decide +kernel), h2, h3 (bs! "x 12") ?_ ?_ ?_ _⟩
  · refine ⟨by decide, fun i => ?_, by decide⟩
    have := (List.takeWhile_prefix (l := (bs! "x 12").drop i) isDigit).length_le
    simp at this
    omega
  · intro p hp off _
    cases List.mem_singleton.1 hp
    trivial
  · exact ⟨_, rfl, bs! "12", by decide, .cons (n := 2) (t' := []) ⟨⟨by decide, ⟨by decide, by decide, fun c h => by cases h⟩, by decide⟩, rfl⟩ (by decide) .nil⟩

end Ex
end LN
