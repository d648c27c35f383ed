import Verif.Proofs.SampTerm
import Verif.Proofs.SampErrs
import Verif.Props.Rules
/-
C48-C54: reading rule bases.
-/
set_option autoImplicit false
namespace LN


namespace Ex
/-- load a string into a fresh context -/
def load (text : Bytes) (fuel : Nat := 1000) : R (LoadSt × Bool) :=
  loadSamplesFromString env stableSorter (fun _ => none) fuel {} text

/-- load a file with this content into a fresh context -/
def loadFile (text : Bytes) (fuel : Nat := 1000) : R (LoadSt × Bool) :=
  loadSamples env stableSorter (fun _ => some text) fuel {} (bs! "f")

/-- load, then normalize; the result, with the error messages of the loader -/
def run (ld : R (LoadSt × Bool)) (msg : Bytes) : R (List LoadErr × Bool × Obj) :=
  ld.bind fun r => (normalize env 40 (r.1.b.toCtx 0 r.1.annots) stats0 msg []).bind fun x => .ok (r.1.errs, x.ok, x.json)
end Ex

variable {env : Env} {srt : Sorter} {fs : Bytes → Option Bytes}

/-! ### C52 and C54: lines -/

/-- what `ln_loadSamplesFromString` does before the first line -/
def LoadSt.start (st : LoadSt) (name : Bytes) (line : Nat) : LoadSt :=
  { st with file := some name, line := line, level := st.level + 1, version := 2 }

/-- what the load functions do behind the last line: optimise if this is no include file, forget
the file name -/
def LoadSt.finish (srt : Sorter) (r : LoadSt × Bool) : R (LoadSt × Bool) :=
  (if r.2 then (optimizeTop srt r.1).bind fun st => .ok (st, true) else .ok (r.1, false)).bind fun r =>
    .ok ({ r.1 with level := r.1.level - 1, file := none }, r.2)

theorem textOf_length (ls : List Bytes) (last : Bytes) : ls.length < (textOf ls last).length + 1 := by
  induction ls with
  | nil => simp
  | cons l ls ih => simp [textOf] at ih ⊢; omega

/-- **C52** Loading a string means: each line, in order, except comments and empty lines, is processed; newlines and nothing
else separate lines. (All texts made of lines which do not end inside of a field description;
`proc` is what a single line does.) -/
theorem C52_string_lines (ls : List Bytes) (last : Bytes) (hls : ∀ l ∈ ls, LineOK l) (hlast : LineOK last)
    (fuel : Nat) (st : LoadSt) :
    loadSamplesFromString env srt fs fuel st (textOf ls last) =
      (procText (processSamp env (loadSamples env srt fs fuel) fuel) (st.start (bs! "--NO-FILE--") 0) ls last).bind
        (LoadSt.finish srt) := by
  unfold loadSamplesFromString sampLoadFromString
  rw [readAll_text env _ fuel .string last hlast ls _ _ hls (textOf_length ls last), R_bind_assoc]
  refine R_bind_congr _ fun r => ?_
  obtain ⟨r1, r2⟩ := r
  unfold LoadSt.finish
  cases r2 <;> rfl

/-- **C52** the same for files, whose first line is `version=2` -/
theorem C52_file_lines (ls : List Bytes) (last : Bytes) (hls : ∀ l ∈ ls, LineOK l) (hlast : LineOK last)
    (fuel : Nat) (st : LoadSt) (hv : st.version = 0 ∨ st.version = 2) (f : Bytes)
    (hfile : fs f = some (versionLine ++ textOf ls last)) :
    loadSamples env srt fs (fuel + 1) st f =
      (procText (processSamp env (loadSamples env srt fs fuel) fuel) (st.start f 1) ls last).bind
        (LoadSt.finish srt) := by
  have h1 : versionLine.isPrefixOf (versionLine ++ textOf ls last) = true := by
    rw [List.isPrefixOf_iff_prefix]; exact List.prefix_append ..
  have h2 : (versionLine ++ textOf ls last).drop versionLine.length = textOf ls last := by simp
  unfold loadSamples sampLoad
  rw [hfile]
  generalize hc : versionLine ++ textOf ls last = c at h1 h2 ⊢
  have hne : c ≠ [] := by rw [← hc]; simp [versionLine]
  cases c with
  | nil => exact absurd rfl hne
  | cons x c =>
    dsimp only
    rw [h1, if_pos rfl, if_neg (by rcases hv with h | h <;> simp [h]), if_neg (by decide), h2]
    rw [readAll_text env _ fuel .file last hlast ls _ _ hls (textOf_length ls last), R_bind_assoc]
    refine R_bind_congr _ fun r => ?_
    obtain ⟨r1, r2⟩ := r
    unfold LoadSt.finish
    cases r2 <;> rfl

/-- the rule base the examples load -/
def Ex.lines1 : List Bytes := [bs! "# a comment, 100% ignored", [], bs! "rule=num,x:a %n:number%", bs! "annotate=num:+k=\"v\""]

instance (l : Bytes) : Decidable (LineOK l) := inferInstanceAs (Decidable (_ ∧ _))

/-- the hypotheses of `C52_string_lines` and `C52_file_lines` hold for this rule base; it is loaded -/
example : (∀ l ∈ Ex.lines1, LineOK l) ∧ LineOK [] ∧ Ex.run (Ex.load (textOf Ex.lines1 [])) (bs! "a 7") =
      .ok ([], true, [(bs! "n", .str (bs! "7")), (bs! "event.tags", .arr [.str (bs! "num"), .str (bs! "x")]), (bs! "k", .str (bs! "v"))]) ∧
    Ex.run (Ex.load (textOf Ex.lines1 [])) (bs! "a 7") = Ex.run (Ex.loadFile (versionLine ++ textOf Ex.lines1 [])) (bs! "a 7") := by
  refine ⟨by decide +kernel, by decide +kernel, by decide +kernel, by decide +kernel⟩

/-- two texts agree but for the contents of comments and empty lines -/
inductive SameLines : List Bytes → List Bytes → Prop where
  | nil : SameLines [] []
  | same {l ls ls'} (h : SameLines ls ls') : SameLines (l :: ls) (l :: ls')
  | skip {l l' ls ls'} (hl : skipped l = true) (hl' : skipped l' = true) (h : SameLines ls ls') :
      SameLines (l :: ls) (l' :: ls')

/-- **C52** What stands in comments has no influence at all, not even on the recorded line numbers. -/
theorem C52_comments_ignored {ls ls' : List Bytes} (h : SameLines ls ls') (hls : ∀ l ∈ ls, LineOK l)
    (hls' : ∀ l ∈ ls', LineOK l) (fuel : Nat) (st : LoadSt) :
    loadSamplesFromString env srt fs fuel st (textOf ls []) = loadSamplesFromString env srt fs fuel st (textOf ls' []) := by
  have h0 : LineOK [] := ⟨by simp, .inr (by simp)⟩
  rw [C52_string_lines ls [] hls h0, C52_string_lines ls' [] hls' h0]
  have key : ∀ (st : LoadSt), procLines (processSamp env (loadSamples env srt fs fuel) fuel) st ls =
      procLines (processSamp env (loadSamples env srt fs fuel) fuel) st ls' := by
    clear hls hls'
    induction h with
    | nil => intro st; rfl
    | same h ih =>
      intro st
      unfold procLines
      rw [ih]
      split
      · rfl
      · refine R_bind_congr _ fun r => ?_
        rw [ih]
    | skip hl hl' h ih =>
      intro st
      unfold procLines
      rw [if_pos hl, if_pos hl', ih]
  unfold procText
  rw [key]

example : SameLines [bs! "# one", bs! "rule=:a", []] [bs! "", bs! "rule=:a", bs! "# two"] :=
  .skip rfl rfl (.same (.skip rfl rfl .nil))

/-- **C54** (contents without NUL and byte 255, no line ending inside of a field description, no line of 65536 bytes
or more; missing: other contents) Loading a file that starts with `version=2` and loading
the rest of its contents as a string do the same, except that the file name and line numbers
recorded with the rules differ: the string counts as file `--NO-FILE--` and has no version line.
(Stated with `proc`, the processing of one line, and the name and line number to start with.) -/
theorem C54_string_is_file_partial (ls : List Bytes) (last : Bytes) (hls : ∀ l ∈ ls, LineOK l) (hlast : LineOK last)
    (fuel : Nat) (st : LoadSt) (hv : st.version = 0 ∨ st.version = 2) (f : Bytes)
    (hfile : fs f = some (versionLine ++ textOf ls last)) :
    ∃ load : Bytes → Nat → R (LoadSt × Bool),
      loadSamples env srt fs (fuel + 1) st f = load f 1 ∧
      loadSamplesFromString env srt fs fuel st (textOf ls last) = load (bs! "--NO-FILE--") 0 :=
  ⟨fun name line => (procText (processSamp env (loadSamples env srt fs fuel) fuel) (st.start name line) ls last).bind
      (LoadSt.finish srt), C52_file_lines ls last hls hlast fuel st hv f hfile, C52_string_lines ls last hls hlast fuel st⟩

/-- **C54 violated** A field description may contain line breaks. If less than five bytes follow such a line break the
file loader drops the rule; the string loader accepts it. -/
theorem C54_violated :
    Ex.run (Ex.load (bs! "rule=:x%n:number\n%\n")) (bs! "x1") = .ok ([], true, [(bs! "n", .str (bs! "1"))]) ∧
    Ex.run (Ex.loadFile (versionLine ++ bs! "rule=:x%n:number\n%\n")) (bs! "x1") =
      .ok ([.invalidRecord (bs! "%")], false, [(bs! "originalmsg", .str (bs! "x1")), (bs! "unparsed-data", .str (bs! "x1"))]) := by
  refine ⟨by decide +kernel, by decide +kernel⟩

theorem readLine_long (src : Src) (rest : Bytes) : ∀ (t : Bytes) (line : Nat) (acc : Bytes) (inP : Bool) (errs : List LoadErr), t ≠ [] →
    (∀ c ∈ t, c ≠ ch! '\n' ∧ c ≠ 0 ∧ c ≠ 255) → (acc = [] → isComment t = false) → acc.length + t.length = 65536 →
    readLine src (t ++ rest) line acc inP false errs = ⟨none, rest, false, line, errs ++ [.tooLong]⟩
  | [], line, acc, inP, errs, hne, _, _, _ => absurd rfl hne
  | c :: t, line, acc, inP, errs, _, h, hcm, hlen => by
    have hc := h c (List.mem_cons_self ..)
    have hcm' : ¬(c = ch! '#' ∧ acc = []) := by
      rintro ⟨rfl, ha⟩
      exact absurd (hcm ha) (by simp [isComment])
    simp only [List.length_cons] at hlen
    rw [List.cons_append]
    conv => lhs; unfold readLine
    rw [if_neg (by rw [src_not_eof src hc.2.1 hc.2.2]; simp), if_neg (by decide), if_neg hc.1, if_neg hcm']
    dsimp only
    cases t with
    | nil =>
      rw [if_pos (by unfold maxLine; simp at hlen; omega)]
      rfl
    | cons d t =>
      rw [if_neg (by unfold maxLine; simp only [List.length_cons] at hlen; omega)]
      exact readLine_long src rest (d :: t) line (acc ++ [c]) _ errs (by simp) (fun x hx => h x (List.mem_cons_of_mem _ hx)) (by simp)
        (by simp only [List.length_append, List.length_cons, List.length_nil] at hlen ⊢; omega)

/-- **C52, violated** for lines of 65536 bytes and more: the first 65536 bytes of such a line (here `p`) are dropped and reported, but what follows them in the same line is
taken for a line of its own. -/
theorem C52_long_line_violated (p : Bytes) (hlen : p.length = 65536) (hp : ∀ c ∈ p, c ≠ ch! '\n' ∧ c ≠ 0 ∧ c ≠ 255) (hcm : isComment p = false)
    (ls : List Bytes) (last : Bytes) (hls : ∀ l ∈ ls, LineOK l) (hlast : LineOK last) (fuel : Nat) (st : LoadSt) :
    loadSamplesFromString env srt fs fuel st (p ++ textOf ls last) =
      (procText (processSamp env (loadSamples env srt fs fuel) fuel) ((st.start (bs! "--NO-FILE--") 0).err .tooLong) ls last).bind
        (LoadSt.finish srt) := by
  unfold loadSamplesFromString sampLoadFromString
  have hl : (p ++ textOf ls last).length + 1 = (p.length + (textOf ls last).length) + 1 := by rw [List.length_append]
  rw [hl, readAll_succ, readLine_long .string _ p _ [] false [] (by rintro rfl; cases hlen) hp (fun _ => hcm) (by simpa using hlen)]
  simp only [afterLine, R.ok_bind', Bool.not_true, Bool.false_eq_true, if_false, List.nil_append]
  rw [readAll_text env _ fuel .string last hlast ls _ _ hls (by have := textOf_length ls last; omega), R_bind_assoc]
  refine R_bind_congr _ fun r => ?_
  obtain ⟨r1, r2⟩ := r
  unfold LoadSt.finish
  cases r2 <;> rfl

/-- the hypotheses are met: behind 65536 `x` a rule -/
example (fuel : Nat) (st : LoadSt) : loadSamplesFromString env srt fs fuel st (List.replicate 65536 (ch! 'x') ++ bs! "rule=:a") =
    (procText (processSamp env (loadSamples env srt fs fuel) fuel) ((st.start (bs! "--NO-FILE--") 0).err .tooLong) [] (bs! "rule=:a")).bind
        (LoadSt.finish srt) :=
  C52_long_line_violated (List.replicate 65536 (ch! 'x')) (List.length_replicate ..) (by intro c hc; rw [(List.mem_replicate.1 hc).2]; decide)
    (by rw [isComment, List.head?_replicate]; decide) [] (bs! "rule=:a") (by intro l hl; cases hl) (by decide) fuel st

theorem readLine_cut (rest : Bytes) : ∀ (t : Bytes) (line : Nat) (acc : Bytes) (inP : Bool) (errs : List LoadErr),
    (∀ c ∈ t, c ≠ ch! '\n' ∧ c ≠ 0 ∧ c ≠ 255) → (acc = [] → isComment t = false) → acc.length + t.length < 65536 →
    readLine .string (t ++ 255 :: rest) line acc inP false errs = ⟨if acc ++ t = [] then none else some (acc ++ t), rest, true, line, errs⟩
  | [], line, acc, inP, errs, _, _, _ => by
    rw [List.nil_append, List.append_nil]
    conv => lhs; unfold readLine
    rw [if_pos (by decide), if_neg (by decide)]
    simp [Src.afterEof]
  | c :: t, line, acc, inP, errs, h, hcm, hlen => by
    have hc := h c (List.mem_cons_self ..)
    have hcm' : ¬(c = ch! '#' ∧ acc = []) := by
      rintro ⟨rfl, ha⟩
      exact absurd (hcm ha) (by simp [isComment])
    have ih := readLine_cut rest t line (acc ++ [c]) (if c = ch! '%' then !inP else inP) errs
      (fun x hx => h x (List.mem_cons_of_mem _ hx)) (by simp) (by simp at hlen ⊢; omega)
    simp only [List.length_cons] at hlen
    rw [List.append_assoc, List.singleton_append] at ih
    rw [List.cons_append]
    conv => lhs; unfold readLine
    rw [if_neg (by rw [src_not_eof .string hc.2.1 hc.2.2]; simp), if_neg (by decide), if_neg hc.1, if_neg hcm']
    dsimp only
    rw [if_neg (by unfold maxLine; omega)]
    exact ih

theorem readAll_cut (env : Env) (inc : IncludeRec) (fuel : Nat) (last rest : Bytes) (hlast : LineOK last) (hc : isComment last = false) :
    ∀ (ls : List Bytes) (rounds : Nat) (st : LoadSt), (∀ l ∈ ls, LineOK l) → ls.length < rounds →
    readAll env inc fuel .string rounds st (textOf ls last ++ 255 :: rest) = readAll env inc fuel .string rounds st (textOf ls last)
  | _, 0, _, _, h => by omega
  | [], rounds + 1, st, _, _ => by
    have h1 : textOf [] last = last := rfl
    have hl : last.length < 65536 := by
      rcases hlast.2 with h | h
      · rw [hc] at h; cases h
      · exact h.2
    have hsk : (if last = [] then none else some last) = if skipped last then none else some last := by
      cases last with
      | nil => rfl
      | cons c t => simp [skipped, hc]
    rw [readAll_succ, readAll_succ, h1, readLine_last .string last hlast, readLine_cut rest last _ [] false [] hlast.1 (fun _ => hc) (by simpa using hl),
      List.nil_append, hsk, hc]
    rfl
  | l :: ls, rounds + 1, st, hls, hr => by
    have h1 : textOf (l :: ls) last = l ++ ch! '\n' :: textOf ls last := by simp [textOf]
    have h2 : textOf (l :: ls) last ++ 255 :: rest = l ++ ch! '\n' :: (textOf ls last ++ 255 :: rest) := by simp [textOf]
    have hls' : ∀ l' ∈ ls, LineOK l' := fun l' h => hls l' (List.mem_cons_of_mem _ h)
    simp only [List.length_cons] at hr
    rw [h2, h1, readAll_succ, readAll_succ, readLine_first .string l _ (hls l (List.mem_cons_self ..)),
      readLine_first .string l _ (hls l (List.mem_cons_self ..))]
    by_cases hs : skipped l
    · simp only [hs, if_true]
      have ih := readAll_cut env inc fuel last rest hlast hc ls (rounds + 1) { st with line := st.line + 1 } hls' (by omega)
      rw [readAll_succ, readAll_succ] at ih
      exact ih
    · have hsf : skipped l = false := by simpa using hs
      simp only [hsf, Bool.false_eq_true, if_false]
      refine R_bind_congr _ fun x => ?_
      split
      · rfl
      · exact readAll_cut env inc fuel last rest hlast hc ls rounds x.1 hls' (by omega)

/-- **C54 violated** Byte 255 (in a string) is taken for the end: whatever follows it is ignored, and success is reported. So a rule base in Latin-1 with `ÿ` in it
is cut off there when it is loaded from a string. -/
theorem C54_byte255_violated (ls : List Bytes) (last rest : Bytes) (hls : ∀ l ∈ ls, LineOK l) (hlast : LineOK last) (hc : isComment last = false)
    (fuel : Nat) (st : LoadSt) :
    loadSamplesFromString env srt fs fuel st (textOf ls last ++ 255 :: rest) = loadSamplesFromString env srt fs fuel st (textOf ls last) := by
  have h1 := textOf_length ls last
  unfold loadSamplesFromString sampLoadFromString
  rw [readAll_cut env _ fuel last rest hlast hc ls _ _ hls (by simp only [List.length_append, List.length_cons]; omega),
    readAll_text env _ fuel .string last hlast ls _ _ hls (by simp only [List.length_append, List.length_cons]; omega),
    readAll_text env _ fuel .string last hlast ls _ _ hls h1]

/-- the same text as a string and as a file -/
example : Ex.run (Ex.load (bs! "rule=:a\nrule=:b" ++ 255 :: bs! "\nrule=:c\n")) (bs! "b") = .ok ([], true, []) ∧
    (Ex.run (Ex.load (bs! "rule=:a\nrule=:b" ++ 255 :: bs! "\nrule=:c\n")) (bs! "c") =
      .ok ([], false, [(bs! "originalmsg", .str (bs! "c")), (bs! "unparsed-data", .str (bs! "c"))])) ∧
    Ex.run (Ex.loadFile (versionLine ++ bs! "rule=:a\nrule=:b" ++ 255 :: bs! "\nrule=:c\n")) (bs! "c") = .ok ([], true, []) := by
  refine ⟨by decide +kernel, by decide +kernel, by decide +kernel⟩

/-! ### Rule bases -/

/-- the text of a rule base -/
def docText (ls : List RLine) : Bytes := textOf (ls.map RLine.text) []

/-- Loading a rule base into a fresh context runs the operations it denotes, then the optimiser. -/
theorem load_document (ls : List RLine) (hok : ∀ l ∈ ls, l.OK) (hline : ∀ l ∈ ls, LineOK l.text)
    (hsafe : DocSafe env none ls) (fuel : Nat) (hfuel : ∀ l ∈ ls, l.text.length ≤ fuel) :
    loadSamplesFromString env srt fs fuel {} (docText ls) =
      (runOps env srt (docOps env (bs! "--NO-FILE--") none 0 ls ++ [.optimize])).bind fun b =>
        .ok ({ b := b, annots := annotSet (ls.flatMap RLine.annots), rulePrefix := ls.foldl RLine.nextPrefix none
               line := ls.length, version := 2, errs := docErrs env none ls }, true) := by
  unfold docText
  rw [C52_string_lines _ [] (by
    intro l hl
    obtain ⟨x, hx, rfl⟩ := List.mem_map.1 hl
    exact hline x hx) ⟨by simp, .inr (by simp)⟩]
  unfold procText
  rw [procLines_doc (srt := srt) (env := env) ls _ hok hsafe hfuel]
  unfold runOps
  rw [foldlM_append_R, R_bind_assoc, R_bind_assoc, R_bind_assoc]
  refine R_bind_congr _ fun b => ?_
  simp only [R.ok_bind', if_true, procLast]
  rw [List.foldlM_cons]
  change (LoadSt.finish srt _) = ((pdagOptimize srt b).bind _).bind _
  unfold LoadSt.finish optimizeTop docAfter
  simp only [LoadSt.start, Nat.zero_add, if_true]
  cases pdagOptimize srt b with
  | ok b' =>
    simp only [R.ok_bind', List.foldlM_nil, pure]
    simp [annotSet]
  | fail => rfl
  | ub k => rfl
  | oof => rfl

/-- a rule base with all kinds of lines -/
def Ex.doc1 : List RLine := [.skip (bs! "# doc"), .prefix_ (bs! "a "), .rule [bs! "num"] (bs! "%n:number%"), .extend (bs! "b "),
  .rule [] (bs! "%w:word%"), .type (bs! "@t") (bs! "x%n:number%"), .annotate (bs! "num") [([], bs! "k", bs! "v")],
  .unknown (bs! "nonsense") (bs! "1")]

theorem Ex.doc1_ok : (∀ l ∈ doc1, l.OK) ∧ (∀ l ∈ doc1, LineOK l.text) ∧ DocSafe Ex.env none doc1 ∧ ∀ l ∈ doc1, l.text.length ≤ 1000 := by
  refine ⟨?_, by decide +kernel, ?_, by decide +kernel⟩
  · intro l hl
    simp only [doc1, List.mem_cons, List.not_mem_nil, or_false] at hl
    rcases hl with rfl | rfl | rfl | rfl | rfl | rfl | rfl | rfl
    · rfl
    · trivial
    · exact ⟨by simp [TagOK], by decide⟩
    · trivial
    · exact ⟨by simp, by decide⟩
    · exact ⟨by decide, by decide, by decide, by decide⟩
    · exact ⟨⟨by decide, by decide⟩, by simp [Blanks, Word]; decide⟩
    · exact ⟨by decide, by decide, by decide⟩
  · refine ⟨trivial, trivial, ?_, by simp [RLine.Safe, RLine.nextPrefix], ?_, ?_, trivial, trivial, trivial⟩
    · intro k
      have : (lexRule Ex.env (bs! "a %n:number%")).fin = .complete := by decide +kernel
      show (lexRule Ex.env (bs! "a %n:number%")).fin ≠ .ub k
      rw [this]; simp
    · intro k
      have : (lexRule Ex.env (bs! "a b %w:word%")).fin = .complete := by decide +kernel
      show (lexRule Ex.env (bs! "a b %w:word%")).fin ≠ .ub k
      rw [this]; simp
    · intro k
      have : (lexRule Ex.env (bs! "x%n:number%")).fin = .complete := by decide +kernel
      show (lexRule Ex.env (bs! "x%n:number%")).fin ≠ .ub k
      rw [this]; simp

example : Ex.run (Ex.load (docText Ex.doc1)) (bs! "a b c") = .ok ([.invalidRecord (bs! "nonsense")], true, [(bs! "w", .str (bs! "c"))]) := by
  decide +kernel

/-! ### C48 and C49: rule texts -/

/-- **C48, C49** For every rule text made of literal text (percent signs doubled) and well formed field
descriptions the rule consists of exactly these: a literal parser for each byte of the unescaped text and the
declared fields in between, in this order; nothing is added, left out or merged. -/
theorem C49_rule_text (lit : Bytes) (parts : List (Field × Json × Bytes)) (h : ∀ p ∈ parts, Declares env p.1 p.2.1) :
    (lexRule env (ruleText lit (parts.map fun p => (p.1, p.2.2)))).confs = ruleConfs env lit (parts.map fun p => (p.2.1, p.2.2)) ∧
    (lexRule env (ruleText lit (parts.map fun p => (p.1, p.2.2)))).fin = .complete ∧
    (lexRule env (ruleText lit (parts.map fun p => (p.1, p.2.2)))).errs = [] := by
  rw [lexRule_text parts lit h]
  exact ⟨rfl, rfl, rfl⟩

/-- `%n:number %` after "a%b " -/
example : ruleText (bs! "a%b ") [(.simple [] (bs! "n") (bs! "number") (bs! " ") none, bs! "c")] = bs! "a%%b %n:number %c" ∧
    Declares env (.simple [] (bs! "n") (bs! "number") (bs! " ") none)
      (.obj [(bs! "name", .str (bs! "n")), (bs! "type", .str (bs! "number"))]) := by
  refine ⟨by decide, .plain (by simp [Blanks]) ?_ ?_ ?_⟩
  · exact ⟨by decide, by decide, _, _, rfl, by decide, by decide, by decide, by decide⟩
  · exact ⟨by decide, by decide⟩
  · simp [Blanks]; decide

/-- `%p:char-to:,%` with extra data -/
example : Declares env (.simple [] (bs! "p") (bs! "char-to") [] (some (bs! ",")))
      (.obj [(bs! "name", .str (bs! "p")), (bs! "type", .str (bs! "char-to")), (bs! "extradata", .str (blanked (env.unescape (bs! ","))))]) := by
  refine .extra (by simp [Blanks]) ?_ ?_ (by simp [Blanks]) (by decide)
  · exact ⟨by decide, by decide, _, _, rfl, by decide, by decide, by decide, by decide⟩
  · exact ⟨by decide, by decide⟩

/-- **C49 violated** Blanks in front of the type are not stripped: the type of `% n: number%` is " number", which does not
exist, so that the rule is dropped. -/
theorem C49_leading_blank_violated :
    (lexRule Ex.env (bs! "% n: number%")).confs = [.obj [(bs! "name", .str (bs! "n")), (bs! "type", .str (bs! " number"))]] ∧
    Ex.run (Ex.load (bs! "rule=:% n: number%\n")) (bs! "1") =
      .ok ([], false, [(bs! "originalmsg", .str (bs! "1")), (bs! "unparsed-data", .str (bs! "1"))]) := by
  refine ⟨by decide +kernel, by decide +kernel⟩

theorem escPct_count (t : Bytes) : (escPct t).count (ch! '%') % 2 = 0 := by
  induction t with
  | nil => rfl
  | cons c t ih =>
    unfold escPct at ih ⊢
    rw [List.flatMap_cons, List.count_append]
    by_cases hc : c = ch! '%'
    · subst hc; simp only [if_pos]; simp; omega
    · rw [if_neg hc, List.count_cons_of_ne hc]; simpa using ih

theorem escPct_mem {t : Bytes} {c : UInt8} : c ∈ escPct t ↔ c ∈ t := by
  unfold escPct
  rw [List.mem_flatMap]
  constructor
  · rintro ⟨x, hx, hc⟩
    by_cases hx' : x = ch! '%'
    · subst hx'; simp at hc; subst hc; exact hx
    · rw [if_neg hx'] at hc; simp at hc; subst hc; exact hx
  · intro h
    refine ⟨c, h, ?_⟩
    by_cases hx' : c = ch! '%'
    · subst hx'; simp
    · rw [if_neg hx']; simp

theorem litParsers_field (env : Env) (c : UInt8) (hc : c ≠ 0) :
    ∃ p, confField env [] (.obj [(bs! "type", .str (bs! "literal")), (bs! "text", .str [c])]) = some p ∧
      p.kind = .literal (some [c]) ∧ p.name = none := by
  refine ⟨Ex.litP [c] 0, Ex.litConf_field env [c], ?_, rfl⟩
  simp [Ex.litP, cstr, hc]

/-- a sequence of literal parsers accepts exactly its text -/
theorem accepts_litParsers {s : Bytes} (h0 : ∀ c ∈ s, c ≠ 0) : ∀ (t : Bytes) (off off' : Nat), (∀ c ∈ t, c ≠ 0) →
    (Accepts env s (litParsers t) off off' ↔ t <+: s.drop off ∧ off' = off + t.length)
  | [], off, off', _ => by
    simp only [litParsers, List.map_nil, List.nil_prefix, true_and, List.length_nil, Nat.add_zero]
    constructor
    · intro h; cases h; rfl
    · rintro rfl; exact .nil _
  | c :: t, off, off', ht => by
    have ih := fun o => accepts_litParsers h0 t o off' fun x hx => ht x (List.mem_cons_of_mem _ hx)
    obtain ⟨p, hp, hk, hn⟩ := litParsers_field env c (ht c (List.mem_cons_self ..))
    have hlit : ∀ {len : Nat} {v : Option Json}, runParser env s off p.kind p.name.isSome = .ok (len, v) ↔
        [c] <+: s.drop off ∧ len = 1 ∧ v = none := by
      intro len v
      rw [hk, hn]
      exact runLiteral_iff h0 rfl
    constructor
    · intro h
      unfold litParsers at h
      rw [List.map_cons] at h
      cases h with
      | cons hf ha htl =>
        rw [hp] at hf
        cases hf
        obtain ⟨h1, rfl, _⟩ := hlit.1 ha
        obtain ⟨h2, rfl⟩ := (ih (off + 1)).1 htl
        refine ⟨?_, by simp; omega⟩
        obtain ⟨u, hu⟩ := h1
        have hd : s.drop (off + 1) = u := by
          rw [← List.drop_drop, ← hu]; rfl
        rw [hd] at h2
        rw [← hu]
        simpa using h2
    · rintro ⟨⟨u, hu⟩, rfl⟩
      unfold litParsers
      rw [List.map_cons]
      have hd : s.drop (off + 1) = t ++ u := by rw [← List.drop_drop, ← hu]; rfl
      refine .cons hp (hlit.2 ⟨⟨t ++ u, by rw [← hu]; rfl⟩, rfl, rfl⟩) ((ih (off + 1)).2 ⟨?_, by simp; omega⟩)
      rw [hd]
      exact List.prefix_append ..

/-- **C48** (messages without NUL byte: the literal parser is not safe for others) A rule without fields, loaded as the line
`rule=:text` into a fresh context, matches exactly one message: the text, with `%%` for each percent sign and
escapes resolved (by libestr). -/
theorem C48_literal_rule_partial (t : Bytes) (hne : t ≠ []) (hc : ∀ c ∈ t, c ≠ ch! '\n' ∧ c ≠ 0 ∧ c ≠ 255)
    (hlen : (escPct t).length < 65530) (fuel : Nat) (hfuel : (escPct t).length + 6 ≤ fuel) {st : LoadSt}
    (hload : loadSamplesFromString env srt fs fuel {} (bs! "rule=:" ++ escPct t ++ bs! "\n") = .ok (st, true))
    (s : Bytes) (h0 : ∀ c ∈ s, c ≠ 0) {n opts : Nat} {stats : NodeId → Stats} {json0 : Obj} {res : Res}
    (h : normalize env n (st.b.toCtx opts st.annots) stats s json0 = .ok res) :
    res.ok = true ↔ s = litMeaning env t := by
  have hlex : lexRule env (escPct t) = ⟨litParsers (litMeaning env t), .complete, []⟩ := by
    have := lexRule_text (env := env) [] t (by simp)
    simpa [ruleText, ruleConfs] using this
  have hdoc : bs! "rule=:" ++ escPct t ++ bs! "\n" = docText [.rule [] (escPct t)] := by
    simp [docText, textOf, RLine.text, tagText]
  have hesc : escPct t ≠ [] := by
    intro h1
    cases t with
    | nil => exact hne rfl
    | cons c t =>
      have : c ∈ escPct (c :: t) := escPct_mem.2 (List.mem_cons_self ..)
      rw [h1] at this; cases this
  rw [hdoc, load_document _ (by
      intro l hl
      rw [List.mem_singleton] at hl
      subst hl
      exact ⟨by simp, hesc⟩) (by
      intro l hl
      rw [List.mem_singleton] at hl
      subst hl
      have e : (RLine.rule [] (escPct t)).text = bs! "rule=:" ++ escPct t := by simp [RLine.text, tagText]
      rw [e]
      refine ⟨?_, .inr ⟨?_, ?_⟩⟩
      · intro c hc'
        rcases List.mem_append.1 hc' with h1 | h1
        · have : ∀ c ∈ bs! "rule=:", c ≠ ch! '\n' ∧ c ≠ 0 ∧ c ≠ 255 := by decide
          exact this c h1
        · exact hc c (escPct_mem.1 h1)
      · rw [List.count_append]
        have : (bs! "rule=:").count (ch! '%') = 0 := by decide
        rw [this, Nat.zero_add]
        exact escPct_count t
      · rw [List.length_append]; simp; omega) (by
      refine ⟨?_, trivial⟩
      intro k
      simp only [Option.getD_none, List.nil_append, hlex]
      simp) fuel (by
      intro l hl
      rw [List.mem_singleton] at hl
      subst hl
      simp [RLine.text, tagText]; omega)] at hload
  obtain ⟨b, hb, hst⟩ := R.bind_eq_ok.1 hload
  have hst' : st.b = b := by
    simp only [R.ok.injEq, Prod.mk.injEq] at hst
    rw [← hst.1]
  rw [hst'] at h
  have hm0 : ∀ c ∈ litMeaning env t, c ≠ 0 := by
    intro c hc
    simpa using (List.mem_filter.1 hc).2
  have hops : docOps env (bs! "--NO-FILE--") none 0 [.rule [] (escPct t)] =
      [Def.toOp { rule := { confs := litParsers (litMeaning env t), file := bs! "--NO-FILE--", line := 1 } }] := by
    show [BOp.rule (lexRule env (escPct t)).confs (decide ((lexRule env (escPct t)).fin = .complete)) none
      (bs! "--NO-FILE--") 1] = _
    simp only [hlex]
    rfl
  rw [hops] at hb
  rw [C19_union_optimised_partial (env := env) (srt := srt)
    [{ rule := { confs := litParsers (litMeaning env t), file := bs! "--NO-FILE--", line := 1 } }]
    (by
      intro d hd
      rw [List.mem_singleton] at hd
      subst hd
      intro c hc
      obtain ⟨x, hx, rfl⟩ := List.mem_map.1 hc
      obtain ⟨p, hp, _⟩ := litParsers_field env x (hm0 x hx)
      exact ⟨p, hp⟩) (.of_length (by simp)) hb h0 h]
  constructor
  · rintro ⟨d, hd, _, _, hacc⟩
    rw [List.mem_singleton] at hd
    subst hd
    obtain ⟨⟨u, hu⟩, hl⟩ := (accepts_litParsers h0 _ _ _ hm0).1 hacc
    rw [List.drop_zero] at hu
    have : u = [] := by
      have := congrArg List.length hu
      rw [List.length_append] at this
      exact List.length_eq_zero_iff.1 (by omega)
    rw [this, List.append_nil] at hu
    exact hu.symm
  · intro hs
    refine ⟨_, List.mem_singleton.2 rfl, rfl, rfl, (accepts_litParsers h0 _ _ _ hm0).2 ⟨?_, by rw [hs]; simp⟩⟩
    rw [List.drop_zero, hs]
    exact List.prefix_refl _

/-- `100%%` matches `100%` -/
example : (∀ c ∈ bs! "100%", c ≠ ch! '\n' ∧ c ≠ 0 ∧ c ≠ 255) ∧ escPct (bs! "100%") = bs! "100%%" ∧
    Ex.run (Ex.load (bs! "rule=:100%%\n")) (bs! "100%") = .ok ([], true, []) := by
  refine ⟨by decide, by decide, by decide +kernel⟩

/-- **C48 violated** for messages with a NUL byte: where the text of the rule ends and the message goes on with a NUL, the search reads behind the end of
the rule's text. -/
theorem C48_nul_violated : Ex.run (Ex.load (bs! "rule=:ab\n")) (bs! "ab") = .ok ([], true, []) ∧
    Ex.run (Ex.load (bs! "rule=:ab\n")) (bs! "ab" ++ [0]) = .ub .oobRead := by
  refine ⟨by decide +kernel, by decide +kernel⟩

/-! ### C50: tags -/

/-- **C50** A line `rule=t1,t2,...:text` gives the rule exactly the tags in front of the first colon, in this order, and
exactly the text behind it (all tags that are not empty and free of comma, colon and NUL; no tag at
all is possible as well). -/
theorem C50_tags_partial (tags : List Bytes) (htags : ∀ w ∈ tags, TagOK w) (t : Bytes) (ht : t ≠ [])
    (hline : LineOK (bs! "rule=" ++ tagText tags ++ bs! ":" ++ t)) (hfin : ∀ k, (lexRule env t).fin ≠ .ub k)
    (fuel : Nat) (hfuel : (tagText tags).length + t.length + 6 ≤ fuel) :
    loadSamplesFromString env srt fs fuel {} (bs! "rule=" ++ tagText tags ++ bs! ":" ++ t ++ bs! "\n") =
      (runOps env srt [.rule (lexRule env t).confs ((lexRule env t).fin = .complete)
        (if tags = [] then none else some tags) (bs! "--NO-FILE--") 1, .optimize]).bind fun b =>
        .ok ({ b := b, line := 1, version := 2, errs := (lexRule env t).errs }, true) := by
  have hdoc : bs! "rule=" ++ tagText tags ++ bs! ":" ++ t ++ bs! "\n" = docText [.rule tags t] := by
    simp [docText, textOf, RLine.text]
  rw [hdoc, load_document [.rule tags t] (by simpa [RLine.OK, ht] using htags) (by simpa [RLine.text] using hline)
    (And.intro (by simpa [RLine.Safe] using hfin) trivial) fuel (by simp [RLine.text]; omega)]
  simp [docOps, RLine.ops, tagBucket, RLine.annots, RLine.nextPrefix, docErrs, RLine.errs, annotSet]

example : TagOK (bs! "t1") ∧ TagOK (bs! "t 2") ∧ tagText [bs! "t1", bs! "t 2"] = bs! "t1,t 2" ∧
    LineOK (bs! "rule=t1,t 2:a %n:number%") ∧
    Ex.run (Ex.load (bs! "rule=t1,t 2:a %n:number%\n")) (bs! "a 5") =
      .ok ([], true, [(bs! "n", .str (bs! "5")), (bs! "event.tags", .arr [.str (bs! "t1"), .str (bs! "t 2")])]) := by
  refine ⟨by unfold TagOK; decide, by unfold TagOK; decide, by decide, by decide +kernel, by decide +kernel⟩

/-- **C50 violated** An empty tag in front of a comma crashes the loader. -/
theorem C50_empty_tag_violated : ∃ k, Ex.load (bs! "rule=,a:x\n") = .ub k :=
  ⟨.nullDeref, by rfl⟩

/-! ### C51: prefixes -/

/-- **C51** The prefix in force is the text of the last `prefix=` line followed by the texts of the `extendprefix=` lines
behind it, whatever stands in front of and between these lines. -/
theorem C51_prefix (before : List RLine) (p : Bytes) (behind : List RLine) (h : ∀ l ∈ behind, ∀ t, l ≠ .prefix_ t) (p0 : Option Bytes) :
    (before ++ .prefix_ p :: behind).foldl RLine.nextPrefix p0 =
      some (p ++ behind.flatMap fun l => match l with | .extend e => e | _ => []) := by
  rw [List.foldl_append, List.foldl_cons]
  change behind.foldl RLine.nextPrefix (some p) = _
  clear p0 before
  induction behind generalizing p with
  | nil => simp
  | cons l ls ih =>
    have ih' := fun q => ih q fun x hx => h x (List.mem_cons_of_mem _ hx)
    rw [List.foldl_cons, List.flatMap_cons]
    cases l with
    | prefix_ t => exact absurd rfl (h _ (List.mem_cons_self ..) t)
    | extend e => simp only [RLine.nextPrefix, Option.getD_some]; rw [ih']; simp
    | _ => simp only [RLine.nextPrefix]; rw [ih']; simp

/-- one step of writing a rule base without prefixes: what replaces a line -/
def RLine.inline (pfx : Option Bytes) : RLine → RLine
  | .prefix_ _ => .skip []
  | .extend _ => .skip []
  | .rule tags t => .rule tags (pfx.getD [] ++ t)
  | l => l

/-- a rule base without prefixes: empty lines instead of `prefix=` and `extendprefix=`, each rule text with the prefix in
force in front -/
def inlineDoc : Option Bytes → List RLine → List RLine
  | _, [] => []
  | pfx, l :: ls => l.inline pfx :: inlineDoc (l.nextPrefix pfx) ls

/-- **C51** A rule base with prefixes does to the graph exactly what the rule base with each rule written out as prefix ++
text does, and yields the same error messages. -/
theorem C51_prefix_is_inlined (file : Bytes) : ∀ (ls : List RLine) (pfx : Option Bytes) (n : Nat),
    docOps env file pfx n ls = docOps env file none n (inlineDoc pfx ls) ∧
    docErrs env pfx ls = docErrs env none (inlineDoc pfx ls)
  | [], _, _ => ⟨rfl, rfl⟩
  | l :: ls, pfx, n => by
    have ih := C51_prefix_is_inlined file ls (l.nextPrefix pfx) (n + 1)
    have h : (l.inline pfx).nextPrefix none = none := by cases l <;> rfl
    unfold docOps docErrs inlineDoc
    dsimp only
    rw [h, ih.1, ih.2]
    refine ⟨?_, ?_⟩ <;> cases l <;> rfl

/-- the lines which take part in the inlined rule base are fine as well -/
theorem inlineDoc_ok : ∀ (ls : List RLine) (pfx : Option Bytes), (∀ l ∈ ls, l.OK) → ∀ l ∈ inlineDoc pfx ls, l.OK
  | [], _, _, l, hl => by cases hl
  | x :: ls, pfx, h, l, hl => by
    rcases List.mem_cons.1 hl with rfl | hl
    · have hx := h x (List.mem_cons_self ..)
      cases x with
      | rule tags t =>
        refine ⟨hx.1, fun h1 => hx.2 ?_⟩
        exact (List.append_eq_nil_iff.1 h1).2
      | prefix_ t => rfl
      | extend t => rfl
      | _ => exact hx
    · exact inlineDoc_ok ls _ (fun y hy => h y (List.mem_cons_of_mem _ hy)) l hl

theorem inlineDoc_safe : ∀ (ls : List RLine) (pfx : Option Bytes), DocSafe env pfx ls → DocSafe env none (inlineDoc pfx ls)
  | [], _, _ => trivial
  | x :: ls, pfx, h => by
    have h1 : (x.inline pfx).nextPrefix none = none := by cases x <;> rfl
    refine ⟨?_, ?_⟩
    · cases x with
      | rule tags t => simpa [RLine.inline, RLine.Safe] using h.1
      | prefix_ t => trivial
      | extend t => trivial
      | _ => exact h.1
    · rw [h1]
      exact inlineDoc_safe ls _ h.2

theorem inlineDoc_annots : ∀ (ls : List RLine) (pfx : Option Bytes),
    (inlineDoc pfx ls).flatMap RLine.annots = ls.flatMap RLine.annots
  | [], _ => rfl
  | x :: ls, pfx => by
    unfold inlineDoc
    rw [List.flatMap_cons, List.flatMap_cons, inlineDoc_annots ls]
    cases x <;> rfl

/-- **C51** Loading a rule base with prefixes gives exactly the graph (including recorded line numbers), annotations, error messages
and return code that loading the rule base with prefixes written out gives. -/
theorem C51_loads_the_same (ls : List RLine) (hok : ∀ l ∈ ls, l.OK) (hline : ∀ l ∈ ls, LineOK l.text)
    (hline' : ∀ l ∈ inlineDoc none ls, LineOK l.text)
    (hsafe : DocSafe env none ls) (fuel : Nat) (hfuel : ∀ l ∈ ls, l.text.length ≤ fuel)
    (hfuel' : ∀ l ∈ inlineDoc none ls, l.text.length ≤ fuel) :
    ((loadSamplesFromString env srt fs fuel {} (docText ls)).bind fun r => .ok (r.1.b, r.1.annots, r.1.errs, r.2)) =
    ((loadSamplesFromString env srt fs fuel {} (docText (inlineDoc none ls))).bind fun r => .ok (r.1.b, r.1.annots, r.1.errs, r.2)) := by
  rw [load_document ls hok hline hsafe fuel hfuel,
    load_document _ (inlineDoc_ok ls none hok) hline' (inlineDoc_safe ls none hsafe) fuel hfuel',
    (C51_prefix_is_inlined (env := env) _ ls none 0).1, (C51_prefix_is_inlined (env := env) [] ls none 0).2, inlineDoc_annots]
  simp only [R_bind_assoc, R.ok_bind']

/-- **C51** (loaded) After loading, the prefix in force is the text of the last `prefix=` line followed by those of the
`extendprefix=` lines behind it. -/
theorem C51_prefix_loaded (before : List RLine) (p : Bytes) (behind : List RLine) (h : ∀ l ∈ behind, ∀ t, l ≠ .prefix_ t)
    (hok : ∀ l ∈ before ++ .prefix_ p :: behind, l.OK) (hline : ∀ l ∈ before ++ .prefix_ p :: behind, LineOK l.text)
    (hsafe : DocSafe env none (before ++ .prefix_ p :: behind)) (fuel : Nat)
    (hfuel : ∀ l ∈ before ++ .prefix_ p :: behind, l.text.length ≤ fuel) {r : LoadSt × Bool}
    (hload : loadSamplesFromString env srt fs fuel {} (docText (before ++ .prefix_ p :: behind)) = .ok r) :
    r.1.rulePrefix = some (p ++ behind.flatMap fun l => match l with | .extend e => e | _ => []) := by
  rw [load_document _ hok hline hsafe fuel hfuel] at hload
  obtain ⟨b, _, hb⟩ := R.bind_eq_ok.1 hload
  cases hb
  exact C51_prefix before p behind h none

/-- the hypotheses of the C51 theorems hold for `Ex.doc1` -/
example : (∀ l ∈ inlineDoc none Ex.doc1, LineOK l.text) ∧ (∀ l ∈ inlineDoc none Ex.doc1, l.text.length ≤ 1000) ∧
    docText (inlineDoc none Ex.doc1) =
      bs! "# doc\n\nrule=num:a %n:number%\n\nrule=:a b %w:word%\ntype=@t:x%n:number%\nannotate=num:+k=\"v\"\nnonsense=1\n" := by
  refine ⟨by decide +kernel, by decide +kernel, by decide +kernel⟩

/-- **C51 violated** `extendprefix=` without a prefix before crashes the loader. -/
theorem C51_no_prefix_violated : ∃ k, Ex.load (bs! "extendprefix=a\n") = .ub k :=
  ⟨.nullDeref, by rfl⟩

/-! ### C53: termination -/

/-- **C53** (the missing part is violated, see below) Loading a string ends, whatever its contents, provided `annotate=` lines do not
end with white space and files do not include each other in cycles: `fuel` bounds depth and
number of rounds. It does not touch freed memory either. -/
theorem C53_terminates_partial (s : Bytes) (rank : Bytes → Nat) (hfs : FilesOK fs rank)
    (hs : ∀ l, IsLine .string s l → AnnotOK l) (bound : Nat) (hb : ∀ l g, IsLine .string s l → includes l g → rank g ≤ bound)
    (fuel : Nat) (hfuel : 65537 + bound ≤ fuel) :
    loadSamplesFromString env srt fs fuel {} s ≠ .oof := by
  have h := loadFromString_good (env := env) (srt := srt) (T := False) (rank := rank) fuel {} s
    initBld_inv (.inr ⟨hfs, by omega, fun l hl => ⟨hs l hl, fun g hg => by have := hb l g hl hg; omega⟩⟩)
  intro ho
  rw [ho] at h
  exact h

/-- **C53** the same for files -/
theorem C53_file_terminates_partial (f : Bytes) (rank : Bytes → Nat) (hfs : FilesOK fs rank) (fuel : Nat) (hfuel : 65537 + rank f ≤ fuel) :
    loadSamples env srt fs fuel {} f ≠ .oof := by
  have h := loadSamples_good (env := env) (srt := srt) (T := False) (rank := rank) fuel {} f
    initBld_inv (.inr ⟨hfs, by omega⟩)
  intro ho
  rw [ho] at h
  exact h

/-- the hypotheses hold: a rule base with an annotation, and an include file -/
def Ex.fs1 : Bytes → Option Bytes := fun f => if f = bs! "inc" then some (bs! "version=2\nrule=:b\n") else none

example : ∃ rank, FilesOK Ex.fs1 rank ∧ ∀ g, rank g ≤ 0 := by
  refine ⟨fun _ => 0, ?_, fun _ => Nat.le_refl _⟩
  have hread : ∀ n, (readLine .file (bs! "rule=:b\n") n [] false false []).buf = some (bs! "rule=:b") ∧
      (readLine .file (bs! "rule=:b\n") n [] false false []).rest = [] := fun n => ⟨rfl, rfl⟩
  have hend : ∀ l, ¬ IsLine .file [] l := by
    intro l h
    cases h with
    | here n h => cases h
    | next n h _ => cases h
  intro f c l hf hl
  have hc : c = bs! "version=2\nrule=:b\n" := by
    unfold Ex.fs1 at hf
    split at hf
    · exact (Option.some.inj hf).symm
    · cases hf
  subst hc
  have hd : List.drop versionLine.length (bs! "version=2\nrule=:b\n") = bs! "rule=:b\n" := by decide
  rw [hd] at hl
  have hl' : l = bs! "rule=:b" := by
    cases hl with
    | here n h => rw [(hread n).1] at h; exact (Option.some.inj h).symm
    | next n _ h => rw [(hread n).2] at h; exact absurd h (hend l)
  subst hl'
  refine ⟨fun h => absurd h (by decide), fun g hg => absurd hg.1 (by decide)⟩

theorem annotLoop_blank (a : Annot) : ∀ fuel, annotLoop fuel a [32] = .oof
  | 0 => rfl
  | fuel + 1 => by
    unfold annotLoop
    have : getAnnotationOp [32] = .ok none [32] := by decide
    rw [if_neg (by simp)]
    dsimp only
    rw [this]
    exact annotLoop_blank a fuel

/-- **C53 violated** The loader runs forever on an `annotate=` line that ends with a blank: no number of rounds suffices. -/
theorem C53_annotate_violated (fuel : Nat) :
    loadSamplesFromString env srt fs fuel {} (bs! "annotate=a: \n") = .oof := by
  have h := C52_string_lines (env := env) (srt := srt) (fs := fs) [bs! "annotate=a: "] [] (by decide +kernel) (by decide +kernel) fuel {}
  have e : textOf [bs! "annotate=a: "] [] = bs! "annotate=a: \n" := by decide
  rw [e] at h
  rw [h]
  have : ∀ st : LoadSt, processSamp env (loadSamples env srt fs fuel) fuel st (bs! "annotate=a: ") = .oof := by
    intro st
    unfold processSamp
    have hl : lineType (bs! "annotate=a: ") = (bs! "annotate", bs! "a: ") := by decide
    rw [hl]
    dsimp only
    rw [if_neg (by decide), if_neg (by decide), if_neg (by decide), if_neg (by decide), if_neg (by decide), if_pos rfl]
    unfold processAnnotate
    have hg : getFieldName (bs! "a: ") = (some (bs! "a"), bs! ": ") := by decide
    have hd : List.dropWhile isSpace (bs! ": ") = bs! ": " := by decide
    rw [hg]
    dsimp only
    rw [hd]
    dsimp only
    rw [if_neg (by decide), annotLoop_blank]
    rfl
  unfold procText procLines
  rw [if_neg (by decide), this]
  rfl

/-- **C53 violated** A file which includes itself is loaded again and again: no depth suffices. (The C code runs out of file handles
or stack.) -/
theorem C53_include_violated (st : LoadSt) (hv : st.version = 0 ∨ st.version = 2) (fuel : Nat) :
    loadSamples env srt (fun _ => some (versionLine ++ bs! "include=f\n")) fuel st (bs! "f") = .oof := by
  induction fuel generalizing st with
  | zero => rfl
  | succ fuel ih =>
    have h := C52_file_lines (env := env) (srt := srt) (fs := fun _ => some (versionLine ++ bs! "include=f\n")) [bs! "include=f"] []
      (by decide +kernel) (by decide +kernel) fuel st hv (bs! "f") (by decide)
    rw [h]
    unfold procText procLines
    rw [if_neg (by decide)]
    have : processSamp env (loadSamples env srt (fun _ => some (versionLine ++ bs! "include=f\n")) fuel) fuel
        { st.start (bs! "f") 1 with line := (st.start (bs! "f") 1).line + 1 } (bs! "include=f") = .oof := by
      unfold processSamp
      have hl : lineType (bs! "include=f") = (bs! "include", bs! "f") := by decide
      rw [hl]
      dsimp only
      rw [if_neg (by decide), if_neg (by decide), if_neg (by decide), if_neg (by decide), if_neg (by decide), if_neg (by decide), if_pos rfl]
      unfold processInclude
      have hc : cstr (bs! "f") = [ch! 'f'] := by decide
      rw [hc]
      dsimp only
      have ht : List.takeWhile (fun c => !isSpace c) ([] : Bytes) = [] := rfl
      rw [ht, ih _ (.inr rfl)]
      rfl
    rw [this]
    rfl

theorem finish_errs {st1 st' : LoadSt} {ok1 : Bool} (h : LoadSt.finish srt (st1, ok1) = .ok (st', true)) :
    st1.errs = st'.errs ∧ ok1 = true := by
  unfold LoadSt.finish at h
  dsimp only at h
  obtain ⟨⟨st2, ok2⟩, h1, h2⟩ := R.bind_eq_ok.1 h
  cases h2
  cases ok1 with
  | false => simp at h1
  | true =>
    rw [if_pos rfl] at h1
    obtain ⟨st3, h3, h4⟩ := R.bind_eq_ok.1 h1
    cases h4
    exact ⟨(optimizeTop_errs h3).symm, rfl⟩

/-- **C53** Every line of unknown kind is reported: if loading a string comes to its end, the error callback has got a message naming
the kind of each such line. (All texts made of lines that do not end inside of a field description; the other
lines are arbitrary.) -/
theorem C53_unknown_reported (ls : List Bytes) (last : Bytes) (hls : ∀ l ∈ ls, LineOK l) (hlast : LineOK last)
    (fuel : Nat) {st st' : LoadSt}
    (hload : loadSamplesFromString env srt fs fuel st (textOf ls last) = .ok (st', true))
    {kind t : Bytes} (hmem : kind ++ bs! "=" ++ t ∈ ls) (hne : kind ≠ []) (hcomment : kind.head? ≠ some (ch! '#'))
    (hk : kind ∉ knownKinds) (heq : ch! '=' ∉ kind) :
    .invalidRecord kind ∈ st'.errs := by
  rw [C52_string_lines ls last hls hlast] at hload
  obtain ⟨⟨st1, ok1⟩, h1, h2⟩ := R.bind_eq_ok.1 hload
  have hfin : st1.errs = st'.errs ∧ ok1 = true := finish_errs h2
  rw [← hfin.1]
  unfold procText at h1
  obtain ⟨⟨st2, ok2⟩, h3, h4⟩ := R.bind_eq_ok.1 h1
  have hok2 : ok2 = true := by
    cases ok2 with
    | true => rfl
    | false =>
      rw [hfin.2] at h4
      simp at h4
  subst hok2
  refine procLast_errs (processSamp_errs fun st f => loadSamples_errs fuel) (by simpa using h4) _ ?_
  refine procLines_errs (processSamp_errs fun st f => loadSamples_errs fuel) ls hmem ?_ ?_ h3
  · have : kind ++ bs! "=" ++ t ≠ [] := by simp
    cases kind with
    | nil => exact absurd rfl hne
    | cons c k => simpa [skipped, isComment] using hcomment
  · intro st st' hp
    exact processSamp_unknown hne hk heq (fun c hc => ((hls _ hmem).1 c (by simp [hc])).2.1) hp

example : bs! "nonsense" ∉ knownKinds ∧ Ex.run (Ex.load (bs! "nonsense=1\nrule=:a\n")) (bs! "a") =
    .ok ([.invalidRecord (bs! "nonsense")], true, []) := by
  refine ⟨by decide, by decide +kernel⟩

/-- **C53 violated** Lines starting with `=` and `rule=` lines without colon are ignored without any message. -/
theorem C53_silent_violated :
    Ex.run (Ex.load (bs! "=abc\nrule=abc\n")) (bs! "abc") =
      .ok ([], false, [(bs! "originalmsg", .str (bs! "abc")), (bs! "unparsed-data", .str (bs! "abc"))]) := by
  decide +kernel

end LN
