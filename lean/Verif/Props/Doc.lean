import Verif.Proofs.DocD
/-
C76: a rule base of version 2, from its text to the event.
-/
set_option autoImplicit false
namespace LN
open Spec

section
variable {env : Env} {srt : Sorter} {fs : Bytes → Option Bytes}

theorem docRules_file : ∀ (ls : List Loc) (pfx : Option Bytes) (x : List Bytes × Bytes × Bytes × Nat), x ∈ docRules pfx ls →
    ∃ l ∈ ls, l.file = x.2.2.1
  | [], _, _, h => by cases h
  | l :: ls, pfx, x, h => by
    rcases List.mem_append.1 h with h | h
    · refine ⟨l, List.mem_cons_self .., ?_⟩
      split at h
      · rw [List.mem_singleton.1 h]
      · cases h
    · obtain ⟨l', h1, h2⟩ := docRules_file ls _ x h
      exact ⟨l', List.mem_cons_of_mem _ h1, h2⟩

theorem numbered_what (f : Bytes) : ∀ (ls : List RLine) (n : Nat), (numbered f n ls).map (·.what) = ls
  | [], _ => rfl
  | l :: ls, n => by
    show l :: (numbered f (n + 1) ls).map (·.what) = _
    rw [numbered_what f ls]

theorem numbered_file {f : Bytes} : ∀ (ls : List RLine) (n : Nat), ∀ l ∈ numbered f n ls, l.file = f
  | [], _, l, h => by cases h
  | x :: ls, n, l, h => by
    rcases List.mem_cons.1 h with rfl | h
    · rfl
    · exact numbered_file ls _ l h

theorem docOps_numbered (env : Env) (f : Bytes) : ∀ (ls : List RLine) (pfx : Option Bytes) (n : Nat),
    docOps env f pfx n ls = locOps env pfx (numbered f n ls)
  | [], _, _ => rfl
  | l :: ls, pfx, n => by
    show _ ++ docOps env f _ _ ls = _ ++ locOps env _ _
    rw [docOps_numbered env f ls]

/-- **C76** Loading a rule base of version 2 from its text and normalising a message with it gives what the text says: see `DocOutcome`.
The text consists of comments, `prefix=`, `extendprefix=`, `rule=` and `annotate=` lines (and lines of unknown kinds, which are reported and have no other
effect); the fields of its rules are described as `Describes` says (the 31 types without those for compounds). Rules may break off with a malformed description of
a field: this is reported (unless just the name is missing), and such rules match nothing.
Missing: user-defined types, `alternative`, `repeat`; more than 255 different ways to go on at a point; messages and fields out of scope (C06, C75). -/
theorem C76_end_to_end_partial (he : env.TokOK) (ls : List RLine) (hok : ∀ l ∈ ls, l.OK) (hline : ∀ l ∈ ls, LineOK l.text)
    (hext : ExtendOK none ls) (hty : ∀ l ∈ ls, ∀ nm t, l ≠ .type nm t) (fuel : Nat) (hfuel : ∀ l ∈ ls, l.text.length ≤ fuel)
    (rules : List RuleD) (hrules : docRules none (numbered (bs! "--NO-FILE--") 0 ls) = rules.map fun r => (r.tags, r.text, r.file, r.line))
    (hrok : ∀ r ∈ rules, r.OK env) (hlen : Narrow (rules.map (·.toks env))) :
    ∃ st, loadSamplesFromString env srt fs fuel {} (docText ls) = .ok (st, true) ∧
      st.errs = docMsgs ls (rules.map RuleD.msgs) ∧
      ∀ (opts : Nat) (s : Bytes), Tame s →
        (∀ r ∈ rules, ∀ p ∈ r.parts, ∀ off, off ≤ s.length → p.1.type.InScope env p.1.conf s off (fieldName p.1.conf).isSome) →
        (opts.testBit 3 = true → ∀ r ∈ rules, r.Shows env) →
        ∀ (stats : NodeId → Stats) (json0 : Obj), ∃ N, ∀ fuel, N ≤ fuel → ∃ res,
          normalize env fuel (st.b.toCtx opts st.annots) stats s json0 = .ok res ∧ DocOutcome env ls rules opts s json0 res.ok res.json := by
  have hfile : ∀ (ls : List RLine) (pfx : Option Bytes) (n : Nat) (rs : List RuleD),
      docRules pfx (numbered (bs! "--NO-FILE--") n ls) = rs.map (fun r => (r.tags, r.text, r.file, r.line)) →
      ∀ r ∈ rs, r.file = bs! "--NO-FILE--" := by
    intro ls pfx n rs h r hr
    have := docRules_file (numbered (bs! "--NO-FILE--") n ls) pfx _ (by rw [h]; exact List.mem_map.2 ⟨r, hr, rfl⟩)
    obtain ⟨l, hl, e⟩ := this
    change l.file = r.file at e
    rw [← e]
    exact numbered_file ls n l hl
  have hwhat := numbered_what (bs! "--NO-FILE--") ls 0
  obtain ⟨b, h1, hsafe, herrs, h2⟩ := doc_core (srt := srt) he _ ls hwhat hok (fun l hl c hc => ((hline l hl).1 c hc).2.1) hext hty rules hrules hrok (by
    intro r hr
    rw [hfile ls none 0 rules hrules r hr]
    decide) hlen
  refine ⟨_, by rw [load_document ls hok hline hsafe fuel hfuel, docOps_numbered, h1, R.ok_bind'], (docErrs_defErrs ls none).trans (by rw [herrs]), h2⟩

end

/-- Rules of literal text only: any number of them are narrow. -/
theorem narrow_texts {env : Env} {rules : List RuleD} (h : ∀ r ∈ rules, r.parts = []) : Narrow (rules.map (·.toks env)) := by
  refine narrow_of_elements (A := (List.range 255).map fun n => RuleD.litTok (UInt8.ofNat (n + 1))) (by simp) ?_
  intro x hx t ht
  obtain ⟨r, hr, rfl⟩ := List.mem_map.1 hx
  unfold RuleD.toks at ht
  rw [h r hr] at ht
  simp only [List.flatMap_nil, List.append_nil] at ht
  obtain ⟨c, hc, rfl⟩ := List.mem_map.1 ht
  have h0 := litMeaning_ne (env := env) r.lit c hc
  have h1 : c.toNat ≠ 0 := fun e => h0 (UInt8.toNat_inj.1 e)
  refine List.mem_map.2 ⟨c.toNat - 1, List.mem_range.2 (by have := c.toNat_lt; omega), ?_⟩
  rw [Nat.sub_add_cancel (by omega), UInt8.ofNat_toNat]

namespace Ex

/-- a rule base with all kinds of lines in scope -/
def docE : List RLine := [.skip (bs! "# doc"), .prefix_ (bs! "a "), .rule [bs! "num", bs! "x"] (bs! "%n:number%"), .extend (bs! "b "),
  .rule [] (bs! "%w:word%"), .annotate (bs! "num") [([], bs! "k", bs! "v"), (bs! " ", bs! "k", bs! "w")], .annotate (bs! "x") [([], bs! "k", bs! "y")],
  .unknown (bs! "nonsense") (bs! "1")]

def fNum : FieldD := ⟨.simple [] (bs! "n") (bs! "number") [] none, .number, [(bs! "name", .str (bs! "n")), (bs! "type", .str (bs! "number"))]⟩
def fWord : FieldD := ⟨.simple [] (bs! "w") (bs! "word") [] none, .word, [(bs! "name", .str (bs! "w")), (bs! "type", .str (bs! "word"))]⟩

/-- its rules -/
def rulesE : List RuleD := [
  { tags := [bs! "num", bs! "x"], lit := bs! "a ", parts := [(fNum, [])], line := 3 },
  { tags := [], lit := bs! "a b ", parts := [(fWord, [])], line := 5 }]

theorem fNum_ok : fNum.OK env where
  decl := .plain (by simp [Blanks]) ⟨by decide, by decide, _, _, rfl, by decide, by decide, by decide, by decide⟩
    ⟨by decide, by decide⟩ (by simp [Blanks])
  desc := { nodup := by decide, type := by rfl, name := .inr ⟨bs! "n", rfl, by decide⟩, prio := .inl rfl
            params := ⟨.inl rfl, .inl rfl⟩ }

theorem fWord_ok : fWord.OK env where
  decl := .plain (by simp [Blanks]) ⟨by decide, by decide, _, _, rfl, by decide, by decide, by decide, by decide⟩
    ⟨by decide, by decide⟩ (by simp [Blanks])
  desc := { nodup := by decide, type := by rfl, name := .inr ⟨bs! "w", rfl, by decide⟩, prio := .inl rfl
            params := trivial }

theorem docE_ok : (∀ l ∈ docE, l.OK) ∧ (∀ l ∈ docE, LineOK l.text) ∧ ExtendOK none docE ∧ (∀ l ∈ docE, ∀ nm t, l ≠ .type nm t) ∧
    (∀ l ∈ docE, l.text.length ≤ 1000) ∧ docRules none (numbered (bs! "--NO-FILE--") 0 docE) = rulesE.map (fun r => (r.tags, r.text, r.file, r.line)) ∧
    (∀ r ∈ rulesE, r.OK env) := by
  refine ⟨?_, by decide +kernel, ?_, ?_, by decide +kernel, by decide, ?_⟩
  · intro l hl
    simp only [docE, List.mem_cons, List.not_mem_nil, or_false] at hl
    rcases hl with rfl | rfl | rfl | rfl | rfl | rfl | rfl | rfl
    · rfl
    · trivial
    · exact ⟨by simp [TagOK], by decide⟩
    · trivial
    · exact ⟨by simp, by decide⟩
    · exact ⟨⟨by decide, by decide⟩, by simp [Blanks, Word]; decide⟩
    · exact ⟨⟨by decide, by decide⟩, by simp [Blanks, Word]; decide⟩
    · exact ⟨by decide, by decide, by decide⟩
  · simp [ExtendOK, docE, RLine.nextPrefix]
  · intro l hl nm t h
    subst h
    simp [docE] at hl
  · intro r hr
    simp only [rulesE, List.mem_cons, List.not_mem_nil, or_false] at hr
    rcases hr with rfl | rfl <;> refine ⟨fun p hp => ?_, fun x hx => by cases hx⟩ <;> simp only [List.mem_cons, List.not_mem_nil, or_false] at hp <;> subst hp
    · exact fNum_ok
    · exact fWord_ok

theorem rulesE_shows : ∀ r ∈ rulesE, r.Shows env := by
  intro r hr
  simp only [rulesE, List.mem_cons, List.not_mem_nil, or_false] at hr
  rcases hr with rfl | rfl <;> refine ⟨by decide, fun p hp h => ?_⟩ <;>
    simp only [List.mem_cons, List.not_mem_nil, or_false] at hp <;> subst hp <;> cases h

theorem msgE_tame : Tame (bs! "a 12") := by
  refine ⟨by decide, fun i => ?_, by decide⟩
  have := (List.takeWhile_prefix (l := (bs! "a 12").drop i) isDigit).length_le
  simp at this
  omega

theorem rulesE_match (r : RuleD) (hr : r ∈ rulesE) (vs : List (Option Bytes × Option Json))
    (h : r.Matches env (bs! "a 12") vs) : r = rulesE[0] := by
  simp only [rulesE, List.mem_cons, List.not_mem_nil, or_false] at hr
  rcases hr with rfl | rfl
  · rfl
  · obtain ⟨_, t, h, _⟩ := h
    simp [litMeaning, env] at h

/-- `docE` and the message meet the hypotheses: the message is reported as matched, with all metadata of the first rule -/
example (srt : Sorter) (fs : Bytes → Option Bytes) : ∃ st, loadSamplesFromString env srt fs 1000 {} (docText docE) = .ok (st, true) ∧ ∃ N, ∀ fuel, N ≤ fuel →
    ∃ res vs, normalize env fuel (st.b.toCtx 28 st.annots) (fun _ => {}) (bs! "a 12") [] = .ok res ∧ res.ok = true ∧
      rulesE[0].Matches env (bs! "a 12") vs ∧ res.json = docEvent env docE 28 rulesE[0] rulesE[0] vs (bs! "a 12") [] := by
  obtain ⟨h1, h2, h3, h4, h5, h6, h7⟩ := docE_ok
  obtain ⟨st, hl, _, hn⟩ := C76_end_to_end_partial (srt := srt) (fs := fs) Ex.tokEnv docE h1 h2 h3 h4 1000 h5 rulesE h6 h7 (narrow_of_length (by decide))
  refine ⟨st, hl, ?_⟩
  obtain ⟨N, hN⟩ := hn 28 (bs! "a 12") msgE_tame (by
    intro r hr p hp off _
    simp only [rulesE, List.mem_cons, List.not_mem_nil, or_false] at hr
    rcases hr with rfl | rfl <;> simp only [List.mem_cons, List.not_mem_nil, or_false] at hp <;> subst hp <;> trivial)
    (fun _ => rulesE_shows) (fun _ => {}) []
  refine ⟨N, fun fuel hf => ?_⟩
  obtain ⟨res, hres, ho⟩ := hN fuel hf
  have hm : rulesE[0].Matches env (bs! "a 12") [(some (bs! "n"), some (.str (bs! "12")))] :=
    ⟨rfl, bs! "12", by decide, .cons (n := 2) (t' := []) ⟨⟨by decide, ⟨by decide, by decide, fun c h => by cases h⟩, by decide⟩, rfl⟩ (by decide) .nil⟩
  have hok : res.ok = true := ho.iff.2 ⟨_, List.mem_cons_self .., _, hm⟩
  obtain ⟨r, q, j, vs, hr, hq, hrm, ⟨us, hqm⟩, _, _, _, hj, _⟩ := ho.match_ hok
  cases rulesE_match r hr vs hrm
  cases rulesE_match q (List.mem_of_getElem? hq) us hqm
  exact ⟨res, vs, hres, hok, hrm, hj⟩

example : docEvent env docE 28 rulesE[0] rulesE[0] [(some (bs! "n"), some (.str (bs! "12")))] (bs! "a 12") [] =
    [(bs! "n", .str (bs! "12")), (bs! "event.tags", .arr [.str (bs! "num"), .str (bs! "x")]), (bs! "k", .str (bs! "v")),
     (bs! "originalmsg", .str (bs! "a 12")),
     (bs! "metadata", .obj [(bs! "rule", .obj [(bs! "mockup", .str (bs! "a %n:number%")),
       (bs! "location", .obj [(bs! "file", .str (bs! "--NO-FILE--")), (bs! "line", .int 3)])])])] := by decide

theorem toksE : rulesE[0].toks env = [RuleD.litTok (ch! 'a'), RuleD.litTok (ch! ' '), (.number, fNum.conf)] ∧
    rulesE[1].toks env = [RuleD.litTok (ch! 'a'), RuleD.litTok (ch! ' '), RuleD.litTok (ch! 'b'), RuleD.litTok (ch! ' '), (.word, fWord.conf)] := ⟨rfl, rfl⟩

/-- the two rules have `a ` in common, then one goes on with a number and the other with `b `: a message which goes on with `bx` is understood up to the `b` -/
theorem furthestE : ReadsFurthest env rulesE (bs! "a bx") 2 := by
  have hlit : ∀ {c : UInt8} {ts : List (FType × Obj)} {i j : Nat}, c ≠ 0 → ReadsToks env (bs! "a bx") (RuleD.litTok c :: ts) i j →
      [c] <+: (bs! "a bx").drop i ∧ ReadsToks env (bs! "a bx") ts (i + 1) j := by
    intro c ts i j hc h
    cases h with
    | cons h1 h2 =>
      obtain ⟨g1, rfl, _⟩ := (litTok_means hc).1 h1
      exact ⟨g1, h2⟩
  have hnum : ∀ {ts : List (FType × Obj)} {j : Nat}, ¬ ReadsToks env (bs! "a bx") ((.number, fNum.conf) :: ts) 2 j := by
    intro ts j h
    cases h with
    | @cons _ _ _ _ n _ v h1 h2 =>
      obtain ⟨⟨h0, ⟨h3, h4, _⟩, _⟩, _⟩ := h1
      have := h4 (ch! 'b') (by
        cases n with
        | zero => omega
        | succ n => show (ch! 'b') ∈ List.take (n + 1) _; simp)
      exact absurd this (by decide)
  refine ⟨⟨[RuleD.litTok (ch! 'a'), RuleD.litTok (ch! ' ')], .inr ⟨rulesE[0], List.mem_cons_self .., by rw [toksE.1]; exact ⟨_, rfl⟩⟩, ?_, ?_⟩, ?_⟩
  · rintro ⟨_, _, a, ha, _, hn⟩
    have h1 := hn rulesE[0] (List.mem_cons_self ..) (.number, fNum.conf) (by rw [toksE.1]; exact ⟨[], rfl⟩)
    rw [← h1] at ha
    cases ha.1
  · exact .cons (n := 1) ((litTok_means (by decide)).2 ⟨by decide, rfl, rfl⟩) (.cons (n := 1) ((litTok_means (by decide)).2 ⟨by decide, rfl, rfl⟩) (.nil 2))
  · rintro j ⟨pre, hpre, hmid, hrd⟩
    have hp : pre = [] ∨ pre <+: rulesE[0].toks env ∨ pre <+: rulesE[1].toks env := by
      rcases hpre with h | ⟨r, hr, h⟩
      · exact .inl h
      · simp only [rulesE, List.mem_cons, List.not_mem_nil, or_false] at hr
        rcases hr with rfl | rfl
        · exact .inr (.inl h)
        · exact .inr (.inr h)
    rw [toksE.1, toksE.2] at hp
    rcases hp with rfl | h | h
    · cases hrd; omega
    · rcases List.prefix_cons_iff.1 h with rfl | ⟨p1, rfl, k1⟩
      · cases hrd; omega
      · obtain ⟨_, hrd⟩ := hlit (by decide) hrd
        rcases List.prefix_cons_iff.1 k1 with rfl | ⟨p2, rfl, k2⟩
        · cases hrd; omega
        · obtain ⟨_, hrd⟩ := hlit (by decide) hrd
          rcases List.prefix_cons_iff.1 k2 with rfl | ⟨p3, rfl, k3⟩
          · cases hrd; omega
          · exact absurd hrd hnum
    · rcases List.prefix_cons_iff.1 h with rfl | ⟨p1, rfl, k1⟩
      · cases hrd; omega
      · obtain ⟨_, hrd⟩ := hlit (by decide) hrd
        rcases List.prefix_cons_iff.1 k1 with rfl | ⟨p2, rfl, k2⟩
        · cases hrd; omega
        · obtain ⟨_, hrd⟩ := hlit (by decide) hrd
          rcases List.prefix_cons_iff.1 k2 with rfl | ⟨p3, rfl, k3⟩
          · cases hrd; omega
          · obtain ⟨_, hrd⟩ := hlit (by decide) hrd
            rcases List.prefix_cons_iff.1 k3 with rfl | ⟨p4, rfl, k4⟩
            · refine absurd ?_ hmid
              refine ⟨⟨_, rfl, rfl, rfl⟩, ?_, RuleD.litTok (ch! ' '), ⟨rfl, rfl⟩, ⟨rulesE[1], List.mem_cons_of_mem _ (List.mem_cons_self ..), by rw [toksE.2]; exact ⟨_, rfl⟩⟩, ?_⟩
              · intro r hr
                simp only [rulesE, List.mem_cons, List.not_mem_nil, or_false] at hr
                rcases hr with rfl | rfl
                · intro _ h; have h := toksE.1.symm.trans h; injection h with _ h; injection h with _ h; injection h with h; cases h
                · intro _ h; have h := toksE.2.symm.trans h; have := congrArg List.length h; cases this
              · intro r hr t ht
                simp only [rulesE, List.mem_cons, List.not_mem_nil, or_false] at hr
                rcases hr with rfl | rfl
                · have ht : _ <+: rulesE[0].toks env := ht
                  rw [toksE.1] at ht
                  have := ht.length_le
                  simp at this
                · have ht : _ <+: rulesE[1].toks env := ht
                  rw [toksE.2] at ht
                  simp only [List.cons_append, List.nil_append, List.cons_prefix_cons, true_and] at ht
                  exact ht.1
            · obtain ⟨h4, _⟩ := hlit (by decide) hrd
              exact absurd h4 (by decide)

/-- the unmatched message: `unparsed-data` is `bx` -/
example (srt : Sorter) (fs : Bytes → Option Bytes) : ∃ st, loadSamplesFromString env srt fs 1000 {} (docText docE) = .ok (st, true) ∧ ∃ N, ∀ fuel, N ≤ fuel →
    ∃ res, normalize env fuel (st.b.toCtx 0 st.annots) (fun _ => {}) (bs! "a bx") [] = .ok res ∧ res.ok = false ∧
      res.json = [(bs! "originalmsg", .str (bs! "a bx")), (bs! "unparsed-data", .str (bs! "bx"))] := by
  obtain ⟨h1, h2, h3, h4, h5, h6, h7⟩ := docE_ok
  obtain ⟨st, hl, _, hn⟩ := C76_end_to_end_partial (srt := srt) (fs := fs) Ex.tokEnv docE h1 h2 h3 h4 1000 h5 rulesE h6 h7 (narrow_of_length (by decide))
  refine ⟨st, hl, ?_⟩
  obtain ⟨N, hN⟩ := hn 0 (bs! "a bx") (by
    refine ⟨by decide, fun i => ?_, by decide⟩
    have := (List.takeWhile_prefix (l := (bs! "a bx").drop i) isDigit).length_le
    simp at this
    omega) (by
    intro r hr p hp off _
    simp only [rulesE, List.mem_cons, List.not_mem_nil, or_false] at hr
    rcases hr with rfl | rfl <;> simp only [List.mem_cons, List.not_mem_nil, or_false] at hp <;> subst hp <;> trivial)
    (fun _ => rulesE_shows) (fun _ => {}) []
  refine ⟨N, fun fuel hf => ?_⟩
  obtain ⟨res, hres, ho⟩ := hN fuel hf
  have hok : res.ok = false := by
    refine Bool.eq_false_iff.2 fun hok => ?_
    obtain ⟨r, hr, vs, _, t, hm, hfit⟩ := ho.iff.1 hok
    simp only [rulesE, List.mem_cons, List.not_mem_nil, or_false] at hr
    rcases hr with rfl | rfl
    · have hm : bs! "a " ++ bs! "bx" = bs! "a " ++ t := hm
      have := List.append_cancel_left hm
      subst this
      cases hfit with
      | @cons _ _ _ _ n _ _ _ h1 _ _ =>
        obtain ⟨⟨h0, ⟨h3, h4, _⟩, _⟩, _⟩ := h1
        have := h4 (ch! 'b') (by
          cases n with
          | zero => omega
          | succ n => show (ch! 'b') ∈ List.take (n + 1) _; simp)
        exact absurd this (by decide)
    · simp [litMeaning, env] at hm
  obtain ⟨i, _, ⟨hi, hmax⟩, hj⟩ := ho.nomatch_ hok
  have : i = 2 := Nat.le_antisymm (furthestE.2 i hi) (hmax 2 furthestE.1)
  subst this
  exact ⟨res, hres, hok, hj⟩

/-- a rule base with a malformed rule: the description of its field has no colon -/
def docB : List RLine := [.rule [bs! "num"] (bs! "a %n:number%"), .rule [] (bs! "a b %oops%"), .rule [] (bs! "a b%x:numbr% z")]

def rulesB : List RuleD := [
  { tags := [bs! "num"], lit := bs! "a ", parts := [(fNum, [])], line := 1 },
  { tags := [], lit := bs! "a b ", parts := [], line := 2, breaks := some (bs! "%oops%", [.fieldDescr]) },
  { tags := [], lit := bs! "a b", parts := [], line := 3, breaks := some (bs! "%x:numbr% z", []) }]

/-- It is loaded, the malformed rule is reported, and matches nothing, not even what stands before the malformed part, and so does the rule with a misspelled type; the other rule works. -/
example (srt : Sorter) (fs : Bytes → Option Bytes) : ∃ st, loadSamplesFromString env srt fs 1000 {} (docText docB) = .ok (st, true) ∧ st.errs = [.fieldDescr] ∧
    (∃ N, ∀ fuel, N ≤ fuel → ∃ res, normalize env fuel (st.b.toCtx 0 st.annots) (fun _ => {}) (bs! "a b ") [] = .ok res ∧ res.ok = false) ∧
    (∃ N, ∀ fuel, N ≤ fuel → ∃ res, normalize env fuel (st.b.toCtx 0 st.annots) (fun _ => {}) (bs! "a 12") [] = .ok res ∧ res.ok = true) := by
  have hrok : ∀ r ∈ rulesB, r.OK env := by
    intro r hr
    simp only [rulesB, List.mem_cons, List.not_mem_nil, or_false] at hr
    rcases hr with rfl | rfl | rfl
    · refine ⟨fun p hp => ?_, fun x hx => by cases hx⟩
      simp only [List.mem_cons, List.not_mem_nil, or_false] at hp
      subst hp
      exact fNum_ok
    · refine ⟨fun p hp => absurd hp (List.not_mem_nil), fun x hx => ?_⟩
      cases hx
      exact .malformed (.noColon (lead := []) (c := ch! 'o') (b := bs! "ops%") (by simp [Blanks]) (by decide) (by decide))
    · refine ⟨fun p hp => absurd hp (List.not_mem_nil), fun x hx => ?_⟩
      cases hx
      exact .unknown (f := .simple [] (bs! "x") (bs! "numbr") [] none) (o := [(bs! "name", .str (bs! "x")), (bs! "type", .str (bs! "numbr"))])
        (ty := bs! "numbr") (bs! " z") [] (.plain (by simp [Blanks]) (by simp [NameOK, isSpace]) (by simp [TypeOK, isSpace]) (by simp [Blanks])) (by decide)
        ⟨fun f => by cases f <;> decide, by decide, by decide, by decide, by decide⟩ (by simp)
  obtain ⟨st, hl, he, hn⟩ := C76_end_to_end_partial (env := env) (srt := srt) (fs := fs) Ex.tokEnv docB (by
      intro l hl
      simp only [docB, List.mem_cons, List.not_mem_nil, or_false] at hl
      rcases hl with rfl | rfl | rfl
      · exact ⟨by simp [TagOK], by decide⟩
      · exact ⟨by simp, by decide⟩
      · exact ⟨by simp, by decide⟩) (by decide +kernel) (by simp [ExtendOK, docB, RLine.nextPrefix]) (by
      intro l hl nm t h
      subst h
      simp [docB] at hl) 1000 (by decide +kernel) rulesB (by decide) hrok (narrow_of_length (by decide))
  have hscope : ∀ (s : Bytes), ∀ r ∈ rulesB, ∀ p ∈ r.parts, ∀ off, off ≤ s.length → p.1.type.InScope env p.1.conf s off (fieldName p.1.conf).isSome := by
    intro s r hr p hp off _
    simp only [rulesB, List.mem_cons, List.not_mem_nil, or_false] at hr
    rcases hr with rfl | rfl | rfl <;> simp only [List.mem_cons, List.not_mem_nil, or_false] at hp
    subst hp
    trivial
  refine ⟨st, hl, he, ?_, ?_⟩
  · obtain ⟨N, hN⟩ := hn 0 (bs! "a b ") (by
      refine ⟨by decide, fun i => ?_, by decide⟩
      have := (List.takeWhile_prefix (l := (bs! "a b ").drop i) isDigit).length_le
      simp at this
      omega) (hscope _) (fun h => absurd h (by decide)) (fun _ => {}) []
    refine ⟨N, fun fuel hf => ?_⟩
    obtain ⟨res, hres, ho⟩ := hN fuel hf
    refine ⟨res, hres, Bool.eq_false_iff.2 fun hok => ?_⟩
    obtain ⟨r, hr, vs, hb, t, hm, hfit⟩ := ho.iff.1 hok
    simp only [rulesB, List.mem_cons, List.not_mem_nil, or_false] at hr
    rcases hr with rfl | rfl | rfl
    · have hm : bs! "a " ++ bs! "b " = bs! "a " ++ t := hm
      have := List.append_cancel_left hm
      subst this
      cases hfit with
      | @cons _ _ _ _ n _ _ _ h1 _ _ =>
        obtain ⟨⟨h0, ⟨h3, h4, _⟩, _⟩, _⟩ := h1
        have := h4 (ch! 'b') (by
          obtain ⟨n, rfl⟩ := Nat.exists_eq_succ_of_ne_zero (Nat.pos_iff_ne_zero.1 h0)
          show (ch! 'b') ∈ List.take (n + 1) _; simp)
        exact absurd this (by decide)
    · cases hb
    · cases hb
  · obtain ⟨N, hN⟩ := hn 0 (bs! "a 12") msgE_tame (hscope _) (fun h => absurd h (by decide)) (fun _ => {}) []
    refine ⟨N, fun fuel hf => ?_⟩
    obtain ⟨res, hres, ho⟩ := hN fuel hf
    refine ⟨res, hres, ho.iff.2 ⟨_, List.mem_cons_self .., [(some (bs! "n"), some (.str (bs! "12")))], ?_⟩⟩
    exact ⟨rfl, bs! "12", by decide, .cons (n := 2) (t' := []) ⟨⟨by decide, ⟨by decide, by decide, fun c h => by cases h⟩, by decide⟩, rfl⟩ (by decide) .nil⟩

end Ex
end LN
