import Verif.Proofs.DocTD
import Verif.Props.Include
/-
C79: rule bases with user-defined types, from the text to the event.
-/
set_option autoImplicit false
namespace LN
open Spec

section
variable {env : Env} {srt : Sorter} {fs : Bytes → Option Bytes}

/-- What normalising messages with the loaded rule base yields. -/
def NormalisesAsT (env : Env) (ls : List RLine) (ds : List RuleT) (st : LoadSt) : Prop :=
  ∀ (opts : Nat) (s : Bytes), Tame s → (∀ r ∈ ds, r.InScope env s) → Unambiguous env ds s → (opts.testBit 3 = true → ∀ r ∈ ds, r.Shows env) →
    ∀ (stats : NodeId → Stats) (json0 : Obj), ∃ N, ∀ fuel, N ≤ fuel → ∃ res,
      normalize env fuel (st.b.toCtx opts st.annots) stats s json0 = .ok res ∧ DocOutcomeT env ls ds opts s json0 res.ok res.json

theorem docDefs_file : ∀ (ls : List Loc) (pfx : Option Bytes) (x : Option Bytes × List Bytes × Bytes × Bytes × Nat), x ∈ docDefs pfx ls →
    ∃ l ∈ ls, l.file = x.2.2.2.1
  | [], _, _, h => by cases h
  | l :: ls, pfx, x, h => by
    rcases List.mem_append.1 h with h | h
    · refine ⟨l, List.mem_cons_self .., ?_⟩
      split at h
      · rw [List.mem_singleton.1 h]
      · rw [List.mem_singleton.1 h]
      · cases h
    · obtain ⟨l', h1, h2⟩ := docDefs_file ls _ x h
      exact ⟨l', List.mem_cons_of_mem _ h1, h2⟩

/-- **C79** Loading a rule base of version 2 with user-defined types from its text and normalising a message with it gives what the text says: see
`DocOutcomeT`. Types are defined before they are used and do not contain themselves; rules and definitions are unambiguous for the message (`Unambiguous`).
Missing: ambiguous rule bases (see C10 for what user-defined types can do there); types which contain themselves; `alternative`, `repeat`; more than 255 different
ways to go on at a point; messages and fields out of scope (C06, C75); what stands behind the text of the rule in the metadata. -/
theorem C79_end_to_end_partial (he : env.TokOK) (ls : List RLine) (hok : ∀ l ∈ ls, l.OK) (hline : ∀ l ∈ ls, LineOK l.text)
    (hext : ExtendOK none ls) (fuel : Nat) (hfuel : ∀ l ∈ ls, l.text.length ≤ fuel)
    (ds : List RuleT) (hdefs : docDefs none (numbered (bs! "--NO-FILE--") 0 ls) = ds.map fun r => (r.type, r.tags, r.text, r.file, r.line))
    (hrok : ∀ r ∈ ds, r.OK env) (hdef : Defined ds) (hlay : Layered ds) (hlen : ∀ t, Narrow ((ds.filter fun r => r.type = t).map (·.toks env))) :
    ∃ st, loadSamplesFromString env srt fs fuel {} (docText ls) = .ok (st, true) ∧
      st.errs = docMsgs ls (ds.map RuleT.msgs) ∧ NormalisesAsT env ls ds st := by
  have hwhat := numbered_what (bs! "--NO-FILE--") ls 0
  obtain ⟨b, h1, hsafe, herrs, h2⟩ := doc_coreT (srt := srt) he _ ls hwhat hok (fun l hl c hc => ((hline l hl).1 c hc).2.1) hext ds hdefs hrok (by
    intro r hr
    obtain ⟨l, hl, e⟩ := docDefs_file _ none _ (by rw [hdefs]; exact List.mem_map.2 ⟨r, hr, rfl⟩)
    change l.file = r.file at e
    rw [← e, numbered_file ls 0 l hl]
    decide) hdef hlay hlen
  refine ⟨_, by rw [load_document ls hok hline hsafe fuel hfuel, docOps_numbered, h1, R.ok_bind'], (docErrs_defErrs ls none).trans (by rw [herrs]), ?_⟩
  unfold NormalisesAsT
  exact h2

/-- **C79** with included files and lines broken inside of field descriptions (see C78): types are common to all files -/
theorem C79_string_end_to_end_partial (he : env.TokOK) (is : List Item) (hok : itemsOK fs .string is) (ls : List RLine)
    (hls : (itemsLines (bs! "--NO-FILE--") 0 is).map (·.what) = ls) (hext : ExtendOK none ls)
    (ds : List RuleT)
    (hdefs : docDefs none (itemsLines (bs! "--NO-FILE--") 0 is) = ds.map fun r => (r.type, r.tags, r.text, r.file, r.line))
    (hrok : ∀ r ∈ ds, r.OK env) (hdef : Defined ds) (hlay : Layered ds) (hlen : ∀ t, Narrow ((ds.filter fun r => r.type = t).map (·.toks env))) :
    ∃ st, (∀ fuel, itemsSize is ≤ fuel → loadSamplesFromString env srt fs fuel {} (itemsText is) = .ok (st, true)) ∧ st.version = 2 ∧
      st.errs = itemsMsgs is (ds.map RuleT.msgs) ∧ NormalisesAsT env ls ds st := by
  have hl := items_lines_ok (fs := fs) (src := .string) (file := bs! "--NO-FILE--") (by decide) is 0 hok
  have hl' : ∀ l ∈ ls, l.OK ∧ ∀ c ∈ l.text, c ≠ 0 := by
    intro l h
    rw [← hls] at h
    obtain ⟨x, hx, rfl⟩ := List.mem_map.1 h
    exact ⟨(hl x hx).1, (hl x hx).2.1⟩
  obtain ⟨b, h1, hsafe, herrs, h2⟩ := doc_coreT (srt := srt) he _ ls hls (fun l h => (hl' l h).1) (fun l h => (hl' l h).2) hext ds hdefs hrok (by
    intro r hr
    obtain ⟨l, g1, g2⟩ := docDefs_file _ none _ (by rw [hdefs]; exact List.mem_map.2 ⟨r, hr, rfl⟩)
    change l.file = r.file at g2
    rw [← g2]
    exact (hl l g1).2.2) hdef hlay hlen
  refine ⟨_, fun fuel hfuel => by rw [C78_string is hok (by rw [hls]; exact hsafe) fuel hfuel, h1, R.ok_bind'], rfl, ?_, ?_⟩
  · rw [← herrs]; exact items_errs is _ _ hls
  · rw [hls]; exact h2

/-- **C79** the same for files -/
theorem C79_file_end_to_end_partial (he : env.TokOK) (name : Bytes) (hname : ∀ c ∈ name, c ≠ 0) (is : List Item)
    (hfile : fs name = some (bs! "version=2\n" ++ itemsText is)) (hok : itemsOK fs .file is) (ls : List RLine)
    (hls : (itemsLines name 1 is).map (·.what) = ls) (hext : ExtendOK none ls)
    (ds : List RuleT)
    (hdefs : docDefs none (itemsLines name 1 is) = ds.map fun r => (r.type, r.tags, r.text, r.file, r.line))
    (hrok : ∀ r ∈ ds, r.OK env) (hdef : Defined ds) (hlay : Layered ds) (hlen : ∀ t, Narrow ((ds.filter fun r => r.type = t).map (·.toks env))) :
    ∃ st, (∀ fuel, itemsSize is ≤ fuel → loadSamples env srt fs (fuel + 1) {} name = .ok (st, true)) ∧ st.version = 2 ∧
      st.errs = itemsMsgs is (ds.map RuleT.msgs) ∧ NormalisesAsT env ls ds st := by
  have hl := items_lines_ok (fs := fs) (src := .file) (file := name) hname is 1 hok
  have hl' : ∀ l ∈ ls, l.OK ∧ ∀ c ∈ l.text, c ≠ 0 := by
    intro l h
    rw [← hls] at h
    obtain ⟨x, hx, rfl⟩ := List.mem_map.1 h
    exact ⟨(hl x hx).1, (hl x hx).2.1⟩
  obtain ⟨b, h1, hsafe, herrs, h2⟩ := doc_coreT (srt := srt) he _ ls hls (fun l h => (hl' l h).1) (fun l h => (hl' l h).2) hext ds hdefs hrok (by
    intro r hr
    obtain ⟨l, g1, g2⟩ := docDefs_file _ none _ (by rw [hdefs]; exact List.mem_map.2 ⟨r, hr, rfl⟩)
    change l.file = r.file at g2
    rw [← g2]
    exact (hl l g1).2.2) hdef hlay hlen
  refine ⟨_, fun fuel hfuel => by rw [C78_file name is hfile hok (by rw [hls]; exact hsafe) fuel hfuel, h1, R.ok_bind'], rfl, ?_, ?_⟩
  · rw [← herrs]; exact items_errs is _ _ hls
  · rw [hls]; exact h2

end

/-! ### a concrete case -/

namespace Ex

/-- a rule base with types which use each other -/
def docU : List RLine := [.type (bs! "@end") (bs! "(%n:number%)"), .type (bs! "@end") (bs! "-"), .type (bs! "@pair") (bs! "p%e:@end%"),
  .prefix_ (bs! "x"), .rule [bs! "t"] (bs! "%a:@pair%"), .extend (bs! "y"), .rule [] (bs! "%a:@pair%z"), .annotate (bs! "t") [([], bs! "k", bs! "v")]]

def fN : FieldT := ⟨.simple [] (bs! "n") (bs! "number") [] none, .plain .number, [(bs! "name", .str (bs! "n")), (bs! "type", .str (bs! "number"))]⟩
def fE : FieldT := ⟨.simple [] (bs! "e") (bs! "@end") [] none, .user (bs! "@end"), [(bs! "name", .str (bs! "e")), (bs! "type", .str (bs! "@end"))]⟩
def fA : FieldT := ⟨.simple [] (bs! "a") (bs! "@pair") [] none, .user (bs! "@pair"), [(bs! "name", .str (bs! "a")), (bs! "type", .str (bs! "@pair"))]⟩

def dEnd1 : RuleT := { type := some (bs! "@end"), lit := bs! "(", parts := [(fN, bs! ")")], line := 1 }
def dEnd2 : RuleT := { type := some (bs! "@end"), lit := bs! "-", parts := [], line := 2 }
def dPair : RuleT := { type := some (bs! "@pair"), lit := bs! "p", parts := [(fE, [])], line := 3 }
def rX : RuleT := { tags := [bs! "t"], lit := bs! "x", parts := [(fA, [])], line := 5 }
def rY : RuleT := { lit := bs! "xy", parts := [(fA, bs! "z")], line := 7 }

/-- its rules and definitions -/
def defsU : List RuleT := [dEnd1, dEnd2, dPair, rX, rY]

theorem fN_ok : fN.OK env where
  decl := .plain (by simp [Blanks]) ⟨by decide, by decide, _, _, rfl, by decide, by decide, by decide, by decide⟩
    ⟨by decide, by decide⟩ (by simp [Blanks])
  desc := { nodup := by decide, type := by rfl, name := .inr ⟨bs! "n", rfl, by decide⟩, prio := .inl rfl
            params := ⟨.inl rfl, .inl rfl⟩ }

theorem fE_ok : fE.OK env where
  decl := .plain (by simp [Blanks]) ⟨by decide, by decide, _, _, rfl, by decide, by decide, by decide, by decide⟩
    ⟨by decide, by decide⟩ (by simp [Blanks])
  desc := { nodup := by decide, type := by rfl, at_ := by decide, noNul := by decide, name := .inr ⟨bs! "e", rfl, by decide⟩, prio := .inl rfl }

theorem fA_ok : fA.OK env where
  decl := .plain (by simp [Blanks]) ⟨by decide, by decide, _, _, rfl, by decide, by decide, by decide, by decide⟩
    ⟨by decide, by decide⟩ (by simp [Blanks])
  desc := { nodup := by decide, type := by rfl, at_ := by decide, noNul := by decide, name := .inr ⟨bs! "a", rfl, by decide⟩, prio := .inl rfl }

theorem docU_ok : (∀ l ∈ docU, l.OK) ∧ (∀ l ∈ docU, LineOK l.text) ∧ ExtendOK none docU ∧
    (∀ l ∈ docU, l.text.length ≤ 1000) ∧ docDefs none (numbered (bs! "--NO-FILE--") 0 docU) = defsU.map (fun r => (r.type, r.tags, r.text, r.file, r.line)) ∧
    (∀ r ∈ defsU, r.OK env) := by
  refine ⟨?_, by decide +kernel, ?_, by decide +kernel, by decide, fun r hr => ⟨?_, ?_⟩⟩
  · intro l hl
    simp only [docU, List.mem_cons, List.not_mem_nil, or_false] at hl
    rcases hl with rfl | rfl | rfl | rfl | rfl | rfl | rfl | rfl
    · exact ⟨by decide, by decide, by decide, by decide⟩
    · exact ⟨by decide, by decide, by decide, by decide⟩
    · exact ⟨by decide, by decide, by decide, by decide⟩
    · trivial
    · exact ⟨by simp [TagOK], by decide⟩
    · trivial
    · exact ⟨by simp, by decide⟩
    · exact ⟨⟨by decide, by decide⟩, by simp [Blanks, Word]; decide⟩
  · simp [ExtendOK, docU, RLine.nextPrefix]
  · intro p hp
    simp only [defsU, List.mem_cons, List.not_mem_nil, or_false] at hr
    rcases hr with rfl | rfl | rfl | rfl | rfl <;> simp only [dEnd1, dEnd2, dPair, rX, rY, List.mem_cons, List.not_mem_nil, or_false] at hp <;> subst hp
    · exact fN_ok
    · exact fE_ok
    · exact fA_ok
    · exact fA_ok
  · intro x hx
    simp only [defsU, List.mem_cons, List.not_mem_nil, or_false] at hr
    rcases hr with rfl | rfl | rfl | rfl | rfl <;> cases hx

theorem defsU_defined : Defined defsU := by
  intro i d hd p hp nm hnm
  match i, hd with
  | 0, hd => cases hd; simp only [dEnd1, List.mem_cons, List.not_mem_nil, or_false] at hp; subst hp; cases hnm
  | 1, hd => cases hd; cases hp
  | 2, hd =>
    cases hd; simp only [dPair, List.mem_cons, List.not_mem_nil, or_false] at hp; subst hp; cases hnm
    exact ⟨0, dEnd1, by decide, rfl, rfl⟩
  | 3, hd =>
    cases hd; simp only [rX, List.mem_cons, List.not_mem_nil, or_false] at hp; subst hp; cases hnm
    exact ⟨2, dPair, by decide, rfl, rfl⟩
  | 4, hd =>
    cases hd; simp only [rY, List.mem_cons, List.not_mem_nil, or_false] at hp; subst hp; cases hnm
    exact ⟨2, dPair, by decide, rfl, rfl⟩
  | n + 5, hd => cases hd

theorem defsU_layered : Layered defsU := by
  refine ⟨fun t => if t = bs! "@pair" then 1 else 0, ?_⟩
  intro d hd t ht p hp nm hnm
  simp only [defsU, List.mem_cons, List.not_mem_nil, or_false] at hd
  rcases hd with rfl | rfl | rfl | rfl | rfl
  · simp only [dEnd1, List.mem_cons, List.not_mem_nil, or_false] at hp; subst hp; cases hnm
  · cases hp
  · simp only [dPair, List.mem_cons, List.not_mem_nil, or_false] at hp; subst hp; cases hnm; cases ht; decide
  · cases ht
  · cases ht

theorem begins_lit {ds : List RuleT} {t : Bytes} {c : UInt8} (hc : c ≠ 0) (h : Begins env ds t (RuleT.litTok c)) : ∃ u, t = c :: u := by
  cases h with
  | plain h =>
    obtain ⟨⟨u, hu⟩, _⟩ := (litTok_means (env := env) hc).1 h
    exact ⟨u, hu.symm⟩

theorem begins_pair {t : Bytes} {o : Obj} (h : Begins env defsU t (.user (bs! "@pair"), o)) : ∃ u, t = ch! 'p' :: u := by
  cases h with
  | @user _ _ d k ks hd hdt hk hb =>
    simp only [defsU, List.mem_cons, List.not_mem_nil, or_false] at hd
    rcases hd with rfl | rfl | rfl | rfl | rfl
    · exact absurd hdt (by decide)
    · exact absurd hdt (by decide)
    · cases hk
      exact begins_lit (by decide) hb
    · exact absurd hdt (by decide)
    · exact absurd hdt (by decide)

theorem defsU_unambiguous (s : Bytes) : Unambiguous env defsU s where
  branch := by
    intro d hd d' hd' hty x c c' hx hx' hne t _ hm hm'
    obtain ⟨h1, h2⟩ := prefix_snoc hx
    obtain ⟨h3, h4⟩ := prefix_snoc hx'
    have hnil : ∀ {a a' : RTok} {l l' : List RTok}, a ≠ a' → x = (a :: l).take x.length → x = (a' :: l').take x.length → x = [] := by
      intro a a' l l' hne e1 e2
      cases x with
      | nil => rfl
      | cons y ys =>
        simp only [List.length_cons, List.take_succ_cons, List.cons.injEq] at e1 e2
        exact absurd (e1.1.symm.trans e2.1) hne
    simp only [defsU, List.mem_cons, List.not_mem_nil, or_false] at hd hd'
    rcases hd with rfl | rfl | rfl | rfl | rfl <;> rcases hd' with rfl | rfl | rfl | rfl | rfl <;>
      first
      | (exact absurd hty (by decide))
      | (rw [h1] at h3; exact hne (Option.some.inj h3))
      | skip
    · have hx0 := hnil (a := RuleT.litTok (ch! '(')) (a' := RuleT.litTok (ch! '-')) (by decide) h2 h4
      subst hx0
      cases h1; cases h3
      obtain ⟨u, rfl⟩ := begins_lit (by decide) hm
      obtain ⟨u', h⟩ := begins_lit (by decide) hm'
      cases h
    · have hx0 := hnil (a := RuleT.litTok (ch! '-')) (a' := RuleT.litTok (ch! '(')) (by decide) h2 h4
      subst hx0
      cases h1; cases h3
      obtain ⟨u, rfl⟩ := begins_lit (by decide) hm
      obtain ⟨u', h⟩ := begins_lit (by decide) hm'
      cases h
    · cases x with
      | nil => cases h1; cases h3; exact hne rfl
      | cons y ys =>
        cases ys with
        | nil =>
          cases h1; cases h3
          obtain ⟨u, rfl⟩ := begins_pair hm
          obtain ⟨u', h⟩ := begins_lit (by decide) hm'
          cases h
        | cons z zs => cases h1
    · cases x with
      | nil => cases h1; cases h3; exact hne rfl
      | cons y ys =>
        cases ys with
        | nil =>
          cases h1; cases h3
          obtain ⟨u, rfl⟩ := begins_pair hm'
          obtain ⟨u', h⟩ := begins_lit (by decide) hm
          cases h
        | cons z zs => cases h3
  stop := by
    intro d hd hty _ d' hd' hty' k hpre
    obtain ⟨h1, h2⟩ := prefix_snoc hpre
    simp only [defsU, List.mem_cons, List.not_mem_nil, or_false] at hd hd'
    rcases hd with rfl | rfl | rfl | rfl | rfl <;> rcases hd' with rfl | rfl | rfl | rfl | rfl <;>
      first
      | (exact absurd hty' (by decide))
      | (exact absurd rfl hty)
      | (exact absurd h2 (by decide))
      | (cases h1)
  nonempty := by decide

theorem msgU_tame : Tame (bs! "xp(12)") := by
  refine ⟨by decide, fun i => ?_, by decide⟩
  have := (List.takeWhile_prefix (l := (bs! "xp(12)").drop i) isDigit).length_le
  simp at this
  omega

theorem defsU_shows : ∀ r ∈ defsU, r.Shows env := by
  intro r hr
  simp only [defsU, List.mem_cons, List.not_mem_nil, or_false] at hr
  rcases hr with rfl | rfl | rfl | rfl | rfl <;> refine ⟨by decide, fun p hp h => ?_⟩ <;>
    simp only [dEnd1, dEnd2, dPair, rX, rY, List.mem_cons, List.not_mem_nil, or_false] at hp
  all_goals first
    | (subst hp; cases h)
    | cases hp

theorem defsU_scope (s : Bytes) : ∀ r ∈ defsU, r.InScope env s := by
  intro r hr p hp ty hty off _
  simp only [defsU, List.mem_cons, List.not_mem_nil, or_false] at hr
  rcases hr with rfl | rfl | rfl | rfl | rfl <;>
    simp only [dEnd1, dEnd2, dPair, rX, rY, List.mem_cons, List.not_mem_nil, or_false] at hp
  all_goals first
    | (subst hp; cases hty; trivial)
    | (subst hp; cases hty)
    | cases hp

/-- what the rule for `x` makes of the message -/
theorem rX_matches : rX.Matches env defsU (bs! "xp(12)")
    [(some (bs! "a"), some (.obj [(bs! "e", .obj [(bs! "n", .str (bs! "12"))])]))] :=
  ⟨rfl, bs! "p(12)", by decide, .user (nm := bs! "@pair") (d := dPair) (t1 := bs! "(12)") (t2 := []) (t' := [])
    (us := [(some (bs! "e"), some (.obj [(bs! "n", .str (bs! "12"))]))]) rfl (by simp [defsU]) rfl rfl (by decide)
    (.user (nm := bs! "@end") (d := dEnd1) (t1 := bs! "12)") (t2 := []) (t' := []) (us := [(some (bs! "n"), some (.str (bs! "12")))]) rfl
      (by simp [defsU]) rfl rfl (by decide)
      (.plain (ty := .number) (n := 2) (t' := []) rfl ⟨⟨by decide, ⟨by decide, by decide, fun c h => by cases h; decide⟩, by decide⟩, rfl⟩ (by decide)
        (.nil _)) (by decide) (.nil _)) (by decide) (.nil _)⟩

/-- the rule base and the message meet the hypotheses: the message is reported as matched, with fields of the types, tags and annotations -/
example (srt : Sorter) (fs : Bytes → Option Bytes) : ∃ st, loadSamplesFromString env srt fs 1000 {} (docText docU) = .ok (st, true) ∧ ∃ N, ∀ fuel, N ≤ fuel →
    ∃ res r q vs extra, normalize env fuel (st.b.toCtx 28 st.annots) (fun _ => {}) (bs! "xp(12)") [] = .ok res ∧ res.ok = true ∧
      r ∈ defsU ∧ r.Matches env defsU (bs! "xp(12)") vs ∧ res.json = docEventT env docU 28 r q extra vs (bs! "xp(12)") [] := by
  obtain ⟨h1, h2, h3, h5, h6, h7⟩ := docU_ok
  obtain ⟨st, hl, _, hn⟩ := C79_end_to_end_partial (srt := srt) (fs := fs) Ex.tokEnv docU h1 h2 h3 1000 h5 defsU h6 h7 defsU_defined defsU_layered (fun _ => narrow_filter (by decide))
  refine ⟨st, hl, ?_⟩
  obtain ⟨N, hN⟩ := hn 28 (bs! "xp(12)") msgU_tame (defsU_scope _) (defsU_unambiguous _) (fun _ => defsU_shows) (fun _ => {}) []
  refine ⟨N, fun fuel hf => ?_⟩
  obtain ⟨res, hres, ho⟩ := hN fuel hf
  have hok : res.ok = true := ho.iff.2 ⟨rX, by simp [defsU], rfl, _, rX_matches⟩
  obtain ⟨r, q, j, vs, extra, hr, _, hq, _, hrm, _, _, _, hj⟩ := ho.match_ hok
  exact ⟨res, r, q, vs, extra, hres, hok, hr, hrm, hj⟩

example : docEventT env docU 28 rX rX [] [(some (bs! "a"), some (.obj [(bs! "e", .obj [(bs! "n", .str (bs! "12"))])]))] (bs! "xp(12)") [] =
    [(bs! "a", .obj [(bs! "e", .obj [(bs! "n", .str (bs! "12"))])]), (bs! "event.tags", .arr [.str (bs! "t")]), (bs! "k", .str (bs! "v")),
     (bs! "originalmsg", .str (bs! "xp(12)")),
     (bs! "metadata", .obj [(bs! "rule", .obj [(bs! "mockup", .str (bs! "x%a:USER-DEFINED%")),
       (bs! "location", .obj [(bs! "file", .str (bs! "--NO-FILE--")), (bs! "line", .int 5)])])])] := by decide

theorem toksU : rX.toks env = [RuleT.litTok (ch! 'x'), (.user (bs! "@pair"), fA.conf)] ∧
    rY.toks env = [RuleT.litTok (ch! 'x'), RuleT.litTok (ch! 'y'), (.user (bs! "@pair"), fA.conf), RuleT.litTok (ch! 'z')] := ⟨by decide, by decide⟩

theorem litU {s : Bytes} {c : UInt8} (hc : c ≠ 0) {ts : List RTok} {i j : Nat} (h : ReadsToksT env defsU s (RuleT.litTok c :: ts) i j) :
    [c] <+: s.drop i ∧ ReadsToksT env defsU s ts (i + 1) j := by
  cases h with
  | plain h1 h2 =>
    obtain ⟨g1, rfl, _⟩ := (litTok_means (env := env) hc).1 h1
    exact ⟨g1, h2⟩

/-- the number is not closed, so there is no pair -/
theorem noPairU {ts : List RTok} {o : Obj} {j : Nat} : ¬ ReadsToksT env defsU (bs! "xp(1") ((.user (bs! "@pair"), o) :: ts) 1 j := by
  intro h
  cases h with
  | @user _ _ _ _ k _ d t us hd hdt _ ht hfit _ _ =>
    simp only [defsU, List.mem_cons, List.not_mem_nil, or_false] at hd
    rcases hd with rfl | rfl | rfl | rfl | rfl <;> first | (exact absurd hdt (by decide)) | skip
    have ht : bs! "p(1" = bs! "p" ++ t := ht
    have : t = bs! "(1" := by injection ht with _ ht; exact ht.symm
    subst this
    cases hfit with
    | plain h1 => cases h1
    | @user _ t1 t2 t' _ _ _ nm d us _ _ hty hd hdt hdb ht1 hf1 _ _ =>
      cases hty
      simp only [defsU, List.mem_cons, List.not_mem_nil, or_false] at hd
      rcases hd with rfl | rfl | rfl | rfl | rfl <;> first | (exact absurd hdt (by decide)) | skip
      · have ht1 : bs! "(1" = bs! "(" ++ t1 := ht1
        have : t1 = bs! "1" := by injection ht1 with _ ht1; exact ht1.symm
        subst this
        cases hf1 with
        | user h1 => cases h1
        | @plain _ t' _ _ _ ty n v _ _ hty hm hdr _ =>
          cases hty
          obtain ⟨⟨h0, _⟩, _⟩ := hm
          have : List.drop n (bs! "1") = [] := by
            cases n with
            | zero => omega
            | succ n => simp
          rw [this] at hdr
          exact absurd hdr (by show [] ≠ (ch! ')') :: t'; simp)
      · have ht1 : bs! "(1" = bs! "-" ++ t1 := ht1
        injection ht1 with h1 _
        exact absurd h1 (by decide)

theorem furthestU : ReadsFurthestT env defsU (bs! "xp(1") 1 := by
  refine ⟨⟨[RuleT.litTok (ch! 'x')], .inr ⟨rX, by simp [defsU], rfl, by rw [toksU.1]; exact ⟨_, rfl⟩⟩, ?_, ?_⟩, ?_⟩
  · rintro ⟨_, _, a, ha, _, hn⟩
    have h1 := hn rX (by simp [defsU]) rfl (.user (bs! "@pair"), fA.conf) (by rw [toksU.1]; exact ⟨[], rfl⟩)
    rw [← h1] at ha
    cases ha.1
  · exact .plain (n := 1) ((litTok_means (env := env) (by decide)).2 ⟨by decide, rfl, rfl⟩) (.nil 1)
  · rintro j ⟨pre, hpre, hmid, hrd⟩
    have hp : pre = [] ∨ pre <+: rX.toks env ∨ pre <+: rY.toks env := by
      rcases hpre with h | ⟨r, hr, hrt, h⟩
      · exact .inl h
      · simp only [defsU, List.mem_cons, List.not_mem_nil, or_false] at hr
        rcases hr with rfl | rfl | rfl | rfl | rfl
        · cases hrt
        · cases hrt
        · cases hrt
        · exact .inr (.inl h)
        · exact .inr (.inr h)
    rw [toksU.1, toksU.2] at hp
    rcases hp with rfl | h | h
    · cases hrd; omega
    · rcases List.prefix_cons_iff.1 h with rfl | ⟨p1, rfl, k1⟩
      · cases hrd; omega
      · obtain ⟨_, hrd⟩ := litU (by decide) hrd
        rcases List.prefix_cons_iff.1 k1 with rfl | ⟨p2, rfl, k2⟩
        · cases hrd; omega
        · exact absurd hrd noPairU
    · rcases List.prefix_cons_iff.1 h with rfl | ⟨p1, rfl, k1⟩
      · cases hrd; omega
      · obtain ⟨_, hrd⟩ := litU (by decide) hrd
        rcases List.prefix_cons_iff.1 k1 with rfl | ⟨p2, rfl, k2⟩
        · cases hrd; omega
        · obtain ⟨h2, _⟩ := litU (by decide) hrd
          exact absurd h2 (by decide)

theorem msgU'_tame : Tame (bs! "xp(1") := by
  refine ⟨by decide, fun i => ?_, by decide⟩
  have := (List.takeWhile_prefix (l := (bs! "xp(1").drop i) isDigit).length_le
  simp at this
  omega

/-- an unmatched message: the pair is not complete, so `unparsed-data` starts where it should be, although its first two characters are there -/
example (srt : Sorter) (fs : Bytes → Option Bytes) : ∃ st, loadSamplesFromString env srt fs 1000 {} (docText docU) = .ok (st, true) ∧ ∃ N, ∀ fuel, N ≤ fuel →
    ∃ res, normalize env fuel (st.b.toCtx 0 st.annots) (fun _ => {}) (bs! "xp(1") [] = .ok res ∧ res.ok = false ∧
      res.json = [(bs! "originalmsg", .str (bs! "xp(1")), (bs! "unparsed-data", .str (bs! "p(1"))] := by
  obtain ⟨h1, h2, h3, h5, h6, h7⟩ := docU_ok
  obtain ⟨st, hl, _, hn⟩ := C79_end_to_end_partial (srt := srt) (fs := fs) Ex.tokEnv docU h1 h2 h3 1000 h5 defsU h6 h7 defsU_defined defsU_layered (fun _ => narrow_filter (by decide))
  refine ⟨st, hl, ?_⟩
  obtain ⟨N, hN⟩ := hn 0 (bs! "xp(1") msgU'_tame (defsU_scope _) (defsU_unambiguous _) (fun h => by cases h) (fun _ => {}) []
  refine ⟨N, fun fuel hf => ?_⟩
  obtain ⟨res, hres, ho⟩ := hN fuel hf
  have hok : res.ok = false := by
    cases hr : res.ok with
    | false => rfl
    | true =>
      obtain ⟨r, hrm, hrt, vs, _, t, ht, hfit⟩ := ho.iff.1 hr
      simp only [defsU, List.mem_cons, List.not_mem_nil, or_false] at hrm
      rcases hrm with rfl | rfl | rfl | rfl | rfl
      · cases hrt
      · cases hrt
      · cases hrt
      · have e : litMeaning env rX.lit = bs! "x" := by decide
        rw [e] at ht
        have : t = bs! "p(1" := (congrArg (List.drop 1) ht).symm
        subst this
        cases hfit with
        | plain h => cases h
        | @user _ t1 t2 t' _ _ _ nm d us _ _ hty hd hdt hdb ht1 hf1 ht2 hrest =>
          cases hty
          cases hrest
          have : t2 = [] := ht2
          subst this
          exact absurd (ReadsToksT.user (env := env) (ds := defsU) (s := bs! "xp(1") (o := fA.conf) (ts := []) (i := 1) (k := 4) hd hdt hdb ht1 hf1 (by decide) (.nil 4)) noPairU
      · have e : litMeaning env rY.lit = bs! "xy" := by decide
        rw [e] at ht
        have ht : some (ch! 'p') = some (ch! 'y') := congrArg (fun l => l[1]?) ht
        exact absurd ht (by decide)
  obtain ⟨i, hi, ⟨hi1, hmax⟩, hj⟩ := ho.nomatch_ hok
  have : i = 1 := Nat.le_antisymm (furthestU.2 i hi1) (hmax 1 furthestU.1)
  subst this
  exact ⟨res, hres, hok, hj⟩

/-- a rule base in which a definition of a type and a rule are malformed -/
def docW : List RLine := [.type (bs! "@n") (bs! "(%n:number%)"), .type (bs! "@n") (bs! "-%oops%"), .rule [] (bs! "a%x:@n%"), .rule [] (bs! "b%oops%")]

def fX : FieldT := ⟨.simple [] (bs! "x") (bs! "@n") [] none, .user (bs! "@n"), [(bs! "name", .str (bs! "x")), (bs! "type", .str (bs! "@n"))]⟩

theorem fX_ok : fX.OK env where
  decl := .plain (by simp [Blanks]) ⟨by decide, by decide, _, _, rfl, by decide, by decide, by decide, by decide⟩
    ⟨by decide, by decide⟩ (by simp [Blanks])
  desc := { nodup := by decide, type := by rfl, at_ := by decide, noNul := by decide, name := .inr ⟨bs! "x", rfl, by decide⟩, prio := .inl rfl }

def dN1 : RuleT := { type := some (bs! "@n"), lit := bs! "(", parts := [(fN, bs! ")")], line := 1 }
def dN2 : RuleT := { type := some (bs! "@n"), lit := bs! "-", parts := [], line := 2, breaks := some (bs! "%oops%", [.fieldDescr]) }
def rA : RuleT := { lit := bs! "a", parts := [(fX, [])], line := 3 }
def rB : RuleT := { lit := bs! "b", parts := [], line := 4, breaks := some (bs! "%oops%", [.fieldDescr]) }

def defsW : List RuleT := [dN1, dN2, rA, rB]

theorem oops_breaks : Breaks env (bs! "%oops%") [.fieldDescr] :=
  .malformed (.noColon (lead := []) (c := ch! 'o') (b := bs! "ops%") (by simp [Blanks]) (by decide) (by decide))

theorem defsW_ok : ∀ r ∈ defsW, r.OK env := by
  intro r hr
  simp only [defsW, List.mem_cons, List.not_mem_nil, or_false] at hr
  rcases hr with rfl | rfl | rfl | rfl <;> refine ⟨fun p hp => ?_, fun x hx => ?_⟩ <;>
    simp only [dN1, dN2, rA, rB, List.mem_cons, List.not_mem_nil, or_false, Option.some.injEq] at *
  · subst hp; exact fN_ok
  · cases hx
  · subst hx; exact oops_breaks
  · subst hp; exact fX_ok
  · cases hx
  · subst hx; exact oops_breaks

theorem defsW_unambiguous (s : Bytes) : Unambiguous env defsW s where
  branch := by
    intro d hd d' hd' hty x c c' hx hx' hne t _ hm hm'
    obtain ⟨h1, h2⟩ := prefix_snoc hx
    obtain ⟨h3, h4⟩ := prefix_snoc hx'
    have hnil : ∀ {a a' : RTok} {l l' : List RTok}, a ≠ a' → x = (a :: l).take x.length → x = (a' :: l').take x.length → x = [] := by
      intro a a' l l' hne e1 e2
      cases x with
      | nil => rfl
      | cons y ys =>
        simp only [List.length_cons, List.take_succ_cons, List.cons.injEq] at e1 e2
        exact absurd (e1.1.symm.trans e2.1) hne
    simp only [defsW, List.mem_cons, List.not_mem_nil, or_false] at hd hd'
    rcases hd with rfl | rfl | rfl | rfl <;> rcases hd' with rfl | rfl | rfl | rfl <;>
      first
      | (exact absurd hty (by decide))
      | (rw [h1] at h3; exact hne (Option.some.inj h3))
      | skip
    · have hx0 := hnil (a := RuleT.litTok (ch! '(')) (a' := RuleT.litTok (ch! '-')) (by decide) h2 h4
      subst hx0
      cases h1; cases h3
      obtain ⟨u, rfl⟩ := begins_lit (by decide) hm
      obtain ⟨u', h⟩ := begins_lit (by decide) hm'
      cases h
    · have hx0 := hnil (a := RuleT.litTok (ch! '-')) (a' := RuleT.litTok (ch! '(')) (by decide) h2 h4
      subst hx0
      cases h1; cases h3
      obtain ⟨u, rfl⟩ := begins_lit (by decide) hm
      obtain ⟨u', h⟩ := begins_lit (by decide) hm'
      cases h
    · have hx0 := hnil (a := RuleT.litTok (ch! 'a')) (a' := RuleT.litTok (ch! 'b')) (by decide) h2 h4
      subst hx0
      cases h1; cases h3
      obtain ⟨u, rfl⟩ := begins_lit (by decide) hm
      obtain ⟨u', h⟩ := begins_lit (by decide) hm'
      cases h
    · have hx0 := hnil (a := RuleT.litTok (ch! 'b')) (a' := RuleT.litTok (ch! 'a')) (by decide) h2 h4
      subst hx0
      cases h1; cases h3
      obtain ⟨u, rfl⟩ := begins_lit (by decide) hm
      obtain ⟨u', h⟩ := begins_lit (by decide) hm'
      cases h
  stop := by
    intro d hd hty hb d' hd' hty' k hpre
    obtain ⟨h1, h2⟩ := prefix_snoc hpre
    simp only [defsW, List.mem_cons, List.not_mem_nil, or_false] at hd hd'
    rcases hd with rfl | rfl | rfl | rfl <;> rcases hd' with rfl | rfl | rfl | rfl <;>
      first
      | (exact absurd hty' (by decide))
      | (exact absurd rfl hty)
      | (exact absurd h2 (by decide))
      | (exact absurd hb (by simp [dN2]))
      | (rw [List.getElem?_eq_none (Nat.le_refl _)] at h1; cases h1)
      | (cases h1)
  nonempty := by
    intro d hd hty hb
    simp only [defsW, List.mem_cons, List.not_mem_nil, or_false] at hd
    rcases hd with rfl | rfl | rfl | rfl <;> first | (exact absurd rfl hty) | decide

/-- It is loaded, both are reported, and neither is used, not even what stands before the malformed parts; the rest works. -/
example (srt : Sorter) (fs : Bytes → Option Bytes) : ∃ st, loadSamplesFromString env srt fs 1000 {} (docText docW) = .ok (st, true) ∧
    st.errs = [.fieldDescr, .fieldDescr] ∧
    (∀ s ∈ [bs! "a-", bs! "b", bs! "a("], ∃ N, ∀ fuel, N ≤ fuel → ∃ res, normalize env fuel (st.b.toCtx 0 st.annots) (fun _ => {}) s [] = .ok res ∧ res.ok = false) ∧
    (∃ N, ∀ fuel, N ≤ fuel → ∃ res, normalize env fuel (st.b.toCtx 0 st.annots) (fun _ => {}) (bs! "a(1)") [] = .ok res ∧ res.ok = true) := by
  obtain ⟨st, hl, he, hn⟩ := C79_end_to_end_partial (env := env) (srt := srt) (fs := fs) Ex.tokEnv docW (by
      intro l hl
      simp only [docW, List.mem_cons, List.not_mem_nil, or_false] at hl
      rcases hl with rfl | rfl | rfl | rfl
      · exact ⟨by decide, by decide, by decide, by decide⟩
      · exact ⟨by decide, by decide, by decide, by decide⟩
      · exact ⟨by simp, by decide⟩
      · exact ⟨by simp, by decide⟩) (by decide +kernel) (by simp [ExtendOK, docW, RLine.nextPrefix]) 1000 (by decide +kernel) defsW (by decide) defsW_ok (by
      intro i d hd p hp nm hnm
      match i, hd with
      | 0, hd => cases hd; simp only [dN1, List.mem_cons, List.not_mem_nil, or_false] at hp; subst hp; cases hnm
      | 1, hd => cases hd; cases hp
      | 2, hd =>
        cases hd; simp only [rA, List.mem_cons, List.not_mem_nil, or_false] at hp; subst hp; cases hnm
        exact ⟨0, dN1, by decide, rfl, rfl⟩
      | 3, hd => cases hd; cases hp
      | n + 4, hd => cases hd) (by
      refine ⟨fun _ => 0, ?_⟩
      intro d hd t ht p hp nm hnm
      simp only [defsW, List.mem_cons, List.not_mem_nil, or_false] at hd
      rcases hd with rfl | rfl | rfl | rfl
      · simp only [dN1, List.mem_cons, List.not_mem_nil, or_false] at hp; subst hp; cases hnm
      · cases hp
      · cases ht
      · cases ht) (fun _ => narrow_filter (by decide))
  have hscope : ∀ (s : Bytes), ∀ r ∈ defsW, r.InScope env s := by
    intro s r hr p hp ty hty off _
    simp only [defsW, List.mem_cons, List.not_mem_nil, or_false] at hr
    rcases hr with rfl | rfl | rfl | rfl <;> simp only [dN1, dN2, rA, rB, List.mem_cons, List.not_mem_nil, or_false] at hp
    all_goals first
      | (subst hp; cases hty; trivial)
      | (subst hp; cases hty)
      | cases hp
  have htame : ∀ s ∈ [bs! "a-", bs! "b", bs! "a(", bs! "a(1)"], Tame s := by
    intro s hs
    have h2 : s.length ≤ 4 := by revert s; decide
    refine ⟨?_, fun i => ?_, ?_⟩
    · revert s; decide
    · have h1 := (List.takeWhile_prefix (l := s.drop i) isDigit).length_le
      simp at h1
      omega
    · revert s; decide
  refine ⟨st, hl, by rw [he]; decide, ?_, ?_⟩
  · intro s hs
    obtain ⟨N, hN⟩ := hn 0 s (htame s (by revert s; decide)) (hscope _) (defsW_unambiguous _) (fun h => by cases h) (fun _ => {}) []
    refine ⟨N, fun fuel hf => ?_⟩
    obtain ⟨res, hres, ho⟩ := hN fuel hf
    refine ⟨res, hres, ?_⟩
    cases hr : res.ok with
    | false => rfl
    | true =>
      obtain ⟨r, hrm, hrt, vs, hb, t, ht, hfit⟩ := ho.iff.1 hr
      simp only [defsW, List.mem_cons, List.not_mem_nil, or_false] at hrm
      rcases hrm with rfl | rfl | rfl | rfl
      · cases hrt
      · cases hrt
      · have e : litMeaning env rA.lit = bs! "a" := by decide
        rw [e] at ht
        cases hfit with
        | plain h => cases h
        | @user _ t1 t2 t' _ _ _ nm d us _ _ hty hd hdt hdb ht1 hf1 ht2 hrest =>
          cases hty
          simp only [defsW, List.mem_cons, List.not_mem_nil, or_false] at hd
          rcases hd with rfl | rfl | rfl | rfl
          · have e : litMeaning env dN1.lit = bs! "(" := by decide
            rw [e] at ht1
            cases hf1 with
            | user h => cases h
            | @plain _ t'' _ _ _ ty n v _ _ hty hm hdr _ =>
              cases hty
              subst ht1 ht
              obtain ⟨⟨h0, _⟩, _⟩ := hm
              simp only [List.mem_cons, List.not_mem_nil, or_false] at hs
              have h3 : t1 = [] := by
                rcases hs with hs | hs | hs
                · have hs : some (ch! '(') = some (ch! '-') := congrArg (fun l => l[1]?) hs
                  exact absurd hs (by decide)
                · have hs : some (ch! 'a') = some (ch! 'b') := congrArg (fun l => l[0]?) hs
                  exact absurd hs (by decide)
                · exact List.append_cancel_left (as := bs! "a(") hs
              rw [h3] at hdr
              simp [litMeaning, env] at hdr
          · cases hdb
          · cases hdt
          · cases hdt
      · cases hb
  · obtain ⟨N, hN⟩ := hn 0 (bs! "a(1)") (htame _ (by simp)) (hscope _) (defsW_unambiguous _) (fun h => by cases h) (fun _ => {}) []
    refine ⟨N, fun fuel hf => ?_⟩
    obtain ⟨res, hres, ho⟩ := hN fuel hf
    refine ⟨res, hres, ho.iff.2 ⟨rA, by simp [defsW], rfl, [(some (bs! "x"), some (.obj [(bs! "n", .str (bs! "1"))]))], rfl, bs! "(1)", by decide, ?_⟩⟩
    exact .user (nm := bs! "@n") (d := dN1) (t1 := bs! "1)") (t2 := []) (t' := []) (us := [(some (bs! "n"), some (.str (bs! "1")))]) rfl
      (by simp [defsW]) rfl rfl (by decide)
      (.plain (ty := .number) (n := 1) (t' := []) rfl ⟨⟨by decide, ⟨by decide, by decide, fun c h => by cases h; decide⟩, by decide⟩, rfl⟩ (by decide)
        (.nil _)) (by decide) (.nil _)

end Ex
end LN
