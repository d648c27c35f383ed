import Verif.Proofs.StructC
/-
C40, C42: name-value-list and CEF.  In every theorem `s` is the message, `offs` the position of
the field (at most the length), `s.drop offs` the remaining message, and
`want` = "the field has a name".
-/
set_option autoImplicit false
namespace LN
open Spec

variable {s : Bytes} {offs : Nat}

/-! ### C40 name-value-list -/

/-- C40: every remaining message begins with a list of pairs (possibly empty); the field consumes
it and yields exactly these pairs, in order. -/
theorem C40_name_value_list (d : DataNameValue) (h : offs ≤ s.length) (want : Bool) :
    (∃ ps n, NvList d (s.drop offs) ps n) ∧
    ∀ ps n, NvList d (s.drop offs) ps n →
      parseNameValue s offs d want = .ok (n, ifNamed want (objOf (ps.map nvMember))) ∧
      offs + n ≤ s.length := by
  refine ⟨nvList_total d _ _ (Nat.le_refl _), fun ps n hl => ?_⟩
  have h1 := nvLoop_fwd hl (s.length - offs + 1) offs [] h (by omega) rfl
  have h2 := (nvLoop_post (U := True) d (s.length - offs + 1) offs [] h (by omega)).1 _ h1
  refine ⟨?_, h2.2⟩
  unfold parseNameValue
  rw [h1]
  show R.ok _ = R.ok _
  refine congrArg R.ok (Prod.ext (by simp) ?_)
  cases want <;> rfl

private theorem allEsc_of {p : UInt8 → Bool} {v : Bytes} (h : ∀ c ∈ v, p c = false) : AllEscaped p v := by
  intro u c w hv hc
  rw [h c (by rw [hv]; simp)] at hc; cases hc

private theorem pairA : NvPair {} (bs! "a=1 b=\"x y\"") (bs! "a") (bs! "1") (bs! " " ++ bs! "b=\"x y\"") :=
  ⟨⟨by decide, by decide⟩, .inr ⟨rfl, by decide, by decide, allEsc_of (by decide), .inr ⟨⟨32, _, rfl, by decide⟩, by
    unfold Escaped; decide⟩⟩⟩
private theorem pairB : NvPair {} (bs! "b=\"x y\"") (bs! "b") (bs! "x y") (bs! "" ++ bs! "") :=
  ⟨⟨by decide, by decide⟩, .inl ⟨34, .inl rfl, rfl, allEsc_of (by decide), by unfold Escaped; decide⟩⟩

example : NvList {} (bs! "a=1 b=\"x y\"") [(bs! "a", bs! "1"), (bs! "b", bs! "x y")] 11 :=
  .more pairA (by decide) (by intro c r h; cases h; decide) (by decide)
    (.more pairB (by decide) (by intro c r h; cases h) (by decide)
      (.stop fun _ _ _ => nvPair_nil))
example : parseNameValue (bs! "x a=1 b=\"x y\"") 2 {} true = .ok (11, some (.obj
    [(bs! "a", .str (bs! "1")), (bs! "b", .str (bs! "x y"))])) := by decide +kernel
example : parseNameValue (bs! "a=1\\ 2 b='\\'' no") 0 {} true = .ok (14, some (.obj
    [(bs! "a", .str (bs! "1\\ 2")), (bs! "b", .str (bs! "\\'"))])) := by decide +kernel

/-! ### C42 cef -/

/-- C42: writing a CEF event and parsing it gives the event back. (The code insists on a minimum of
17 bytes, which every event with non-empty header fields has.) -/
theorem C42_cef_roundtrip (m : CefMsg) (hm : m.Valid) (h : offs ≤ s.length)
    (hs : s.drop offs = m.text) (hlen : 17 ≤ m.text.length) (want : Bool) :
    parseCEF s offs want = .ok (m.text.length, ifNamed want m.value) := by
  obtain ⟨hh, he⟩ := hm
  have hl := len_of_drop hs h
  have hs0 : s.drop offs = ch! 'C' :: ch! 'E' :: ch! 'F' :: ch! ':' :: ch! '0' :: ch! '|' ::
      (cefEscHdr m.vendor ++ ch! '|' :: (cefEscHdr m.product ++ ch! '|' :: (cefEscHdr m.version ++
      ch! '|' :: (cefEscHdr m.sigID ++ ch! '|' :: (cefEscHdr m.name ++ ch! '|' ::
      (cefEscHdr m.severity ++ ch! '|' :: sepBy (ch! ' ') (m.exts.map (extText m.slash)))))))) := by
    rw [hs]; unfold CefMsg.text extText; simp
  generalize hx : sepBy (ch! ' ') (m.exts.map (extText m.slash)) = x at hs0
  have d1 := drop_of_cons hs0
  have d2 := drop_of_cons d1
  have d3 := drop_of_cons d2
  have d4 := drop_of_cons d3
  have d5 := drop_of_cons d4
  have d6 := drop_of_cons d5
  obtain ⟨g1, e1⟩ := cefHdr_fwd d6
  obtain ⟨g2, e2⟩ := cefHdr_fwd e1
  obtain ⟨g3, e3⟩ := cefHdr_fwd e2
  obtain ⟨g4, e4⟩ := cefHdr_fwd e3
  obtain ⟨g5, e5⟩ := cefHdr_fwd e4
  obtain ⟨g6, e6⟩ := cefHdr_fwd e5
  have hgc : ∀ {i c b}, s.drop i = c :: b → guardChar s i c = .ok () := by
    intro i c b hd; unfold guardChar; rw [rd_of_cons hd]; simp [R.guard]
  unfold parseCEF
  have h17 : decide (offs + 17 ≤ s.length) = true := by simp; omega
  rw [h17]
  simp only [R.guard_true, R.ok_bind, hgc hs0, hgc d1, hgc d2, hgc d3, hgc d4, hgc d5]
  simp only [show offs + 1 + 1 + 1 + 1 + 1 + 1 = offs + 6 from rfl] at *
  rw [g1]; simp only [R.ok_bind]
  rw [g2]; simp only [R.ok_bind]
  rw [g3]; simp only [R.ok_bind]
  rw [g4]; simp only [R.ok_bind]
  rw [g5]; simp only [R.ok_bind]
  rw [g6]; simp only [R.ok_bind]
  generalize hi : offs + 6 + (cefEscHdr m.vendor).length + 1 + (cefEscHdr m.product).length + 1
    + (cefEscHdr m.version).length + 1 + (cefEscHdr m.sigID).length + 1
    + (cefEscHdr m.name).length + 1 + (cefEscHdr m.severity).length + 1 = i at *
  have hile : i ≤ s.length := by
    have := len_of_drop hs0 h
    simp at this; omega
  have hsc : scan (· == ch! ' ') s i = i := by
    rw [scan, e6, ← hx]
    cases hex : m.exts with
    | nil => rfl
    | cons e es =>
      obtain ⟨hne, hn, -⟩ := he e (by rw [hex]; simp)
      cases hn1 : e.1 with
      | nil => exact absurd hn1 hne
      | cons c nm =>
        have : c ≠ ch! ' ' := (cefNameCls_ne (hn c (by rw [hn1]; simp))).2.2
        have h2 : ∃ r, sepBy (ch! ' ') ((e :: es).map (extText m.slash)) = c :: r := by
          cases es with
          | nil => exact ⟨_, by simp only [List.map_cons, List.map_nil, sepBy, extText, hn1]; rfl⟩
          | cons g es => exact ⟨_, by simp only [List.map_cons, sepBy, extText, hn1]; rfl⟩
        obtain ⟨r, hr⟩ := h2
        rw [hr, List.takeWhile_cons]; simp [this]
  simp only [hsc]
  rw [cefExts_fwd false m.exts _ _ _ he hile (by omega) (by rw [e6, hx])]
  rw [cefExts_fwd true m.exts _ _ _ he hile (by omega) (by rw [e6, hx])]
  simp only [R.ok_bind]
  have hnum : s.length - offs = m.text.length := by omega
  have hns : ∀ b ∈ [m.vendor, m.product, m.version, m.sigID, m.name, m.severity],
      newString b = .str b := by
    intro b hb
    unfold newString; rw [cstr_noNul]
    intro c hc h0; subst h0; exact hh b hb hc
  rw [hns m.vendor (by simp), hns m.product (by simp), hns m.version (by simp), hns m.sigID (by simp),
    hns m.name (by simp), hns m.severity (by simp), hnum]
  cases want <;> rfl

/-- an event with all escapes -/
def Ex.cefMsg : CefMsg where
  vendor := bs! "a|b"
  product := bs! "c\\d"
  version := bs! "1"
  sigID := bs! "2"
  name := bs! "n n"
  severity := bs! "3"
  exts := [(bs! "src", bs! "x = y\\z\n"), (bs! "msg", bs! " end ")]

example : Ex.cefMsg.Valid ∧ 17 ≤ Ex.cefMsg.text.length := by
  constructor
  · unfold CefMsg.Valid; decide
  · decide
example : Ex.cefMsg.text = bs! "CEF:0|a\\|b|c\\\\d|1|2|n n|3|src=x \\= y\\\\z\\n msg= end " := by decide
example : parseCEF Ex.cefMsg.text 0 true = .ok (Ex.cefMsg.text.length, some Ex.cefMsg.value) := by decide +kernel

/-- a producer which escapes slashes -/
example : ({ Ex.cefMsg with exts := [(bs! "p", bs! "/a=")], slash := true } : CefMsg).text = bs! "CEF:0|a\\|b|c\\\\d|1|2|n n|3|p=\\/a\\=" ∧
    parseCEF (bs! "CEF:0|a\\|b|c\\\\d|1|2|n n|3|p=\\/a\\=") 0 true ≠ .fail := by decide +kernel

end LN
