import Verif.Proofs.Fields
import Verif.Props.FieldsA
/-
C20-C30: fields scanning runs of characters.  In every theorem `s` is the message, `offs` the
position of the field (at most the length), `s.drop offs` the remaining message, and
`want` = "the field has a name".
-/
set_option autoImplicit false
namespace LN
open Spec

variable {s : Bytes} {offs : Nat}

/-! ### C24, C25, C27, C29 -/

/-- C24 whitespace. -/
theorem C24_whitespace (h : offs ≤ s.length) (want : Bool) :
    Implements (parseWhitespace s offs want) (runOf isSpace (s.drop offs))
      (text want (s.drop offs)) := by
  have hrd := rd_drop0 h
  unfold parseWhitespace
  rw [hrd]
  simp only [scan_eq, strRes_eq]
  rw [← List.drop_drop]
  rcases s.drop offs with _ | ⟨c, t⟩
  · constructor
    · rintro n ⟨h1, h2, _⟩; simp at h2; omega
    · intro _; rfl
  · refine implements_of_chk (n0 := ((c :: t).takeWhile isSpace).length)
      (fun n hn => Run.eq hn.2) ?_
    by_cases hc : isSpace c = true
    · have e : offs + 1 + (List.takeWhile isSpace (List.drop 1 (c :: t))).length - offs
          = ((c :: t).takeWhile isSpace).length := by simp [hc]; omega
      rw [e]
      constructor
      · intro _; simp [rd, hc]
      · intro hn; exact absurd ⟨by simp [hc], takeWhile_run isSpace (c :: t)⟩ hn
    · constructor
      · rintro ⟨h0, _⟩; simp [hc] at h0
      · intro _; simp [rd, hc]

example : parseWhitespace (bs! "a \t b") 1 true = .ok (3, some (.str (bs! " \t "))) := by rfl

/-- C25 word. -/
theorem C25_word (want : Bool) :
    Implements (parseWord s offs want) (runOf (fun c => c != ch! ' ') (s.drop offs))
      (text want (s.drop offs)) := by
  unfold parseWord
  simp only [scan_eq, strRes_eq]
  obtain ⟨t, ht⟩ : ∃ t, s.drop offs = t := ⟨_, rfl⟩
  simp only [ht]
  refine implements_of_chk (fun n hn => Run.eq hn.2) ?_
  have e : offs + (t.takeWhile (fun c => c != 32)).length - offs
      = (t.takeWhile (fun c => c != 32)).length := by omega
  rw [e]
  refine (Chk.bind (Q := True) (Chk.guard _) ?_).congr ?_
  · exact Chk.pure _
  simp only [runOf, and_true, decide_eq_true_eq, takeWhile_run]
  omega

/-- C25 alpha. -/
theorem C25_alpha (want : Bool) :
    Implements (parseAlpha s offs want) (runOf isAlpha (s.drop offs))
      (text want (s.drop offs)) := by
  unfold parseAlpha
  simp only [scan_eq, strRes_eq]
  obtain ⟨t, ht⟩ : ∃ t, s.drop offs = t := ⟨_, rfl⟩
  simp only [ht]
  refine implements_of_chk (fun n hn => Run.eq hn.2) ?_
  have e : offs + (t.takeWhile isAlpha).length - offs = (t.takeWhile isAlpha).length := by omega
  rw [e]
  refine (Chk.bind (Q := True) (Chk.guard _) ?_).congr ?_
  · exact Chk.pure _
  simp only [runOf, and_true, decide_eq_true_eq, takeWhile_run]
  omega

example : parseWord (bs! "a bc-1 d") 2 true = .ok (4, some (.str (bs! "bc-1"))) := by rfl
example : parseAlpha (bs! "a bc-1 d") 2 true = .ok (2, some (.str (bs! "bc"))) := by rfl
example : parseWord (bs! " x") 0 true = .fail := by rfl

/-- C27 char-to. -/
theorem C27_char_to (h : offs ≤ s.length) (ts : Bytes) (want : Bool) :
    Implements (parseCharTo s offs ts want) (charTo ts (s.drop offs))
      (text want (s.drop offs)) := by
  unfold parseCharTo
  simp only [scan_eq, strRes_eq]
  have hl : s.length = offs + (s.drop offs).length := by simp; omega
  simp only [hl]
  obtain ⟨t, ht⟩ : ∃ t, s.drop offs = t := ⟨_, rfl⟩
  simp only [ht]
  refine implements_of_chk (fun n hn => Run.eq hn.2.2) ?_
  have e : offs + (t.takeWhile (fun c => !ts.contains c)).length - offs
      = (t.takeWhile (fun c => !ts.contains c)).length := by omega
  rw [e]
  refine (Chk.bind (Q := True) (Chk.guard _) ?_).congr ?_
  · exact Chk.pure _
  simp only [charTo, and_true, Bool.and_eq_true, decide_eq_true_eq, takeWhile_run]
  omega

/-- C27 char-sep. -/
theorem C27_char_sep (ts : Bytes) (want : Bool) :
    Implements (parseCharSep s offs ts want) (charSep ts (s.drop offs))
      (text want (s.drop offs)) := by
  unfold parseCharSep
  simp only [scan_eq, strRes_eq]
  obtain ⟨t, ht⟩ : ∃ t, s.drop offs = t := ⟨_, rfl⟩
  simp only [ht]
  refine implements_of_chk (fun n hn => Run.eq hn) ?_
  have e : offs + (t.takeWhile (fun c => !ts.contains c)).length - offs
      = (t.takeWhile (fun c => !ts.contains c)).length := by omega
  rw [e]
  exact (Chk.ok _).congr (by simp [charSep, takeWhile_run])

/-- C27: so char-sep always matches. -/
theorem C27_char_sep_always (ts : Bytes) (want : Bool) :
    ∃ n, charSep ts (s.drop offs) n ∧
      parseCharSep s offs ts want = .ok (n, text want (s.drop offs) n) :=
  ⟨_, takeWhile_run _ _, (C27_char_sep ts want).1 _ (takeWhile_run _ _)⟩

example : parseCharTo (bs! "ab,c;d") 0 (bs! ";:") true = .ok (4, some (.str (bs! "ab,c"))) := by rfl
example : parseCharTo (bs! "ab,cd") 0 (bs! ";:") true = .fail := by rfl
example : parseCharSep (bs! "ab,cd") 0 (bs! ";:") true = .ok (5, some (.str (bs! "ab,cd"))) := by rfl

/-- C29 rest. -/
theorem C29_rest (h : offs ≤ s.length) (want : Bool) :
    parseRest s offs want = .ok ((s.drop offs).length, text want (s.drop offs) (s.drop offs).length) := by
  unfold parseRest
  rw [if_neg (by omega), strRes_eq]
  simp

example : parseRest (bs! "a bc") 2 true = .ok (2, some (.str (bs! "bc"))) := by rfl

/-! ### C20 -/

/-- `decVal` continued -/
private def decFrom (v : Nat) (ds : Bytes) : Nat := ds.foldl (fun v c => v * 10 + (c.toNat - 48)) v

private theorem decFrom_ge (ds : Bytes) : ∀ v, v ≤ decFrom v ds := by
  induction ds with
  | nil => intro v; exact Nat.le_refl v
  | cons c ds ih =>
    intro v
    have := ih (v * 10 + (c.toNat - 48))
    simp only [decFrom, List.foldl_cons] at *
    omega

private theorem accDec_from (mx : Int) (ds : Bytes) : ∀ v : Nat, (∀ c ∈ ds, isDigit c = true) →
    accDec mx ds v =
      if ds = [] ∨ (decFrom v ds : Int) + 48 ≤ mx then .ok (decFrom v ds : Int)
      else .ub .signedOverflow := by
  induction ds with
  | nil => intro v _; simp [accDec, decFrom]
  | cons c ds ih =>
    intro v hd
    have hc := isDigit_iff.1 (hd c (by simp))
    have hge := decFrom_ge ds (v * 10 + (c.toNat - 48))
    have e : (v : Int) * 10 + (c.toNat : Int) - 48 = ((v * 10 + (c.toNat - 48) : Nat) : Int) := by
      omega
    have e2 : decFrom v (c :: ds) = decFrom (v * 10 + (c.toNat - 48)) ds := rfl
    unfold accDec
    rw [e, ih _ (fun x hx => hd x (by simp [hx])), e2]
    by_cases h1 : (v : Int) * 10 + (c.toNat : Int) > mx
    · rw [if_pos h1, if_neg]
      simp only [reduceCtorEq, false_or]; omega
    · rw [if_neg h1]
      by_cases hds : ds = []
      · subst hds
        simp only [true_or, if_true, reduceCtorEq, false_or]
        rw [if_pos]
        simp only [decFrom, List.foldl_nil] at *; omega
      · simp [hds]

/-- what the C accumulation `val = val*10 + c - '0'` computes on digits -/
theorem accDec_digits (mx : Int) (ds : Bytes) (hd : ∀ c ∈ ds, isDigit c = true) :
    accDec mx ds 0 = if ds = [] ∨ (decVal ds : Int) + 48 ≤ mx then .ok (decVal ds : Int)
      else .ub .signedOverflow := accDec_from mx ds 0 hd

/-- C20 number. `data = none` is a parser called without configuration.

Missing for the full property: digit strings denoting a number above 2^63 - 1 - 48, see
`C20_number_overflow_violated`. -/
theorem C20_number_partial (data : Option DataNumber) (want : Bool)
    (hov : (decVal ((s.drop offs).takeWhile isDigit) : Int) + 48 ≤ int64Max) :
    Implements (parseNumber s offs data want)
      (number ((data.map (·.maxval)).getD 0) (s.drop offs))
      (fun n => if (data.map (·.fmt)).getD .asString = .asString then text want (s.drop offs) n
        else ifNamed want (.int (decVal ((s.drop offs).take n)))) := by
  unfold parseNumber
  simp only [scan_eq, strRes_eq, slice]
  obtain ⟨t, ht⟩ : ∃ t, s.drop offs = t := ⟨_, rfl⟩
  rw [ht] at hov
  simp only [ht]
  generalize (data.map (·.fmt)).getD .asString = fmt
  generalize (data.map (·.maxval)).getD 0 = mv
  refine implements_of_chk (fun n hn => Run.eq hn.2.1) ?_
  have hrun := takeWhile_run isDigit t
  have e : offs + (t.takeWhile isDigit).length - offs = (t.takeWhile isDigit).length := by omega
  have et : t.take (t.takeWhile isDigit).length = t.takeWhile isDigit :=
    (List.prefix_iff_eq_take.1 (List.takeWhile_prefix _)).symm
  rw [e, et, accDec_digits int64Max _ (fun c hc => by rw [← et] at hc; exact hrun.2.1 c hc),
    if_pos (.inr hov)]
  simp only [R.ok_bind, number, et]
  refine (Chk.bind (Chk.guard _) (Chk.bind (Chk.guard _) (Q := True) ?_)).congr ?_
  · by_cases hf : fmt = .asString
    · simp [hf, Chk]
    · simp [hf, Chk, ifNamed]
  · simp only [hrun, Bool.not_eq_true', and_true, decide_eq_true_eq, true_and]
    rw [Bool.and_eq_false_iff]
    simp only [decide_eq_false_iff_not]
    constructor
    · rintro ⟨h1, h2⟩; exact ⟨by omega, by omega⟩
    · rintro ⟨h1, h2⟩; exact ⟨by omega, by omega⟩

/-- C20 is violated for larger numbers: the signed accumulator overflows, whatever the
configuration. -/
theorem C20_number_overflow_violated (data : Option DataNumber) (want : Bool)
    (hov : (decVal ((s.drop offs).takeWhile isDigit) : Int) + 48 > int64Max) :
    parseNumber s offs data want = .ub .signedOverflow := by
  unfold parseNumber
  simp only [scan_eq, slice]
  obtain ⟨t, ht⟩ : ∃ t, s.drop offs = t := ⟨_, rfl⟩
  rw [ht] at hov
  simp only [ht]
  have hrun := takeWhile_run isDigit t
  have e : offs + (t.takeWhile isDigit).length - offs = (t.takeWhile isDigit).length := by omega
  have et : t.take (t.takeWhile isDigit).length = t.takeWhile isDigit :=
    (List.prefix_iff_eq_take.1 (List.takeWhile_prefix _)).symm
  rw [e, et, accDec_digits int64Max _ (fun c hc => by rw [← et] at hc; exact hrun.2.1 c hc),
    if_neg]
  · rfl
  · rintro (h | h)
    · rw [h] at hov; simp [decVal, int64Max] at hov
    · omega

example : parseNumber (bs! "id 0815.") 3 (some ⟨1000, .asNumber⟩) true
    = .ok (4, some (.int 815)) := by rfl
example : parseNumber (bs! "id 0815.") 3 (some ⟨100, .asNumber⟩) true = .fail := by rfl
/-- a message with a 20 digit number meets the hypothesis of the negative theorem -/
example : (decVal ((bs! "99999999999999999999").takeWhile isDigit) : Int) + 48 > int64Max := by
  decide

/-! ### C21 -/

/-- digits and at most one dot (none if `seen`) -/
private def FBody : Bytes → Bool → Bool
  | [], _ => true
  | c :: cs, seen => if c = ch! '.' then !seen && FBody cs true else isDigit c && FBody cs seen

private theorem fbody_take (t : Bytes) : ∀ seen, FBody (t.take (floatLoop t seen)) seen = true := by
  induction t with
  | nil => intro seen; rfl
  | cons c t ih =>
    intro seen
    unfold floatLoop
    by_cases hc : c = ch! '.'
    · cases seen
      · simp only [hc, if_true, Bool.false_eq_true, if_false]
        rw [Nat.add_comm, List.take_succ_cons]
        simp [FBody, ih]
      · simp [hc, FBody]
    · by_cases hd : isDigit c = true
      · simp only [hc, hd, if_true, if_false]
        rw [Nat.add_comm, List.take_succ_cons]
        simp [FBody, ih, hc, hd]
      · simp [hc, hd, FBody]

private theorem fbody_max (t : Bytes) : ∀ seen m, m ≤ t.length → FBody (t.take m) seen = true →
    m ≤ floatLoop t seen := by
  induction t with
  | nil => intro seen m hm _; simp at hm; omega
  | cons c t ih =>
    intro seen m hm hb
    cases m with
    | zero => omega
    | succ m =>
      rw [List.take_succ_cons] at hb
      unfold FBody at hb
      unfold floatLoop
      have hm' : m ≤ t.length := by simpa using hm
      by_cases hc : c = ch! '.'
      · simp only [hc, if_true, Bool.and_eq_true, Bool.not_eq_true'] at hb ⊢
        have := ih true m hm' hb.2
        rw [hb.1]; simp only [Bool.false_eq_true, if_false]; omega
      · simp only [hc, if_false, Bool.and_eq_true] at hb
        have := ih seen m hm' hb.2
        simp only [hc, hb.1, if_true, if_false]; omega

private theorem floatLoop_le (t : Bytes) : ∀ seen, floatLoop t seen ≤ t.length := by
  induction t with
  | nil => intro seen; simp [floatLoop]
  | cons c t ih =>
    intro seen
    have h1 := ih true
    have h2 := ih seen
    unfold floatLoop
    simp only [List.length_cons]
    split
    · split <;> omega
    · split <;> omega

private theorem fbody_true_iff (w : Bytes) : FBody w true = true ↔ ∀ c ∈ w, isDigit c = true := by
  induction w with
  | nil => simp [FBody]
  | cons c w ih =>
    unfold FBody
    by_cases hc : c = ch! '.'
    · subst hc; simp [isDigit]
    · simp [hc, ih]

private theorem fbody_false_iff (w : Bytes) : FBody w false = true ↔
    ∃ a b, w = a ++ b ∧ (∀ c ∈ a, isDigit c = true) ∧
      (b = [] ∨ ∃ d, b = ch! '.' :: d ∧ ∀ c ∈ d, isDigit c = true) := by
  induction w with
  | nil => exact ⟨fun _ => ⟨[], [], rfl, by simp, .inl rfl⟩, fun _ => rfl⟩
  | cons c w ih =>
    unfold FBody
    by_cases hc : c = ch! '.'
    · subst hc
      simp only [if_true, Bool.not_false, Bool.true_and, fbody_true_iff]
      constructor
      · intro h; exact ⟨[], _, rfl, by simp, .inr ⟨w, rfl, h⟩⟩
      · rintro ⟨a, b, e, ha, hb⟩
        cases a with
        | cons x a =>
          simp only [List.cons_append, List.cons.injEq] at e
          have := ha x (by simp)
          rw [← e.1] at this; exact absurd this (by decide)
        | nil =>
          rcases hb with hb | ⟨d, hb, hd⟩
          · subst hb; simp at e
          · subst hb; simp at e; subst e; exact hd
    · simp only [hc, if_false, Bool.and_eq_true, ih]
      constructor
      · rintro ⟨hcd, a, b, e, ha, hb⟩
        refine ⟨c :: a, b, by simp [e], ?_, hb⟩
        intro x hx
        rcases List.mem_cons.1 hx with hx | hx
        · rw [hx]; exact hcd
        · exact ha x hx
      · rintro ⟨a, b, e, ha, hb⟩
        cases a with
        | nil =>
          rcases hb with hb | ⟨d, hb, hd⟩
          · subst hb; simp at e
          · subst hb; simp at e; exact absurd e.1 hc
        | cons x a =>
          simp only [List.cons_append, List.cons.injEq] at e
          obtain ⟨e1, e2⟩ := e
          subst e1
          exact ⟨ha _ (by simp), a, b, e2, fun y hy => ha y (by simp [hy]), hb⟩

private theorem floatText_neg (w : Bytes) : FloatText (ch! '-' :: w) ↔ FBody w false = true := by
  rw [fbody_false_iff]
  constructor
  · rintro ⟨sgn, a, b, e, hs, ha, hb⟩
    rcases hs with hs | hs
    · subst hs
      cases a with
      | nil =>
        rcases hb with hb | ⟨d, hb, _⟩ <;> subst hb <;> simp at e
      | cons x a =>
        simp at e
        have := ha x (by simp)
        rw [← e.1] at this; exact absurd this (by decide)
    · subst hs; simp at e; exact ⟨a, b, e, ha, hb⟩
  · rintro ⟨a, b, e, ha, hb⟩
    exact ⟨bs! "-", a, b, by simp [e], .inr rfl, ha, hb⟩

private theorem floatText_pos (w : Bytes) (hw : w.head? ≠ some (ch! '-')) :
    FloatText w ↔ FBody w false = true := by
  rw [fbody_false_iff]
  constructor
  · rintro ⟨sgn, a, b, e, hs, ha, hb⟩
    rcases hs with hs | hs
    · subst hs; exact ⟨a, b, by simpa using e, ha, hb⟩
    · subst hs; subst e; simp at hw
  · rintro ⟨a, b, e, ha, hb⟩
    exact ⟨[], a, b, by simpa using e, .inl rfl, ha, hb⟩

private theorem floatText_nil : FloatText [] := ⟨[], [], [], rfl, .inl rfl, by simp, .inl rfl⟩

/-- C21 float (a double is represented by the text it was created from). -/
theorem C21_float (h : offs ≤ s.length) (fmt : Fmt) (want : Bool) (hz : ∀ c ∈ s, c ≠ 0) :
    Implements (parseFloat s offs fmt want) (float (s.drop offs))
      (fun n => if fmt = .asString then text want (s.drop offs) n
        else ifNamed want (.dbl ((s.drop offs).take n))) := by
  have hz' : ∀ c ∈ s.drop offs, c ≠ 0 := fun c hc => hz c (List.mem_of_mem_drop hc)
  -- common end
  have fin : ∀ n, n = floatLoop (s.drop offs) false ∧ (s.drop offs).head? ≠ some (ch! '-') ∨
      (∃ t, s.drop offs = ch! '-' :: t ∧ n = 1 + floatLoop t false) →
      Implements ((R.guard (offs + n ≠ offs)) >>= fun _ =>
        if fmt = .asString then (pure (strRes want s offs (offs + n - offs)) : PR)
        else pure (offs + n - offs,
          if want then some (.dbl (cstr (slice s offs (offs + n - offs)))) else none))
      (float (s.drop offs))
      (fun n => if fmt = .asString then text want (s.drop offs) n
        else ifNamed want (.dbl ((s.drop offs).take n))) := by
    intro n hn
    have hcs : cstr (slice s offs n) = (s.drop offs).take n := by
      unfold cstr slice
      apply takeWhile_all
      intro c hc
      simpa using hz' c (List.mem_of_mem_take hc)
    simp only [strRes_eq, show offs + n - offs = n by omega, hcs]
    generalize s.drop offs = t at *
    have key : n ≤ t.length ∧ FloatText (t.take n) ∧
        ∀ m, m ≤ t.length → FloatText (t.take m) → m ≤ n := by
      rcases hn with ⟨rfl, hh⟩ | ⟨t, rfl, rfl⟩
      · have hh' : ∀ m, (t.take m).head? ≠ some (ch! '-') := by
          intro m; cases m with
          | zero => simp
          | succ m => cases t <;> simp_all
        refine ⟨floatLoop_le t false, (floatText_pos _ (hh' _)).2 (fbody_take t false), ?_⟩
        intro m hm hf
        exact fbody_max t false m hm ((floatText_pos _ (hh' _)).1 hf)
      · have := floatLoop_le t false
        refine ⟨by simp; omega, ?_, ?_⟩
        · rw [Nat.add_comm, List.take_succ_cons]
          exact (floatText_neg _).2 (fbody_take t false)
        · intro m hm hf
          cases m with
          | zero => omega
          | succ m =>
            rw [List.take_succ_cons] at hf
            have := fbody_max t false m (by simpa using hm) ((floatText_neg _).1 hf)
            omega
    refine implements_of_chk (n0 := n) ?_ ?_
    · rintro k ⟨_, h2, h3, h4⟩
      have := h4 n key.1 key.2.1
      have := key.2.2 k h2 h3
      omega
    · refine (Chk.bind (Chk.guard _) (Q := True) ?_).congr ?_
      · by_cases hf : fmt = .asString <;> simp [hf, Chk, ifNamed]
      · simp only [and_true, decide_eq_true_eq, float]
        constructor
        · intro hne; exact ⟨by omega, key⟩
        · rintro ⟨h0, _⟩; omega
  unfold parseFloat
  rw [rd_drop0 h]
  dsimp only
  rcases ht : s.drop offs with _ | ⟨c, t⟩
  · have := fin 0 (.inl (by simp [ht, floatLoop]))
    have hl : s.drop offs = [] := ht
    simpa [rd, ht, floatLoop] using this
  · have hr : rd (c :: t) 0 = .ok c := rfl
    simp only [hr, R.ok_bind]
    by_cases hc : c = ch! '-'
    · subst hc
      have := fin (1 + floatLoop t false) (.inr ⟨t, ht, rfl⟩)
      have hd : s.drop (offs + 1) = t := by rw [← List.drop_drop, ht]; rfl
      simp only [if_true, hd]
      rw [ht] at this
      rw [show offs + 1 + floatLoop t false = offs + (1 + floatLoop t false) by omega]
      exact this
    · have := fin (floatLoop (c :: t) false) (.inl (by simp [ht, hc]))
      simp only [hc, if_false, ht]
      rw [ht] at this
      exact this

example : parseFloat (bs! "t -15.9 x") 2 .asString true
    = .ok (5, some (.str (bs! "-15.9"))) := by rfl
example : parseFloat (bs! "1.2.3") 0 .asNumber true = .ok (3, some (.dbl (bs! "1.2"))) := by rfl

end LN
