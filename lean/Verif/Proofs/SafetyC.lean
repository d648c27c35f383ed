import Verif.Proofs.SafetyB
/- Containment of dates, iptables, json, name-value lists, CEF, LEA and string. -/
set_option autoImplicit false
namespace LN
variable {s : Bytes} {offs : Nat} {U : Prop}

/-! ### dates -/

/-- no long digit runs in the rest of the message -/
def FewDigits (p : Bytes) : Prop := ∀ i, ((p.drop i).takeWhile isDigit).length ≤ 9

theorem FewDigits.suffix {p q : Bytes} (h : FewDigits p) (hs : q <:+ p) : FewDigits q := by
  obtain ⟨t, rfl⟩ := hs
  intro i
  have := h (t.length + i)
  rwa [List.drop_append_of_le_length_add] at this
where
  List.drop_append_of_le_length_add {t q : Bytes} {i : Nat} :
      (t ++ q).drop (t.length + i) = q.drop i := by simp

theorem dropWhile_suffix (p : UInt8 → Bool) (l : Bytes) : l.dropWhile p <:+ l :=
  List.dropWhile_suffix p

theorem hParseInt_post (p : Bytes) (h : U → FewDigits p) :
    Post U (fun r => r.2 <:+ p ∧ (U → p.length - r.2.length ≤ 9)) (hParseInt p) := by
  unfold hParseInt
  refine Post.bind (P := fun _ => True) (accDec_post (fun u => ⟨9, by simpa using h u 0, by decide⟩)
    (fun c hc => takeWhile_mem hc)) fun v _ => Post.pure ⟨dropWhile_suffix _ _, fun u => ?_⟩
  have := h u 0
  have e : p = p.takeWhile isDigit ++ p.dropWhile isDigit := by simp
  have := congrArg List.length e
  simp only [List.length_append, List.drop_zero] at *
  omega

theorem hRange_post (lo hi : Int) (p : Bytes) (h : U → FewDigits p) :
    Post U (fun r => r.2 <:+ p) (hRange lo hi p) := by
  unfold hRange
  refine (hParseInt_post p h).bind fun r hr => ?_
  obtain ⟨v, q⟩ := r
  exact (Post.guard _).bind fun _ _ => Post.pure hr.1

theorem eat_post (x : UInt8) (p : Bytes) : Post U (fun q => q <:+ p) (eat x p) := by
  cases p with
  | nil => exact Post.fail
  | cons c cs => exact Post.ite (fun _ => Post.ok (List.suffix_cons c cs)) (fun _ => Post.fail)

theorem rfc5424Frac_post (p : Bytes) (h : U → FewDigits p) :
    Post U (fun r => r.2.2 <:+ p ∧ (U → r.2.1 ≤ 9)) (rfc5424Frac p) := by
  cases p with
  | nil => exact Post.ok ⟨List.suffix_rfl, by simp⟩
  | cons c q =>
    rw [rfc5424Frac]
    refine Post.ite (fun _ => ?_) fun _ => Post.ok ⟨List.suffix_rfl, by simp⟩
    have sq : q <:+ c :: q := List.suffix_cons _ _
    refine (hParseInt_post q fun u => (h u).suffix sq).bind fun r hr => ?_
    obtain ⟨f, q'⟩ := r
    exact Post.pure ⟨hr.1.trans sq, hr.2⟩

theorem rfc5424Zone_post (p : Bytes) (h : U → FewDigits p) :
    Post U (fun r => r.2.2.2 <:+ p) (rfc5424Zone p) := by
  cases p with
  | nil => exact Post.fail
  | cons c p13 =>
    rw [rfc5424Zone]
    have s13 : p13 <:+ c :: p13 := List.suffix_cons _ _
    refine Post.ite (fun _ => Post.ok s13) fun _ => Post.ite (fun _ => ?_) fun _ => Post.fail
    refine (hRange_post _ _ p13 fun u => (h u).suffix s13).bind fun r s14 => ?_
    obtain ⟨oh, p14⟩ := r
    replace s14 := List.IsSuffix.trans s14 s13
    dsimp only at s14 ⊢
    refine (eat_post _ p14).bind fun p15 s15 => ?_
    replace s15 := s15.trans s14
    refine (hRange_post _ _ p15 fun u => (h u).suffix s15).bind fun r s16 => ?_
    obtain ⟨om, p16⟩ := r
    exact Post.pure (List.IsSuffix.trans s16 s15)

theorem rfc5424Syntax_post (p : Bytes) (h : U → FewDigits p) :
    Post U (fun r => r.2 <:+ p ∧ (U → r.1.prec ≤ 9)) (rfc5424Syntax p) := by
  unfold rfc5424Syntax
  refine (hParseInt_post p h).bind fun r hr => ?_
  obtain ⟨year, p1⟩ := r
  have s1 : p1 <:+ p := hr.1
  dsimp only
  refine (eat_post _ p1).bind fun p2 s2 => ?_
  replace s2 := s2.trans s1
  refine (hRange_post _ _ p2 fun u => (h u).suffix s2).bind fun r s3 => ?_
  obtain ⟨month, p3⟩ := r
  replace s3 := List.IsSuffix.trans s3 s2
  dsimp only at s3 ⊢
  refine (eat_post _ p3).bind fun p4 s4 => ?_
  replace s4 := s4.trans s3
  refine (hRange_post _ _ p4 fun u => (h u).suffix s4).bind fun r s5 => ?_
  obtain ⟨day, p5⟩ := r
  replace s5 := List.IsSuffix.trans s5 s4
  dsimp only at s5 ⊢
  refine (eat_post _ p5).bind fun p6 s6 => ?_
  replace s6 := s6.trans s5
  refine (hRange_post _ _ p6 fun u => (h u).suffix s6).bind fun r s7 => ?_
  obtain ⟨hour, p7⟩ := r
  replace s7 := List.IsSuffix.trans s7 s6
  dsimp only at s7 ⊢
  refine (eat_post _ p7).bind fun p8 s8 => ?_
  replace s8 := s8.trans s7
  refine (hRange_post _ _ p8 fun u => (h u).suffix s8).bind fun r s9 => ?_
  obtain ⟨minute, p9⟩ := r
  replace s9 := List.IsSuffix.trans s9 s8
  dsimp only at s9 ⊢
  refine (eat_post _ p9).bind fun p10 s10 => ?_
  replace s10 := s10.trans s9
  refine (hRange_post _ _ p10 fun u => (h u).suffix s10).bind fun r s11 => ?_
  obtain ⟨second, p11⟩ := r
  replace s11 := List.IsSuffix.trans s11 s10
  dsimp only at s11 ⊢
  refine (rfc5424Frac_post p11 fun u => (h u).suffix s11).bind fun r hr => ?_
  obtain ⟨secfrac, prec, p12⟩ := r
  obtain ⟨s12, hprec⟩ := hr
  replace s12 := List.IsSuffix.trans s12 s11
  dsimp only at s12 hprec ⊢
  refine (rfc5424Zone_post p12 fun u => (h u).suffix s12).bind fun r s13 => ?_
  obtain ⟨offH, offM, mode, p13⟩ := r
  replace s13 := List.IsSuffix.trans s13 s12
  dsimp only at s13 ⊢
  refine Post.bind (P := fun _ => True) ?_ fun _ _ => Post.pure ⟨s13, hprec⟩
  cases p13 with
  | nil => exact Post.ok trivial
  | cons c q => exact (Post.guard _).mono fun _ _ => trivial

theorem syslogTime_post (year month day hour minute second offH offM : Int) (m : UInt8) :
    Post U (fun _ => True) (syslogTime2timeT year month day hour minute second offH offM m) := by
  unfold syslogTime2timeT
  refine Post.ite (fun _ => Post.ok trivial) fun hy => ?_
  dsimp only
  split
  · rename_i hn
    simp only [Bool.or_eq_true, decide_eq_true_eq] at hy
    rw [List.getElem?_eq_none_iff] at hn
    have : yearInSecs.length = 133 := by decide +kernel
    omega
  · exact Post.ok trivial

theorem mkDiv_post (n : Nat) (h : U → n ≤ 6) : Post U (fun _ => True) (mkDiv n 1) := by
  refine ⟨fun _ _ => trivial, ?_, fun u k hk => ?_⟩
  · have : ∀ n d, mkDiv n d ≠ .oof := by
      intro n; induction n with
      | zero => intro d; simp [mkDiv]
      | succ n ih => intro d; rw [mkDiv]; split
                     · simp
                     · exact ih _
    exact this n 1
  · have := h u
    have hh : ∀ n ≤ 6, ∃ v, mkDiv n 1 = .ok v := by
      intro n hn
      rcases n with _ | _ | _ | _ | _ | _ | _ | n <;> first
        | exact ⟨_, rfl⟩
        | omega
    obtain ⟨v, hv⟩ := hh n this
    rw [hv] at hk; simp at hk

theorem tsValue_post (fmt : Fmt) (ts f : Int) (prec : Nat) (h : U → prec ≤ 9) :
    Post U (fun _ => True) (tsValue fmt ts f prec) := by
  unfold tsValue
  refine Post.ite (fun _ => ?_) fun _ => Post.ok trivial
  dsimp only
  refine Post.ite (fun _ => Post.ok trivial) fun _ => Post.ite (fun _ => Post.ok trivial) fun _ =>
    Post.ite (fun _ => ?_) fun _ => Post.ok trivial
  exact (mkDiv_post _ fun u => by have := h u; omega).bind fun _ _ => Post.pure trivial

theorem cursor_post (h : offs ≤ s.length) : cursor s offs = .ok (s.drop offs) := by
  unfold cursor; rw [if_neg (by omega)]

theorem within_sub {p q : Bytes} {v : Option Json} (h : offs ≤ s.length) (hp : p = s.drop offs) :
    Within s offs (p.length - q.length, v) := by
  have : p.length = s.length - offs := by rw [hp, List.length_drop]
  simp only [Within]; omega

theorem parseRFC5424Date_within (h : offs ≤ s.length) (fmt : Fmt) (want : Bool) :
    Post (Tame s) (Within s offs) (parseRFC5424Date s offs fmt want) := by
  unfold parseRFC5424Date
  rw [cursor_post h]
  refine (rfc5424Syntax_post (U := Tame s) (s.drop offs) fun t i => by
    rw [List.drop_drop]; exact t.digits _).bind fun r hr => ?_
  obtain ⟨t, rest⟩ := r
  dsimp only
  refine Post.ite (fun _ => Post.ite (fun _ => Post.pure (within_sub h rfl)) fun _ => ?_)
    fun _ => Post.pure (within_sub h rfl)
  refine (syslogTime_post _ _ _ _ _ _ _ _ _).bind fun ts _ =>
    (tsValue_post _ _ _ _ hr.2).bind fun v _ => Post.pure (within_sub h rfl)

theorem rfc3164Month_post (a b c : UInt8) : Post U (fun _ => True) (rfc3164Month a b c) := by
  unfold rfc3164Month
  repeat' first | exact Post.ok trivial | exact Post.fail | refine Post.ite (fun _ => ?_) (fun _ => ?_)

theorem skip1_suffix {p q : Bytes} (x : UInt8) (h : p <:+ q) : skip1 x p <:+ q := by
  unfold skip1
  split
  · exact h
  · split
    · exact (List.suffix_cons _ _).trans h
    · exact h

theorem rfc3164Rest_post (month : Int) (p : Bytes) (h : U → FewDigits p) :
    Post U (fun r => r.2 <:+ p) (rfc3164Rest month p) := by
  unfold rfc3164Rest
  refine (eat_post _ p).bind fun p1 s1 => ?_
  replace s1 := skip1_suffix (ch! ' ') s1
  generalize skip1 (ch! ' ') p1 = p1' at *
  dsimp only
  refine (hRange_post _ _ p1' fun u => (h u).suffix s1).bind fun r s2 => ?_
  obtain ⟨day, p2⟩ := r
  replace s2 := List.IsSuffix.trans s2 s1
  dsimp only at s2 ⊢
  refine (eat_post _ p2).bind fun p3 s3 => ?_
  replace s3 := s3.trans s2
  refine (hParseInt_post p3 fun u => (h u).suffix s3).bind fun r hr => ?_
  obtain ⟨hour, p4⟩ := r
  have s4 : p4 <:+ p := List.IsSuffix.trans hr.1 s3
  dsimp only
  refine Post.bind (P := fun r => r.2 <:+ p) ?_ fun r s5 => ?_
  · unfold rfc3164Year
    refine Post.ite (fun _ => ?_) fun _ => Post.ok s4
    refine (eat_post _ p4).bind fun p5 s5 => ?_
    replace s5 := s5.trans s4
    exact (hParseInt_post p5 fun u => (h u).suffix s5).mono fun r hr => hr.1.trans s5
  obtain ⟨hour, p5⟩ := r
  dsimp only at s5 ⊢
  refine (Post.guard _).bind fun _ _ => ?_
  refine (eat_post _ p5).bind fun p6 s6 => ?_
  replace s6 := s6.trans s5
  refine (hRange_post _ _ p6 fun u => (h u).suffix s6).bind fun r s7 => ?_
  obtain ⟨minute, p7⟩ := r
  replace s7 := List.IsSuffix.trans s7 s6
  dsimp only at s7 ⊢
  refine (eat_post _ p7).bind fun p8 s8 => ?_
  replace s8 := s8.trans s7
  refine (hRange_post _ _ p8 fun u => (h u).suffix s8).bind fun r s9 => ?_
  obtain ⟨second, p9⟩ := r
  replace s9 := List.IsSuffix.trans s9 s8
  exact Post.pure (skip1_suffix _ s9)

theorem rfc3164Syntax_post (p : Bytes) (h : U → FewDigits p) :
    Post U (fun r => r.2 <:+ p) (rfc3164Syntax p) := by
  unfold rfc3164Syntax
  split
  · rename_i a b c q
    have sq : q <:+ a :: b :: c :: q := ⟨[a, b, c], rfl⟩
    refine (rfc3164Month_post a b c).bind fun m _ => ?_
    exact (rfc3164Rest_post m q fun u => (h u).suffix sq).mono fun r hr => hr.trans sq
  · exact Post.fail

theorem parseRFC3164Date_within (env : Env) (h : offs ≤ s.length) (fmt : Fmt) (want : Bool) :
    Post (Tame s) (Within s offs) (parseRFC3164Date env s offs fmt want) := by
  unfold parseRFC3164Date
  rw [cursor_post h]
  refine (rfc3164Syntax_post (U := Tame s) (s.drop offs) fun t i => by
    rw [List.drop_drop]; exact t.digits _).bind fun r hr => ?_
  obtain ⟨t, rest⟩ := r
  dsimp only
  refine Post.ite (fun _ => Post.ite (fun _ => Post.pure (within_sub h rfl)) fun _ => ?_)
    fun _ => Post.pure (within_sub h rfl)
  exact (syslogTime_post _ _ _ _ _ _ _ _ _).bind fun ts _ => Post.pure (within_sub h rfl)

/-! ### iptables -/

theorem iptablesNV_post (h : offs ≤ s.length) :
    Post U (fun r => offs < r.1 ∧ r.1 ≤ s.length) (iptablesNV s offs) := by
  unfold iptablesNV
  have h1 := scan_le (p := isUpper) h
  have h2 := @scan_ge isUpper s offs
  dsimp only
  refine (Post.guard _).bind fun _ hg => ?_
  simp only [Bool.and_eq_true, decide_eq_true_eq] at hg
  refine Post.ite (fun ha => Post.pure ?_) fun _ => Post.pure ⟨by simp only; omega, by simp only; omega⟩
  have h3 := atP_lt ha
  have h4 : scan isUpper s offs + 1 ≤ s.length := by omega
  have h5 := scan_le (p := fun c => !isSpace c) h4
  have h6 := @scan_ge (fun c => !isSpace c) s (scan isUpper s offs + 1)
  exact ⟨by simp only; omega, by simp only; omega⟩

theorem iptStage1_post : ∀ fuel i nf, i ≤ s.length → s.length - i < fuel →
    Post U (fun r => i ≤ r.1 ∧ r.1 ≤ s.length) (iptStage1 s fuel i nf) := by
  intro fuel
  induction fuel with
  | zero => intro i nf _ h; omega
  | succ fuel ih =>
    intro i nf h hf
    rw [iptStage1]
    refine Post.ite (fun hi => ?_) fun _ => Post.ok ⟨by simp, by simp; omega⟩
    refine (iptablesNV_post h).bind fun r hr => ?_
    obtain ⟨j, a, b⟩ := r
    dsimp only at hr ⊢
    have hj : j ≤ (if atP (· = ch! ' ') s j then j + 1 else j) ∧
        (if atP (· = ch! ' ') s j then j + 1 else j) ≤ s.length := by
      split
      · rename_i ha; have := atP_lt ha; omega
      · omega
    generalize (if atP (· = ch! ' ') s j then j + 1 else j) = j' at *
    exact (ih j' _ (by omega) (by omega)).mono fun r hr => by omega

theorem iptStage2_post : ∀ fuel i o, i ≤ s.length → s.length - i < fuel →
    Post U (fun _ => True) (iptStage2 s fuel i o) := by
  intro fuel
  induction fuel with
  | zero => intro i nf _ h; omega
  | succ fuel ih =>
    intro i o h hf
    rw [iptStage2]
    refine Post.ite (fun hi => ?_) fun _ => Post.ok trivial
    refine (iptablesNV_post h).bind fun r hr => ?_
    obtain ⟨j, a, b⟩ := r
    dsimp only at hr ⊢
    have h1 := scan_le (p := isSpace) hr.2
    have h2 := @scan_ge isSpace s j
    exact ih _ _ (by omega) (by omega)

theorem parseIPTables_within (h : offs ≤ s.length) (want : Bool) :
    Post U (Within s offs) (parseIPTables s offs want) := by
  unfold parseIPTables
  refine (iptStage1_post _ _ _ h (by omega)).bind fun r hr => ?_
  obtain ⟨i, nf⟩ := r
  dsimp only at hr ⊢
  refine (Post.guard _).bind fun _ _ => Post.ite (fun _ => ?_) fun _ => Post.pure (by simp only [Within]; omega)
  exact (iptStage2_post _ _ _ h (by omega)).bind fun _ _ => Post.pure (by simp only [Within]; omega)

/-! ### json -/

theorem parseJSON_within (env : Env) (he : env.TokOK) (h : offs ≤ s.length) (want : Bool) :
    Post U (Within s offs) (parseJSON env s offs want) := by
  unfold parseJSON
  refine (Post.rd h).bind fun c _ => (Post.guard _).bind fun _ _ => ?_
  split
  · exact Post.fail
  · rename_i v n ht
    have := he _ _ _ ht
    rw [List.length_drop] at this
    exact Post.pure (by simp only [Within]; omega)

theorem parseCEESyslog_post (env : Env) (want : Bool) :
    Post U (fun r => r.1 = s.length) (parseCEESyslog env s offs want) := by
  unfold parseCEESyslog
  refine (Post.guard _).bind fun _ hg => ?_
  have hg : offs + 7 ≤ s.length := by simpa using hg
  refine (Post.guardChar (by omega) (by decide)).bind fun _ _ => ?_
  refine (Post.guardChar (by omega) (by decide)).bind fun _ _ => ?_
  refine (Post.guardChar (by omega) (by decide)).bind fun _ _ => ?_
  refine (Post.guardChar (by omega) (by decide)).bind fun _ _ => ?_
  refine (Post.guardChar (by omega) (by decide)).bind fun _ _ => ?_
  dsimp only
  refine (Post.guard _).bind fun _ _ => ?_
  refine (Post.guardChar (scan_le (by omega)) (by decide)).bind fun _ _ => ?_
  split
  · exact Post.fail
  · exact (Post.guard _).bind fun _ _ => Post.pure rfl

/-! ### name-value -/

theorem escScan_le (stop : UInt8 → Bool) (t : Bytes) : ∀ odd, escScan stop t odd ≤ t.length := by
  induction t with
  | nil => simp [escScan]
  | cons c t ih =>
    intro odd
    rw [escScan]
    split
    · have := ih (if c = ch! '\\' then !odd else false)
      simp only [List.length_cons]; omega
    · simp

theorem nameValue1_post (d : DataNameValue) (h : offs ≤ s.length) :
    Post U (fun r => offs < r.1 ∧ r.1 ≤ s.length) (nameValue1 s offs d) := by
  unfold nameValue1
  dsimp only
  have h1 := scan_le (p := fun c => if d.ass ≠ 0 then c != d.ass else isValidNameChar c) h
  have h2 := @scan_ge (fun c => if d.ass ≠ 0 then c != d.ass else isValidNameChar c) s offs
  generalize scan (fun c => if d.ass ≠ 0 then c != d.ass else isValidNameChar c) s offs = i at *
  refine (Post.rd h1).bind fun c hc => (Post.guard _).bind fun _ hg => ?_
  simp only [Bool.and_eq_true, decide_eq_true_eq] at hg
  have hi : i < s.length := by
    rcases hc with ⟨h, _⟩ | ⟨_, rfl⟩
    · exact h
    · have := hg.2
      split at this
      · rename_i h0; exact absurd (beq_iff_eq.1 this).symm h0
      · exact absurd this (by decide)
  refine (Post.rd (by omega)).bind fun q _ => ?_
  generalize hqd : (decide (i + 1 < s.length) && (decide (q = ch! '"') || decide (q = ch! '\''))) = quoted
  have hv : (if quoted = true then i + 1 + 1 else i + 1) ≤ s.length ∧
      i + 1 ≤ (if quoted = true then i + 1 + 1 else i + 1) := by
    split
    · rename_i hq
      rw [← hqd] at hq
      simp only [Bool.and_eq_true, decide_eq_true_eq] at hq
      omega
    · omega
  generalize (if quoted = true then i + 1 + 1 else i + 1) = iVal at *
  have a1 := escScan_le (· == q) (s.drop iVal) false
  have a2 := escScan_le (nvIsSep d.sep) (s.drop iVal) false
  rw [List.length_drop] at a1 a2
  cases quoted with
  | true =>
    simp only [if_true]
    refine (Post.guard _).bind fun _ _ => Post.pure ?_
    by_cases ha : atP (fun x => x == q) s (iVal + escScan (fun x => x == q) (s.drop iVal) false) = true
    · have := atP_lt ha; simp only [ha, if_true]; omega
    · simp only [ha]; simp; omega
  | false =>
    simp only [Bool.false_eq_true, if_false]
    refine (Post.guard _).bind fun _ _ => Post.pure ?_
    by_cases ha : atP (fun x => x == 0) s (iVal + escScan (nvIsSep d.sep) (s.drop iVal) false) = true
    · have := atP_lt ha; simp only [ha, if_true]; omega
    · simp only [ha]; simp; omega

theorem nvLoop_post (d : DataNameValue) : ∀ fuel i o, i ≤ s.length → s.length - i < fuel →
    Post U (fun r => i ≤ r.1 ∧ r.1 ≤ s.length) (nvLoop s d fuel i o) := by
  intro fuel
  induction fuel with
  | zero => intro i nf _ h; omega
  | succ fuel ih =>
    intro i o h hf
    rw [nvLoop]
    refine Post.ite (fun hi => ?_) fun _ => Post.ok ⟨by simp, by simp; omega⟩
    have hn := nameValue1_post (U := U) d h
    cases hnv : nameValue1 s i d with
    | ok r =>
      obtain ⟨j, n, v⟩ := r
      rw [hnv] at hn
      have hn := hn.1 _ rfl
      dsimp only at hn ⊢
      refine Post.ite (fun _ => Post.ok ⟨by simp only; omega, by simp only; omega⟩) fun _ => ?_
      have h1 := scan_le (p := nvIsSep d.sep) hn.2
      have h2 := @scan_ge (nvIsSep d.sep) s j
      exact (ih _ _ h1 (by omega)).mono fun r hr => by omega
    | fail => exact Post.ok ⟨by simp, by simp; omega⟩
    | ub k => rw [hnv] at hn; exact ⟨by simp, by simp, fun u => absurd rfl (hn.2.2 u k)⟩
    | oof => rw [hnv] at hn; exact absurd rfl hn.2.1

theorem parseNameValue_within (d : DataNameValue) (h : offs ≤ s.length) (want : Bool) :
    Post U (Within s offs) (parseNameValue s offs d want) := by
  unfold parseNameValue
  refine (nvLoop_post d _ _ _ h (by omega)).bind fun r hr => ?_
  obtain ⟨i, o⟩ := r
  exact Post.pure (by simp only [Within]; dsimp only at hr; omega)

/-! ### LEA -/

theorem leaLoop_post (term : UInt8) : ∀ fuel i found o, i ≤ s.length → s.length - i < fuel →
    Post U (fun r => i ≤ r.1 ∧ r.1 ≤ s.length) (leaLoop s term fuel i found o) := by
  intro fuel
  induction fuel with
  | zero => intro i f o _ h; omega
  | succ fuel ih =>
    intro i f o h hf
    rw [leaLoop]
    refine Post.ite (fun hi => ?_) fun _ => Post.ok ⟨by simp, by simp; omega⟩
    dsimp only
    have h1 := scan_le (p := (· == ch! ' ')) h
    have h2 := @scan_ge (· == ch! ' ') s i
    generalize scan (· == ch! ' ') s i = a at *
    refine Post.ite (fun _ => Post.ite (fun _ => Post.fail) fun _ => Post.ok ⟨by simp; omega, by simp; omega⟩) fun _ => ?_
    refine Post.ite (fun _ => Post.ok ⟨by simp; omega, by simp; omega⟩) fun _ => ?_
    have h3 := scan_le (p := fun c => c != ch! ':') h1
    have h4 := @scan_ge (fun c => c != ch! ':') s a
    generalize scan (fun c => c != ch! ':') s a = b at *
    refine Post.ite (fun _ => Post.fail) fun hb => ?_
    have h5 := scan_le (p := (· == ch! ' ')) (show b + 1 ≤ s.length by omega)
    have h6 := @scan_ge (· == ch! ' ') s (b + 1)
    generalize scan (· == ch! ' ') s (b + 1) = c at *
    have h7 := scan_le (p := fun c => c != ch! ';') h5
    have h8 := @scan_ge (fun c => c != ch! ';') s c
    generalize scan (fun c => c != ch! ';') s c = e at *
    refine Post.ite (fun _ => Post.fail) fun he => ?_
    exact (ih _ _ _ (by omega) (by omega)).mono fun r hr => by omega

theorem parseLEA_within (term : UInt8) (h : offs ≤ s.length) (want : Bool) :
    Post U (Within s offs) (parseCheckpointLEA s offs term want) := by
  unfold parseCheckpointLEA
  refine (leaLoop_post term _ _ _ _ h (by omega)).bind fun r hr => ?_
  obtain ⟨i, o⟩ := r
  exact Post.pure (by simp only [Within]; dsimp only at hr; omega)

end LN
