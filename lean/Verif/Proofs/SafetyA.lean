import Verif.Proofs.Safety
/- Containment of the scalar parsers. -/
set_option autoImplicit false
namespace LN
variable {s : Bytes} {offs : Nat} {U : Prop}

/-- result inside the message -/
abbrev Within (s : Bytes) (offs : Nat) : Nat × Option Json → Prop := fun r => offs + r.1 ≤ s.length

theorem within_strRes {want : Bool} {n : Nat} (h : offs + n ≤ s.length) :
    Within s offs (strRes want s offs n) := h

theorem accDec_post {mx : Int} {ds : Bytes} (h : U → ∃ n : Nat, ds.length ≤ n ∧ (10 : Int) ^ n + 48 ≤ mx)
    (hd : ∀ c ∈ ds, isDigit c = true) : Post U (fun _ => True) (accDec mx ds 0) := by
  have key : ∀ (ds : Bytes) (v : Int) (n : Nat), (∀ c ∈ ds, isDigit c = true) →
      ds.length ≤ n → 0 ≤ v → (v + 1) * 10 ^ ds.length ≤ 10 ^ n → (10 : Int) ^ n + 48 ≤ mx →
      ∃ w, accDec mx ds v = .ok w := by
    intro ds
    induction ds with
    | nil => intro v n _ _ _ _ _; exact ⟨v, rfl⟩
    | cons c cs ih =>
      intro v n hd hl hv hp hm
      have hc := isDigit_iff.1 (hd c (by simp))
      have hpos : (0 : Int) < 10 ^ cs.length := Int.pow_pos (by omega)
      have h1 : (v * 10 + (c.toNat : Int) - 48 + 1) * 10 ^ cs.length ≤ (v + 1) * 10 ^ (cs.length + 1) := by
        rw [Int.pow_succ, Int.mul_comm (10 ^ cs.length) 10, ← Int.mul_assoc]
        exact Int.mul_le_mul_of_nonneg_right (by omega) (by omega)
      have h2 : v * 10 + (c.toNat : Int) - 48 + 1 ≤ 10 ^ n := by
        have : (v * 10 + (c.toNat : Int) - 48 + 1) * 1 ≤
            (v * 10 + (c.toNat : Int) - 48 + 1) * 10 ^ cs.length :=
          Int.mul_le_mul_of_nonneg_left (by omega) (by omega)
        simp only [List.length_cons] at hp
        omega
      have hne : ¬ (v * 10 + (c.toNat : Int) > mx) := by omega
      rw [accDec, if_neg hne]
      refine ih _ n (fun x hx => hd x (by simp [hx])) (by simp at hl; omega) (by omega) ?_ hm
      simp only [List.length_cons] at hp
      exact Int.le_trans h1 hp
  have noof : ∀ (ds : Bytes) (v : Int), accDec mx ds v ≠ .oof := by
    intro ds
    induction ds with
    | nil => intro v; simp [accDec]
    | cons c cs ih => intro v; rw [accDec]; split
                      · simp
                      · exact ih _
  refine ⟨fun _ _ => trivial, noof ds 0, fun u k hk => ?_⟩
  obtain ⟨n, hl, hm⟩ := h u
  obtain ⟨w, hw⟩ := key ds 0 n hd hl (by omega)
    (by simp; exact_mod_cast Nat.pow_le_pow_right (by omega) hl) hm
  rw [hw] at hk; simp at hk

theorem parseNumber_within (h : offs ≤ s.length) (data : Option DataNumber) (want : Bool) :
    Post (Tame s) (Within s offs) (parseNumber s offs data want) := by
  unfold parseNumber
  refine Post.bind (P := fun _ => True) ?_ fun v _ => ?_
  · refine accDec_post (fun ht => ⟨9, ?_, by decide⟩) ?_
    · rw [scan_sub, slice, take_takeWhile]; exact ht.digits offs
    · rw [scan_sub, slice, take_takeWhile]; exact fun c hc => takeWhile_mem hc
  · refine (Post.guard _).bind fun _ _ => (Post.guard _).bind fun _ _ => ?_
    have h2 := scan_le (p := isDigit) h
    have h3 := @scan_ge isDigit s offs
    refine Post.ite (fun _ => ?_) (fun _ => ?_)
    · exact Post.pure (within_strRes (by omega))
    · exact Post.pure (show offs + _ ≤ _ by omega)

theorem floatLoop_len (t : Bytes) : ∀ seen, floatLoop t seen ≤ t.length := by
  induction t with
  | nil => simp [floatLoop]
  | cons c t ih =>
    intro seen
    have h1 := ih true
    have h2 := ih seen
    simp only [floatLoop, List.length_cons]
    split
    · split <;> omega
    · split <;> omega

theorem parseFloat_within (h : offs ≤ s.length) (fmt : Fmt) (want : Bool) :
    Post U (Within s offs) (parseFloat s offs fmt want) := by
  unfold parseFloat
  refine (Post.rd h).bind fun c hc => ?_
  have hi : (if c = ch! '-' then offs + 1 else offs) ≤ s.length := by
    split
    · rename_i he
      rcases hc with ⟨h, _⟩ | ⟨_, hc⟩
      · omega
      · rw [hc] at he; exact absurd he (by decide)
    · exact h
  have hj := floatLoop_len (s.drop (if c = ch! '-' then offs + 1 else offs)) false
  rw [List.length_drop] at hj
  have hk : offs ≤ (if c = ch! '-' then offs + 1 else offs) := by split <;> omega
  generalize (if c = ch! '-' then offs + 1 else offs) = i at *
  dsimp only
  refine (Post.guard _).bind fun _ _ => ?_
  refine Post.ite (fun _ => Post.pure (within_strRes (by omega)))
    (fun _ => Post.pure (show offs + _ ≤ _ by omega))

theorem parseHexNumber_within (h : offs ≤ s.length) (data : DataHexNumber) (want : Bool) :
    Post U (Within s offs) (parseHexNumber s offs data want) := by
  unfold parseHexNumber
  refine (Post.rd h).bind fun c hc => (Post.guard _).bind fun _ hg => ?_
  have h1 : offs + 1 ≤ s.length := by
    rcases hc with ⟨h, _⟩ | ⟨_, rfl⟩
    · omega
    · simp at hg
  refine (Post.rd h1).bind fun c1 hc1 => (Post.guard _).bind fun _ hg1 => ?_
  have h2 : offs + 2 ≤ s.length := by
    rcases hc1 with ⟨h, _⟩ | ⟨_, rfl⟩
    · omega
    · simp at hg1
  dsimp only
  have h3 := scan_le (p := isXDigit) h2
  have h4 := @scan_ge isXDigit s (offs + 2)
  refine (Post.rd h3).bind fun _ _ => (Post.guard _).bind fun _ _ => (Post.guard _).bind fun _ _ => ?_
  refine Post.ite (fun _ => Post.pure (within_strRes (by omega)))
    (fun _ => Post.pure (show offs + _ ≤ _ by omega))

theorem parseOpQuoted_within (h : offs ≤ s.length) (want : Bool) (hu : U → want = true) :
    Post U (Within s offs) (parseOpQuotedString s offs want) := by
  unfold parseOpQuotedString
  refine (Post.rd h).bind fun c hc => Post.ite (fun _ => ?_) (fun hne => ?_)
  · refine (Post.guard _).bind fun _ _ => ?_
    have h2 := scan_le (p := fun c => c != ch! ' ') h
    have h3 := @scan_ge (fun c => c != ch! ' ') s offs
    dsimp only
    refine Post.ite (fun _ => Post.pure (show offs + _ ≤ _ by omega)) (fun hw => ?_)
    exact Post.ub fun u => hw (hu u)
  · dsimp only
    refine (Post.guard _).bind fun _ hg => ?_
    have h3 := @scan_ge (fun c => c != ch! '"') s (offs + 1)
    simp at hg
    refine Post.ite (fun _ => Post.pure (show offs + _ ≤ _ by omega)) (fun hw => ?_)
    exact Post.ub fun u => hw (hu u)

theorem litLoop_post (t : Bytes) : ∀ lit j, (U → ∀ c ∈ t, c ≠ 0) →
    Post U (fun r => r.1 ≤ j + t.length) (litLoop t lit j) := by
  induction t with
  | nil => intro lit j _; exact Post.ok (by simp)
  | cons c t ih =>
    intro lit j hz
    cases lit with
    | nil =>
      rw [litLoop]
      exact Post.ite (fun hc => Post.ub fun u => hz u c (by simp) hc)
        (fun _ => Post.ok (by simp))
    | cons l ls =>
      rw [litLoop]
      exact Post.ite (fun _ => Post.ok (by simp))
        (fun _ => (ih ls (j + 1) (fun u x hx => hz u x (by simp [hx]))).mono
          (fun a ha => by simp only [List.length_cons]; omega))

theorem parseLiteral_within (h : offs ≤ s.length) (lit : Bytes) (want : Bool)
    (hz : U → ∀ c ∈ s, c ≠ 0) :
    Post U (Within s offs) (parseLiteral s offs lit want) := by
  unfold parseLiteral
  refine (litLoop_post (s.drop offs) lit 0 (fun u c hc => hz u c (List.mem_of_mem_drop hc))).bind
    fun r hr => ?_
  obtain ⟨j, full⟩ := r
  rw [List.length_drop] at hr
  refine (Post.guard _).bind fun _ _ => Post.pure (within_strRes ?_)
  simp only at hr; omega

theorem stringToLoop_post (f : Bytes) : ∀ k i, i + k = s.length →
    Post U (fun r => i ≤ r.1 ∧ r.1 ≤ s.length) (stringToLoop s f k i) := by
  intro k
  induction k with
  | zero => intro i h; rw [stringToLoop]; exact Post.ok ⟨by simp, by simp; omega⟩
  | succ k ih =>
    intro i h
    rw [stringToLoop]
    refine (Post.rd (by omega)).bind fun c _ => Post.ite (fun _ => Post.pure ⟨by simp, by simp; omega⟩)
      (fun _ => (ih (i + 1) (by omega)).mono fun a ha => ⟨by omega, ha.2⟩)

theorem parseStringTo_within (h : offs ≤ s.length) (f : Bytes) (want : Bool) :
    Post U (Within s offs) (parseStringTo s offs f want) := by
  unfold parseStringTo
  refine (stringToLoop_post f _ _ (by omega)).bind fun r hr => ?_
  obtain ⟨i, found⟩ := r
  simp only at hr
  refine (Post.guard _).bind fun _ _ => Post.pure (within_strRes (by omega))

theorem within_of_contained {x : PR} (h : Contained s offs U x) : Post U (Within s offs) x :=
  contained_iff.1 h

open Spec in
theorem runOf_le {p : UInt8 → Bool} {t : Bytes} {n : Nat} (h : runOf p t n) : n ≤ t.length := h.2.1

open Spec in
theorem fits_le {ps : List (UInt8 → Bool)} {t : Bytes} {n : Nat} (h : fits ps t = true)
    (hn : n = ps.length) : n ≤ t.length := hn ▸ fits_length h

open Spec in
theorem simple_within (h : offs ≤ s.length) (want : Bool) :
    Post U (Within s offs) (parseKernelTimestamp s offs want) ∧
    Post U (Within s offs) (parseWhitespace s offs want) ∧
    Post U (Within s offs) (parseIPv4 s offs want) ∧
    Post U (Within s offs) (parseWord s offs want) ∧
    Post U (Within s offs) (parseAlpha s offs want) ∧
    Post U (Within s offs) (parseRest s offs want) ∧
    Post U (Within s offs) (parseQuotedString s offs want) ∧
    Post U (Within s offs) (parseISODate s offs want) ∧
    Post U (Within s offs) (parseTime24hr s offs want) ∧
    Post U (Within s offs) (parseTime12hr s offs want) ∧
    Post U (Within s offs) (parseDuration s offs want) ∧
    Post U (Within s offs) (parseMAC48 s offs want) := by
  refine ⟨within_of_contained (contained_of_implements (C23_kernel_timestamp h want) h ?_),
    within_of_contained (contained_of_implements (C24_whitespace h want) h fun n hn => runOf_le hn),
    within_of_contained (contained_of_implements (C34_ipv4 h want) h ?_),
    within_of_contained (contained_of_implements (C25_word want) h fun n hn => runOf_le hn),
    within_of_contained (contained_of_implements (C25_alpha want) h fun n hn => runOf_le hn),
    by rw [C29_rest h want]; exact Post.ok (by simp [Within]; omega),
    within_of_contained (contained_of_implements (C30_quoted_string_partial h want) h ?_),
    within_of_contained (contained_of_implements (C31_date_iso h want) h
      fun n hn => fits_le hn.1 hn.2.2.2.2.2),
    within_of_contained (contained_of_implements (C32_time_24hr h want) h
      fun n hn => fits_le hn.1 hn.2.2.2.2),
    within_of_contained (contained_of_implements (C32_time_12hr h want) h
      fun n hn => fits_le hn.1 hn.2.2.2.2),
    within_of_contained (contained_of_implements (C33_duration h want) h ?_),
    within_of_contained (contained_of_implements (C36_mac48 h want) h ?_)⟩
  · rintro n ⟨a, b, rest, ht, -, -, -, -, hb, rfl⟩
    rw [ht]; simp [hb]
    omega
  · rintro n ⟨a, b, c, d, rest, ht, -, -, -, -, -, rfl⟩
    rw [ht]; simp
    omega
  · rintro n ⟨w, tl, ht, -, rfl⟩
    rw [ht]; simp
  · rintro n (⟨h1, h2, rfl⟩ | ⟨h1, h2, rfl⟩)
    · have := fits_length h1; have := fits_length h2.1
      simp only [List.length_drop, List.length_cons, List.length_nil] at *; omega
    · have := fits_length h1; have := fits_length h2.1
      simp only [List.length_drop, List.length_cons, List.length_nil] at *; omega
  · rintro n ⟨⟨sep, -, hf⟩, hn⟩
    exact fits_le hf hn

theorem parseCharTo_within (h : offs ≤ s.length) (ts : Bytes) (want : Bool) :
    Post U (Within s offs) (parseCharTo s offs ts want) :=
  within_of_contained (contained_of_implements (C27_char_to h ts want) h fun _ hn => hn.2.2.1)
theorem parseCharSep_within (h : offs ≤ s.length) (ts : Bytes) (want : Bool) :
    Post U (Within s offs) (parseCharSep s offs ts want) :=
  within_of_contained (contained_of_implements (C27_char_sep ts want) h fun _ hn => hn.1)

theorem parseIPv4_within (h : offs ≤ s.length) (want : Bool) :
    Post U (Within s offs) (parseIPv4 s offs want) := (simple_within h want).2.2.1

end LN
