import Verif.Spec.V1Fields
import Verif.Spec.V1
import Verif.Proofs.SafetyD
/- version 1 parsers stay inside the message -/
set_option autoImplicit false
namespace LN
open Spec
variable {s : Bytes} {offs : Nat} {U : Prop}

theorem v1Number_within (h : offs ≤ s.length) : Post U (fun r => offs + r.1 ≤ s.length ∧ 0 < r.1) (v1Number s offs) := by
  unfold v1Number
  have h1 := scan_le (p := isDigit) h
  have h2 := @scan_ge isDigit s offs
  exact Post.ite (fun _ => Post.fail) fun _ => Post.ok ⟨by simp only; omega, by simp only; omega⟩

theorem v1CiscoSecond_post (i : Nat) :
    Post U (fun o => ∀ a, o = some a → i ≤ a.2 ∧ a.2 ≤ s.length) (v1CiscoSecond s i) := by
  unfold v1CiscoSecond
  refine Post.ite (fun hc => ?_) (fun _ => Post.pure (by simp))
  simp only [Bool.and_eq_true, decide_eq_true_eq] at hc
  dsimp only
  refine (parseIPv4_within (by omega) false).attempt.bind fun ip hip => ?_
  split
  · exact Post.pure (by simp)
  · rename_i n v
    have := hip _ rfl
    simp only [Within] at this
    by_cases hle : i + 2 + n + 1 ≤ s.length
    · refine (v1Number_within hle).attempt.bind fun p hp => ?_
      split
      · exact Post.pure (by simp)
      · refine Post.ite (fun hj => Post.pure ?_) (fun _ => Post.pure (by simp))
        intro a ha
        cases ha
        have := atP_lt hj
        simp only
        omega
    · have hd : s.drop (i + 2 + n + 1) = [] := List.drop_eq_nil_of_le (by omega)
      have hf : v1Number s (i + 2 + n + 1) = .fail := by
        unfold v1Number
        simp [scan, hd]
      rw [hf]
      exact Post.pure (by simp)

theorem v1Cisco_within (h : offs ≤ s.length) : Post U (Within s offs) (v1Cisco s offs) := by
  unfold v1Cisco
  refine (Post.rd h).bind fun c _ => (Post.guard _).bind fun _ _ => ?_
  refine (ciscoHead_post h).bind fun r hr => ?_
  obtain ⟨ifc, idxIP, lenIP, i⟩ := r
  simp only at hr
  refine (Post.guard _).bind fun _ _ => (Post.guardChar hr.2 (by decide)).bind fun _ hlt => ?_
  dsimp only
  refine (v1Number_within (by omega)).bind fun r2 hr2 => ?_
  obtain ⟨lenPort, pv⟩ := r2
  simp only at hr2
  dsimp only
  refine Post.ite (fun he => Post.pure (show offs + _ ≤ s.length by omega)) fun _ => ?_
  refine (v1CiscoSecond_post _).bind fun sec hsec => Post.pure ?_
  show offs + _ ≤ s.length
  rcases sec with _ | ⟨q, j⟩
  · dsimp only
    rcases hu : ciscoUser s (i + 1 + lenPort) with _ | ⟨u, j⟩
    · dsimp only; omega
    · have := ciscoUser_le hu; dsimp only; omega
  · have hj := hsec _ rfl
    dsimp only at hj ⊢
    rcases hu : ciscoUser s j with _ | ⟨u, j2⟩
    · dsimp only; omega
    · have := ciscoUser_le hu; dsimp only; omega

theorem v1NameValue1_post (h : offs ≤ s.length) :
    Post U (fun r => offs < r.1 ∧ r.1 ≤ s.length) (v1NameValue1 s offs) := by
  unfold v1NameValue1
  have h1 := scan_le (p := isValidNameChar) h
  have h2 := @scan_ge isValidNameChar s offs
  dsimp only
  refine (Post.guard _).bind fun _ _ => (Post.guardChar h1 (by decide)).bind fun _ hlt => Post.pure ?_
  have h3 := scan_le (p := fun c => !isSpace c) (s := s) (i := scan isValidNameChar s offs + 1) (by omega)
  have h4 := @scan_ge (fun c => !isSpace c) s (scan isValidNameChar s offs + 1)
  exact ⟨by simp only; omega, h3⟩

theorem v1NvLoop_post : ∀ fuel i o, i ≤ s.length → s.length - i < fuel →
    Post U (fun r => i ≤ r.1 ∧ r.1 = s.length) (v1NvLoop s fuel i o) := by
  intro fuel
  induction fuel with
  | zero => intro i o _ h; omega
  | succ fuel ih =>
    intro i o h hf
    rw [v1NvLoop]
    refine Post.ite (fun hi => ?_) fun _ => Post.ok ⟨by simp, by simp; omega⟩
    refine (v1NameValue1_post h).bind' fun r hr => ?_
    obtain ⟨j, n, v⟩ := r
    simp only at hr ⊢
    have h1 := scan_le (p := isSpace) hr.2
    have h2 := @scan_ge isSpace s j
    exact (ih _ _ h1 (by omega)).mono fun r hr => ⟨by omega, hr.2⟩

theorem v1NameValue_within (h : offs ≤ s.length) : Post U (Within s offs) (v1NameValue s offs) := by
  unfold v1NameValue
  refine (v1NvLoop_post _ _ _ h (by omega)).bind' fun r hr => ?_
  obtain ⟨i, o⟩ := r
  exact Post.ok (by simp only [Within]; dsimp only at hr; omega)

theorem v1Term_post (env : Env) (k : V1Fn) (raw : Option Bytes) (hk : k = .charTo ∨ k = .charSep) :
    Post (V1Conf env k raw) (fun _ => True) (v1Term env raw) := by
  unfold v1Term
  split
  · refine Post.ub ?_
    rcases hk with rfl | rfl <;> · rintro ⟨r, c, l, h1, _⟩; cases h1
  · rename_i r
    split
    · rename_i h0
      refine Post.ub ?_
      rcases hk with rfl | rfl <;> · rintro ⟨r', c, l, h1, h2, _⟩; cases h1; rw [h0] at h2; cases h2
    · exact Post.ok trivial

theorem date5424_within' (h : offs ≤ s.length) (fmt : Fmt) (want : Bool) (hd : U → FewDigits s) :
    Post U (Within s offs) (parseRFC5424Date s offs fmt want) := by
  unfold parseRFC5424Date
  rw [cursor_post h]
  refine (rfc5424Syntax_post (U := U) (s.drop offs) fun t i => by
    rw [List.drop_drop]; exact hd t _).bind fun r hr => ?_
  obtain ⟨t, rest⟩ := r
  dsimp only
  refine Post.ite (fun _ => Post.ite (fun _ => Post.pure (within_sub h rfl)) fun _ => ?_)
    fun _ => Post.pure (within_sub h rfl)
  refine (syslogTime_post _ _ _ _ _ _ _ _ _).bind fun ts _ =>
    (tsValue_post _ _ _ _ hr.2).bind fun v _ => Post.pure (within_sub h rfl)

theorem date3164_within' (env : Env) (h : offs ≤ s.length) (fmt : Fmt) (want : Bool) (hd : U → FewDigits s) :
    Post U (Within s offs) (parseRFC3164Date env s offs fmt want) := by
  unfold parseRFC3164Date
  rw [cursor_post h]
  refine (rfc3164Syntax_post (U := U) (s.drop offs) fun t i => by
    rw [List.drop_drop]; exact hd t _).bind fun r hr => ?_
  obtain ⟨t, rest⟩ := r
  dsimp only
  refine Post.ite (fun _ => Post.ite (fun _ => Post.pure (within_sub h rfl)) fun _ => ?_)
    fun _ => Post.pure (within_sub h rfl)
  exact (syslogTime_post _ _ _ _ _ _ _ _ _).bind fun ts _ => Post.pure (within_sub h rfl)

theorem v1Parser_within (E : V1Env) (norm : V1Norm) (fuel : Nat) (k : V1Fn) (f : V1Field) (he : E.env.TokOK) (hk : V1InMsg k = true)
    (h : offs ≤ s.length) :
    Post (V1Conf E.env k f.raw ∧ V1Digits k s) (Within s offs) (v1Parser E norm fuel k f s offs) := by
  obtain ⟨s1, s2, s3, s4, s5, s6, s7, s8, s9, s10, s11, s12⟩ :=
    simple_within (U := V1Conf E.env k f.raw ∧ V1Digits k s) h false
  have m := (simple_within (U := V1Conf E.env k f.raw ∧ V1Digits k s) h true).2.2.2.2.2.2.2.2.2.2.2
  cases k with
  | date3164 => exact date3164_within' _ h _ _ fun u => u.2 (.inl rfl)
  | date5424 => exact date5424_within' h _ _ fun u => u.2 (.inr rfl)
  | number => exact (v1Number_within h).mono fun _ h => h.1
  | float => exact parseFloat_within h _ _
  | hexnumber => exact parseHexNumber_within h _ _
  | kernelTs => exact s1
  | whitespace => exact s2
  | ipv4 => exact s3
  | ipv6 => exact parseIPv6_within h _
  | word => exact s4
  | alpha => exact s5
  | opQuoted => exact parseOpQuoted_within h _ fun _ => rfl
  | quoted => exact s7.bind' fun r hr => Post.ok hr
  | dateIso => exact s8
  | time24 => exact s9
  | time12 => exact s10
  | duration => exact s11
  | cisco => exact v1Cisco_within h
  | json => exact parseJSON_within _ he h _
  | mac48 => exact m
  | nameValue => exact v1NameValue_within h
  | v2iptables => exact parseIPTables_within h _
  | stringTo =>
    show Post _ _ (v1StringTo E.env f.raw s offs)
    unfold v1StringTo
    split
    · rename_i h0; refine Post.ub ?_; rintro ⟨⟨r, h1, _⟩, _⟩; rw [h0] at h1; cases h1
    · rename_i r hr
      dsimp only
      refine Post.ite (fun h0 => Post.ub ?_) fun _ => Post.ite (fun h0 => Post.ub ?_) fun _ => parseStringTo_within h _ _
      · rintro ⟨⟨r', h1, h2, h3⟩, _⟩; rw [hr] at h1; cases h1; exact h3 h0
      · rintro ⟨⟨r', h1, h2, h3⟩, _⟩; rw [hr] at h1; cases h1; rw [h0.1] at h2; simp at h2
  | charTo =>
    have h1 := v1Term_post E.env .charTo f.raw (.inl rfl)
    exact (show Post _ (fun _ => True) _ from ⟨fun _ _ => trivial, h1.2.1, fun u => h1.2.2 u.1⟩).bind'
      fun ts _ => parseCharTo_within h ts false
  | charSep =>
    have h1 := v1Term_post E.env .charSep f.raw (.inr rfl)
    exact (show Post _ (fun _ => True) _ from ⟨fun _ _ => trivial, h1.2.1, fun u => h1.2.2 u.1⟩).bind'
      fun ts _ => parseCharSep_within h ts false
  | cee => cases hk
  | cef => cases hk
  | lea => cases hk
  | tokenized => cases hk
  | recursive => cases hk
  | interpret => cases hk
  | suffixed => cases hk

end LN
