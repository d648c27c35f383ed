import Verif.Proofs.SafetyA
/- Containment of the compound parsers. -/
set_option autoImplicit false
namespace LN
variable {s : Bytes} {offs : Nat} {U : Prop}

/-! ### cisco -/

theorem ciscoHead_post (h : offs ≤ s.length) :
    Post U (fun r => offs ≤ r.2.2.2 ∧ r.2.2.2 ≤ s.length) (ciscoHead s offs) := by
  unfold ciscoHead
  refine (parseIPv4_within h false).attempt.bind fun ip hip => ?_
  split
  · rename_i n v
    have := hip _ rfl
    simp only [Within] at this
    refine (Post.guard _).bind fun _ hg => Post.pure ?_
    simp at hg
    simp only
    omega
  · refine (Post.guard _).bind fun _ _ => (Post.guard _).bind fun _ hg => ?_
    have h1 := scan_le (p := fun c => !isSpace c && c != ch! ':') h
    have h2 := @scan_ge (fun c => !isSpace c && c != ch! ':') s offs
    simp at hg
    refine (parseIPv4_within (by omega) false).bind fun r hr => Post.pure ?_
    simp only [Within] at hr
    simp only
    omega

theorem ciscoSecond_post (i : Nat) :
    Post (Tame s) (fun o => ∀ a, o = some a → i ≤ a.2 ∧ a.2 ≤ s.length) (ciscoSecond s i) := by
  unfold ciscoSecond
  refine Post.ite (fun hc => ?_) (fun _ => Post.pure (by simp))
  simp only [Bool.and_eq_true, decide_eq_true_eq] at hc
  dsimp only
  refine (parseIPv4_within (by omega) false).attempt.bind fun ip hip => ?_
  split
  · exact Post.pure (by simp)
  · rename_i n v
    have := hip _ rfl
    simp only [Within] at this
    by_cases hle : i + 2 + n + 1 ≤ s.length
    · refine (parseNumber_within hle none false).attempt.bind fun p hp => ?_
      split
      · exact Post.pure (by simp)
      · refine Post.ite (fun hj => Post.pure ?_) (fun _ => Post.pure (by simp))
        intro a ha
        cases ha
        have := atP_lt hj
        simp only
        omega
    · -- behind the end there is no number
      have hlen : i + 2 + n = s.length := by omega
      have hd : s.drop (i + 2 + n + 1) = [] := List.drop_eq_nil_of_le (by omega)
      have hf : parseNumber s (i + 2 + n + 1) none false = .fail := by
        unfold parseNumber
        simp [scan, slice, hd, accDec]
      rw [hf]
      exact Post.pure (by simp)

theorem ciscoUser_le {i j : Nat} {u : Nat × Nat} (h : ciscoUser s i = some (u, j)) :
    i ≤ j ∧ j ≤ s.length := by
  unfold ciscoUser at h
  by_cases hc : ((i + 2 < s.length && atP (· = ch! '(') s i && atP (fun c => !isSpace c) s (i + 1))
     || (i + 3 < s.length && atP (· = ch! ' ') s i && atP (· = ch! '(') s (i + 1)
         && atP (fun c => !isSpace c) s (i + 2))) = true
  · rw [if_pos hc] at h
    dsimp only at h
    have hk : i ≤ i + (if atP (· = ch! ' ') s i then 2 else 1) := by omega
    generalize (i + if atP (· = ch! ' ') s i then 2 else 1) = k at *
    by_cases hj : atP (· = ch! ')') s (scan (fun c => !isSpace c && c != ch! ')') s k) = true
    · rw [if_pos hj] at h
      have h1 := atP_lt hj
      have h2 := @scan_ge (fun c => !isSpace c && c != ch! ')') s k
      have h3 := (Prod.mk.inj (Option.some.inj h)).2
      omega
    · rw [if_neg hj] at h; simp at h
  · rw [if_neg hc] at h; simp at h

theorem parseCisco_within (h : offs ≤ s.length) (want : Bool) :
    Post (Tame s) (Within s offs) (parseCisco s offs want) := by
  unfold parseCisco
  refine (Post.rd h).bind fun c _ => (Post.guard _).bind fun _ _ => ?_
  refine (ciscoHead_post h).bind fun r hr => ?_
  obtain ⟨ifc, idxIP, lenIP, i⟩ := r
  simp only at hr
  refine (Post.guard _).bind fun _ _ => (Post.guardChar hr.2 (by decide)).bind fun _ hlt => ?_
  dsimp only
  refine (parseNumber_within (by omega) none false).bind fun r2 hr2 => ?_
  obtain ⟨lenPort, pv⟩ := r2
  simp only [Within] at hr2
  dsimp only
  refine (ciscoSecond_post _).bind fun sec hsec => Post.pure ?_
  show offs + _ ≤ s.length
  rcases sec with _ | ⟨q, j⟩
  · dsimp only
    rcases hu : ciscoUser s (i + 1 + lenPort) with _ | ⟨u, j⟩
    · dsimp only; omega
    · have := ciscoUser_le hu; dsimp only; omega
  · have hj := hsec _ rfl
    dsimp only at hj ⊢
    rcases hu : ciscoUser s j with _ | ⟨u, j2⟩
    · dsimp only; omega
    · have := ciscoUser_le hu; dsimp only; omega

/-! ### ipv6 -/

theorem ipv6Loop_post (offs : Nat) : ∀ n i bb nb ab, offs ≤ i → i ≤ s.length → offs ≤ bb → bb ≤ i →
    offs + 2 ≤ s.length →
    (i = offs + 1 → ∀ x, s[offs]? = some x → isXDigit x = true) →
    (i = offs → ∀ x y, s[offs]? = some x → s[offs+1]? = some y →
      isXDigit x = true ∨ (x = ch! ':' ∧ y = ch! ':' ∧ ab = false)) → (i = offs → n ≠ 0) →
    Post U (fun v => offs + 1 ≤ v.i ∧ v.i ≤ s.length ∧ v.beginBlock ≤ s.length ∧ offs ≤ v.beginBlock ∧
      (v.i = offs + 1 → ∀ x, s[offs]? = some x → isXDigit x = true))
      (ipv6Loop s n i bb nb ab) := by
  intro n
  induction n with
  | zero =>
    intro i bb nb ab h1 h2 h3 h4 h5 h6 h7 h8
    rw [ipv6Loop]
    refine Post.ok ⟨?_, h2, by simp; omega, h3, h6⟩
    simp only
    have : i ≠ offs := fun he => absurd rfl (h8 he)
    omega
  | succ n ih =>
    intro i bb nb ab h1 h2 h3 h4 h5 h6 h7 h8
    rw [ipv6Loop]
    dsimp only
    have hx : s[offs]? = some s[offs] := by simp
    have hy : s[offs+1]? = some s[offs+1] := by simp
    refine Post.bind (P := fun j => i ≤ j ∧ j ≤ s.length ∧
        (j = i → j < s.length → ∀ x, s[i]? = some x → isXDigit x = false) ∧ (i < j → isXDigit s[i]! = true)) ?_ fun j hj => ?_
    · unfold skipIPv6AddrBlock
      refine (Post.guard _).bind fun _ hg => Post.pure ?_
      simp at hg
      have hlt : i < s.length := by omega
      have hd : s.drop i = s[i] :: s.drop (i+1) := List.drop_eq_getElem_cons hlt
      have hle : (((s.drop i).take 4).takeWhile isXDigit).length ≤ ((s.drop i).take 4).length :=
        (List.takeWhile_prefix _).length_le
      rw [List.length_take, List.length_drop] at hle
      refine ⟨by omega, by omega, ?_, ?_⟩
      · intro he _ x hxx
        rw [hd] at he
        simp only [List.take_succ_cons, List.takeWhile_cons] at he
        by_cases hxd : isXDigit s[i] = true
        · simp [hxd] at he
        · simp [List.getElem?_eq_getElem hlt] at hxx
          rw [← hxx]; simpa using hxd
      · intro hij
        rw [hd] at hij
        simp only [List.take_succ_cons, List.takeWhile_cons] at hij
        by_cases hxd : isXDigit s[i] = true
        · simp [hlt, hxd]
        · simp [hxd] at hij
    · obtain ⟨hj1, hj2, hj3, hj4⟩ := hj
      -- the position after this block is behind the first character, unless the text begins with "::"
      have key : offs + 1 ≤ j ∨ (j = offs ∧ i = offs ∧ s[offs]? = some (ch! ':') ∧
          s[offs+1]? = some (ch! ':') ∧ ab = false) := by
        by_cases hjo : j = offs
        · right
          have hio : i = offs := by omega
          subst hio
          refine ⟨hjo, rfl, ?_⟩
          have := hj3 hjo (by omega) _ hx
          rcases h7 rfl _ _ hx hy with hh | ⟨e1, e2, e3⟩
          · rw [hh] at this; exact absurd this (by simp)
          · rw [hx, hy, e1, e2]; exact ⟨rfl, rfl, e3⟩
        · left; omega
      have keyx : j = offs + 1 → ∀ x, s[offs]? = some x → isXDigit x = true := by
        intro hjo x hxx
        by_cases hij : i = offs
        · subst hij
          have := hj4 (by omega)
          simp [hxx] at this; exact this
        · exact h6 (by omega) x hxx
      refine Post.ite (fun he => Post.pure ⟨by simp; omega, hj2, by simp; omega, by simpa using h1,
        by simpa using keyx⟩) fun hne => ?_
      refine (Post.rd hj2).bind fun c hc => ?_
      have hjl : j < s.length := by omega
      have hc : s[j]? = some c := by
        rcases hc with ⟨_, hc⟩ | ⟨hc, _⟩
        · exact hc
        · exact absurd hc hne
      have hcol : (j = offs → c = ch! ':') := by
        intro hjo
        rcases key with hk | ⟨_, _, h10, _⟩
        · omega
        · rw [hjo, h10] at hc; exact (Option.some.inj hc).symm
      refine Post.ite (fun hsp => Post.pure ?_) fun _ => ?_
      · refine ⟨?_, hj2, by simp; omega, by simpa using h1, by simpa using keyx⟩
        simp only
        have : j ≠ offs := fun hjo => by rw [hcol hjo] at hsp; simp [isSpace] at hsp
        omega
      refine Post.ite (fun hsp => Post.pure ?_) fun _ => ?_
      · refine ⟨?_, hj2, by simp; omega, by simpa using h1, by simpa using keyx⟩
        simp only
        have : j ≠ offs := fun hjo => by rw [hcol hjo] at hsp; exact absurd hsp (by decide)
        omega
      refine (Post.guard _).bind fun _ hcc => ?_
      have hcc : c = ch! ':' := by simpa using hcc
      have keyj : j + 1 = offs + 1 → s[offs+1]? = some (ch! ':') ∧ ab = false := by
        intro hjo
        rcases key with hk | ⟨_, _, _, h11, h12⟩
        · omega
        · exact ⟨h11, h12⟩
      refine Post.ite (fun he => Post.pure ⟨by simp; omega, by simp; omega, by simp; omega,
        by simpa using h1, ?_⟩) fun hne2 => ?_
      · simp only; omega
      refine (Post.rd (by omega)).bind fun c2 hc2 => ?_
      have hc2 : s[j+1]? = some c2 := by
        rcases hc2 with ⟨_, h⟩ | ⟨h, _⟩
        · exact h
        · exact absurd h hne2
      refine Post.ite (fun hab => ?_) fun hab => ?_
      · refine (Post.guard _).bind fun _ _ => ?_
        refine ih _ _ _ _ (by omega) (by omega) h1 (by omega) h5 ?_ (by omega) (by omega)
        intro hjo; have := (keyj hjo).2; simp [this] at hab
      · refine Post.ite (fun hc2c => ?_) fun hc2c => ?_
        · refine Post.ite (fun he => Post.pure ⟨by simp; omega, by simp; omega, by simp; omega,
            by simpa using h1, by simp; omega⟩) fun hne3 => ?_
          refine ih _ _ _ _ (by omega) (by omega) h1 (by omega) h5 (by omega) (by omega) (by omega)
        · refine ih _ _ _ _ (by omega) (by omega) h1 (by omega) h5 ?_ (by omega) (by omega)
          intro hjo
          have hh := (keyj hjo).1
          rw [show offs + 1 = j + 1 by omega, hc2] at hh
          exact absurd (Option.some.inj hh) hc2c

theorem parseIPv6_within (h : offs ≤ s.length) (want : Bool) :
    Post U (Within s offs) (parseIPv6 s offs want) := by
  unfold parseIPv6
  refine (Post.guard _).bind fun _ hg => ?_
  have hg : offs + 2 ≤ s.length := by simpa using hg
  refine (Post.rd h).bind fun c0 hc0 => (Post.rd (by omega)).bind fun c1 hc1 => ?_
  have hc0 : s[offs]? = some c0 := by
    rcases hc0 with ⟨_, h⟩ | ⟨h, _⟩
    · exact h
    · omega
  have hc1 : s[offs+1]? = some c1 := by
    rcases hc1 with ⟨_, h⟩ | ⟨h, _⟩
    · exact h
    · omega
  refine (Post.guard _).bind fun _ hstart => ?_
  refine (ipv6Loop_post offs 9 offs offs 0 false (by omega) (by omega) (by omega) (by omega) hg
    (by omega) ?_ (by omega)).bind fun v hv => ?_
  · intro _ x y hx hy
    rw [hc0] at hx; rw [hc1] at hy
    cases hx; cases hy
    simpa using hstart
  obtain ⟨v1, v2, v3, v4, v5⟩ := hv
  refine Post.bind (P := fun v => offs + 1 ≤ v.i ∧ v.i ≤ s.length ∧
      (v.i = offs + 1 → ∀ x, s[offs]? = some x → isXDigit x = true)) ?_ fun w hw => ?_
  · unfold ipv6V4
    refine Post.ite (fun _ => ?_) fun _ => Post.pure ⟨v1, v2, v5⟩
    refine (Post.guard _).bind fun _ hb => ?_
    have hb : v.beginBlock ≠ offs := by simpa using hb
    have hi := contained_iff.1 (contained_of_implements (U := U) (C34_ipv4 v3 false) v3 (fun n hn => by
      obtain ⟨a, b, c, d, rest, ht, -, -, -, -, -, rfl⟩ := hn
      rw [ht]; simp; omega))
    refine Post.bind (P := fun r => v.beginBlock + r.1 ≤ s.length ∧ 1 ≤ r.1) ?_ fun r hr => Post.pure ?_
    · refine ⟨fun a ha => ⟨hi.1 a ha, ?_⟩, hi.2⟩
      rcases (C34_ipv4 v3 false).cases with ⟨n, hn, he⟩ | he
      · rw [he] at ha
        cases ha
        obtain ⟨a, b, c, d, rest, ht, -, -, -, -, -, rfl⟩ := hn
        simp only; omega
      · rw [he] at ha; simp at ha
    · obtain ⟨n, vv⟩ := r
      simp only at hr
      exact ⟨by simp only; omega, by simp only; omega, by simp only; omega⟩
  · obtain ⟨w1, w2, w3⟩ := hw
    refine (Post.guard _).bind fun _ _ => (Post.guard _).bind fun _ _ => ?_
    refine Post.ite (fun he => by omega) fun _ => ?_
    refine (Post.rd (by omega)).bind fun a ha => ?_
    refine Post.ite (fun hac => ?_) fun _ => Post.pure (within_strRes (by omega))
    refine Post.ite (fun hlt => ?_) fun _ => ?_
    · exfalso
      have ho : offs = 0 := by omega
      have hw : w.i = offs + 1 := by omega
      have := w3 hw _ hc0
      rw [hw] at ha
      rcases ha with ⟨_, h⟩ | ⟨h, _⟩
      · rw [show offs + 1 - 1 = offs by omega, hc0] at h
        cases h
        rw [hac] at this
        exact absurd this (by decide)
      · omega
    · refine (Post.rd (by omega)).bind fun b _ => (Post.guard _).bind fun _ _ =>
        Post.pure (within_strRes (by omega))

end LN
