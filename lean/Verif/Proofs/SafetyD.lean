import Verif.Proofs.SafetyC
import Verif.Proofs.Cur
/- Containment of CEF and string. -/
set_option autoImplicit false
namespace LN
variable {s : Bytes} {offs : Nat} {U : Prop}

/-! ### CEF -/

theorem cefValLoop_post (t : Bytes) : ∀ i lw hadSP inEsc,
    Post U (fun r => i ≤ r.1 ∧ r.1 ≤ i + t.length ∧
      (r.2 = lw ∨ (i ≤ r.2 ∧ r.2 ≤ r.1 ∧ (hadSP = false → i + 1 ≤ r.2)))) (cefValLoop t i lw hadSP inEsc) := by
  induction t with
  | nil => intro i lw sp esc; exact Post.ok ⟨by simp, by simp, .inl rfl⟩
  | cons c cs ih =>
    intro i lw sp esc
    rw [cefValLoop]
    simp only [List.length_cons]
    refine Post.ite (fun _ => Post.ite (fun _ => Post.fail) fun _ => ?_) fun _ => ?_
    · exact (ih (i + 1) lw sp false).mono fun r hr => by
        obtain ⟨h1, h2, h3⟩ := hr
        refine ⟨by omega, by omega, ?_⟩
        rcases h3 with h3 | ⟨h4, h5, h6⟩
        · exact .inl h3
        · exact .inr ⟨by omega, h5, fun _ => by omega⟩
    refine Post.ite (fun _ => Post.ok ⟨by simp, by simp, .inl rfl⟩) fun _ => ?_
    refine Post.ite (fun _ => ?_) fun _ => ?_
    · exact (ih (i + 1) lw sp true).mono fun r hr => by
        obtain ⟨h1, h2, h3⟩ := hr
        refine ⟨by omega, by omega, ?_⟩
        rcases h3 with h3 | ⟨h4, h5, h6⟩
        · exact .inl h3
        · exact .inr ⟨by omega, h5, fun _ => by omega⟩
    refine Post.ite (fun _ => ?_) fun _ => ?_
    · exact (ih (i + 1) lw true false).mono fun r hr => by
        obtain ⟨h1, h2, h3⟩ := hr
        refine ⟨by omega, by omega, ?_⟩
        rcases h3 with h3 | ⟨h4, h5, h6⟩
        · exact .inl h3
        · exact .inr ⟨by omega, h5, fun _ => by omega⟩
    refine Post.ite (fun hsp => ?_) fun _ => ?_
    · exact (ih (i + 1) i false false).mono fun r hr => by
        obtain ⟨h1, h2, h3⟩ := hr
        refine ⟨by omega, by omega, ?_⟩
        rcases h3 with h3 | ⟨h4, h5, h6⟩
        · exact .inr ⟨by omega, by omega, fun hf => by simp [hf] at hsp⟩
        · exact .inr ⟨by omega, h5, fun _ => by omega⟩
    · exact (ih (i + 1) lw sp false).mono fun r hr => by
        obtain ⟨h1, h2, h3⟩ := hr
        refine ⟨by omega, by omega, ?_⟩
        rcases h3 with h3 | ⟨h4, h5, h6⟩
        · exact .inl h3
        · exact .inr ⟨by omega, h5, fun _ => by omega⟩

theorem cefExtValue_post (i : Nat) (h : i ≤ s.length) :
    Post U (fun j => i ≤ j ∧ j ≤ s.length) (cefExtValue s i) := by
  unfold cefExtValue
  refine (cefValLoop_post _ _ _ _ _).bind fun r hr => ?_
  obtain ⟨j, lw⟩ := r
  obtain ⟨h1, h2, h3⟩ := hr
  rw [List.length_drop] at h2
  dsimp only at *
  refine Post.ite (fun hj => Post.pure ?_) fun _ => Post.pure ⟨h1, by omega⟩
  rcases h3 with h3 | ⟨h4, h5, h6⟩
  · rw [if_pos h3]; omega
  · have := h6 rfl
    rw [if_neg (by omega)]; omega

theorem cefUnescape_plain {c : UInt8} (hc : c ≠ ch! '\\') (cs : Bytes) (n : Nat) :
    cefUnescape (c :: cs) (n + 1) = (cefUnescape cs n).bind fun r => .ok (c :: r) := by
  cases cs <;> rw [cefUnescape, if_neg hc]

theorem cefUnescape_noof (t : Bytes) : ∀ n, cefUnescape t n ≠ .oof := by
  have key : ∀ k (t : Bytes), t.length ≤ k → ∀ n, cefUnescape t n ≠ .oof := by
    intro k
    induction k with
    | zero =>
      intro t ht n
      have : t = [] := List.eq_nil_of_length_eq_zero (by omega)
      subst this
      cases n <;> simp [cefUnescape]
    | succ k ih =>
      intro t ht n
      cases n with
      | zero => unfold cefUnescape; simp
      | succ n =>
        cases t with
        | nil => simp [cefUnescape]
        | cons c cs =>
          simp only [List.length_cons] at ht
          by_cases hc : c = ch! '\\'
          · cases cs with
            | nil => simp [cefUnescape, hc]
            | cons e cs' =>
              simp only [List.length_cons] at ht
              rw [cefUnescape, if_pos hc]
              dsimp only
              have := ih cs' (by omega) (n - 1)
              have hx : ∀ b : UInt8, ((cefUnescape cs' (n - 1)).bind fun r => R.ok (b :: r)) ≠ .oof := by
                intro b
                cases hh : cefUnescape cs' (n - 1) <;> simp_all
              repeat' split
              all_goals first | exact hx _ | simp
          · rw [cefUnescape_plain hc]
            · have := ih cs (by omega) n
              cases hh : cefUnescape cs n <;> simp_all
  exact key t.length t (Nat.le_refl _)

/-- a value the scan accepted can be unescaped, unless the message ends in a backslash -/
theorem cefUnescape_ok : ∀ (k : Nat) (t : Bytes), t.length ≤ k → t.getLast? ≠ some (ch! '\\') →
    ∀ i lw sp j lw', cefValLoop t i lw sp false = .ok (j, lw') → ∀ n, n ≤ j - i →
    ∃ v, cefUnescape t n = .ok v := by
  intro k
  induction k with
  | zero =>
    intro t ht _ i lw sp j lw' h n hn
    have : t = [] := List.eq_nil_of_length_eq_zero (by omega)
    subst this
    simp [cefValLoop] at h
    have : n = 0 := by omega
    subst this
    exact ⟨[], by simp [cefUnescape]⟩
  | succ k ih =>
    intro t ht hlast i lw sp j lw' h n hn
    cases n with
    | zero => exact ⟨[], by unfold cefUnescape; simp⟩
    | succ n =>
      cases t with
      | nil => simp [cefValLoop] at h; omega
      | cons c cs =>
        simp only [List.length_cons] at ht
        have hl' : cs.getLast? ≠ some (ch! '\\') := by
          intro hh
          apply hlast
          cases cs with
          | nil => simp at hh
          | cons x xs => simpa using hh
        rw [cefValLoop] at h
        simp only [Bool.false_eq_true, if_false] at h
        by_cases hceq : c = ch! '='
        · rw [if_pos hceq] at h; cases h; omega
        rw [if_neg hceq] at h
        by_cases hc : c = ch! '\\'
        · rw [if_pos hc] at h
          cases cs with
          | nil => exact absurd (by rw [hc]; rfl) hlast
          | cons e cs' =>
            simp only [List.length_cons] at ht
            rw [cefValLoop] at h
            simp only [if_true] at h
            split at h
            · simp at h
            rename_i hesc
            have hl2 : cs'.getLast? ≠ some (ch! '\\') := by
              intro hh
              apply hl'
              cases cs' with
              | nil => simp at hh
              | cons x xs => simpa using hh
            obtain ⟨v, hv⟩ := ih cs' (by omega) hl2 _ _ _ _ _ h (n - 1) (by omega)
            rw [cefUnescape, if_pos hc]
            dsimp only
            rw [hv]
            by_cases h1 : e = ch! '='
            · exact ⟨_, by rw [if_pos h1]; rfl⟩
            by_cases h2 : e = ch! 'n'
            · exact ⟨_, by rw [if_neg h1, if_pos h2]; rfl⟩
            by_cases h3 : e = ch! 'r'
            · exact ⟨_, by rw [if_neg h1, if_neg h2, if_pos h3]; rfl⟩
            by_cases h4 : e = ch! '\\'
            · exact ⟨_, by rw [if_neg h1, if_neg h2, if_neg h3, if_pos h4]; rfl⟩
            by_cases h5 : e = ch! '/'
            · exact ⟨_, by rw [if_neg h1, if_neg h2, if_neg h3, if_neg h4, if_pos h5]; rfl⟩
            · exact absurd (by simp [h1, h2, h3, h4, h5]) hesc
        · rw [if_neg hc] at h
          have : ∃ lw2 sp2, cefValLoop cs (i + 1) lw2 sp2 false = .ok (j, lw') := by
            split at h
            · exact ⟨_, _, h⟩
            · split at h
              · exact ⟨_, _, h⟩
              · exact ⟨_, _, h⟩
          obtain ⟨lw2, sp2, h'⟩ := this
          obtain ⟨v, hv⟩ := ih cs (by omega) hl' _ _ _ _ _ h' n (by omega)
          rw [cefUnescape_plain hc, hv]
          exact ⟨_, rfl⟩

theorem getLast?_drop {l : Bytes} {i : Nat} {x : UInt8} (h : (l.drop i).getLast? = some x) :
    l.getLast? = some x := by
  rw [List.getLast?_drop] at h
  split at h
  · simp at h
  · exact h

theorem cefName_post (i : Nat) (h : i ≤ s.length) :
    Post U (fun j => i ≤ j ∧ j ≤ s.length) (cefName s i) := by
  unfold cefName
  exact (Post.guard _).bind fun _ _ => Post.pure ⟨scan_ge, scan_le h⟩

theorem cefExts_post (want : Bool) (hl : U → s.getLast? ≠ some (ch! '\\')) : ∀ fuel i o,
    s.length - i < fuel → Post U (fun _ => True) (cefExts s want fuel i o) := by
  intro fuel
  induction fuel with
  | zero => intro i o h; omega
  | succ fuel ih =>
    intro i o hf
    rw [cefExts]
    refine Post.ite (fun hi => ?_) fun _ => Post.ok trivial
    dsimp only
    have h1 := scan_le (p := (· == ch! ' ')) (show i ≤ s.length by omega)
    have h2 := @scan_ge (· == ch! ' ') s i
    generalize scan (· == ch! ' ') s i = a at *
    refine (cefName_post a h1).bind fun b hb => ?_
    refine (Post.guardChar hb.2 (by decide)).bind fun _ hlt => ?_
    refine Post.bind (P := fun j => b + 1 ≤ j ∧ j ≤ s.length ∧
        (U → ∃ v, cefUnescape (s.drop (b + 1)) (j - (b + 1)) = .ok v)) ?_ fun j hj => ?_
    · refine ⟨fun j hj => ?_, (cefExtValue_post (b + 1) (by omega)).2⟩
      have hb := (cefExtValue_post (U := U) (b + 1) (by omega)).1 j hj
      refine ⟨hb.1, hb.2, fun u => ?_⟩
      unfold cefExtValue at hj
      rw [R.bind_eq_ok] at hj
      obtain ⟨⟨j', lw'⟩, hloop, hres⟩ := hj
      refine cefUnescape_ok _ _ (Nat.le_refl _) (fun hh => hl u (getLast?_drop hh)) _ _ _ _ _ hloop _ ?_
      have hp := (cefValLoop_post (U := U) _ _ _ _ _).1 _ hloop
      dsimp only at hres hp
      split at hres
      · cases hres
        split
        · omega
        · have : lw' ≤ j' := by
            rcases hp.2.2 with h | h
            · omega
            · omega
          omega
      · cases hres; omega
    · obtain ⟨j1, j2, j3⟩ := hj
      have hu : Post U (fun _ => True) (cefUnescape (s.drop (b + 1)) (j - (b + 1))) :=
        ⟨fun _ _ => trivial, cefUnescape_noof _ _, fun u k hk => by
          obtain ⟨v, hv⟩ := j3 u; rw [hv] at hk; simp at hk⟩
      refine Post.ite (fun _ => ?_) fun _ => ?_
      · refine hu.bind fun v _ => ?_
        exact ih _ _ (by omega)
      · exact ih _ _ (by omega)

theorem cefHdrScan_post (t : Bytes) : Post U (fun n => n < t.length) (cefHdrScan t) := by
  have key : ∀ k (t : Bytes), t.length ≤ k → Post U (fun n => n < t.length) (cefHdrScan t) := by
    intro k
    induction k with
    | zero =>
      intro t ht
      have : t = [] := List.eq_nil_of_length_eq_zero (by omega)
      subst this
      unfold cefHdrScan; exact Post.fail
    | succ k ih =>
      intro t ht
      cases t with
      | nil => unfold cefHdrScan; exact Post.fail
      | cons c cs =>
        simp only [List.length_cons] at ht ⊢
        by_cases h1 : c = ch! '|'
        · have : cefHdrScan (c :: cs) = .ok 0 := by rw [cefHdrScan.eq_def]; simp [h1]
          rw [this]; exact Post.ok (by omega)
        by_cases h2 : c = ch! '\\'
        · cases cs with
          | nil =>
            have : cefHdrScan [c] = .fail := by rw [cefHdrScan.eq_def]; simp [h2]
            rw [this]; exact Post.fail
          | cons e cs' =>
            simp only [List.length_cons] at ht ⊢
            have : cefHdrScan (c :: e :: cs') = if e ≠ ch! '\\' && e ≠ ch! '|' then .fail
              else (cefHdrScan cs').bind fun n => .ok (n + 2) := by
              rw [cefHdrScan.eq_def]; simp [h2]
            rw [this]
            refine Post.ite (fun _ => Post.fail) fun _ => ?_
            exact (ih cs' (by omega)).bind' fun n hn => Post.ok (by omega)
        · have : cefHdrScan (c :: cs) = (cefHdrScan cs).bind fun n => .ok (n + 1) := by
            rw [cefHdrScan.eq_def]; simp [h1, h2]
          rw [this]
          exact (ih cs (by omega)).bind' fun n hn => Post.ok (by omega)
  exact key t.length t (Nat.le_refl _)

theorem cefHdr_post (i : Nat) (h : i ≤ s.length) :
    Post U (fun r => i < r.1 ∧ r.1 ≤ s.length) (cefHdr s i) := by
  unfold cefHdr
  refine (cefHdrScan_post _).bind fun n hn => Post.pure ?_
  rw [List.length_drop] at hn
  simp only
  omega

theorem parseCEF_within (hl : U → s.getLast? ≠ some (ch! '\\')) (h : offs ≤ s.length) (want : Bool) :
    Post U (Within s offs) (parseCEF s offs want) := by
  unfold parseCEF
  refine (Post.guard _).bind fun _ hg => ?_
  have hg : offs + 17 ≤ s.length := by simpa using hg
  refine (Post.guardChar (by omega) (by decide)).bind fun _ _ => ?_
  refine (Post.guardChar (by omega) (by decide)).bind fun _ _ => ?_
  refine (Post.guardChar (by omega) (by decide)).bind fun _ _ => ?_
  refine (Post.guardChar (by omega) (by decide)).bind fun _ _ => ?_
  refine (Post.guardChar (by omega) (by decide)).bind fun _ _ => ?_
  refine (Post.guardChar (by omega) (by decide)).bind fun _ _ => ?_
  refine (cefHdr_post _ (by omega)).bind fun r1 h1 => ?_
  refine (cefHdr_post _ h1.2).bind fun r2 h2 => ?_
  refine (cefHdr_post _ h2.2).bind fun r3 h3 => ?_
  refine (cefHdr_post _ h3.2).bind fun r4 h4 => ?_
  refine (cefHdr_post _ h4.2).bind fun r5 h5 => ?_
  refine (cefHdr_post _ h5.2).bind fun r6 h6 => ?_
  dsimp only
  refine (cefExts_post false hl _ _ _ (by omega)).bind fun _ _ => ?_
  refine Post.ite (fun _ => ?_) fun _ => Post.pure (by simp only [Within]; omega)
  exact (cefExts_post true hl _ _ _ (by omega)).bind fun _ _ =>
    Post.pure (by simp only [Within]; omega)

/-! ### string -/

theorem strPermitted_post (d : DataString) (c : UInt8) (h : U → c < 128) :
    Post U (fun _ => True) (strPermitted d c) := by
  unfold strPermitted
  exact Post.ite (fun _ => Post.ok trivial) fun hc => Post.ub fun u => hc (h u)

theorem strLoop_post (d : DataString) (quotes : Bool) : ∀ fuel t he, t.length < fuel →
    (U → ∀ c ∈ t, c < 128) →
    Post U (fun r => r.1 ≤ t.length ∧ (r.2.1 = true → r.1 < t.length)) (strLoop d quotes fuel t he) := by
  intro fuel
  induction fuel with
  | zero => intro t he h; omega
  | succ fuel ih =>
    intro t he hlen hb
    cases t with
    | nil => unfold strLoop; exact Post.ok ⟨by simp, by simp⟩
    | cons c cs =>
      rw [strLoop]
      simp only [List.length_cons] at hlen ⊢
      refine Post.ite (fun _ => Post.ok ⟨by simp, by simp⟩) fun hq => ?_
      generalize hdbl : (quotes && decide (c = d.qe)) = dbl
      have hcs : dbl = true → ∃ x xs, cs = x :: xs := by
        intro hd
        rw [← hdbl] at hd
        simp only [hd, Bool.true_and, Bool.not_eq_true', Bool.not_eq_false, Bool.and_eq_true,
          decide_eq_true_eq] at hq
        cases cs with
        | nil => simp at hq
        | cons x xs => exact ⟨x, xs, rfl⟩
      -- after the first skip
      have h1 : (if dbl = true then 1 else 0) + (if dbl = true then cs.drop 1 else cs).length = cs.length ∧
          (U → (if dbl = true then cs.headD 0 else c) < 128) ∧
          (U → ∀ x ∈ (if dbl = true then cs.drop 1 else cs), x < 128) := by
        split
        · rename_i hd
          obtain ⟨x, xs, rfl⟩ := hcs hd
          refine ⟨by simp; omega, fun u => by simpa using hb u x (by simp), fun u y hy => hb u y ?_⟩
          simp at hy; simp [hy]
        · exact ⟨by simp, fun u => hb u c (by simp), fun u y hy => hb u y (by simp [hy])⟩
      generalize (if dbl = true then 1 else 0) = k1 at *
      generalize (if dbl = true then cs.drop 1 else cs) = cs1 at *
      generalize (if dbl = true then cs.headD 0 else c) = c1 at *
      generalize (he || dbl) = he1
      generalize hbs : (decide (c1 = ch! '\\') && !cs1.isEmpty && d.bsl) = bs
      have hcs1 : bs = true → ∃ x xs, cs1 = x :: xs := by
        intro hd
        rw [← hbs] at hd
        cases cs1 with
        | nil => simp at hd
        | cons x xs => exact ⟨x, xs, rfl⟩
      have h2 : (if bs = true then k1 + 1 else k1) + (if bs = true then cs1.drop 1 else cs1).length = cs.length ∧
          (U → (if bs = true then cs1.headD 0 else c1) < 128) ∧
          (U → ∀ x ∈ (if bs = true then cs1.drop 1 else cs1), x < 128) := by
        obtain ⟨a1, a2, a3⟩ := h1
        split
        · rename_i hd
          obtain ⟨x, xs, rfl⟩ := hcs1 hd
          refine ⟨by simp at a1 ⊢; omega, fun u => by simpa using a3 u x (by simp), fun u y hy => a3 u y ?_⟩
          simp at hy; simp [hy]
        · exact ⟨a1, a2, a3⟩
      generalize (if bs = true then k1 + 1 else k1) = k2 at *
      generalize (if bs = true then cs1.drop 1 else cs1) = cs2 at *
      generalize (if bs = true then cs1.headD 0 else c1) = c2 at *
      generalize (he1 || bs) = he2
      obtain ⟨b1, b2, b3⟩ := h2
      refine Post.ite (fun _ => Post.ok ⟨by simp only; omega, by simp⟩) fun _ => ?_
      refine (strPermitted_post d c2 b2).bind' fun p _ => ?_
      refine Post.ite (fun _ => Post.ok ⟨by simp only; omega, by simp⟩) fun _ => ?_
      refine (ih cs2 he2 (by omega) b3).bind' fun r hr => ?_
      obtain ⟨n, q, he3⟩ := r
      dsimp only at hr ⊢
      exact Post.ok ⟨by simp only; omega, fun hq => by have := hr.2 hq; simp only; omega⟩

theorem parseString_within (d : DataString) (hz : U → ∀ c ∈ s, c ≠ 0 ∧ c < 128)
    (h : offs ≤ s.length) (want : Bool) :
    Post U (Within s offs) (parseString s offs d want) := by
  unfold parseString
  refine (Post.guard _).bind fun _ hne => ?_
  have hne : offs ≠ s.length := by simpa using hne
  refine (Post.rd h).bind fun c _ => ?_
  dsimp only
  generalize ((decide (d.quoteMode = .auto) || decide (d.quoteMode = .reqd)) && decide (c = d.qb)) = quotes
  refine (Post.guard _).bind fun _ _ => ?_
  have hi0 : (if quotes = true then offs + 1 else offs) ≤ s.length ∧
      offs ≤ (if quotes = true then offs + 1 else offs) := by split <;> omega
  generalize (if quotes = true then offs + 1 else offs) = i0 at *
  refine (strLoop_post d quotes _ (s.drop i0) false (by rw [List.length_drop]; omega)
    fun u x hx => (hz u x (List.mem_of_mem_drop hx)).2).bind fun r hr => ?_
  obtain ⟨n, hadEnd, hadEsc⟩ := r
  rw [List.length_drop] at hr
  dsimp only at hr ⊢
  refine (Post.guard _).bind fun _ hg => ?_
  refine (Post.guard _).bind fun _ hg2 => ?_
  have hg2 : i0 + n ≠ offs := by simpa using hg2
  have hend : quotes = true → hadEnd = true := by
    intro hq; simp [hq] at hg; exact hg
  have htrm : (if quotes = true then i0 + n + 1 else i0 + n) ≤ s.length := by
    split
    · rename_i hq; have := hr.2 (hend hq); omega
    · omega
  have hparsed : offs + (if hadEnd = true then i0 + n - offs + 1 else i0 + n - offs) ≤ s.length := by
    split
    · rename_i hq; have := hr.2 hq; omega
    · omega
  generalize (if hadEnd = true then i0 + n - offs + 1 else i0 + n - offs) = parsed at *
  generalize (if quotes = true then i0 + n + 1 else i0 + n) = trm at *
  have hval : ∀ (raw : Bytes), (U → ∀ c ∈ raw, c ≠ 0) → Post U (fun _ => True) (strValue d raw hadEsc) := by
    intro raw hraw
    unfold strValue
    refine Post.ite (fun _ => Post.ite (fun hub => ?_) fun _ => Post.ok trivial) fun _ => Post.ok trivial
    refine Post.ub fun u => ?_
    rw [cstr_noNul (hraw u)] at hub
    simp at hub
  have hraw : ∀ a b, (U → ∀ c ∈ slice s a b, c ≠ 0) := fun a b u c hc =>
    (hz u c (List.mem_of_mem_drop (List.mem_of_mem_take hc))).1
  have hterm : ∀ k, Post U (fun _ => True) (strTerm d s k trm) := by
    intro k
    unfold strTerm
    refine Post.ite (fun _ => ?_) fun _ => Post.ok trivial
    exact (Post.rd htrm).bind fun t _ => (Post.guard _).mono fun _ _ => trivial
  refine (hterm _).bind fun _ _ => ?_
  refine Post.ite (fun _ => (hval _ (hraw _ _)).bind fun _ _ => Post.pure hparsed) fun _ => Post.pure hparsed

/-! ### cee-syslog -/

/-- something else than a cee-syslog message -/
theorem parseCEE_other (env : Env) (want : Bool) (hp : ¬ bs! "@cee:" <+: s.drop offs) : parseCEESyslog env s offs want = .fail := by
  unfold parseCEESyslog
  by_cases h7 : offs + 7 ≤ s.length
  · obtain ⟨a, b, c, d, e, r, hd⟩ : ∃ a b c d e r, s.drop offs = a :: b :: c :: d :: e :: r := by
      have : 5 ≤ (s.drop offs).length := by rw [List.length_drop]; omega
      match hk : s.drop offs, this with
      | a :: b :: c :: d :: e :: r, _ => exact ⟨a, b, c, d, e, r, rfl⟩
    have d1 := drop_of_cons hd
    have d2 := drop_of_cons d1
    have d3 := drop_of_cons d2
    have d4 := drop_of_cons d3
    rw [decide_eq_true h7]
    simp only [R.guard_true, R.ok_bind, guardChar, rd_of_cons hd, rd_of_cons d1, rd_of_cons d2, rd_of_cons d3, rd_of_cons d4]
    rw [hd] at hp
    by_cases ha : a = ch! '@' <;> by_cases hb : b = ch! 'c' <;> by_cases hc : c = ch! 'e' <;> by_cases hd' : d = ch! 'e' <;> by_cases he : e = ch! ':' <;>
      first
      | (subst ha hb hc hd' he; exact absurd ⟨r, rfl⟩ hp)
      | simp [ha, hb, hc, hd', he, R.guard]
  · rw [decide_eq_false h7]; rfl

theorem parseCEE_within (env : Env) (want : Bool) (h : CeeFirst s) : Post U (Within s offs) (parseCEESyslog env s offs want) := by
  by_cases hp : bs! "@cee:" <+: s.drop offs
  · have := h offs hp
    subst this
    refine (parseCEESyslog_post env want).mono fun r hr => ?_
    simp only [Within]
    omega
  · rw [parseCEE_other env want hp]; exact Post.fail

/-! ### all parsers -/

theorem runParser_within (env : Env) (he : env.TokOK) (k : PKind) (want : Bool)
    (h : offs ≤ s.length) (hk : k = .cee → CeeFirst s) :
    Post (Tame s ∧ Parser.Configured k want) (Within s offs) (runParser env s offs k want) := by
  have weaken : ∀ {x : PR}, Post (Tame s) (Within s offs) x →
      Post (Tame s ∧ Parser.Configured k want) (Within s offs) x :=
    fun hx => ⟨hx.1, hx.2.1, fun u => hx.2.2 u.1⟩
  have nd : ∀ {α : Type} (d : Option α) (f : α → PR),
      (Parser.Configured k want → d.isSome = true) →
      (∀ a, Post (Tame s ∧ Parser.Configured k want) (Within s offs) (f a)) →
      Post (Tame s ∧ Parser.Configured k want) (Within s offs) (needData d f) := by
    intro α d f hd hf
    cases d with
    | none => exact Post.ub fun u => by simpa using hd u.2
    | some a => exact hf a
  obtain ⟨w1, w2, w3, w4, w5, w6, w7, w8, w9, w10, w11, w12⟩ :=
    simple_within (U := Tame s ∧ Parser.Configured k want) h want
  cases k with
  | literal d => exact nd d _ id fun l => parseLiteral_within h l want fun u c hc => (u.1.ascii c hc).1
  | repeat_ d => exact Post.fail
  | dateRfc3164 f => exact weaken (parseRFC3164Date_within env h f want)
  | dateRfc5424 f => exact weaken (parseRFC5424Date_within h f want)
  | number d => exact weaken (parseNumber_within h _ want)
  | float f => exact parseFloat_within h f want
  | hexnumber d => exact parseHexNumber_within h d want
  | kernelTs => exact w1
  | whitespace => exact w2
  | ipv4 => exact w3
  | ipv6 => exact parseIPv6_within h want
  | word => exact w4
  | alpha => exact w5
  | rest => exact w6
  | opQuoted => exact parseOpQuoted_within h want fun u => u.2
  | quoted => exact w7
  | dateIso => exact w8
  | time24 => exact w9
  | time12 => exact w10
  | duration => exact w11
  | cisco => exact weaken (parseCisco_within h want)
  | json => exact parseJSON_within env he h want
  | cee => exact parseCEE_within env want (hk rfl)
  | mac48 => exact w12
  | cef => exact parseCEF_within (fun u => u.1.noTrail) h want
  | iptables => exact parseIPTables_within h want
  | nameValue d => exact nd d _ id fun d => parseNameValue_within d h want
  | lea t => exact parseLEA_within t h want
  | stringTo d => exact nd d _ id fun f => parseStringTo_within h f want
  | charTo d => exact nd d _ id fun f => parseCharTo_within h f want
  | charSep d => exact nd d _ id fun f => parseCharSep_within h f want
  | string d => exact nd d _ id fun d => parseString_within d (fun u => u.1.ascii) h want
  | custom i => exact Post.fail

end LN
