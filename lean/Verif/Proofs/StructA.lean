import Verif.Proofs.Cur
import Verif.Spec.Struct
/-
v2-iptables and checkpoint-lea against their specifications.
-/
set_option autoImplicit false
namespace LN
open Spec

/-! ### iptables -/

theorem iptNV_fwd {s : Bytes} {i : Nat} {f : IptField} {tl : Bytes} (hf : f.Valid)
    (h : s.drop i = f.text ++ tl) (htl : tl = [] ∨ tl.head? = some (ch! ' ')) :
    iptablesNV s i = .ok (i + f.text.length, f.member.1, f.member.2) := by
  obtain ⟨hne, hup, hv⟩ := hf
  unfold IptField.text at h ⊢
  rw [List.append_assoc] at h
  have hhead : HeadNot isUpper ((match f.val with | none => [] | some v => ch! '=' :: v) ++ tl) := by
    cases f.val with
    | some v => exact headNot_cons.2 (by decide)
    | none =>
      rcases htl with rfl | htl
      · exact HeadNot.nil
      · intro c hc; simp only [List.nil_append] at hc; rw [htl] at hc
        simp at hc; subst hc; decide
  have hs := scan_of_append h hup hhead
  have hd := drop_of_append h
  unfold iptablesNV
  rw [hs]
  have h1 : i + f.name.length ≠ i := by
    have : f.name.length ≠ 0 := by simpa using hne
    omega
  have h2 : i + f.name.length - i = f.name.length := by omega
  have hsl := slice_of_append h
  simp only [atP_head, hd, h2, hsl]
  unfold IptField.member
  cases hval : f.val with
  | none =>
    rw [hval] at *
    rcases htl with rfl | htl
    · simp [hne, R.guard]
    · simp [hne, R.guard, htl]
  | some v =>
    rw [hval] at h hd
    simp only [List.cons_append] at hd
    have hd2 := drop_of_cons hd
    have hb : HeadNot (fun c => !isSpace c) tl := by
      intro c hc
      rcases htl with rfl | htl
      · cases hc
      · rw [htl] at hc; simp at hc; subst hc; decide
    have hs2 := scan_of_append (p := fun c => !isSpace c) hd2 (by intro c hc; simp [hv v hval c hc]) hb
    have hsl2 := slice_of_append hd2
    have h3 : i + f.name.length + 1 + v.length - (i + f.name.length + 1) = v.length := by omega
    simp [hne, R.guard, hs2, hsl2, h3]
    omega

theorem iptNV_bwd {s : Bytes} {i j : Nat} {n : Bytes} {v : Json} (hi : i ≤ s.length)
    (h : iptablesNV s i = .ok (j, n, v)) :
    ∃ f tl, IptField.Valid f ∧ s.drop i = f.text ++ tl ∧ j = i + f.text.length ∧
      (f.val ≠ none → HeadNot (fun c => !isSpace c) tl) ∧ (f.val = none → HeadNot (fun c => c != ch! ' ') tl) := by
  obtain ⟨a, b, hab, ha, hb, hs⟩ := scan_split isUpper s i
  unfold iptablesNV at h
  rw [hs] at h
  simp only [atP_head, drop_of_append hab, R.bind_def] at h
  rw [← R.bind_def, R.bind_eq_ok] at h
  obtain ⟨_, hg, h⟩ := h
  rw [R.guard_eq_ok] at hg
  simp only [Bool.and_eq_true, decide_eq_true_eq] at hg
  obtain ⟨hne, hg⟩ := hg
  have hane : a ≠ [] := by intro h0; subst h0; exact hne rfl
  cases b with
  | nil =>
    simp at h
    obtain ⟨h, -, -⟩ := h; subst h
    exact ⟨⟨a, none⟩, [], ⟨hane, ha, by simp⟩, by simpa [IptField.text] using hab,
      by simp [IptField.text], by simp, fun _ => HeadNot.nil⟩
  | cons c b =>
    by_cases hc : c = ch! ' '
    · subst hc
      simp at h
      obtain ⟨h, -, -⟩ := h; subst h
      exact ⟨⟨a, none⟩, ch! ' ' :: b, ⟨hane, ha, by simp⟩, by simpa [IptField.text] using hab,
        by simp [IptField.text], by simp, fun _ => headNot_cons.2 (by decide)⟩
    · have hc2 : c = ch! '=' := by simpa [hc] using hg
      subst hc2
      have hd2 := drop_of_cons (drop_of_append hab)
      obtain ⟨v', tl, hvt, hv', htl, hs2⟩ := scan_split (fun c => !isSpace c) s (i + a.length + 1)
      rw [hd2] at hvt
      simp [hs2] at h
      obtain ⟨h, -, -⟩ := h; subst h
      subst hvt
      refine ⟨⟨a, some v'⟩, tl, ⟨hane, ha, ?_⟩, by simpa [IptField.text] using hab,
        by simp [IptField.text]; omega, fun _ => htl, by simp⟩
      intro w hw c hc; simp at hw; subst hw; simpa using hv' c hc

theorem text_pos {f : IptField} (h : f.Valid) : 0 < f.text.length := by
  have : 0 < f.name.length := List.length_pos_iff.2 h.1
  simp [IptField.text]; omega

theorem head_text {f : IptField} (h : f.Valid) (t : Bytes) : HeadNot (fun c => isSpace c) (f.text ++ t) := by
  obtain ⟨hne, hup, -⟩ := h
  unfold IptField.text
  cases hn : f.name with
  | nil => exact absurd hn hne
  | cons c cs =>
    rw [List.cons_append, List.cons_append, headNot_cons]
    have := hup c (by rw [hn]; simp)
    simp [isUpper, isSpace, UInt8.le_iff_toNat_le] at this ⊢
    refine ⟨?_, ?_⟩
    · intro h0; subst h0; simp at this
    · intro _; omega

theorem headNot_mono {p q : UInt8 → Bool} {t : Bytes} (h : HeadNot p t) (hpq : ∀ c, q c = true → p c = true) :
    HeadNot q t := by
  intro c hc
  have := h c hc
  cases hq : q c with
  | false => rfl
  | true => rw [hpq c hq] at this; cases this

/-- one step of both stages: after a field comes the end, the final space, or a space and the next
field -/
theorem ipt_fwd {s : Bytes} {trail : Bytes} (htr : trail = [] ∨ trail = bs! " ") :
    ∀ (fs : List IptField) (fuel i nf : Nat) (o : Obj), (∀ f ∈ fs, f.Valid) → fs ≠ [] → i ≤ s.length →
      s.length - i < fuel → s.drop i = sepBy (ch! ' ') (fs.map IptField.text) ++ trail →
      iptStage1 s fuel i nf = .ok (s.length, nf + fs.length) ∧
      iptStage2 s fuel i o = .ok ((fs.map IptField.member).foldl (fun o m => Obj.add o m.1 m.2) o) := by
  intro fs
  induction fs with
  | nil => intro _ _ _ _ _ h; exact absurd rfl h
  | cons f fs ih =>
    intro fuel i nf o hv _ hi hfu h
    obtain ⟨fuel, rfl⟩ : ∃ m, fuel = m + 1 := ⟨fuel - 1, by omega⟩
    have hf := hv f (by simp)
    have hpos := text_pos hf
    cases fs with
    | nil =>
      simp only [List.map_cons, List.map_nil, sepBy] at h
      have hlen := len_of_drop h hi
      have hlt : i < s.length := by simp at hlen; omega
      have hnv := iptNV_fwd hf h (by rcases htr with rfl | rfl <;> simp)
      have hd := drop_of_append h
      have hfuel : ∃ m, fuel = m + 1 := ⟨fuel - 1, by simp at hlen; omega⟩
      obtain ⟨m, rfl⟩ := hfuel
      rcases htr with rfl | rfl
      · have e : i + f.text.length = s.length := by simp at hlen; omega
        constructor
        · simp [iptStage1, hlt, hnv, atP_head, hd, e]
        · have : scan isSpace s (i + f.text.length) = s.length := by
            rw [scan, hd]; simpa using e
          simp [iptStage2, hlt, hnv, this]
      · have e : i + f.text.length + 1 = s.length := by simp at hlen; omega
        constructor
        · have hat : atP (· = ch! ' ') s (i + f.text.length) = true := by
            rw [atP_head, hd]; rfl
          simp [iptStage1, hlt, hnv, hat, e]
        · have : scan isSpace s (i + f.text.length) = s.length := by
            rw [scan, hd]
            have : ([32] : Bytes).takeWhile isSpace = [32] := by decide
            rw [this]; simpa using e
          simp [iptStage2, hlt, hnv, this]
    | cons g fs =>
      have hg := hv g (by simp)
      simp only [List.map_cons, sepBy, List.append_assoc, List.cons_append] at h
      have hlen := len_of_drop h hi
      have hlt : i < s.length := by simp at hlen; omega
      have hnv := iptNV_fwd hf h (.inr rfl)
      have hd := drop_of_append h
      have hd2 := drop_of_cons hd
      have hle : i + f.text.length + 1 ≤ s.length := by simp at hlen; omega
      have hscan : scan isSpace s (i + f.text.length) = i + f.text.length + 1 := by
        refine scan_of_append (a := [32]) hd (by intro c hc; simp at hc; subst hc; decide) ?_
        have : ∃ r, sepBy 32 (g.text :: List.map IptField.text fs) ++ trail = g.text ++ r := by
          cases fs with
          | nil => exact ⟨trail, rfl⟩
          | cons k fs => exact ⟨_, by simp only [List.map_cons, sepBy, List.append_assoc]; rfl⟩
        obtain ⟨r, hr⟩ := this
        show HeadNot isSpace (sepBy 32 (g.text :: List.map IptField.text fs) ++ trail)
        rw [hr]; exact head_text hg r
      obtain ⟨i1, i2⟩ := ih fuel (i + f.text.length + 1) (nf + 1) (Obj.add o f.member.1 f.member.2)
        (fun x hx => hv x (by simp at hx ⊢; right; exact hx)) (by simp) hle (by omega)
        (by simpa only [List.map_cons] using hd2)
      constructor
      · rw [iptStage1, if_pos hlt, hnv]
        simp only [R.ok_bind, atP_head, hd]
        simp only [List.head?_cons, Option.any_some, decide_true, if_true]
        rw [i1]; simp; omega
      · rw [iptStage2, if_pos hlt, hnv]
        simp only [R.ok_bind, hscan]
        rw [i2]; simp

theorem ipt_bwd {s : Bytes} : ∀ (fuel i nf e k : Nat), i ≤ s.length →
    iptStage1 s fuel i nf = .ok (e, k) →
    i = s.length ∧ k = nf ∨
    ∃ fs trail, (trail = [] ∨ trail = bs! " ") ∧ (∀ f ∈ fs, IptField.Valid f) ∧ fs ≠ [] ∧
      s.drop i = sepBy (ch! ' ') (fs.map IptField.text) ++ trail ∧ k = nf + fs.length := by
  intro fuel
  induction fuel with
  | zero => intro i nf e k _ h; simp [iptStage1] at h
  | succ fuel ih =>
    intro i nf e k hi h
    rw [iptStage1] at h
    by_cases hlt : i < s.length
    · rw [if_pos hlt, R.bind_eq_ok] at h
      obtain ⟨⟨j, n, v⟩, hnv, h⟩ := h
      obtain ⟨f, tl, hf, hd, rfl, h1, h2⟩ := iptNV_bwd hi hnv
      have hd2 := drop_of_append hd
      have hlen := len_of_drop hd hi
      right
      simp only [atP_head, hd2] at h
      cases tl with
      | nil =>
        have : i + f.text.length = s.length := by simp at hlen; omega
        rcases ih _ _ _ _ (by simp; omega) h with ⟨_, hk⟩ | ⟨fs, trail, _, hfs, hne, hdr, _⟩
        · exact ⟨[f], [], .inl rfl, by simpa using hf, by simp, by simpa [sepBy] using hd, by simp; omega⟩
        · exfalso
          simp at hdr
          rw [hd2] at hdr
          cases fs with
          | nil => exact hne rfl
          | cons g fs =>
            have hg := text_pos (hfs g (by simp))
            have hl := congrArg List.length hdr
            cases fs <;> simp [sepBy] at hl <;> omega
      | cons c tl =>
        by_cases hc : c = ch! ' '
        · subst hc
          simp at h
          have hd3 := drop_of_cons hd2
          rcases ih _ _ _ _ (by simp at hlen; omega) h with ⟨he, hk⟩ | ⟨fs, trail, ht, hfs, hne, hdr, hk⟩
          · have : tl = [] := by rw [← hd3, he]; simp
            subst this
            exact ⟨[f], bs! " ", .inr rfl, by simpa using hf, by simp, by simpa [sepBy] using hd,
              by simp; omega⟩
          · rw [hd3] at hdr
            refine ⟨f :: fs, trail, ht, ?_, by simp, ?_, by simp; omega⟩
            · intro x hx; rcases List.mem_cons.1 hx with rfl | hx
              · exact hf
              · exact hfs x hx
            · cases fs with
              | nil => exact absurd rfl hne
              | cons g fs =>
                rw [hd, hdr]
                simp only [List.map_cons, sepBy, List.append_assoc, List.cons_append]
        · exfalso
          simp only [List.head?_cons, Option.any_some, hc, decide_false, Bool.false_eq_true, if_false] at h
          -- the next field cannot begin here
          have hlt2 : i + f.text.length < s.length := by simp at hlen; omega
          cases fuel with
          | zero => simp [iptStage1] at h
          | succ fuel =>
            rw [iptStage1, if_pos hlt2, R.bind_eq_ok] at h
            obtain ⟨⟨j, n, v⟩, hnv2, h⟩ := h
            obtain ⟨g, tl2, hg, hdg, -, -, -⟩ := iptNV_bwd (by omega) hnv2
            have hh := head_text hg tl2
            rw [← hdg, hd2, headNot_cons] at hh
            cases hv : f.val with
            | none =>
              have := headNot_cons.1 (h2 hv); simp [hc] at this
            | some w =>
              have := headNot_cons.1 (h1 (by simp [hv])); simp [hh] at this
    · rw [if_neg hlt] at h
      simp at h
      left; exact ⟨by omega, h.2.symm⟩

/-! ### LEA -/

theorem takeWhile_spaces (n : Nat) {t : Bytes} (h : t.head? ≠ some (ch! ' ')) :
    (spaces n ++ t).takeWhile (· == ch! ' ') = spaces n :=
  takeWhile_of_split (by intro c hc; simp [spaces] at hc; simp [hc]) (by
    intro c hc; rw [hc] at h; simpa using h)

theorem scan_spaces {s : Bytes} {i n : Nat} {t : Bytes} (hd : s.drop i = spaces n ++ t)
    (h : t.head? ≠ some (ch! ' ')) : scan (· == ch! ' ') s i = i + n := by
  rw [scan, hd, takeWhile_spaces n h]; simp [spaces]

theorem scan_spaces_inv (s : Bytes) (i : Nat) :
    ∃ n t, s.drop i = spaces n ++ t ∧ t.head? ≠ some (ch! ' ') ∧ scan (· == ch! ' ') s i = i + n := by
  obtain ⟨a, b, h, ha, hb, e⟩ := scan_split (· == ch! ' ') s i
  refine ⟨a.length, b, ?_, ?_, e⟩
  · rw [h]; congr 1
    exact List.eq_replicate_iff.2 ⟨rfl, by intro c hc; simpa using ha c hc⟩
  · intro hc; have := hb _ hc; simp at this

theorem drop_spaces {s : Bytes} {i n : Nat} {t : Bytes} (hd : s.drop i = spaces n ++ t) :
    s.drop (i + n) = t := by
  have := drop_of_append hd
  simpa [spaces] using this

theorem scan_until {s : Bytes} {i : Nat} {x : UInt8} {w t : Bytes} (hd : s.drop i = w ++ x :: t)
    (h : x ∉ w) : scan (fun c => c != x) s i = i + w.length :=
  scan_of_append hd (by intro c hc; simp; intro h0; subst h0; exact h hc) (headNot_cons.2 (by simp))

theorem lea_fwd {s : Bytes} {term : UInt8} :
    ∀ (ps : List LeaPair) (fuel i found : Nat) (o : Option Obj) (k : Nat) (tl : Bytes),
      (∀ p ∈ ps, p.Valid term) → i ≤ s.length → s.length - i < fuel →
      s.drop i = (ps.map LeaPair.text).flatten ++ spaces k ++ tl →
      ((tl = [] ∧ (ps = [] → k = 0 ∨ found ≠ 0)) ∨ (tl.head? = some term ∧ term ≠ ch! ' ')) →
      leaLoop s term fuel i found o = .ok (s.length - tl.length,
        if ps = [] then o
        else some ((ps.map LeaPair.member).foldl (fun o m => Obj.add o m.1 m.2) (o.getD []))) := by
  intro ps
  induction ps with
  | nil =>
    intro fuel i found o k tl _ hi hfu hd htl
    obtain ⟨fuel, rfl⟩ : ∃ m, fuel = m + 1 := ⟨fuel - 1, by omega⟩
    simp only [List.map_nil, List.flatten_nil, List.nil_append] at hd
    have hlen := len_of_drop hd hi
    simp [spaces] at hlen
    rw [leaLoop]
    by_cases hlt : i < s.length
    · have hhd : tl.head? ≠ some (ch! ' ') := by
        rcases htl with ⟨rfl, _⟩ | ⟨h1, h2⟩
        · simp
        · rw [h1]; simpa using h2
      have hsc := scan_spaces hd hhd
      have hd2 := drop_spaces hd
      simp only [if_pos hlt, hsc]
      rcases htl with ⟨rfl, h1⟩ | ⟨h1, h2⟩
      · have e : i + k = s.length := by simp at hlen; omega
        have hk : found ≠ 0 := by
          rcases h1 rfl with h | h
          · simp at hlen; omega
          · exact h
        simp [e, hk]
      · cases tl with
        | nil => simp at h1
        | cons c tl =>
          have hne : i + k ≠ s.length := by simp at hlen; omega
          simp only [hne, if_false, atP_head, hd2, h1]
          simp
          simp at hlen; omega
    · have : tl = [] := by
        have : tl.length = 0 := by omega
        simpa using this
      subst this
      simp [if_neg hlt]; omega
  | cons p ps ih =>
    intro fuel i found o k tl hv hi hfu hd htl
    obtain ⟨fuel, rfl⟩ : ∃ m, fuel = m + 1 := ⟨fuel - 1, by omega⟩
    obtain ⟨v1, v2, v3, v4, v5⟩ := hv p (by simp)
    generalize hrest : (ps.map LeaPair.text).flatten ++ spaces k ++ tl = rest at hd ih
    have hd' : s.drop i = spaces p.sp1 ++ (p.name ++ (ch! ':' :: (spaces p.sp2 ++ (p.val ++ (ch! ';' :: rest))))) := by
      rw [hd, ← hrest]; simp [LeaPair.text]
    have hlen := len_of_drop hd' hi
    simp [spaces] at hlen
    have hlt : i < s.length := by omega
    have hs1 := scan_spaces hd' (by
      intro h
      cases hn : p.name with
      | nil => rw [hn] at h; simp at h
      | cons c cs => rw [hn] at h v2; exact v2 (by simpa using h))
    have hd1 := drop_spaces hd'
    have hs2 := scan_until hd1 v1
    have hd2 := drop_of_cons (drop_of_append hd1)
    have hs3 := scan_spaces hd2 (by
      intro h
      cases hn : p.val with
      | nil => rw [hn] at h; simp at h
      | cons c cs => rw [hn] at h v5; exact v5 (by simpa using h))
    have hd3 := drop_spaces hd2
    have hs4 := scan_until hd3 v4
    have hd4 := drop_of_cons (drop_of_append hd3)
    have hn1 : i + p.sp1 ≠ s.length := by omega
    have hterm : atP (· == term) s (i + p.sp1) = false := by
      rw [atP_head, hd1]
      cases hn : p.name with
      | nil =>
        rw [hn] at v3; simp at v3 ⊢; exact v3
      | cons c cs =>
        rw [hn] at v3; simp at v3 ⊢; exact v3
    have hsl1 := slice_of_append hd1
    have hsl2 := slice_of_append hd3
    rw [leaLoop]
    simp only [if_pos hlt, hs1, if_neg hn1, hterm, Bool.false_eq_true, if_false, hs2]
    rw [if_neg (by omega)]
    simp only [hs3, hs4]
    rw [if_neg (by omega)]
    have e1 : i + p.sp1 + p.name.length - (i + p.sp1) = p.name.length := by omega
    have e2 : i + p.sp1 + p.name.length + 1 + p.sp2 + p.val.length - (i + p.sp1 + p.name.length + 1 + p.sp2)
      = p.val.length := by omega
    rw [e1, e2, hsl1, hsl2]
    rw [ih fuel _ (found + 1) _ k tl (fun q hq => hv q (by simp [hq])) (by omega) (by omega)
      (by rw [hd4, hrest]) (by
        rcases htl with ⟨h1, _⟩ | h
        · exact .inl ⟨h1, fun _ => .inr (by omega)⟩
        · exact .inr h)]
    simp [LeaPair.member, newString]
    intro h; subst h; rfl

theorem lea_bwd {s : Bytes} {term : UInt8} : ∀ (fuel i found e : Nat) (o o' : Option Obj),
    i ≤ s.length → leaLoop s term fuel i found o = .ok (e, o') →
    ∃ ps k tl, (∀ p ∈ ps, LeaPair.Valid term p) ∧
      s.drop i = (ps.map LeaPair.text).flatten ++ spaces k ++ tl ∧
      ((tl = [] ∧ (ps = [] → k = 0 ∨ found ≠ 0)) ∨ (tl.head? = some term ∧ term ≠ ch! ' ')) := by
  intro fuel
  induction fuel with
  | zero => intro i found e o o' _ h; simp [leaLoop] at h
  | succ fuel ih =>
    intro i found e o o' hi h
    rw [leaLoop] at h
    by_cases hlt : i < s.length
    · rw [if_pos hlt] at h
      obtain ⟨k, t, hd, hhd, hs⟩ := scan_spaces_inv s i
      have hd1 := drop_spaces hd
      have hlen := len_of_drop hd hi
      simp [spaces] at hlen
      simp only [hs] at h
      by_cases he : i + k = s.length
      · rw [if_pos he] at h
        by_cases hf : found = 0
        · rw [if_pos hf] at h; cases h
        · have : t = [] := by
            have : t.length = 0 := by omega
            simpa using this
          subst this
          exact ⟨[], k, [], by simp, by simpa using hd, .inl ⟨rfl, fun _ => .inr hf⟩⟩
      · rw [if_neg he] at h
        by_cases ht : atP (· == term) s (i + k) = true
        · rw [atP_head, hd1] at ht
          refine ⟨[], k, t, by simp, by simpa using hd, .inr ?_⟩
          cases t with
          | nil => simp at ht
          | cons c t =>
            simp at ht; subst ht
            exact ⟨rfl, by simpa using hhd⟩
        · rw [if_neg ht] at h
          obtain ⟨nm, r, hr, hnm, hrh, hs2⟩ := scan_split (fun c => c != ch! ':') s (i + k)
          simp only [hs2] at h
          by_cases h1 : i + k + nm.length + 1 ≥ s.length
          · rw [if_pos h1] at h; cases h
          · rw [if_neg h1] at h
            have hd2 := drop_of_append hr
            cases r with
            | nil => have := len_of_drop hr (by omega); simp at this; omega
            | cons c r =>
              have hc : c = ch! ':' := by simpa using headNot_cons.1 hrh
              subst hc
              have hd3 := drop_of_cons hd2
              obtain ⟨k2, t2, hdk2, hh2, hs3⟩ := scan_spaces_inv s (i + k + nm.length + 1)
              simp only [hs3] at h
              have hd4 := drop_spaces hdk2
              obtain ⟨vl, r2, hr2, hvl, hrh2, hs4⟩ := scan_split (fun c => c != ch! ';') s (i + k + nm.length + 1 + k2)
              simp only [hs4] at h
              have hl2 := len_of_drop hdk2 (by omega)
              simp [spaces] at hl2
              have hl3 : t2.length = vl.length + r2.length := by
                rw [← hd4, hr2]; simp
              by_cases h2 : i + k + nm.length + 1 + k2 + vl.length + 1 > s.length
              · rw [if_pos h2] at h; cases h
              · rw [if_neg h2] at h
                have hd5 := drop_of_append hr2
                cases r2 with
                | nil => simp at hl3; omega
                | cons c r2 =>
                  have hc : c = ch! ';' := by simpa using headNot_cons.1 hrh2
                  subst hc
                  have hd6 := drop_of_cons hd5
                  obtain ⟨ps, k', tl, hps, hdr, hcase⟩ := ih _ _ _ _ _ (by omega) h
                  refine ⟨⟨k, nm, k2, vl⟩ :: ps, k', tl, ?_, ?_, ?_⟩
                  · intro p hp
                    rcases List.mem_cons.1 hp with rfl | hp
                    · refine ⟨?_, ?_, ?_, ?_, ?_⟩
                      · intro hm; simpa using hnm _ hm
                      · show nm.head? ≠ _
                        intro hh; apply hhd
                        rw [← hd1, hr]; cases nm with
                        | nil => cases hh
                        | cons x xs => exact hh
                      · show (nm ++ bs! ":").head? ≠ _
                        intro hh; apply ht
                        rw [atP_head, hr]
                        cases nm with
                        | nil => simp at hh ⊢; exact hh
                        | cons x xs => simp at hh ⊢; exact hh
                      · intro hm; simpa using hvl _ hm
                      · show vl.head? ≠ _
                        intro hh; apply hh2
                        rw [← hd4, hr2]; cases vl with
                        | nil => cases hh
                        | cons x xs => exact hh
                    · exact hps p hp
                  · rw [hd]
                    have e1 : t = nm ++ ch! ':' :: (spaces k2 ++ t2) := by
                      rw [← hd1, hr, ← hdk2, hd3]
                    have e2 : t2 = vl ++ ch! ';' :: r2 := by rw [← hd4, hr2]
                    rw [e1, e2, ← hd6, hdr]
                    simp [LeaPair.text]
                  · rcases hcase with ⟨h3, _⟩ | h3
                    · exact .inl ⟨h3, by simp⟩
                    · exact .inr h3
    · refine ⟨[], 0, [], by simp, ?_, .inl ⟨rfl, fun _ => .inl rfl⟩⟩
      have : i = s.length := by omega
      subst this; simp [spaces]

end LN
