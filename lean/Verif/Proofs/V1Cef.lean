import Verif.Proofs.StructC
import Verif.Model.V1Parse
/- cef of version 1 against its specification; as Proofs/StructC. -/
set_option autoImplicit false
namespace LN
open Spec

theorem v1CefValLoop_two {e : UInt8} (he : e = ch! '=' ∨ e = ch! '\\' ∨ e = ch! 'n' ∨ e = ch! 'r')
    (t : Bytes) (i lw : Nat) (h : Bool) :
    v1CefValLoop (ch! '\\' :: e :: t) i lw h false = v1CefValLoop t (i + 1 + 1) lw h false := by
  rcases he with rfl | rfl | rfl | rfl <;> rfl

/-- the bytes of an escaped value, as the scanner sees them -/
theorem v1CefValLoop_esc (r : Bytes) (v : Bytes) : ∀ (i lw : Nat) (hadSP : Bool),
    ∃ lw' h', v1CefValLoop (cefEscVal false v ++ r) i lw hadSP false
      = v1CefValLoop r (i + (cefEscVal false v).length) lw' h' false := by
  induction v with
  | nil => intro i lw h; exact ⟨lw, h, rfl⟩
  | cons c v ih =>
    intro i lw h
    rw [cefEscVal]
    simp only [Bool.false_eq_true, and_false, or_false]
    by_cases h1 : c = ch! '=' ∨ c = ch! '\\'
    · rw [if_pos h1]
      obtain ⟨lw', h', he⟩ := ih (i + 1 + 1) lw h
      refine ⟨lw', h', ?_⟩
      simp only [List.cons_append, List.nil_append]
      rw [v1CefValLoop_two (by rcases h1 with rfl | rfl <;> simp), he]
      congr 1; simp; omega
    · rw [if_neg h1]
      simp only [not_or] at h1
      by_cases h2 : c = 10
      · rw [if_pos h2]
        obtain ⟨lw', h', he⟩ := ih (i + 1 + 1) lw h
        refine ⟨lw', h', ?_⟩
        simp only [List.cons_append, List.nil_append]
        rw [v1CefValLoop_two (by simp), he]
        congr 1; simp; omega
      · rw [if_neg h2]
        by_cases h3 : c = 13
        · rw [if_pos h3]
          obtain ⟨lw', h', he⟩ := ih (i + 1 + 1) lw h
          refine ⟨lw', h', ?_⟩
          simp only [List.cons_append, List.nil_append]
          rw [v1CefValLoop_two (by simp), he]
          congr 1; simp; omega
        · rw [if_neg h3]
          simp only [List.cons_append, List.nil_append]
          rw [v1CefValLoop]
          simp only [Bool.false_eq_true, if_false, h1]
          have e : ∀ k, i + 1 + k = i + (k + 1) := by intro k; omega
          by_cases h4 : c = ch! ' '
          · obtain ⟨lw', h', he⟩ := ih (i + 1) lw true
            exact ⟨lw', h', by simp [h4, he, e]⟩
          · cases h with
            | true =>
              obtain ⟨lw', h', he⟩ := ih (i + 1) i false
              exact ⟨lw', h', by simp [h4, he, e]⟩
            | false =>
              obtain ⟨lw', h', he⟩ := ih (i + 1) lw false
              exact ⟨lw', h', by simp [h4, he, e]⟩

theorem v1CefValLoop_name (r : Bytes) (nm : Bytes) (hn : ∀ c ∈ nm, cefNameCls c = true) :
    ∀ (i lw : Nat), v1CefValLoop (nm ++ ch! '=' :: r) i lw false false = .ok (i + nm.length, lw) := by
  induction nm with
  | nil => intro i lw; simp [v1CefValLoop]
  | cons c nm ih =>
    intro i lw
    obtain ⟨h1, h2, h3⟩ := cefNameCls_ne (hn c (by simp))
    rw [List.cons_append, v1CefValLoop]
    simp only [Bool.false_eq_true, if_false, h1, h2, h3]
    rw [ih (fun x hx => hn x (by simp [hx]))]
    simp; omega

theorem v1CefExtValue_mid {s : Bytes} {i : Nat} {v nm r : Bytes} (hi : i ≤ s.length)
    (hd : s.drop i = cefEscVal false v ++ ch! ' ' :: (nm ++ ch! '=' :: r))
    (hne : nm ≠ []) (hn : ∀ c ∈ nm, cefNameCls c = true) :
    v1CefExtValue s i = .ok (i + (cefEscVal false v).length) := by
  have hlen := len_of_drop hd hi
  simp at hlen
  unfold v1CefExtValue
  rw [hd]
  obtain ⟨lw', h', he⟩ := v1CefValLoop_esc (ch! ' ' :: (nm ++ ch! '=' :: r)) v i 0 false
  rw [he]
  cases nm with
  | nil => exact absurd rfl hne
  | cons c nm =>
    obtain ⟨h1, h2, h3⟩ := cefNameCls_ne (hn c (by simp))
    have hl := v1CefValLoop_name r nm (fun x hx => hn x (by simp [hx]))
    have hsp : ∀ j, v1CefValLoop (ch! ' ' :: (c :: nm ++ ch! '=' :: r)) j lw' h' false
        = .ok (j + 1 + 1 + nm.length, j + 1) := by
      intro j
      show v1CefValLoop (c :: nm ++ ch! '=' :: r) (j + 1) lw' true false = _
      rw [List.cons_append, v1CefValLoop]
      simp only [Bool.false_eq_true, if_false, h1, h2, h3, if_true]
      exact hl _ _
    rw [hsp]
    simp only [R.ok_bind]
    simp at hlen
    rw [if_pos (by omega), if_neg (by omega)]
    exact congrArg R.ok (by omega)

theorem v1CefExtValue_last {s : Bytes} {i : Nat} {v : Bytes} (hi : i ≤ s.length)
    (hd : s.drop i = cefEscVal false v) : v1CefExtValue s i = .ok s.length := by
  have hlen := len_of_drop hd hi
  unfold v1CefExtValue
  rw [hd]
  obtain ⟨lw', h', he⟩ := v1CefValLoop_esc [] v i 0 false
  rw [List.append_nil] at he
  rw [he]
  simp [v1CefValLoop, ← hlen]

theorem v1CefUnescape_esc (r v : Bytes) : v1CefUnescape (cefEscVal false v ++ r) (cefEscVal false v).length = .ok v := by
  induction v with
  | nil => simp [cefEscVal, v1CefUnescape]
  | cons c v ih =>
    rw [cefEscVal]
    simp only [Bool.false_eq_true, and_false, or_false]
    by_cases h1 : c = ch! '=' ∨ c = ch! '\\'
    · rw [if_pos h1]
      simp only [List.cons_append, List.nil_append, List.length_cons]
      rw [v1CefUnescape.eq_def]
      rcases h1 with rfl | rfl <;> simp [R.bind, ih]
    · rw [if_neg h1]
      simp only [not_or] at h1
      by_cases h2 : c = 10
      · rw [if_pos h2]
        simp only [List.cons_append, List.nil_append, List.length_cons]
        rw [v1CefUnescape.eq_def]
        simp [R.bind, ih, h2]
      · rw [if_neg h2]
        by_cases h3 : c = 13
        · rw [if_pos h3]
          simp only [List.cons_append, List.nil_append, List.length_cons]
          rw [v1CefUnescape.eq_def]
          simp [R.bind, ih, h3]
        · rw [if_neg h3]
          simp only [List.cons_append, List.nil_append, List.length_cons]
          rw [v1CefUnescape.eq_def]
          simp [R.bind, ih, h1]

theorem v1CefExts_fwd {s : Bytes} (want : Bool) : ∀ (es : List (Bytes × Bytes)) (fuel i : Nat) (o : Obj),
    (∀ e ∈ es, e.1 ≠ [] ∧ (∀ c ∈ e.1, cefNameCls c = true) ∧ (0 : UInt8) ∉ e.2) →
    (∀ e, es.getLast? = some e → e.2 ≠ []) → i ≤ s.length → s.length - i < fuel → s.drop i = sepBy (ch! ' ') (es.map (extText false)) →
    v1CefExts s want fuel i o = .ok (if want then (es.map fun e => (e.1, Json.str e.2)).foldl
      (fun o m => Obj.add o m.1 m.2) o else o) := by
  intro es
  induction es with
  | nil =>
    intro fuel i o _ _ hi hfu hd
    obtain ⟨fuel, rfl⟩ : ∃ m, fuel = m + 1 := ⟨fuel - 1, by omega⟩
    have : i = s.length := drop_eq_nil_len hd hi
    simp [v1CefExts, this]
  | cons e es ih =>
    intro fuel i o hv hla hi hfu hd
    obtain ⟨fuel, rfl⟩ : ∃ m, fuel = m + 1 := ⟨fuel - 1, by omega⟩
    obtain ⟨hne, hn, h0⟩ := hv e (by simp)
    -- the text after the name
    have hd1 : ∃ tl, s.drop i = e.1 ++ ch! '=' :: (cefEscVal false e.2 ++ tl) ∧
        (tl = [] ∧ es = [] ∨ ∃ g es', es = g :: es' ∧ tl = ch! ' ' :: sepBy (ch! ' ') (es.map (extText false))) := by
      cases es with
      | nil => exact ⟨[], by rw [hd]; simp [sepBy, extText], .inl ⟨rfl, rfl⟩⟩
      | cons g es => exact ⟨_, by rw [hd]; simp [sepBy, extText], .inr ⟨g, es, rfl, rfl⟩⟩
    obtain ⟨tl, hd1, hcase⟩ := hd1
    have hlen := len_of_drop hd1 hi
    simp at hlen
    have hlt : i < s.length := by omega
    have hsc : scan (· == ch! ' ') s i = i := by
      rw [scan, hd1]
      cases hn1 : e.1 with
      | nil => exact absurd hn1 hne
      | cons c nm =>
        have := (cefNameCls_ne (hn c (by rw [hn1]; simp))).2.2
        rw [List.cons_append, List.takeWhile_cons]
        simp [this]
    have hnm := cefName_fwd hd1 hn
    have hdv := drop_of_cons (drop_of_append hd1)
    have hsl : slice s i (i + e.1.length - i) = e.1 := by
      have := slice_of_append hd1
      rwa [show i + e.1.length - i = e.1.length by omega]
    have hex : v1CefExtValue s (i + e.1.length + 1) = .ok (i + e.1.length + 1 + (cefEscVal false e.2).length) := by
      rcases hcase with ⟨rfl, -⟩ | ⟨g, es', rfl, rfl⟩
      · rw [v1CefExtValue_last (by omega) (by rw [hdv, List.append_nil])]
        simp at hlen
        exact congrArg R.ok (by omega)
      · obtain ⟨hne2, hn2, -⟩ := hv g (by simp)
        have : ∃ r, sepBy (ch! ' ') ((g :: es').map (extText false)) = g.1 ++ ch! '=' :: r := by
          cases es' with
          | nil => exact ⟨_, rfl⟩
          | cons k es' =>
            refine ⟨cefEscVal false g.2 ++ ch! ' ' :: sepBy (ch! ' ') ((k :: es').map (extText false)), ?_⟩
            simp [sepBy, extText]
        obtain ⟨r, hr⟩ := this
        rw [hr] at hdv
        exact v1CefExtValue_mid (by omega) hdv hne2 hn2
    have hgc : guardChar s (i + e.1.length) (ch! '=') = .ok () := by
      unfold guardChar; rw [rd_of_cons (drop_of_append hd1)]; rfl
    have hroom : i + e.1.length + 1 < s.length := by
      rcases hcase with ⟨rfl, rfl⟩ | ⟨g, es', rfl, rfl⟩
      · have h2 := hla e (by simp)
        have : 0 < (cefEscVal false e.2).length := by
          cases h3 : e.2 with
          | nil => exact absurd h3 h2
          | cons c v => rw [cefEscVal]; split <;> (try split) <;> (try split) <;> simp
        omega
      · simp at hlen; omega
    rw [v1CefExts, if_pos hlt]
    simp only [hsc, hnm, R.ok_bind, hgc, hex, hsl, hroom, decide_true, R.guard_true]
    have e1 : i + e.1.length + 1 + (cefEscVal false e.2).length - (i + e.1.length + 1) = (cefEscVal false e.2).length := by
      omega
    rw [e1, hdv, v1CefUnescape_esc]
    have hns : newString e.2 = .str e.2 := by
      unfold newString; rw [cstr_noNul]; intro c hc h; subst h; exact h0 hc
    have hrest : ∀ o, v1CefExts s want fuel (i + e.1.length + 1 + (cefEscVal false e.2).length + 1) o
        = .ok (if want then (es.map fun e => (e.1, Json.str e.2)).foldl
            (fun o m => Obj.add o m.1 m.2) o else o) := by
      intro o
      rcases hcase with ⟨rfl, rfl⟩ | ⟨g, es', rfl, rfl⟩
      · simp at hlen
        obtain ⟨fuel, rfl⟩ : ∃ m, fuel = m + 1 := ⟨fuel - 1, by omega⟩
        rw [v1CefExts, if_neg (by omega)]; simp
      · simp at hlen
        exact ih fuel _ o (fun x hx => hv x (by simp at hx ⊢; right; exact hx)) (fun x hx => hla x (by simpa using hx)) (by omega) (by omega)
          (drop_of_cons (drop_of_append hdv))
    cases want with
    | false => exact hrest o
    | true =>
      simp only [if_true, R.ok_bind]
      have := hrest (Obj.add o e.1 (newString e.2))
      rw [hns] at this
      rw [hns]
      exact this

end LN
