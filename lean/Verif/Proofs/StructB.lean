import Verif.Proofs.StructA
/-
name-value-list against its specification.
-/
set_option autoImplicit false
namespace LN
open Spec

theorem trailingBs_snoc (u : Bytes) (c : UInt8) :
    trailingBs (u ++ [c]) = if c = ch! '\\' then trailingBs u + 1 else 0 := by
  unfold trailingBs
  rw [List.reverse_append, List.reverse_singleton, List.singleton_append, List.takeWhile_cons]
  by_cases h : c = ch! '\\'
  · simp [h]
  · simp [h]

theorem escaped_snoc (u : Bytes) (c : UInt8) :
    Escaped (u ++ [c]) ↔ c = ch! '\\' ∧ ¬ Escaped u := by
  unfold Escaped
  rw [trailingBs_snoc]
  by_cases h : c = ch! '\\' <;> simp [h]; omega

theorem not_escaped_nil : ¬ Escaped [] := by unfold Escaped; decide

instance (u : Bytes) : Decidable (Escaped u) := by unfold Escaped; infer_instance

theorem odd_step (u : Bytes) (c : UInt8) (odd : Bool) (ho : odd = true ↔ Escaped u) :
    (if c = ch! '\\' then !odd else false) = true ↔ Escaped (u ++ [c]) := by
  rw [escaped_snoc]
  by_cases h : c = ch! '\\'
  · simp [h, ← ho]
  · simp [h]

/-- `escScan` finds the described end -/
theorem escScan_fwd (stop : UInt8 → Bool) : ∀ (v r u : Bytes) (odd : Bool), (odd = true ↔ Escaped u) →
    (∀ a c w, v = a ++ c :: w → stop c = true → Escaped (u ++ a)) →
    (r = [] ∨ (∃ c r', r = c :: r' ∧ stop c = true) ∧ ¬ Escaped (u ++ v)) →
    escScan stop (v ++ r) odd = v.length := by
  intro v
  induction v with
  | nil =>
    intro r u odd ho hv hr
    rcases hr with rfl | ⟨⟨c, r', rfl, hc⟩, hne⟩
    · rfl
    · simp at hne
      have : odd = false := by
        cases odd
        · rfl
        · exact absurd (ho.1 rfl) hne
      simp [escScan, hc, this]
  | cons c v ih =>
    intro r u odd ho hv hr
    have hgo : (!stop c || odd) = true := by
      cases hs : stop c with
      | false => rfl
      | true =>
        have := hv [] c v rfl hs
        rw [List.append_nil, ← ho] at this
        simp [this]
    rw [List.cons_append, escScan, if_pos hgo,
      ih r (u ++ [c]) _ (odd_step u c odd ho) (by
        intro a x w hw hx
        have := hv (c :: a) x w (by rw [hw]; rfl) hx
        simpa using this) (by simpa using hr)]
    simp; omega

theorem escScan_bwd (stop : UInt8 → Bool) : ∀ (t u : Bytes) (odd : Bool), (odd = true ↔ Escaped u) →
    ∃ v r, t = v ++ r ∧ escScan stop t odd = v.length ∧
      (∀ a c w, v = a ++ c :: w → stop c = true → Escaped (u ++ a)) ∧
      (r = [] ∨ (∃ c r', r = c :: r' ∧ stop c = true) ∧ ¬ Escaped (u ++ v)) := by
  intro t
  induction t with
  | nil => intro u odd _; exact ⟨[], [], rfl, rfl, by simp, .inl rfl⟩
  | cons c t ih =>
    intro u odd ho
    by_cases hgo : (!stop c || odd) = true
    · obtain ⟨v, r, ht, he, hv, hr⟩ := ih (u ++ [c]) _ (odd_step u c odd ho)
      refine ⟨c :: v, r, by rw [ht]; rfl, ?_, ?_, by simpa using hr⟩
      · rw [escScan, if_pos hgo, he]; simp; omega
      · intro a x w hw hx
        cases a with
        | nil =>
          simp at hw
          obtain ⟨rfl, rfl⟩ := hw
          rw [List.append_nil, ← ho]
          simpa [hx] using hgo
        | cons y a =>
          simp at hw
          obtain ⟨rfl, rfl⟩ := hw
          have := hv a x w rfl hx
          simpa using this
    · refine ⟨[], c :: t, rfl, by rw [escScan, if_neg hgo]; rfl, by simp, .inr ⟨⟨c, t, rfl, ?_⟩, ?_⟩⟩
      · cases hs : stop c with
        | true => rfl
        | false => simp [hs] at hgo
      · rw [List.append_nil, ← ho]
        intro h; simp [h] at hgo

theorem nvIsSep_eq (d : DataNameValue) : nvIsSep d.sep = nvSep d := by
  funext c; rfl

/-- the class of bytes in names -/
def nameCls (d : DataNameValue) : UInt8 → Bool :=
  fun c => if d.ass ≠ 0 then c != d.ass else isValidNameChar c

theorem nvName_iff (d : DataNameValue) (name : Bytes) :
    NvName d name ↔ name ≠ [] ∧ ∀ c ∈ name, nameCls d c = true := by
  unfold NvName nameCls isValidNameChar
  by_cases h : d.ass = 0 <;> simp [h]

theorem assign_not_name (d : DataNameValue) : nameCls d (nvAssign d) = false := by
  unfold nameCls nvAssign
  by_cases h : d.ass = 0
  · simp [h]; decide
  · simp [h]

/-- the common beginning of a pair: name and assignment character -/
theorem nv1_name {s : Bytes} {i : Nat} {d : DataNameValue} {name t : Bytes}
    (h : s.drop i = name ++ nvAssign d :: t) (hn : NvName d name) :
    nameValue1 s i d = (do
      let i := i + name.length + 1
      let q ← rd s i
      let quoted := i < s.length && (q = ch! '"' || q = ch! '\'')
      let quoting := if quoted then q else 0
      let iVal := if quoted then i + 1 else i
      let j := iVal + (if quoted then escScan (· == quoting) (s.drop iVal) false
                       else escScan (nvIsSep d.sep) (s.drop iVal) false)
      let hit := atP (· == quoting) s j
      R.guard (hit || !quoted)
      let j := if hit then j + 1 else j
      let lenVal := j - iVal - (if quoted then 1 else 0)
      pure (j, name, slice s iVal lenVal)) := by
  obtain ⟨hne, hcls⟩ := (nvName_iff d name).1 hn
  have hsc : scan (fun c => if d.ass ≠ 0 then c != d.ass else isValidNameChar c) s i = i + name.length :=
    scan_of_append (p := nameCls d) h hcls (headNot_cons.2 (assign_not_name d))
  have hd1 := drop_of_append h
  have h1 : i + name.length ≠ i := by
    have : name.length ≠ 0 := by simpa using hne
    omega
  have hass : (if d.ass ≠ 0 then nvAssign d == d.ass else nvAssign d == ch! '=') = true := by
    unfold nvAssign; by_cases h : d.ass = 0 <;> simp [h]
  have hsl : slice s i (i + name.length - i) = name := by
    have := slice_of_append h
    rwa [show i + name.length - i = name.length by omega]
  unfold nameValue1
  simp only [hsc, rd_of_cons hd1, R.ok_bind, hass, Bool.and_true, hsl]
  have hg : decide (i + name.length ≠ i) = true := by simpa using h1
  rw [hg]
  simp only [R.guard_true, R.ok_bind]

/-- without name and assignment character there is no pair -/
theorem nv1_noname {s : Bytes} {i : Nat} {d : DataNameValue} (hi : i ≤ s.length)
    (h : ∀ name t, s.drop i = name ++ nvAssign d :: t → ¬ NvName d name) :
    nameValue1 s i d = .fail := by
  obtain ⟨a, b, hab, ha, hb, hs⟩ := scan_split (nameCls d) s i
  unfold nameValue1
  have hs' : scan (fun c => if d.ass ≠ 0 then c != d.ass else isValidNameChar c) s i = i + a.length := hs
  simp only [hs']
  have hd := drop_of_append hab
  have hlen := len_of_drop hab hi
  cases b with
  | nil =>
    have : i + a.length = s.length := by simp at hlen; omega
    rw [this, rd_end]
    have : (if d.ass ≠ 0 then (0 : UInt8) == d.ass else (0 : UInt8) == ch! '=') = false := by
      by_cases h : d.ass = 0
      · simp [h]
      · simp [h]; exact fun h0 => h h0.symm
    simp only [R.ok_bind, this, Bool.and_false, R.guard_false, R.fail_bind]
  | cons c b =>
    rw [rd_of_cons hd]
    by_cases hc : (if d.ass ≠ 0 then c == d.ass else c == ch! '=') = true
    · have hc' : c = nvAssign d := by
        unfold nvAssign
        by_cases h : d.ass = 0
        · simpa [h] using hc
        · simpa [h] using hc
      subst hc'
      have hnn := h a b hab
      have : a = [] := by
        cases a with
        | nil => rfl
        | cons x a => exact absurd ((nvName_iff d _).2 ⟨by simp, ha⟩) hnn
      subst this
      simp [R.guard]
    · simp only [Bool.not_eq_true] at hc
      simp only [R.ok_bind, hc, Bool.and_false, R.guard_false, R.fail_bind]

theorem nv1_quoted {s : Bytes} {i : Nat} {d : DataNameValue} {name t : Bytes} {q : UInt8}
    (h : s.drop i = name ++ nvAssign d :: q :: t) (hn : NvName d name)
    (hq : q = ch! '"' ∨ q = ch! '\'') :
    nameValue1 s i d =
      (if (t.drop (escScan (· == q) t false)).head?.any (· == q) then
         .ok (i + name.length + 2 + escScan (· == q) t false + 1, name, t.take (escScan (· == q) t false))
       else .fail) := by
  rw [nv1_name h hn]
  have hd2 := drop_of_cons (drop_of_append h)
  have hd3 := drop_of_cons hd2
  have hlt : i + name.length + 1 < s.length := lt_of_drop_cons hd2
  have hquoted : (decide (i + name.length + 1 < s.length) && (decide (q = ch! '"') || decide (q = ch! '\''))) = true := by
    simp [hlt]; exact hq
  simp only [rd_of_cons hd2, R.ok_bind, hquoted, if_true, hd3]
  have hd4 : s.drop (i + name.length + 1 + 1 + escScan (· == q) t false) = t.drop (escScan (· == q) t false) := by
    rw [← List.drop_drop, hd3]
  rw [atP_head, hd4]
  by_cases hh : (t.drop (escScan (· == q) t false)).head?.any (· == q) = true
  · simp only [hh, Bool.true_or, R.guard_true, R.ok_bind, if_true]
    rw [slice, hd3]
    show R.ok _ = R.ok _
    refine congrArg R.ok (Prod.ext rfl (Prod.ext rfl ?_))
    show List.take _ _ = List.take _ _
    congr 1; omega
  · simp only [Bool.not_eq_true] at hh
    simp only [hh, Bool.false_or, Bool.not_true, R.guard_false, R.fail_bind, Bool.false_eq_true, if_false]

theorem nv1_plain {s : Bytes} {i : Nat} {d : DataNameValue} {name t : Bytes}
    (hi : i ≤ s.length)
    (h : s.drop i = name ++ nvAssign d :: t) (hn : NvName d name)
    (hq1 : t.head? ≠ some (ch! '"')) (hq2 : t.head? ≠ some (ch! '\'')) :
    nameValue1 s i d = .ok (i + name.length + 1 + escScan (nvSep d) t false, name,
      t.take (escScan (nvSep d) t false)) := by
  rw [nv1_name h hn]
  have hd2 := drop_of_cons (drop_of_append h)
  have hlen := len_of_drop h hi
  simp at hlen
  obtain ⟨v, r, htv, hesc, hv, hr⟩ := escScan_bwd (nvSep d) t [] false (by simp [not_escaped_nil])
  have key : ∀ q, rd s (i + name.length + 1) = .ok q → (q ≠ ch! '"' ∧ q ≠ ch! '\'') ∨ t = [] := by
    intro q hrd
    cases t with
    | nil => exact .inr rfl
    | cons c t =>
      rw [rd_of_cons hd2] at hrd
      cases hrd
      left; constructor
      · intro h; subst h; exact hq1 rfl
      · intro h; subst h; exact hq2 rfl
  rcases rd_defined (s := s) (i := i + name.length + 1) (by omega) with ⟨q, hrd⟩ | hrd
  · have hquoted : (decide (i + name.length + 1 < s.length) && (decide (q = ch! '"') || decide (q = ch! '\''))) = false := by
      rcases key q hrd with ⟨h1, h2⟩ | h1
      · simp [h1, h2]
      · subst h1
        have : ¬ (i + name.length + 1 < s.length) := by simp at hlen; omega
        simp [this]
    simp only [hrd, R.ok_bind, hquoted, Bool.false_eq_true, if_false, hd2, nvIsSep_eq]
    have hd4 : s.drop (i + name.length + 1 + escScan (nvSep d) t false) = t.drop (escScan (nvSep d) t false) := by
      rw [← List.drop_drop, hd2]
    have hno : (t.drop (escScan (nvSep d) t false)).head?.any (· == (0 : UInt8)) = false := by
      rw [hesc, htv, List.drop_left]
      rcases hr with rfl | ⟨⟨c, r', rfl, hc⟩, -⟩
      · rfl
      · simp
        intro h0; subst h0
        unfold nvSep at hc
        by_cases hs : d.sep = 0
        · simp [hs] at hc; revert hc; decide
        · simp [hs] at hc; exact hs hc.symm
    rw [atP_head, hd4, hno]
    simp only [Bool.false_eq_true, if_false, Bool.not_false, Bool.or_true, R.guard_true, R.ok_bind]
    rw [slice, hd2]
    show R.ok _ = R.ok _
    refine congrArg R.ok (Prod.ext rfl (Prod.ext rfl ?_))
    show List.take _ _ = List.take _ _
    congr 1; omega
  · exfalso
    unfold rd at hrd
    split at hrd
    · cases hrd
    · split at hrd <;> cases hrd

/-- a pair of the specification is found -/
theorem nv1_fwd {s : Bytes} {i : Nat} {d : DataNameValue} {name val rest : Bytes} (hi : i ≤ s.length)
    (h : NvPair d (s.drop i) name val rest) :
    ∃ n, nameValue1 s i d = .ok (n, name, val) ∧ n ≤ s.length ∧ s.drop n = rest ∧
      i < n ∧ n - i = (s.drop i).length - rest.length := by
  obtain ⟨hn, ⟨q, hq, hd, ha, he⟩ | ⟨hd, h1, h2, ha, hr⟩⟩ := h
  · have hd' : s.drop i = name ++ nvAssign d :: q :: (val ++ q :: rest) := by rw [hd]; simp
    have hesc : escScan (· == q) (val ++ q :: rest) false = val.length :=
      escScan_fwd _ val (q :: rest) [] false (by simp [not_escaped_nil])
        (by intro a c w hw hc; simpa using ha a c w hw hc)
        (.inr ⟨⟨q, rest, rfl, by simp⟩, by simpa using he⟩)
    have := nv1_quoted hd' hn hq
    simp only [hesc, List.drop_left, List.take_left] at this
    simp at this
    have hdr := drop_of_cons (drop_of_append (drop_of_cons (drop_of_cons (drop_of_append hd'))))
    have hl := len_of_drop hd' hi
    simp at hl
    refine ⟨_, this, by omega, ?_, by omega, ?_⟩
    · rw [← hdr]
    · rw [hd']; simp; omega
  · have hd' : s.drop i = name ++ nvAssign d :: (val ++ rest) := by rw [hd]; simp
    have hesc : escScan (nvSep d) (val ++ rest) false = val.length :=
      escScan_fwd _ val rest [] false (by simp [not_escaped_nil])
        (by intro a c w hw hc; simpa using ha a c w hw hc)
        (by
          rcases hr with h | ⟨h, h'⟩
          · exact .inl h
          · exact .inr ⟨h, by simpa using h'⟩)
    have := nv1_plain hi hd' hn h1 h2
    rw [hesc, List.take_left] at this
    have hdr := drop_of_append (drop_of_cons (drop_of_append hd'))
    have hl := len_of_drop hd' hi
    simp at hl
    refine ⟨_, this, by omega, hdr, by omega, ?_⟩
    rw [hd']; simp; omega

/-- what is found is a pair of the specification; if nothing is found there is none -/
theorem nv1_bwd {s : Bytes} {i : Nat} {d : DataNameValue} (hi : i ≤ s.length) :
    (∃ name val rest, NvPair d (s.drop i) name val rest) ∨
    (nameValue1 s i d = .fail ∧ ∀ name val rest, ¬ NvPair d (s.drop i) name val rest) := by
  by_cases hp : ∃ name val rest, NvPair d (s.drop i) name val rest
  · exact .inl hp
  · right
    refine ⟨?_, fun n v r h => hp ⟨n, v, r, h⟩⟩
    by_cases hnm : ∃ name t, s.drop i = name ++ nvAssign d :: t ∧ NvName d name
    · obtain ⟨name, t, hd, hn⟩ := hnm
      by_cases hq : ∃ q t', t = q :: t' ∧ (q = ch! '"' ∨ q = ch! '\'')
      · obtain ⟨q, t, rfl, hq⟩ := hq
        rw [nv1_quoted hd hn hq]
        obtain ⟨v, r, htv, hesc, hv, hr⟩ := escScan_bwd (· == q) t [] false (by simp [not_escaped_nil])
        rw [hesc, htv, List.drop_left]
        rcases hr with rfl | ⟨⟨c, r', rfl, hc⟩, he⟩
        · rfl
        · exfalso
          simp at hc; subst hc
          refine hp ⟨name, v, r', hn, .inl ⟨c, hq, by rw [hd, htv]; simp, ?_, by simpa using he⟩⟩
          intro a x w hw hx; simpa using hv a x w hw hx
      · exfalso
        obtain ⟨v, r, htv, hesc, hv, hr⟩ := escScan_bwd (nvSep d) t [] false (by simp [not_escaped_nil])
        have hh : ∀ x, (v ++ r).head? = some x → ¬ (x = ch! '"' ∨ x = ch! '\'') := by
          intro x hx hx2
          rw [← htv] at hx
          cases t with
          | nil => cases hx
          | cons y t => simp at hx; subst hx; exact hq ⟨y, t, rfl, hx2⟩
        refine hp ⟨name, v, r, hn, .inr ⟨by rw [hd, htv]; simp, fun h => hh _ h (.inl rfl),
          fun h => hh _ h (.inr rfl), ?_, ?_⟩⟩
        · intro a x w hw hx; simpa using hv a x w hw hx
        · rcases hr with h | ⟨h, h'⟩
          · exact .inl h
          · exact .inr ⟨h, by simpa using h'⟩
    · exact nv1_noname hi (fun name t hd hn => hnm ⟨name, t, hd, hn⟩)

theorem nvPair_nil {d : DataNameValue} {name val rest : Bytes} : ¬ NvPair d [] name val rest := by
  rintro ⟨-, ⟨q, -, h, -⟩ | ⟨h, -⟩⟩
  · simp at h
  · simp at h

/-- the loop collects the list of the specification -/
theorem nvLoop_fwd {s : Bytes} {d : DataNameValue} {t : Bytes} {ps : List (Bytes × Bytes)} {n : Nat}
    (hl : NvList d t ps n) : ∀ (fuel i : Nat) (o : Obj), i ≤ s.length → s.length - i < fuel →
    s.drop i = t →
    nvLoop s d fuel i o = .ok (i + n, (ps.map nvMember).foldl (fun o m => Obj.add o m.1 m.2) o) := by
  induction hl with
  | @stop t hno =>
    intro fuel i o hi hfu hd
    obtain ⟨fuel, rfl⟩ : ∃ m, fuel = m + 1 := ⟨fuel - 1, by omega⟩
    rw [nvLoop]
    by_cases hlt : i < s.length
    · rw [if_pos hlt]
      rcases nv1_bwd (d := d) hi with ⟨a, b, c, hp⟩ | ⟨h, -⟩
      · rw [hd] at hp; exact absurd hp (hno a b c)
      · rw [h]; rfl
    · rw [if_neg hlt]; rfl
  | @last t name val rest c r hp hr hc =>
    intro fuel i o hi hfu hd
    obtain ⟨fuel, rfl⟩ : ∃ m, fuel = m + 1 := ⟨fuel - 1, by omega⟩
    have hlt : i < s.length := by
      rcases Nat.lt_or_ge i s.length with h | h
      · exact h
      · exfalso
        have : t = [] := by rw [← hd]; simp; omega
        subst this; exact nvPair_nil hp
    rw [← hd] at hp
    obtain ⟨j, hnv, hj, hdr, hij, hn⟩ := nv1_fwd hi hp
    rw [nvLoop, if_pos hlt, hnv]
    have : atP (fun c => !nvIsSep d.sep c) s j = true := by
      rw [atP_head, hdr, hr, nvIsSep_eq]; simp [hc]
    simp only [this, if_true]
    refine congrArg R.ok (Prod.ext ?_ rfl)
    show j = i + (t.length - rest.length)
    rw [← hd, ← hn]; omega
  | @more t name val seps tl ps n hp hseps htl hne hrec ih =>
    intro fuel i o hi hfu hd
    obtain ⟨fuel, rfl⟩ : ∃ m, fuel = m + 1 := ⟨fuel - 1, by omega⟩
    have hlt : i < s.length := by
      rcases Nat.lt_or_ge i s.length with h | h
      · exact h
      · exfalso
        have : t = [] := by rw [← hd]; simp; omega
        subst this; exact nvPair_nil hp
    rw [← hd] at hp
    obtain ⟨j, hnv, hj, hdr, hij, hn⟩ := nv1_fwd hi hp
    rw [nvLoop, if_pos hlt, hnv]
    have : atP (fun c => !nvIsSep d.sep c) s j = false := by
      rw [atP_head, hdr, nvIsSep_eq]
      cases seps with
      | nil => rw [hne rfl]; rfl
      | cons c seps => simp [hseps c (by simp)]
    have hsc : scan (nvIsSep d.sep) s j = j + seps.length := by
      rw [nvIsSep_eq]
      refine scan_of_append hdr hseps ?_
      intro c hc
      cases tl with
      | nil => cases hc
      | cons x tl => simp at hc; subst hc; exact htl x tl rfl
    have hd2 := drop_of_append hdr
    have hlen := len_of_drop hdr hj
    simp at hlen
    simp only [this, Bool.false_eq_true, if_false, hsc]
    rw [ih fuel (j + seps.length) _ (by omega) (by omega) hd2]
    refine congrArg R.ok (Prod.ext ?_ (by simp [nvMember]))
    show j + seps.length + n = i + (t.length - tl.length + n)
    have : t.length = s.length - i := by rw [← hd]; simp
    omega

/-- every text has such a list -/
theorem nvList_total (d : DataNameValue) : ∀ (k : Nat) (t : Bytes), t.length ≤ k → ∃ ps n, NvList d t ps n := by
  intro k
  induction k with
  | zero =>
    intro t ht
    have : t = [] := by simpa using ht
    subst this
    exact ⟨[], 0, .stop fun _ _ _ => nvPair_nil⟩
  | succ k ih =>
    intro t ht
    by_cases hp : ∃ name val rest, NvPair d t name val rest
    · obtain ⟨name, val, rest, hp⟩ := hp
      obtain ⟨j, -, hj, hdr, hij, hn⟩ := nv1_fwd (s := t) (i := 0) (by simp) (by simpa using hp)
      obtain ⟨seps, tl, hst, hs, htl, -⟩ := split_at (nvSep d) rest
      by_cases hc : seps = [] ∧ tl ≠ []
      · obtain ⟨rfl, hne⟩ := hc
        cases tl with
        | nil => exact absurd rfl hne
        | cons c r =>
          exact ⟨_, _, .last hp hst (headNot_cons.1 htl)⟩
      · have hlen : tl.length ≤ k := by
          have h1 : t.length = j + rest.length := len_of_drop hdr hj
          rw [hst] at h1; simp at h1; omega
        obtain ⟨ps, n, hl⟩ := ih tl hlen
        rw [hst] at hp
        refine ⟨_, _, .more hp hs ?_ ?_ hl⟩
        · intro c r h; subst h; exact headNot_cons.1 htl
        · intro h
          cases tl with
          | nil => rfl
          | cons c r => exact absurd ⟨h, by simp⟩ hc
    · exact ⟨[], 0, .stop fun a b c h => hp ⟨a, b, c, h⟩⟩

end LN
