import Verif.Model.Enc
import Verif.Spec.Enc
/- The decoders undo the encoders. -/
set_option autoImplicit false
namespace LN
variable {env : Env}

theorem cstr_of_noNul : ∀ {s : Bytes}, 0 ∉ s → cstr s = s
  | [], _ => rfl
  | c :: t, h => by
    have hc : c ≠ 0 := fun e => h (e ▸ List.mem_cons_self ..)
    have ih := cstr_of_noNul (s := t) fun hx => h (List.mem_cons_of_mem _ hx)
    unfold cstr at ih ⊢
    rw [List.takeWhile_cons, if_pos (by simpa using hc), ih]

theorem getString_readable {j : Json} (h : Readable env j) : getString env j = some (textOfJson env j) := by
  have h2 := cstr_of_noNul h.2
  cases j with
  | null => exact absurd rfl h.1
  | _ => exact congrArg some h2

theorem arrTexts_readable : ∀ {l : List Json}, (∀ j ∈ l, Readable env j) → arrTexts env l = (l.map (textOfJson env), true)
  | [], _ => rfl
  | j :: l, h => by
    unfold arrTexts
    rw [getString_readable (h j (List.mem_cons_self ..))]
    dsimp only
    rw [arrTexts_readable fun x hx => h x (List.mem_cons_of_mem _ hx)]
    rfl

/-! ### CSV -/

theorem csvRun_append (s t : Bytes) (x) : csvRun (s ++ t) x = (csvRun s x).bind (csvRun t) := by
  induction s generalizing x with
  | nil => rfl
  | cons c s ih =>
    show (csvStep c x).bind (csvRun (s ++ t)) = ((csvStep c x).bind (csvRun s)).bind (csvRun t)
    cases csvStep c x with
    | none => rfl
    | some y => exact ih y

theorem hexValue_hexDigit : ∀ n, n < 16 → hexValue (hexDigit n) = some n := by decide

theorem hexDigit_ne : ∀ n, n < 16 → hexDigit n ≠ ch! 'u' := by decide

theorem csvRun_char (c : UInt8) (acc : Bytes) (cols : List (Option Bytes)) :
    csvRun (csvChar c) (.quoted acc, cols) = some (.quoted (acc ++ [c]), cols) := by
  unfold csvChar
  split
  · rename_i h
    have h1 : c ≠ ch! '"' ∧ c ≠ ch! '\\' ∧ ¬ c < 32 := by
      simp only [UInt8.le_iff_toNat_le, UInt8.lt_iff_toNat_lt, ← UInt8.toNat_inj, UInt8.reduceToNat, ne_eq] at h ⊢
      omega
    simp only [csvRun, csvStep, if_neg h1.1, if_neg h1.2.1, if_neg h1.2.2, Option.bind_some]
  · rename_i h
    split
    · rename_i h; subst h; rfl
    split
    · rename_i h; subst h; rfl
    split
    · rename_i h; subst h; rfl
    split
    · rename_i h; subst h; rfl
    split
    · rename_i h; subst h; rfl
    split
    · rename_i h; subst h; rfl
    split
    · rename_i h; subst h; rfl
    split
    · rename_i h; subst h; rfl
    have hlt : c.toNat < 32 := by
      simp only [UInt8.le_iff_toNat_le, ← UInt8.toNat_inj, UInt8.reduceToNat] at *
      omega
    have hlo : c.toNat % 16 < 16 := Nat.mod_lt _ (by omega)
    have hhi : c.toNat / 16 % 16 < 16 := Nat.mod_lt _ (by omega)
    have e1 : c.toNat / 16 / 16 / 16 % 16 = 0 := by omega
    have e2 : c.toNat / 16 / 16 % 16 = 0 := by omega
    rw [e1, e2]
    have hz : hexValue (hexDigit 0) = some 0 := by decide
    have hv : c.toNat / 16 % 16 * 16 + c.toNat % 16 = c.toNat := by omega
    rw [csvRun_append]
    have hpre : csvRun (bs! "\\u") (.quoted acc, cols) = some (.hex acc 4 0, cols) := rfl
    rw [hpre]
    simp only [Option.bind_some, csvRun, csvStep, hz, hexValue_hexDigit _ hlo, hexValue_hexDigit _ hhi]
    have hv' : (0 * 16 + c.toNat / 16 % 16) * 16 + c.toNat % 16 = c.toNat := by omega
    simp only [Nat.zero_mul, Nat.zero_add, Nat.reduceEqDiff, if_false, Nat.reduceSub, Option.bind_some, if_true, hv]
    rw [if_pos (by omega)]
    simp

theorem csvRun_value : ∀ (t acc : Bytes) (cols : List (Option Bytes)),
    csvRun (csvValue t) (.quoted acc, cols) = some (.quoted (acc ++ t), cols)
  | [], acc, cols => by simp [csvValue, csvRun]
  | c :: t, acc, cols => by
    have : csvValue (c :: t) = csvChar c ++ csvValue t := by simp [csvValue]
    rw [this, csvRun_append, csvRun_char, Option.bind_some, csvRun_value t]
    simp

theorem csvField_scalar {j : Json} (h : Scalar env j) : csvField env j = csvValue (textOfJson env j) ∧ j ≠ .null := by
  have h2 := cstr_of_noNul h.2
  rcases h with ⟨⟨s, rfl⟩ | ⟨n, rfl⟩, h⟩
  · exact ⟨congrArg csvValue h2, by simp⟩
  · exact ⟨congrArg csvValue h2, by simp⟩

/-- where the reader is after a column -/
def colEnd : Option Bytes → CsvPos
  | none => .start
  | some t => .closed t

theorem csvRun_col {o : Obj} {n : Bytes} (h : ∀ j, Obj.get o n = some j → j = .null ∨ Scalar env j) (cols : List (Option Bytes)) :
    csvRun (csvCol env o n) (.start, cols) = some (colEnd (((Obj.get o n).filter (· != .null)).map (textOfJson env)), cols) := by
  cases hg : Obj.get o n with
  | none => unfold csvCol; rw [hg]; rfl
  | some j =>
    rcases h j hg with rfl | hs
    · unfold csvCol; rw [hg]; rfl
    · obtain ⟨h1, h2⟩ := csvField_scalar hs
      have h3 : csvCol env o n = bs! "\"" ++ csvField env j ++ bs! "\"" := by
        unfold csvCol
        rw [hg]
        cases j with
        | null => exact absurd rfl h2
        | _ => rfl
      have h4 : (some j).filter (· != .null) = some j := by simp [Option.filter, h2]
      rw [h3, h4, h1, csvRun_append, csvRun_append]
      have e1 : csvRun (bs! "\"") (.start, cols) = some (.quoted [], cols) := rfl
      rw [e1, Option.bind_some, csvRun_value, List.nil_append, Option.bind_some]
      rfl

theorem csvStep_sep (x : Option Bytes) (cols : List (Option Bytes)) : csvRun (bs! ",") (colEnd x, cols) = some (.start, cols ++ [x]) := by
  cases x <;> rfl

theorem csvRun_cols {o : Obj} : ∀ (l : List Bytes) (n : Bytes) (cols : List (Option Bytes)),
    (∀ m ∈ n :: l, ∀ j, Obj.get o m = some j → j = .null ∨ Scalar env j) →
    ∃ pos cols', csvRun (csvCols env o (n :: l)) (.start, cols) = some (colEnd pos, cols') ∧
      cols' ++ [pos] = cols ++ (n :: l).map fun m => ((Obj.get o m).filter (· != .null)).map (textOfJson env)
  | [], n, cols, h => by
    refine ⟨_, _, csvRun_col (h n (List.mem_cons_self ..)) cols, ?_⟩
    simp
  | m :: l, n, cols, h => by
    have e : csvCols env o (n :: m :: l) = csvCol env o n ++ bs! "," ++ csvCols env o (m :: l) := rfl
    obtain ⟨pos, cols', h1, h2⟩ := csvRun_cols l m (cols ++ [((Obj.get o n).filter (· != .null)).map (textOfJson env)])
      fun x hx => h x (List.mem_cons_of_mem _ hx)
    refine ⟨pos, cols', ?_, ?_⟩
    · rw [e, csvRun_append, csvRun_append, csvRun_col (h n (List.mem_cons_self ..)), Option.bind_some, csvStep_sep, Option.bind_some, h1]
    · rw [h2]; simp

theorem nameList_append {n : Bytes} (h : CsvName n) (t : Bytes) :
    nameList (n ++ t) = match nameList t with
      | m :: l => (n ++ m) :: l
      | [] => [n] := by
  induction n with
  | nil =>
    rw [List.nil_append]
    cases ht : nameList t with
    | nil =>
      cases t with
      | nil => simp [nameList] at ht
      | cons c t =>
        unfold nameList at ht
        split at ht
        · cases ht
        · split at ht <;> cases ht
    | cons m l => rfl
  | cons c n ih =>
    have hc := h c (List.mem_cons_self ..)
    rw [List.cons_append, nameList.eq_2, if_neg (by simp [hc.1, hc.2.1]), ih fun x hx => h x (List.mem_cons_of_mem _ hx)]
    cases nameList t <;> rfl

theorem nameList_text {first : Bytes} (hf : CsvName first) : ∀ {rest : List (UInt8 × Bytes)},
    (∀ p ∈ rest, (p.1 = ch! ',' ∨ p.1 = ch! ' ') ∧ CsvName p.2) →
    nameList (namesText first rest) = first :: rest.map (·.2)
  | [], _ => by
    have h0 := nameList_append hf []
    simpa [namesText, nameList] using h0
  | p :: rest, h => by
    have h1 := h p (List.mem_cons_self ..)
    have e : namesText first (p :: rest) = first ++ (p.1 :: namesText p.2 rest) := by simp [namesText]
    have ih := nameList_text h1.2 fun q hq => h q (List.mem_cons_of_mem _ hq)
    have e2 : nameList (p.1 :: namesText p.2 rest) = [] :: p.2 :: rest.map (·.2) := by
      rw [nameList.eq_2, if_pos h1.1, ih]
    rw [e, nameList_append hf, e2]
    simp

/-! every event -/

theorem getString_ne {j : Json} (h : j ≠ .null) : getString env j = some (uptoNul (textOfJson env j)) := by
  have : ∀ t : Bytes, cstr t = uptoNul t := fun t => by
    unfold cstr uptoNul
    congr 1
    funext c
    by_cases hc : c = 0 <;> simp [hc]
  cases j with
  | null => exact absurd rfl h
  | _ => exact congrArg some (this _)

theorem arrTexts_all : ∀ (l : List Json),
    arrTexts env l = ((l.takeWhile (· ≠ .null)).map (fun j => uptoNul (textOfJson env j)), decide (.null ∉ l))
  | [] => rfl
  | j :: l => by
    unfold arrTexts
    by_cases hj : j = .null
    · subst hj; simp [getString]
    · rw [getString_ne hj]
      dsimp only
      rw [arrTexts_all l]
      have h2 : Json.null ≠ j := fun h => hj h.symm
      simp [List.takeWhile_cons, hj, h2]

theorem csvValue_append (s t : Bytes) : csvValue (s ++ t) = csvValue s ++ csvValue t := by simp [csvValue]

theorem commaSep_true : ∀ (l : List Bytes), commaSep csvValue l true = csvValue (commaList l)
  | [] => rfl
  | [t] => by simp [commaSep, commaList]
  | t :: u :: l => by
    have e : csvValue (bs! ",") = bs! "," := by decide
    rw [show commaSep csvValue (t :: u :: l) true = csvValue t ++ bs! "," ++ commaSep csvValue (u :: l) true from rfl, commaSep_true (u :: l),
      show commaList (t :: u :: l) = t ++ bs! "," ++ commaList (u :: l) from rfl, csvValue_append, csvValue_append, e]

theorem commaSep_false : ∀ (l : List Bytes), commaSep csvValue l false = csvValue (l.flatMap (· ++ bs! ","))
  | [] => rfl
  | [t] => by
    have e : csvValue (bs! ",") = bs! "," := by decide
    simp [commaSep, csvValue_append, e]
  | t :: u :: l => by
    have e : csvValue (bs! ",") = bs! "," := by decide
    rw [show commaSep csvValue (t :: u :: l) false = csvValue t ++ bs! "," ++ commaSep csvValue (u :: l) false from rfl, commaSep_false (u :: l),
      show (t :: u :: l).flatMap (· ++ bs! ",") = t ++ bs! "," ++ (u :: l).flatMap (· ++ bs! ",") from rfl, csvValue_append, csvValue_append, e]

theorem csvField_all (j : Json) : csvField env j = csvValue (csvText env j) := by
  have hu : ∀ t : Bytes, cstr t = uptoNul t := fun t => by
    unfold cstr uptoNul
    congr 1
    funext c
    by_cases hc : c = 0 <;> simp [hc]
  have e1 : csvValue (bs! "[") = bs! "[" := by decide
  have e2 : csvValue (bs! "]") = bs! "]" := by decide
  cases j with
  | arr l =>
    unfold csvField csvText
    dsimp only
    rw [arrTexts_all]
    by_cases h : Json.null ∈ l
    · simp only [List.mem_reverse, h, not_true_eq_false, decide_false, if_true, Bool.false_eq_true, if_false, List.append_nil]
      rw [commaSep_false, csvValue_append, e1, List.flatMap_map]
    · have ht : l.reverse.takeWhile (· ≠ .null) = l.reverse := by
        have key : ∀ (k : List Json), .null ∉ k → k.takeWhile (· ≠ .null) = k := by
          intro k
          induction k with
          | nil => intro _; rfl
          | cons x k ih =>
            intro hk
            have hx : x ≠ .null := fun e => hk (e ▸ List.mem_cons_self ..)
            rw [List.takeWhile_cons, if_pos (by simpa using hx), ih fun hm => hk (List.mem_cons_of_mem _ hm)]
        exact key _ fun hm => h (List.mem_reverse.1 hm)
      simp only [List.mem_reverse, h, not_false_eq_true, decide_true, if_true, if_false]
      rw [ht, commaSep_true, csvValue_append, csvValue_append, e1, e2]
  | str s => exact congrArg csvValue (hu _)
  | int n => exact congrArg csvValue (hu _)
  | _ => exact (show unsupported = csvValue (bs! "***unsupported type***") by decide)

theorem csvRun_col_all {o : Obj} {n : Bytes} (cols : List (Option Bytes)) :
    csvRun (csvCol env o n) (.start, cols) = some (colEnd (((Obj.get o n).filter (· ≠ .null)).map (csvText env)), cols) := by
  cases hg : Obj.get o n with
  | none => unfold csvCol; rw [hg]; rfl
  | some j =>
    by_cases hj : j = .null
    · subst hj; unfold csvCol; rw [hg]; rfl
    · have h3 : csvCol env o n = bs! "\"" ++ csvField env j ++ bs! "\"" := by
        unfold csvCol
        rw [hg]
        cases j with
        | null => exact absurd rfl hj
        | _ => rfl
      have h4 : (some j).filter (· ≠ .null) = some j := by simp [Option.filter, hj]
      rw [h3, h4, csvField_all, csvRun_append, csvRun_append]
      have e1 : csvRun (bs! "\"") (.start, cols) = some (.quoted [], cols) := rfl
      rw [e1, Option.bind_some, csvRun_value, List.nil_append, Option.bind_some]
      rfl

theorem csvRun_cols_all {o : Obj} : ∀ (l : List Bytes) (n : Bytes) (cols : List (Option Bytes)),
    ∃ pos cols', csvRun (csvCols env o (n :: l)) (.start, cols) = some (colEnd pos, cols') ∧
      cols' ++ [pos] = cols ++ (n :: l).map fun m => ((Obj.get o m).filter (· ≠ .null)).map (csvText env)
  | [], n, cols => by
    refine ⟨_, _, csvRun_col_all cols, ?_⟩
    simp
  | m :: l, n, cols => by
    have e : csvCols env o (n :: m :: l) = csvCol env o n ++ bs! "," ++ csvCols env o (m :: l) := rfl
    obtain ⟨pos, cols', h1, h2⟩ := csvRun_cols_all l m (cols ++ [((Obj.get o n).filter (· ≠ .null)).map (csvText env)])
    refine ⟨pos, cols', ?_, ?_⟩
    · rw [e, csvRun_append, csvRun_append, csvRun_col_all, Option.bind_some, csvStep_sep, Option.bind_some, h1]
    · rw [h2]; simp

/-! ### structured data -/

theorem sdRun_append (s t : Bytes) (x) : sdRun (s ++ t) x = (sdRun s x).bind (sdRun t) := by
  induction s generalizing x with
  | nil => rfl
  | cons c s ih =>
    show (sdStep c x).bind (sdRun (s ++ t)) = ((sdStep c x).bind (sdRun s)).bind (sdRun t)
    cases sdStep c x with
    | none => rfl
    | some y => exact ih y

theorem sdRun_char {c : UInt8} (h0 : c ≠ 0) (name : Bytes) (items : List Bytes) (cur : Bytes) (ps : List (Bytes × List Bytes)) :
    sdRun (sdChar c) (.val name items cur, ps) = some (.val name items (cur ++ [c]), ps) := by
  unfold sdChar
  rw [if_neg h0]
  split
  · rename_i h; subst h; rfl
  split
  · rename_i h; subst h; rfl
  split
  · rename_i h; subst h; rfl
  split
  · rename_i h; subst h; rfl
  split
  · rename_i h; subst h; rfl
  rename_i h1 h2 h3 h4 h5
  simp only [sdRun, sdStep, if_neg h5, if_neg h3, if_neg h2, if_neg h4, Option.bind_some]

theorem sdRun_value : ∀ {t : Bytes}, 0 ∉ t → ∀ (name : Bytes) (items : List Bytes) (cur : Bytes) (ps : List (Bytes × List Bytes)),
    sdRun (sdValue t) (.val name items cur, ps) = some (.val name items (cur ++ t), ps)
  | [], _, name, items, cur, ps => by simp [sdValue, sdRun]
  | c :: t, h, name, items, cur, ps => by
    have : sdValue (c :: t) = sdChar c ++ sdValue t := by simp [sdValue]
    rw [this, sdRun_append, sdRun_char (fun e => h (e ▸ List.mem_cons_self ..)), Option.bind_some,
      sdRun_value fun hx => h (List.mem_cons_of_mem _ hx)]
    simp

/-- the encoder of items: what it writes is read as the item -/
def SdReads (enc : Bytes → Bytes) (t : Bytes) : Prop :=
  ∀ (name : Bytes) (items : List Bytes) (cur : Bytes) (ps : List (Bytes × List Bytes)),
    sdRun (enc t) (.val name items cur, ps) = some (.val name items (cur ++ t), ps)

theorem sdRun_items {enc : Bytes → Bytes} : ∀ (l : List Bytes) (t : Bytes) (name : Bytes) (items : List Bytes) (ps : List (Bytes × List Bytes)),
    (∀ x ∈ t :: l, SdReads enc x) →
    sdRun (commaSep enc (t :: l) true ++ bs! "\"") (.val name items [], ps) = some (.between, ps ++ [(name, items ++ t :: l)])
  | [], t, name, items, ps, h => by
    have e : commaSep enc [t] true = enc t := by simp [commaSep]
    rw [e, sdRun_append, h t (List.mem_cons_self ..), Option.bind_some]
    rfl
  | u :: l, t, name, items, ps, h => by
    have e : commaSep enc (t :: u :: l) true ++ bs! "\"" = enc t ++ (bs! "," ++ (commaSep enc (u :: l) true ++ bs! "\"")) := by
      simp [commaSep]
    rw [e, sdRun_append, h t (List.mem_cons_self ..), Option.bind_some, sdRun_append]
    have e2 : sdRun (bs! ",") (.val name items ([] ++ t), ps) = some (.val name (items ++ [t]) [], ps) := rfl
    rw [e2, Option.bind_some, sdRun_items l u name _ ps fun x hx => h x (List.mem_cons_of_mem _ hx)]
    simp

theorem sdRun_name : ∀ {n : Bytes}, (∀ c ∈ n, c ≠ ch! '=' ∧ c ≠ ch! ' ' ∧ c ≠ ch! ']' ∧ c ≠ ch! '"') →
    ∀ (acc : Bytes) (ps : List (Bytes × List Bytes)), sdRun n (.name acc, ps) = some (.name (acc ++ n), ps)
  | [], _, acc, ps => by simp [sdRun]
  | c :: n, h, acc, ps => by
    have hc := h c (List.mem_cons_self ..)
    have e : sdStep c (.name acc, ps) = some (.name (acc ++ [c]), ps) := by
      simp [sdStep, hc.1, hc.2.1, hc.2.2.1, hc.2.2.2]
    show (sdStep c (.name acc, ps)).bind (sdRun n) = _
    rw [e, Option.bind_some, sdRun_name fun x hx => h x (List.mem_cons_of_mem _ hx)]
    simp

theorem sdField_text {name : Bytes} {j : Json}
    (h : Scalar env j ∨ ∃ l, j = .arr l ∧ l ≠ [] ∧ ∀ j ∈ l, Readable env j) :
    sdField env name j = name ++ bs! "=\"" ++ (commaSep sdValue (itemsOf env j) true ++ bs! "\"") ∧
    (∃ t l, itemsOf env j = t :: l) ∧ ∀ x ∈ itemsOf env j, 0 ∉ x := by
  rcases h with ⟨⟨s, rfl⟩ | ⟨n, rfl⟩, h⟩ | ⟨l, rfl, hne, h⟩
  · refine ⟨?_, ⟨_, _, rfl⟩, ?_⟩
    · simp only [sdField, itemsOf, textOfJson, commaSep] at h ⊢
      rw [cstr_of_noNul h]; simp
    · intro x hx; rw [List.mem_singleton.1 hx]; exact h
  · refine ⟨?_, ⟨_, _, rfl⟩, ?_⟩
    · simp only [sdField, itemsOf, textOfJson, commaSep] at h ⊢
      rw [cstr_of_noNul h]; simp
    · intro x hx; rw [List.mem_singleton.1 hx]; exact h
  · refine ⟨?_, ?_, ?_⟩
    · simp only [sdField, itemsOf]
      rw [arrTexts_readable fun x hx => h x (List.mem_reverse.1 hx)]
      simp
    · cases hx : itemsOf env (.arr l) with
      | nil => simp [itemsOf] at hx; exact absurd hx hne
      | cons t u => exact ⟨t, u, rfl⟩
    · intro x hx
      obtain ⟨y, hy, rfl⟩ := List.mem_map.1 hx
      exact (h y (List.mem_reverse.1 hy)).2

theorem sdRun_field {m : Bytes × Json} (hn : ∀ c ∈ m.1, c ≠ ch! '=' ∧ c ≠ ch! ' ' ∧ c ≠ ch! ']' ∧ c ≠ ch! '"')
    (h : Scalar env m.2 ∨ ∃ l, m.2 = .arr l ∧ l ≠ [] ∧ ∀ j ∈ l, Readable env j) (ps : List (Bytes × List Bytes)) :
    sdRun (bs! " " ++ sdField env m.1 m.2) (.between, ps) = some (.between, ps ++ [(m.1, itemsOf env m.2)]) := by
  obtain ⟨h1, ⟨t, l, h2⟩, h3⟩ := sdField_text (name := m.1) h
  rw [h1, List.append_assoc, sdRun_append]
  have e1 : sdRun (bs! " ") (.between, ps) = some (.name [], ps) := rfl
  rw [e1, Option.bind_some, sdRun_append, sdRun_name hn, Option.bind_some, sdRun_append]
  have e2 : sdRun (bs! "=\"") (.name ([] ++ m.1), ps) = some (.val m.1 [] [], ps) := rfl
  rw [e2, Option.bind_some, h2, sdRun_items]
  · rfl
  · intro x hx
    rw [← h2] at hx
    exact fun _ _ _ _ => sdRun_value (h3 x hx) _ _ _ _

theorem sdRun_fields : ∀ (o : Obj), (∀ m ∈ o, (∀ c ∈ m.1, c ≠ ch! '=' ∧ c ≠ ch! ' ' ∧ c ≠ ch! ']' ∧ c ≠ ch! '"') ∧
    (Scalar env m.2 ∨ ∃ l, m.2 = .arr l ∧ l ≠ [] ∧ ∀ j ∈ l, Readable env j)) → ∀ ps,
    sdRun (o.flatMap fun m => bs! " " ++ sdField env m.1 m.2) (.between, ps) =
      some (.between, ps ++ o.map fun m => (m.1, itemsOf env m.2))
  | [], _, ps => by simp [sdRun]
  | m :: o, h, ps => by
    have hm := h m (List.mem_cons_self ..)
    rw [List.flatMap_cons, sdRun_append, sdRun_field hm.1 hm.2, Option.bind_some,
      sdRun_fields o fun x hx => h x (List.mem_cons_of_mem _ hx)]
    simp

theorem sdRun_plain : ∀ {t : Bytes}, (∀ c ∈ t, c ≠ ch! '"' ∧ c ≠ ch! '\\' ∧ c ≠ ch! ']' ∧ c ≠ ch! ',') → SdReads id t
  | [], _ => fun _ _ _ _ => by simp [sdRun]
  | c :: t, h => fun name items cur ps => by
    have hc := h c (List.mem_cons_self ..)
    have e : sdStep c (.val name items cur, ps) = some (.val name items (cur ++ [c]), ps) := by
      simp [sdStep, hc.1, hc.2.1, hc.2.2.1, hc.2.2.2]
    show (sdStep c (.val name items cur, ps)).bind (sdRun t) = _
    rw [e, Option.bind_some]
    have := sdRun_plain (fun x hx => h x (List.mem_cons_of_mem _ hx)) name items (cur ++ [c]) ps
    rw [id] at this
    rw [this]
    simp

theorem sdRun_tags {l : List Json} (hne : l ≠ []) (h : ∀ t ∈ l, Readable env t ∧ ∀ c ∈ textOfJson env t, c ≠ ch! '"' ∧ c ≠ ch! '\\' ∧ c ≠ ch! ']' ∧ c ≠ ch! ',')
    (ps : List (Bytes × List Bytes)) :
    sdRun (sdTags env l).1 (.between, ps) = some (.between, ps ++ [(bs! "event.tags", itemsOf env (.arr l))]) ∧ (sdTags env l).2 = true := by
  unfold sdTags
  rw [arrTexts_readable fun x hx => (h x (List.mem_reverse.1 hx)).1]
  refine ⟨?_, rfl⟩
  dsimp only
  rw [if_pos rfl, List.append_assoc, sdRun_append]
  have e1 : sdRun (bs! " event.tags=\"") (.between, ps) = some (.val (bs! "event.tags") [] [], ps) := rfl
  rw [e1, Option.bind_some]
  cases hx : l.reverse.map (textOfJson env) with
  | nil => simp at hx; exact absurd hx hne
  | cons t u =>
    rw [sdRun_items u t _ _ _ (by
      intro x hx'
      rw [← hx] at hx'
      obtain ⟨y, hy, rfl⟩ := List.mem_map.1 hx'
      exact sdRun_plain (h y (List.mem_reverse.1 hy)).2)]
    simp only [itemsOf, hx, List.nil_append]

/-! ### XML -/

theorem xmlRun_append (s t : Bytes) (x) : xmlRun (s ++ t) x = (xmlRun s x).bind (xmlRun t) := by
  induction s generalizing x with
  | nil => rfl
  | cons c s ih =>
    show (xmlStep c x).bind (xmlRun (s ++ t)) = ((xmlStep c x).bind (xmlRun s)).bind (xmlRun t)
    cases xmlStep c x with
    | none => rfl
    | some y => exact ih y

theorem evRun_append (s t : List XmlTok) (x) : evRun (s ++ t) x = (evRun s x).bind (evRun t) := by
  induction s generalizing x with
  | nil => rfl
  | cons c s ih =>
    show (evStep c x).bind (evRun (s ++ t)) = ((evStep c x).bind (evRun s)).bind (evRun t)
    cases evStep c x with
    | none => rfl
    | some y => exact ih y

/-- the text consists of these tokens, wherever it stands between tokens -/
def Tok (s : Bytes) (l : List XmlTok) : Prop := ∀ ts, xmlRun s (.text, ts) = some (.text, ts ++ l)

theorem Tok.append {s t : Bytes} {l m : List XmlTok} (hs : Tok s l) (ht : Tok t m) : Tok (s ++ t) (l ++ m) := by
  intro ts
  rw [xmlRun_append, hs, Option.bind_some, ht, List.append_assoc]

theorem Tok.nil : Tok [] [] := by intro ts; simp [xmlRun]

theorem Tok.flatMap {α : Type} {f : α → Bytes} {g : α → List XmlTok} : ∀ {l : List α}, (∀ a ∈ l, Tok (f a) (g a)) → Tok (l.flatMap f) (l.flatMap g)
  | [], _ => Tok.nil
  | a :: l, h => by
    rw [List.flatMap_cons, List.flatMap_cons]
    exact (h a (List.mem_cons_self ..)).append (Tok.flatMap fun b hb => h b (List.mem_cons_of_mem _ hb))

theorem tok_char {c : UInt8} (h0 : c ≠ 0) : Tok (xmlChar c) [.data c] := by
  intro ts
  unfold xmlChar
  rw [if_neg h0]
  split
  · rename_i h; subst h; rfl
  split
  · rename_i h; subst h; rfl
  rename_i h1 h2
  simp only [xmlRun, xmlStep, if_neg h1, if_neg h2, Option.bind_some]

theorem tok_text {t : Bytes} (h : 0 ∉ t) : Tok (t.flatMap xmlChar) (t.map .data) := by
  have := Tok.flatMap (f := xmlChar) (g := fun c => [XmlTok.data c]) (l := t) fun c hc => tok_char fun e => h (e ▸ hc)
  rwa [List.map_eq_flatMap]

theorem tok_plain {t : Bytes} (h : ∀ c ∈ t, c ≠ ch! '<' ∧ c ≠ ch! '&') : Tok t (t.map .data) := by
  have := Tok.flatMap (f := fun c => [c]) (g := fun c => [XmlTok.data c]) (l := t) (by
    intro c hc ts
    have := h c hc
    simp only [xmlRun, xmlStep, if_neg this.1, if_neg this.2, Option.bind_some])
  rwa [← List.map_eq_flatMap, ← List.map_eq_flatMap, List.map_id'] at this

theorem xmlRun_inTag : ∀ {n : Bytes}, (∀ c ∈ n, c ≠ ch! '<' ∧ c ≠ ch! '>') → ∀ (acc : Bytes) (ts : List XmlTok),
    xmlRun n (.inTag acc, ts) = some (.inTag (acc ++ n), ts)
  | [], _, acc, ts => by simp [xmlRun]
  | c :: n, h, acc, ts => by
    have hc := h c (List.mem_cons_self ..)
    have e : xmlStep c (.inTag acc, ts) = some (.inTag (acc ++ [c]), ts) := by simp [xmlStep, hc.1, hc.2]
    show (xmlStep c (.inTag acc, ts)).bind (xmlRun n) = _
    rw [e, Option.bind_some, xmlRun_inTag fun x hx => h x (List.mem_cons_of_mem _ hx)]
    simp

theorem tok_markup {n : Bytes} (h : ∀ c ∈ n, c ≠ ch! '<' ∧ c ≠ ch! '>') : Tok (bs! "<" ++ n ++ bs! ">") [.markup n] := by
  intro ts
  rw [List.append_assoc, xmlRun_append]
  have e1 : xmlRun (bs! "<") (.text, ts) = some (.inTag [], ts) := rfl
  rw [e1, Option.bind_some, xmlRun_append, xmlRun_inTag h, Option.bind_some]
  rfl

/-- the tokens of a value -/
def valueToks (t : Bytes) : List XmlTok := [.markup (bs! "value")] ++ t.map .data ++ [.markup (bs! "/value")]

theorem tok_value {t : Bytes} (h : 0 ∉ t) : Tok (xmlValue t) (valueToks t) := by
  unfold xmlValue valueToks
  exact ((tok_markup (n := bs! "value") (by decide)).append (tok_text h)).append (tok_markup (n := bs! "/value") (by decide))

/-- the tokens of a field -/
def fieldToks (n : Bytes) (items : List Bytes) : List XmlTok :=
  [.markup (bs! "field name=\"" ++ n ++ bs! "\"")] ++ items.flatMap valueToks ++ [.markup (bs! "/field")]

theorem tok_field {n : Bytes} {j : Json} (hn : ∀ c ∈ n, c ≠ ch! '<' ∧ c ≠ ch! '>')
    (h : Scalar env j ∨ ∃ l, j = .arr l ∧ ∀ j ∈ l, Readable env j) : Tok (xmlField env n j) (fieldToks n (itemsOf env j)) := by
  have hitems : ∀ x ∈ itemsOf env j, 0 ∉ x := by
    rcases h with ⟨⟨s, rfl⟩ | ⟨n, rfl⟩, h⟩ | ⟨l, rfl, h⟩
    · intro x hx; rw [List.mem_singleton.1 hx]; exact h
    · intro x hx; rw [List.mem_singleton.1 hx]; exact h
    · intro x hx
      obtain ⟨y, hy, rfl⟩ := List.mem_map.1 hx
      exact (h y (List.mem_reverse.1 hy)).2
  have htext : xmlField env n j = (bs! "<" ++ (bs! "field name=\"" ++ n ++ bs! "\"") ++ bs! ">") ++
      (itemsOf env j).flatMap xmlValue ++ bs! "</field>" := by
    rcases h with ⟨⟨s, rfl⟩ | ⟨n, rfl⟩, h⟩ | ⟨l, rfl, h⟩
    · simp only [xmlField, itemsOf, textOfJson] at h ⊢
      rw [cstr_of_noNul h]; simp
    · simp only [xmlField, itemsOf, textOfJson] at h ⊢
      rw [cstr_of_noNul h]; simp
    · simp only [xmlField, itemsOf]
      rw [arrTexts_readable fun x hx => h x (List.mem_reverse.1 hx)]
      simp
  rw [htext]
  unfold fieldToks
  refine ((tok_markup ?_).append (Tok.flatMap fun t ht => tok_value (hitems t ht))).append (tok_markup (n := bs! "/field") (by decide))
  intro c hc
  rcases List.mem_append.1 hc with hc | hc
  · rcases List.mem_append.1 hc with hc | hc
    · have : ∀ c ∈ bs! "field name=\"", c ≠ ch! '<' ∧ c ≠ ch! '>' := by decide
      exact this c hc
    · exact hn c hc
  · have : ∀ c ∈ bs! "\"", c ≠ ch! '<' ∧ c ≠ ch! '>' := by decide
    exact this c hc

/-- the tokens of the tags -/
def tagToks (ts : List Bytes) : List XmlTok :=
  [.markup (bs! "event.tags")] ++ ts.flatMap (fun t => [.markup (bs! "tag")] ++ t.map .data ++ [.markup (bs! "/tag")]) ++ [.markup (bs! "/event.tags")]

theorem tok_tags {l : List Json} (h : ∀ t ∈ l, Readable env t ∧ ∀ c ∈ textOfJson env t, c ≠ ch! '<' ∧ c ≠ ch! '&') :
    Tok (xmlTags env l).1 (tagToks (itemsOf env (.arr l))) ∧ (xmlTags env l).2 = true := by
  unfold xmlTags
  rw [arrTexts_readable fun x hx => (h x (List.mem_reverse.1 hx)).1]
  refine ⟨?_, rfl⟩
  dsimp only
  rw [if_pos rfl]
  unfold tagToks
  refine ((tok_markup (n := bs! "event.tags") (by decide)).append (Tok.flatMap fun t ht => ?_)).append (tok_markup (n := bs! "/event.tags") (by decide))
  obtain ⟨y, hy, rfl⟩ := List.mem_map.1 ht
  exact ((tok_markup (n := bs! "tag") (by decide)).append (tok_plain (h y (List.mem_reverse.1 hy)).2)).append (tok_markup (n := bs! "/tag") (by decide))

theorem evRun_data {n : Bytes} {items : List Bytes} {tags : List Bytes} {fs : List (Bytes × List Bytes)} : ∀ (t acc : Bytes),
    evRun (t.map .data) (.value n items acc, tags, fs) = some (.value n items (acc ++ t), tags, fs)
  | [], acc => by simp [evRun]
  | c :: t, acc => by
    show (evStep (.data c) (.value n items acc, tags, fs)).bind (evRun (t.map .data)) = _
    simp only [evStep, Option.bind_some]
    rw [evRun_data t]; simp

theorem evRun_values {n : Bytes} {tags : List Bytes} {fs : List (Bytes × List Bytes)} : ∀ (l items : List Bytes),
    evRun (l.flatMap valueToks) (.field n items, tags, fs) = some (.field n (items ++ l), tags, fs)
  | [], items => by simp [evRun]
  | t :: l, items => by
    rw [List.flatMap_cons, evRun_append]
    unfold valueToks
    rw [evRun_append, evRun_append]
    have e1 : evRun [.markup (bs! "value")] (.field n items, tags, fs) = some (.value n items [], tags, fs) := rfl
    rw [e1, Option.bind_some, evRun_data, Option.bind_some]
    have e2 : evRun [.markup (bs! "/value")] (.value n items ([] ++ t), tags, fs) = some (.field n (items ++ [t]), tags, fs) := rfl
    rw [e2, Option.bind_some]
    have := evRun_values (n := n) (tags := tags) (fs := fs) l (items ++ [t])
    unfold valueToks at this
    rw [this]; simp

theorem evRun_field {tags : List Bytes} {fs : List (Bytes × List Bytes)} (n : Bytes) (items : List Bytes) :
    evRun (fieldToks n items) (.outside, tags, fs) = some (.outside, tags, fs ++ [(n, items)]) := by
  unfold fieldToks
  rw [evRun_append, evRun_append]
  have e1 : evRun [.markup (bs! "field name=\"" ++ n ++ bs! "\"")] (.outside, tags, fs) = some (.field n [], tags, fs) := by
    simp only [evRun, evStep]
    have h1 : bs! "field name=\"" ++ n ++ bs! "\"" ≠ bs! "/event" := by simp
    have h2 : bs! "field name=\"" ++ n ++ bs! "\"" ≠ bs! "event.tags" := by simp
    have h3 : (bs! "field name=\"").isPrefixOf (bs! "field name=\"" ++ n ++ bs! "\"") = true ∧
        (bs! "field name=\"" ++ n ++ bs! "\"").getLast? = some (ch! '"') := by
      refine ⟨?_, ?_⟩
      · rw [List.isPrefixOf_iff_prefix, List.append_assoc]; exact List.prefix_append ..
      · rw [List.getLast?_append]; rfl
    rw [if_neg h1, if_neg h2, if_pos h3]
    simp only [Option.bind_some]
    rw [List.append_assoc, List.drop_left' (by rfl)]
    simp
  rw [e1, Option.bind_some, evRun_values, Option.bind_some]
  rfl

theorem evRun_fields {tags : List Bytes} : ∀ (o : List (Bytes × List Bytes)) (fs : List (Bytes × List Bytes)),
    evRun (o.flatMap fun m => fieldToks m.1 m.2) (.outside, tags, fs) = some (.outside, tags, fs ++ o)
  | [], fs => by simp [evRun]
  | m :: o, fs => by
    rw [List.flatMap_cons, evRun_append, evRun_field, Option.bind_some, evRun_fields o]; simp

theorem evRun_tagData {tags : List Bytes} {fs : List (Bytes × List Bytes)} : ∀ (t acc : Bytes),
    evRun (t.map .data) (.tag acc, tags, fs) = some (.tag (acc ++ t), tags, fs)
  | [], acc => by simp [evRun]
  | c :: t, acc => by
    show (evStep (.data c) (.tag acc, tags, fs)).bind (evRun (t.map .data)) = _
    simp only [evStep, Option.bind_some]
    rw [evRun_tagData t]; simp

theorem evRun_tagList {fs : List (Bytes × List Bytes)} : ∀ (l tags : List Bytes),
    evRun (l.flatMap (fun t => [.markup (bs! "tag")] ++ t.map .data ++ [.markup (bs! "/tag")])) (.tags, tags, fs) = some (.tags, tags ++ l, fs)
  | [], tags => by simp [evRun]
  | t :: l, tags => by
    rw [List.flatMap_cons, evRun_append, evRun_append, evRun_append]
    have e1 : evRun [.markup (bs! "tag")] (.tags, tags, fs) = some (.tag [], tags, fs) := rfl
    rw [e1, Option.bind_some, evRun_tagData, Option.bind_some]
    have e2 : evRun [.markup (bs! "/tag")] (.tag ([] ++ t), tags, fs) = some (.tags, tags ++ [t], fs) := rfl
    rw [e2, Option.bind_some, evRun_tagList l]; simp

theorem evRun_tags {fs : List (Bytes × List Bytes)} (l tags : List Bytes) :
    evRun (tagToks l) (.outside, tags, fs) = some (.outside, tags ++ l, fs) := by
  unfold tagToks
  rw [evRun_append, evRun_append]
  have e1 : evRun [.markup (bs! "event.tags")] (.outside, tags, fs) = some (.tags, tags, fs) := rfl
  rw [e1, Option.bind_some, evRun_tagList, Option.bind_some]
  rfl

end LN
