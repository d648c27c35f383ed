import Verif.Props.Malformed
import Verif.Props.Samp
/- C53, C49: lines which are ignored silently; names which are too long. -/
set_option autoImplicit false
namespace LN

section
variable {env : Env} {srt : Sorter} {fs : Bytes → Option Bytes}

theorem typeName_long {name t : Bytes} (h1 : name.head? = some (ch! '@')) (h2 : 1024 ≤ name.length) (h3 : ∀ c ∈ name, c ≠ ch! ':' ∧ isSpace c = false) :
    typeName (name ++ ch! ':' :: t) = (none, none) := by
  unfold typeName
  have hh : (name ++ ch! ':' :: t).head? = some (ch! '@') := by
    cases name with
    | nil => cases h1
    | cons a n => exact h1
  rw [if_neg (by rw [hh]; simp)]
  rw [takeWhile_append_stop (p := fun c : UInt8 => c != ch! ':') (by decide) _ _ (fun x hx => by simpa using (h3 x hx).1)]
  have hany : (name.take (maxTypeName - 1)).any isSpace = false := by
    rw [List.any_eq_false]
    intro x hx
    rw [(h3 x (List.mem_of_mem_take hx)).2]; simp
  have hlen : (name.take (maxTypeName - 1)).length = 1023 := by
    rw [List.length_take]; unfold maxTypeName; omega
  dsimp only
  rw [hany, hlen]
  have : ∃ d u, (name ++ ch! ':' :: t).drop 1023 = d :: u ∧ d ∈ name := by
    rw [List.drop_append_of_le_length (by omega), List.drop_eq_getElem_cons (by omega : 1023 < name.length)]
    exact ⟨_, _, rfl, List.getElem_mem _⟩
  obtain ⟨d, u, hd, hm⟩ := this
  rw [hd]
  simp [(h3 d hm).1]

theorem procLines_same {proc : LoadSt → Bytes → R (LoadSt × Bool)} {l : Bytes} (hp : ∀ st, proc st l = .ok (st, true)) :
    ∀ (l1 l2 : List Bytes) (st : LoadSt), procLines proc st (l1 ++ l :: l2) = procLines proc st (l1 ++ [] :: l2)
  | [], l2, st => by
    have e : procLines proc st ([] :: l2) = procLines proc { st with line := st.line + 1 } l2 := by
      simp [procLines, skipped]
    rw [List.nil_append, List.nil_append, e]
    conv => lhs; unfold procLines
    split
    · rfl
    · rw [hp, R.ok_bind']
      rfl
  | a :: l1, l2, st => by
    simp only [List.cons_append]
    unfold procLines
    split
    · exact procLines_same hp l1 l2 _
    · refine R_bind_congr _ fun r => ?_
      split
      · exact procLines_same hp l1 l2 _
      · rfl

theorem line_ignored (l1 l2 : List Bytes) (last l : Bytes) (h1 : ∀ l ∈ l1, LineOK l) (h2 : ∀ l ∈ l2, LineOK l) (hlast : LineOK last)
    (hl : LineOK l) (fuel : Nat) (st : LoadSt) (hp : ∀ st, processSamp env (loadSamples env srt fs fuel) fuel st l = .ok (st, true)) :
    loadSamplesFromString env srt fs fuel st (textOf (l1 ++ l :: l2) last) =
      loadSamplesFromString env srt fs fuel st (textOf (l1 ++ [] :: l2) last) := by
  have hall : ∀ x : Bytes, LineOK x → ∀ l ∈ l1 ++ x :: l2, LineOK l := by
    intro x hx l h
    rcases List.mem_append.1 h with h | h
    · exact h1 l h
    · rcases List.mem_cons.1 h with rfl | h
      · exact hx
      · exact h2 l h
  rw [C52_string_lines _ last (hall _ hl) hlast, C52_string_lines _ last (hall [] (by decide)) hlast]
  unfold procText
  rw [procLines_same hp]

theorem type_ignored (l1 l2 : List Bytes) (last s : Bytes) (h1 : ∀ l ∈ l1, LineOK l) (h2 : ∀ l ∈ l2, LineOK l) (hlast : LineOK last)
    (hl : LineOK (bs! "type=" ++ s)) (ht : typeName s = (none, none)) (fuel : Nat) (st : LoadSt) :
    loadSamplesFromString env srt fs fuel st (textOf (l1 ++ (bs! "type=" ++ s) :: l2) last) =
      loadSamplesFromString env srt fs fuel st (textOf (l1 ++ [] :: l2) last) := by
  refine line_ignored l1 l2 last _ h1 h2 hlast hl fuel st fun st => ?_
  have e : lineType (bs! "type=" ++ s) = (bs! "type", s) := by
    simp [lineType]
  unfold processSamp
  rw [e]
  simp only
  rw [if_neg (by decide), if_neg (by decide), if_neg (by decide), if_neg (by decide), if_pos trivial]
  unfold processType
  rw [ht]
  rfl

theorem tagLoop_plain : ∀ (s : Bytes), (∀ c ∈ s, c ≠ ch! ':' ∧ c ≠ ch! ',') → ∀ (cur : Option Bytes) (acc : List Bytes), tagLoop s cur acc = .fail
  | [], _, _, _ => by simp [tagLoop]
  | c :: t, h, cur, acc => by
    have hc := h c (List.mem_cons_self ..)
    simp only [tagLoop, if_neg hc.1, if_neg hc.2]
    exact tagLoop_plain t (fun x hx => h x (List.mem_cons_of_mem _ hx)) _ _

/-- **C53 violated** A rule without colon (and comma) is ignored without any message -/
theorem C53_rule_no_colon_violated (l1 l2 : List Bytes) (last s : Bytes) (h1 : ∀ l ∈ l1, LineOK l) (h2 : ∀ l ∈ l2, LineOK l) (hlast : LineOK last)
    (hl : LineOK (bs! "rule=" ++ s)) (hc : ∀ c ∈ s, c ≠ ch! ':' ∧ c ≠ ch! ',') (fuel : Nat) (st : LoadSt) :
    loadSamplesFromString env srt fs fuel st (textOf (l1 ++ (bs! "rule=" ++ s) :: l2) last) =
      loadSamplesFromString env srt fs fuel st (textOf (l1 ++ [] :: l2) last) := by
  refine line_ignored l1 l2 last _ h1 h2 hlast hl fuel st fun st => ?_
  have e : lineType (bs! "rule=" ++ s) = (bs! "rule", s) := by
    simp [lineType]
  unfold processSamp
  rw [e]
  simp only
  rw [if_neg (by decide), if_neg (by decide), if_neg (by decide), if_pos trivial]
  unfold processRule
  rw [tagLoop_plain s hc]
  rfl

/-- `rule=abc` -/
example : LineOK (bs! "rule=" ++ bs! "abc") ∧ ∀ c ∈ bs! "abc", c ≠ ch! ':' ∧ c ≠ ch! ',' := by decide

/-- **C53 violated** A line which begins with `=` is ignored without any message -/
theorem C53_no_kind_violated (l1 l2 : List Bytes) (last s : Bytes) (h1 : ∀ l ∈ l1, LineOK l) (h2 : ∀ l ∈ l2, LineOK l) (hlast : LineOK last)
    (hl : LineOK (bs! "=" ++ s)) (fuel : Nat) (st : LoadSt) :
    loadSamplesFromString env srt fs fuel st (textOf (l1 ++ (bs! "=" ++ s) :: l2) last) =
      loadSamplesFromString env srt fs fuel st (textOf (l1 ++ [] :: l2) last) := by
  refine line_ignored l1 l2 last _ h1 h2 hlast hl fuel st fun st => ?_
  have e : lineType (bs! "=" ++ s) = ([], s) := by
    simp [lineType]
  unfold processSamp
  rw [e]
  simp only
  rw [if_pos trivial]

example : LineOK (bs! "=" ++ bs! "abc") := by decide

/-- **C53 violated** An annotation without colon is ignored without any message -/
theorem C53_annotate_no_colon_violated (l1 l2 : List Bytes) (last s : Bytes) (h1 : ∀ l ∈ l1, LineOK l) (h2 : ∀ l ∈ l2, LineOK l) (hlast : LineOK last)
    (hl : LineOK (bs! "annotate=" ++ s)) (hc : ch! ':' ∉ s) (fuel : Nat) (st : LoadSt) :
    loadSamplesFromString env srt fs fuel st (textOf (l1 ++ (bs! "annotate=" ++ s) :: l2) last) =
      loadSamplesFromString env srt fs fuel st (textOf (l1 ++ [] :: l2) last) := by
  refine line_ignored l1 l2 last _ h1 h2 hlast hl fuel st fun st => ?_
  have e : lineType (bs! "annotate=" ++ s) = (bs! "annotate", s) := by
    simp [lineType]
  unfold processSamp
  rw [e]
  simp only
  rw [if_neg (by decide), if_neg (by decide), if_neg (by decide), if_neg (by decide), if_neg (by decide), if_pos trivial]
  have hsub : ∀ c ∈ (getFieldName s).2, c ∈ s := by
    intro c h
    unfold getFieldName at h
    simp only at h
    exact (List.dropWhile_sublist _).subset h
  have : processAnnotate fuel st s = .ok st := by
    unfold processAnnotate
    simp only
    split
    · rename_i c t tag h _
      rw [if_pos]
      intro hcc
      subst hcc
      exact hc (hsub _ ((List.dropWhile_sublist _).subset (by rw [h]; exact List.mem_cons_self ..)))
    · rfl
  rw [this]
  rfl

/-- `annotate=t +k="v"` -/
example : LineOK (bs! "annotate=" ++ bs! "t +k=\"v\"") ∧ ch! ':' ∉ bs! "t +k=\"v\"" := by decide

/-- **C53 violated** A definition of a type whose name (with the `@`) has 1024 bytes or more is ignored without any message: the rule base loads, and behaves,
as if there were an empty line in its place. (Shorter names are accepted: C79.) -/
theorem C53_long_type_name_violated (l1 l2 : List Bytes) (last name t : Bytes) (h1 : ∀ l ∈ l1, LineOK l) (h2 : ∀ l ∈ l2, LineOK l) (hlast : LineOK last)
    (hl : LineOK (bs! "type=" ++ name ++ bs! ":" ++ t)) (hat : name.head? = some (ch! '@')) (hlen : 1024 ≤ name.length)
    (hc : ∀ c ∈ name, c ≠ ch! ':' ∧ isSpace c = false) (fuel : Nat) (st : LoadSt) :
    loadSamplesFromString env srt fs fuel st (textOf (l1 ++ (bs! "type=" ++ name ++ bs! ":" ++ t) :: l2) last) =
      loadSamplesFromString env srt fs fuel st (textOf (l1 ++ [] :: l2) last) := by
  have e : bs! "type=" ++ name ++ bs! ":" ++ t = bs! "type=" ++ (name ++ ch! ':' :: t) := by simp
  rw [e] at hl ⊢
  exact type_ignored l1 l2 last _ h1 h2 hlast hl (typeName_long hat hlen hc) fuel st

/-- **C53 violated** A definition of a type without colon is ignored without any message -/
theorem C53_type_no_colon_violated (l1 l2 : List Bytes) (last name : Bytes) (h1 : ∀ l ∈ l1, LineOK l) (h2 : ∀ l ∈ l2, LineOK l) (hlast : LineOK last)
    (hl : LineOK (bs! "type=" ++ name)) (hat : name.head? = some (ch! '@')) (hc : ∀ c ∈ name, c ≠ ch! ':' ∧ isSpace c = false) (fuel : Nat) (st : LoadSt) :
    loadSamplesFromString env srt fs fuel st (textOf (l1 ++ (bs! "type=" ++ name) :: l2) last) =
      loadSamplesFromString env srt fs fuel st (textOf (l1 ++ [] :: l2) last) := by
  refine type_ignored l1 l2 last _ h1 h2 hlast hl ?_ fuel st
  unfold typeName
  rw [if_neg (by rw [hat]; simp), takeWhile_self _ fun x hx => by simpa using (hc x hx).1]
  have hany : (name.take (maxTypeName - 1)).any isSpace = false := by
    rw [List.any_eq_false]
    intro x hx
    rw [(hc x (List.mem_of_mem_take hx)).2]; simp
  dsimp only
  rw [hany]
  cases hd : name.drop (name.take (maxTypeName - 1)).length with
  | nil => rfl
  | cons d u =>
    have : d ∈ name := List.mem_of_mem_drop (by rw [hd]; exact List.mem_cons_self ..)
    simp [(hc d this).1]

/-- `type=@tnumber` -/
example : LineOK (bs! "type=" ++ bs! "@tnumber") ∧ (∀ c ∈ bs! "@tnumber", c ≠ ch! ':' ∧ isSpace c = false) := by decide

theorem longLine_ok (n : Nat) (hn : n < 60000) : LineOK (bs! "type=" ++ (ch! '@' :: List.replicate n (ch! 'x')) ++ bs! ":" ++ bs! "%n:number%") := by
  have e : List.count (ch! '%') (List.replicate n (ch! 'x')) = 0 := by
    rw [List.count_replicate, if_neg (by decide)]
  refine ⟨?_, .inr ⟨?_, ?_⟩⟩
  · intro c h
    rcases List.mem_append.1 h with h | h
    · rcases List.mem_append.1 h with h | h
      · rcases List.mem_append.1 h with h | h
        · exact (by decide : ∀ c ∈ bs! "type=", c ≠ ch! '\n' ∧ c ≠ 0 ∧ c ≠ 255) c h
        · rcases List.mem_cons.1 h with rfl | h
          · decide
          · rw [List.eq_of_mem_replicate h]; decide
      · exact (by decide : ∀ c ∈ bs! ":", c ≠ ch! '\n' ∧ c ≠ 0 ∧ c ≠ 255) c h
    · exact (by decide : ∀ c ∈ bs! "%n:number%", c ≠ ch! '\n' ∧ c ≠ 0 ∧ c ≠ 255) c h
  · rw [List.count_append, List.count_append, List.count_append, List.count_cons (b := ch! '@'), e]
    decide
  · simp only [List.length_append, List.length_cons, List.length_replicate, List.length_nil]
    omega

theorem longName_char (n : Nat) : ∀ c ∈ ch! '@' :: List.replicate n (ch! 'x'), c ≠ ch! ':' ∧ isSpace c = false := by
  intro c h
  rcases List.mem_cons.1 h with rfl | h
  · decide
  · rw [List.eq_of_mem_replicate h]; decide

/-- the hypotheses are met -/
example : ∃ name : Bytes, name.length = 1024 ∧ name.head? = some (ch! '@') ∧ (∀ c ∈ name, c ≠ ch! ':' ∧ isSpace c = false) ∧
    LineOK (bs! "type=" ++ name ++ bs! ":" ++ bs! "%n:number%") :=
  ⟨ch! '@' :: List.replicate 1023 (ch! 'x'), by rw [List.length_cons, List.length_replicate], rfl, longName_char _, longLine_ok _ (by omega)⟩

theorem nameOK_x (n : Nat) (h : n + 1 < 1023) : NameOK (ch! 'x' :: List.replicate n (ch! 'x')) := by
  refine ⟨fun c h => ?_, by rw [List.length_cons, List.length_replicate]; exact h, _, _, rfl, by decide⟩
  have : c = ch! 'x' := List.eq_of_mem_replicate (n := n + 1) (by rw [List.replicate_succ]; exact h)
  rw [this]; decide

theorem longName_x {env : Env} (n : Nat) (h : 1023 ≤ n + 1) (rest : Bytes) :
    Malformed env (bs! "%" ++ [] ++ ch! 'x' :: List.replicate n (ch! 'x') ++ bs! ":" ++ rest) [.fieldDescr] := by
  refine .longName (by simp [Blanks]) (by decide) ?_ (by rw [List.length_cons, List.length_replicate]; exact h)
  intro h
  rw [← List.replicate_succ] at h
  have := List.eq_of_mem_replicate h
  revert this; decide

/-- field names: 1022 bytes are accepted, 1023 are not (`Malformed.longName`, C49) -/
example : NameOK (ch! 'x' :: List.replicate 1021 (ch! 'x')) ∧
    Malformed env (bs! "%" ++ [] ++ ch! 'x' :: List.replicate 1022 (ch! 'x') ++ bs! ":" ++ bs! "number%") [.fieldDescr] :=
  ⟨nameOK_x _ (by omega), longName_x _ (by omega) _⟩

end
end LN
