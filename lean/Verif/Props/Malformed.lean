import Verif.Props.Samp
/-
C49: rules with a field description which is not well formed.
-/
set_option autoImplicit false
namespace LN

theorem takeWhile_self {p : UInt8 → Bool} : ∀ (l : Bytes), (∀ x ∈ l, p x = true) → l.takeWhile p = l
  | [], _ => rfl
  | a :: l, h => by
    rw [List.takeWhile_cons, h a (List.mem_cons_self ..), takeWhile_self l fun x hx => h x (List.mem_cons_of_mem _ hx)]; rfl

theorem dropWhile_self {p : UInt8 → Bool} : ∀ (l : Bytes), (∀ x ∈ l, p x = true) → l.dropWhile p = []
  | [], _ => rfl
  | a :: l, h => by
    rw [List.dropWhile_cons, h a (List.mem_cons_self ..), dropWhile_self l fun x hx => h x (List.mem_cons_of_mem _ hx)]; rfl

theorem blanks_head {lead : Bytes} (hl : Blanks lead) {c : UInt8} (hc : c ≠ ch! '%') (b : Bytes) :
    ∃ d u, lead ++ c :: b = d :: u ∧ d ≠ ch! '%' := by
  cases lead with
  | nil => exact ⟨c, b, rfl, hc⟩
  | cons x l =>
    refine ⟨x, _, rfl, ?_⟩
    rintro rfl
    have := hl (ch! '%') (List.mem_cons_self ..)
    revert this; decide

theorem malformed_descr {env : Env} {m : Bytes} {errs : List LoadErr} (h : Malformed env m errs) :
    ∃ t, m = ch! '%' :: t ∧ (∃ d u, t = d :: u ∧ d ≠ ch! '%') ∧ fieldDescr env t = .stop errs := by
  cases h with
  | @noColon lead b c hl hc hb =>
    refine ⟨lead ++ c :: b, by simp, blanks_head hl hc.2.1 b, ?_⟩
    unfold fieldDescr
    rw [dropWhile_blanks hl hc.1]
    simp only [hc.2.2.1, hc.2.2.2, or_self, if_false]
    unfold legacyField
    have : (c :: b).takeWhile (· != ch! ':') = c :: b := takeWhile_self _ fun x hx => by
      have : x ≠ ch! ':' := fun e => hb (e ▸ hx)
      simpa using this
    simp only [this]
    split
    · rfl
    · rw [if_pos trivial]
  | @longName lead b c hl hc hb hn rest =>
    refine ⟨lead ++ c :: (b ++ ch! ':' :: rest), by simp, blanks_head hl hc.2.1 _, ?_⟩
    unfold fieldDescr
    rw [dropWhile_blanks hl hc.1]
    simp only [hc.2.2.1, hc.2.2.2, or_self, if_false]
    unfold legacyField
    have : (c :: (b ++ ch! ':' :: rest)).takeWhile (· != ch! ':') = c :: b :=
      takeWhile_append_stop (p := fun x : UInt8 => x != ch! ':') (by decide) rest (c :: b) fun x hx => by
        have : x ≠ ch! ':' := fun e => hb (e ▸ hx)
        simpa using this
    simp only [this]
    rw [if_pos (by unfold maxFieldName; omega)]
  | @noName lead b hl =>
    refine ⟨lead ++ ch! ':' :: b, by simp, blanks_head hl (by decide) b, ?_⟩
    unfold fieldDescr
    rw [dropWhile_blanks hl (by decide)]
    simp [legacyField, maxFieldName]
  | @noEnd lead name type hl hn ht =>
    obtain ⟨c, u, rfl, h1, h2, h3, h4⟩ := hn.2.2
    refine ⟨lead ++ (c :: u) ++ ch! ':' :: type, by simp, ?_, ?_⟩
    · rw [List.append_assoc, List.cons_append]
      exact blanks_head hl h2 _
    · rw [fieldDescr_name hl hn]
      unfold legacyField
      have e1 : ((c :: u) ++ ch! ':' :: type).takeWhile (· != ch! ':') = c :: u := takeWhile_append_stop (by decide) _ _ fun x hx => by
        have := (hn.1 x hx).1
        simpa using this
      have e2 : ((c :: u) ++ ch! ':' :: type).drop ((c :: u).length + 1) = type := by simp
      have e3 : type.dropWhile (fun c => c != ch! ':' && c != ch! '{' && c != ch! '%') = [] := dropWhile_self _ fun x hx => by
        have := ht x hx
        simp [this.1, this.2.1, this.2.2]
      simp only [e1, e2, e3]
      rw [if_neg (by have := hn.2.1; unfold maxFieldName; omega), if_neg (by simp), if_neg (by simp)]
  | @badJson lead js hl hj ht =>
    cases js with
    | nil => rcases hj with h | h <;> cases h
    | cons c u =>
      have hc : c = ch! '{' ∨ c = ch! '[' := by simpa using hj
      refine ⟨lead ++ c :: u, by simp, blanks_head hl (by rcases hc with rfl | rfl <;> decide) u, ?_⟩
      unfold fieldDescr
      rw [dropWhile_blanks hl (by rcases hc with rfl | rfl <;> decide)]
      simp only [if_pos hc, ht]
  | @badEnd lead js j n hl hj ht hn =>
    cases js with
    | nil => rcases hj with h | h <;> cases h
    | cons c u =>
      have hc : c = ch! '{' ∨ c = ch! '[' := by simpa using hj
      refine ⟨lead ++ c :: u, by simp, blanks_head hl (by rcases hc with rfl | rfl <;> decide) u, ?_⟩
      unfold fieldDescr
      rw [dropWhile_blanks hl (by rcases hc with rfl | rfl <;> decide)]
      simp only [if_pos hc, ht]
      have hd : (List.drop n (c :: u)).head? ≠ some (ch! '%') := by rw [List.head?_drop]; exact hn
      cases hx : List.drop n (c :: u) with
      | nil => rfl
      | cons d v =>
        rw [hx] at hd
        have : d ≠ ch! '%' := fun e => hd (by rw [e]; rfl)
        simp only [if_neg this]

section
variable {env : Env}

theorem lexRuleF_malformed {m : Bytes} {errs : List LoadErr} (hm : Malformed env m errs) : ∀ (parts : List (Field × Json × Bytes)) (lit : Bytes) (fuel : Nat),
    (∀ p ∈ parts, Declares env p.1 p.2.1) → parts.length < fuel →
    lexRuleF env fuel (ruleText lit (parts.map fun p => (p.1, p.2.2)) ++ m) =
      ⟨ruleConfs env lit (parts.map fun p => (p.2.1, p.2.2)), .stopped, errs⟩
  | parts, lit, 0, _, hf => by omega
  | [], lit, fuel + 1, _, _ => by
    obtain ⟨t, rfl, ⟨d, u, rfl, hd⟩, h2⟩ := malformed_descr hm
    unfold lexRuleF ruleText
    simp only [List.map_nil, List.flatMap_nil, List.append_nil]
    have := litSplit_esc (ch! '%' :: d :: u) (.inr ⟨d, u, rfl, hd⟩) lit
    simp only [this, h2]
    simp [ruleConfs, litConfs_eq]
  | (f, j, l) :: parts, lit, fuel + 1, h, hf => by
    have hj := h _ (List.mem_cons_self ..)
    have ih := lexRuleF_malformed hm parts l fuel (fun p hp => h p (List.mem_cons_of_mem _ hp)) (by simpa using hf)
    obtain ⟨t, h1, ⟨d, u, hdu, hd⟩, h2⟩ := fieldDescr_declares hj (ruleText l (parts.map fun p => (p.1, p.2.2)) ++ m)
    have h3 : ruleText lit (((f, j, l) :: parts).map fun p => (p.1, p.2.2)) ++ m = escPct lit ++ ch! '%' :: t := by
      rw [← h1]
      simp [ruleText]
    rw [h3]
    unfold lexRuleF
    have := litSplit_esc (ch! '%' :: t) (.inr ⟨d, u, by rw [hdu], hd⟩) lit
    simp only [this, h2, ih]
    simp [ruleConfs, litConfs_eq]

theorem lexRule_malformed {m : Bytes} {errs : List LoadErr} (hm : Malformed env m errs) (parts : List (Field × Json × Bytes)) (lit : Bytes)
    (h : ∀ p ∈ parts, Declares env p.1 p.2.1) : lexRule env (ruleText lit (parts.map fun p => (p.1, p.2.2)) ++ m) =
      ⟨ruleConfs env lit (parts.map fun p => (p.2.1, p.2.2)), .stopped, errs⟩ := by
  refine lexRuleF_malformed hm parts lit _ h ?_
  have := text_length (env := env) (parts := parts.map fun p => (p.1, p.2.2)) (by
    intro p hp
    obtain ⟨q, hq, rfl⟩ := List.mem_map.1 hp
    exact ⟨_, h q hq⟩)
  rw [List.length_map] at this
  unfold ruleText
  rw [List.length_append, List.length_append]
  omega

/-- **C49** A rule with a field description which is not well formed is not added: what stands before it is entered into the graph, but the end is
not marked (`false` instead of the `true` of complete rules); and this is reported, unless just the name is missing. The same holds for types. -/
theorem C49_malformed (lit : Bytes) (parts : List (Field × Json × Bytes)) (h : ∀ p ∈ parts, Declares env p.1 p.2.1) {m : Bytes}
    {errs : List LoadErr} (hm : Malformed env m errs) (tags : List Bytes) (file : Bytes) (n : Nat) (name : Bytes) :
    (RLine.rule tags (ruleText lit (parts.map fun p => (p.1, p.2.2)) ++ m)).ops env file none n =
      [.rule (ruleConfs env lit (parts.map fun p => (p.2.1, p.2.2))) false (tagBucket tags) file n] ∧
    (RLine.rule tags (ruleText lit (parts.map fun p => (p.1, p.2.2)) ++ m)).errs env none = errs ∧
    (RLine.type name (ruleText lit (parts.map fun p => (p.1, p.2.2)) ++ m)).ops env file none n =
      [.typeDef name (ruleConfs env lit (parts.map fun p => (p.2.1, p.2.2))) false none file n] ∧
    (RLine.type name (ruleText lit (parts.map fun p => (p.1, p.2.2)) ++ m)).errs env none = errs := by
  have hl := lexRule_malformed hm parts lit h
  refine ⟨?_, ?_, ?_, ?_⟩ <;> simp [RLine.ops, RLine.errs, hl]

/-- `rule=:a %n number%`: no colon -/
example : Malformed env (bs! "%n number%") [.fieldDescr] ∧ ruleText (bs! "a ") [] ++ bs! "%n number%" = bs! "a %n number%" := by
  refine ⟨.noColon (lead := []) (c := ch! 'n') (b := bs! " number%") (by simp [Blanks]) (by decide) (by decide), by decide⟩

/-- loading it: reported, and no message matches -/
example : Ex.run (Ex.load (bs! "rule=:a %n number%\n")) (bs! "a ") =
    .ok ([.fieldDescr], false, [(bs! "originalmsg", .str (bs! "a ")), (bs! "unparsed-data", .str [])]) := by decide +kernel

end
end LN
