import Verif.Spec.Rulebase
import Verif.Proofs.RLemmas
/- Lemmas about the rule base loader. -/
set_option autoImplicit false
namespace LN

/-! ### Literals -/

/-- what may follow literal text: the end or a field -/
def FieldStart (r : Bytes) : Prop := r = [] ∨ ∃ d t, r = ch! '%' :: d :: t ∧ d ≠ ch! '%'

theorem litSplit_esc (r : Bytes) (hr : FieldStart r) : ∀ l : Bytes, litSplit (escPct l ++ r) = (l, r)
  | [] => by
    rcases hr with rfl | ⟨d, t, rfl, hd⟩
    · rfl
    · simp [escPct, litSplit, hd]
  | c :: l => by
    have ih := litSplit_esc r hr l
    unfold escPct at ih ⊢
    rw [List.flatMap_cons, List.append_assoc]
    by_cases hc : c = ch! '%'
    · subst hc
      simp only [if_pos, List.cons_append, List.nil_append, litSplit, ih]
    · rw [if_neg hc]
      cases hx : (List.flatMap (fun c => if c = 37 then [37, 37] else [c]) l ++ r) with
      | nil =>
        rw [hx] at ih
        simp only [litSplit, Prod.mk.injEq] at ih
        simp [litSplit, hc, ← ih.1, ← ih.2]
      | cons d t =>
        rw [hx] at ih
        simp only [List.cons_append, List.nil_append, litSplit, if_neg hc, ih]

theorem takeWhile_append_stop {p : UInt8 → Bool} {c : UInt8} (hc : p c = false) (t : Bytes) :
    ∀ l : Bytes, (∀ x ∈ l, p x = true) → (l ++ c :: t).takeWhile p = l
  | [], _ => by simp [hc]
  | x :: l, h => by
    rw [List.cons_append, List.takeWhile_cons, if_pos (h x (List.mem_cons_self ..)),
      takeWhile_append_stop hc t l fun y hy => h y (List.mem_cons_of_mem _ hy)]

theorem dropWhile_append_stop {p : UInt8 → Bool} {c : UInt8} (hc : p c = false) (t : Bytes) :
    ∀ l : Bytes, (∀ x ∈ l, p x = true) → (l ++ c :: t).dropWhile p = c :: t
  | [], _ => by simp [hc]
  | x :: l, h => by
    rw [List.cons_append, List.dropWhile_cons, if_pos (h x (List.mem_cons_self ..)),
      dropWhile_append_stop hc t l fun y hy => h y (List.mem_cons_of_mem _ hy)]

theorem dropWhile_blanks {l : Bytes} (hl : Blanks l) {c : UInt8} (hc : isSpace c = false) (t : Bytes) :
    (l ++ c :: t).dropWhile isSpace = c :: t := dropWhile_append_stop hc t l hl

theorem trimRight_blanks {l : Bytes} (hl : ∀ c ∈ l.getLast?, isSpace c = false) {t : Bytes} (ht : Blanks t) :
    trimRight (l ++ t) = l := by
  unfold trimRight
  rw [List.reverse_append]
  have key : ∀ (u : Bytes), (∀ c ∈ u, isSpace c = true) → (u ++ l.reverse).dropWhile isSpace = l.reverse.dropWhile isSpace := by
    intro u hu
    induction u with
    | nil => rfl
    | cons x u ih =>
      rw [List.cons_append, List.dropWhile_cons, if_pos (hu x (List.mem_cons_self ..))]
      exact ih fun c hc => hu c (List.mem_cons_of_mem _ hc)
  rw [key t.reverse (fun c hc => ht c (List.mem_reverse.1 hc))]
  cases hr : l.reverse with
  | nil => rw [List.reverse_eq_nil_iff] at hr; subst hr; rfl
  | cons c u =>
    have : c ∈ l.getLast? := by
      rw [List.getLast?_eq_head?_reverse, hr]; rfl
    rw [List.dropWhile_cons, if_neg (by rw [hl c this]; simp), ← hr, List.reverse_reverse]

theorem cstr_self {n : Bytes} (h : ∀ c ∈ n, c ≠ 0) : cstr n = n := by
  unfold cstr
  induction n with
  | nil => rfl
  | cons x n ih =>
    rw [List.takeWhile_cons, if_pos (by simpa using h x (List.mem_cons_self ..)),
      ih fun c hc => h c (List.mem_cons_of_mem _ hc)]

theorem noNul_self {n : Bytes} (h : ∀ c ∈ n, c ≠ 0) : noNul n = n := by
  unfold noNul
  rw [List.filter_eq_self]
  intro c hc
  simpa using h c hc

/-- splitting the part of a legacy description in front of the parameters -/
theorem legacyField_pre {env : Env} {name type trail : Bytes} (hn : NameOK name) (ht : TypeOK type) (hb : Blanks trail)
    {c : UInt8} (hc : c = ch! ':' ∨ c = ch! '{' ∨ c = ch! '%') (r : Bytes) :
    legacyField env (name ++ ch! ':' :: (type ++ trail ++ c :: r)) =
      if c = ch! '{' then
        match env.tok (c :: r) with
        | some (j, n) => legacyTail env name type (some j) [] ((c :: r).drop n)
        | none => legacyTail env name type none [.json] ((c :: r).drop (env.tokErr (c :: r)))
      else legacyTail env name type none [] (c :: r) := by
  have h1 : (name ++ ch! ':' :: (type ++ trail ++ c :: r)).takeWhile (· != ch! ':') = name :=
    takeWhile_append_stop (by simp) _ _ fun x hx => by simpa using (hn.1 x hx).1
  unfold legacyField
  simp only [h1]
  have hlen := hn.2.1
  rw [if_neg (by unfold maxFieldName; omega), if_neg (by simp),
    if_neg (by obtain ⟨c, t, h, _⟩ := hn.2.2; rw [h]; simp)]
  have h2 : (name ++ ch! ':' :: (type ++ trail ++ c :: r)).drop (name.length + 1) = type ++ trail ++ c :: r := by
    simp [List.drop_append]
  rw [h2]
  have hp : (fun c : UInt8 => c != ch! ':' && c != ch! '{' && c != ch! '%') c = false := by
    rcases hc with rfl | rfl | rfl <;> simp
  have hall : ∀ x ∈ type ++ trail, (fun c : UInt8 => c != ch! ':' && c != ch! '{' && c != ch! '%') x = true := by
    intro x hx
    rcases List.mem_append.1 hx with h | h
    · have := ht.1 x h
      simp [this.1, this.2.1, this.2.2.1]
    · have := hb x h
      have h3 : ∀ y : UInt8, isSpace y = true → y ≠ ch! ':' ∧ y ≠ ch! '{' ∧ y ≠ ch! '%' := by
        intro y hy
        refine ⟨?_, ?_, ?_⟩ <;> (rintro rfl; revert hy; decide)
      have h4 := h3 x this
      simp [h4.1, h4.2.1, h4.2.2]
  rw [takeWhile_append_stop hp _ _ hall, dropWhile_append_stop hp _ _ hall, trimRight_blanks ht.2 hb]
  rfl

theorem fieldDescr_name {env : Env} {lead name : Bytes} (hl : Blanks lead) (hn : NameOK name) (r : Bytes) :
    fieldDescr env (lead ++ name ++ r) = legacyField env (name ++ r) := by
  obtain ⟨c, t, rfl, h1, h2, h3, h4⟩ := hn.2.2
  unfold fieldDescr
  rw [List.append_assoc, List.cons_append, dropWhile_blanks hl h1]
  simp only [h3, h4, or_self, if_false]

theorem legacyConf_plain {env : Env} {name type : Bytes} (hn : NameOK name) (ht : TypeOK type) :
    legacyConf env name type none none = .obj [(bs! "name", .str name), (bs! "type", .str type)] := by
  unfold legacyConf
  rw [cstr_self fun c hc => (hn.1 c hc).2, noNul_self fun c hc => (ht.1 c hc).2.2.2]

theorem foldl_add_fresh : ∀ (l o : Obj), (l.map (·.1)).Nodup → (∀ k ∈ o.map (·.1), k ∉ l.map (·.1)) →
    l.foldl (fun o m => Obj.add o m.1 m.2) o = o ++ l
  | [], o, _, _ => by simp
  | m :: l, o, hk, hd => by
    have hadd : ∀ (o : Obj) (k : Bytes) (v : Json), k ∉ o.map (·.1) → Obj.add o k v = o ++ [(k, v)] := by
      intro o k v
      induction o with
      | nil => intro _; rfl
      | cons x o ih =>
        intro h
        rw [List.map_cons, List.mem_cons, not_or] at h
        unfold Obj.add
        rw [if_neg (fun he => h.1 he.symm), ih h.2]
        rfl
    rw [List.foldl_cons]
    rw [List.map_cons, List.nodup_cons] at hk
    have h1 : m.1 ∉ o.map (·.1) := fun h => hd _ h (by simp)
    rw [hadd o m.1 m.2 h1, foldl_add_fresh l _ hk.2]
    · simp
    · intro k hk1 hk2
      rw [List.map_append, List.mem_append] at hk1
      rcases hk1 with h | h
      · exact hd k h (by rw [List.map_cons]; exact List.mem_cons_of_mem _ hk2)
      · simp only [List.map_cons, List.map_nil, List.mem_singleton] at h
        subst h
        exact hk.1 hk2

/-- a well formed field description is read as what it declares -/
theorem fieldDescr_declares {env : Env} {f : Field} {j : Json} (h : Declares env f j) (rest : Bytes) :
    ∃ t, f.text ++ rest = ch! '%' :: t ∧ (∃ d u, t = d :: u ∧ d ≠ ch! '%') ∧ fieldDescr env t = .ok j rest [] := by
  have start : ∀ {lead name : Bytes} (u : Bytes), Blanks lead → NameOK name →
      ∃ d v, lead ++ (name ++ u) = d :: v ∧ d ≠ ch! '%' := by
    intro lead name u hl hn
    obtain ⟨c, t, rfl, _, h2, _⟩ := hn.2.2
    cases lead with
    | nil => exact ⟨c, t ++ u, rfl, h2⟩
    | cons x l => exact ⟨x, _, rfl, by rintro rfl; exact absurd (hl _ (List.mem_cons_self ..)) (by decide)⟩
  cases h with
  | @plain lead name type trail hl hn ht hb =>
    refine ⟨lead ++ (name ++ ch! ':' :: (type ++ trail ++ ch! '%' :: rest)), by simp [Field.text], start _ hl hn, ?_⟩
    rw [← List.append_assoc, fieldDescr_name hl hn, legacyField_pre hn ht hb (.inr (.inr rfl)), if_neg (by decide)]
    unfold legacyTail
    dsimp only
    rw [if_pos rfl, legacyConf_plain hn ht]
  | @extra lead name type trail e hl hn ht hb he =>
    refine ⟨lead ++ (name ++ ch! ':' :: (type ++ trail ++ ch! ':' :: (e ++ ch! '%' :: rest))), by simp [Field.text], start _ hl hn, ?_⟩
    rw [← List.append_assoc, fieldDescr_name hl hn, legacyField_pre hn ht hb (.inl rfl), if_neg (by decide)]
    unfold legacyTail
    dsimp only
    rw [if_neg (by decide)]
    have hp : (fun c : UInt8 => c != ch! '%') (ch! '%') = false := by decide
    have hall : ∀ x ∈ e, (fun c : UInt8 => c != ch! '%') x = true := fun x hx => by simpa using he x hx
    simp only [takeWhile_append_stop (p := fun c : UInt8 => c != ch! '%') hp _ _ hall,
      dropWhile_append_stop (p := fun c : UInt8 => c != ch! '%') hp _ _ hall]
    unfold legacyConf
    rw [cstr_self fun c hc => (hn.1 c hc).2, noNul_self fun c hc => (ht.1 c hc).2.2.2]
    rfl
  | @params lead name type trail json o hl hn ht hb hj hr hk hnn hnt =>
    obtain ⟨js, rfl⟩ : ∃ js, json = ch! '{' :: js := by
      cases json with
      | nil => cases hj
      | cons x js => simp only [List.head?_cons, Option.some.injEq] at hj; exact ⟨js, by rw [hj]⟩
    refine ⟨lead ++ (name ++ ch! ':' :: (type ++ trail ++ ch! '{' :: (js ++ ch! '%' :: rest))), by simp [Field.text], start _ hl hn, ?_⟩
    rw [← List.append_assoc, fieldDescr_name hl hn, legacyField_pre hn ht hb (.inr (.inl rfl)), if_pos rfl]
    have := hr rest
    rw [List.cons_append] at this
    simp only [this]
    have hd : (ch! '{' :: (js ++ ch! '%' :: rest)).drop (ch! '{' :: js).length = ch! '%' :: rest := by
      simp
    rw [hd]
    unfold legacyTail
    dsimp only
    rw [if_pos rfl]
    unfold legacyConf
    rw [cstr_self fun c hc => (hn.1 c hc).2, noNul_self fun c hc => (ht.1 c hc).2.2.2]
    dsimp only
    rw [foldl_add_fresh o _ hk]
    intro k hk
    simp only [List.map_cons, List.map_nil, List.mem_cons, List.not_mem_nil, or_false] at hk
    rcases hk with rfl | rfl
    · exact hnn
    · exact hnt
  | @json lead json j hl hj hr =>
    obtain ⟨x, js, rfl, hx⟩ : ∃ x js, json = x :: js ∧ (x = ch! '{' ∨ x = ch! '[') := by
      cases json with
      | nil => rcases hj with h | h <;> cases h
      | cons x js =>
        simp only [List.head?_cons, Option.some.injEq] at hj; exact ⟨x, js, rfl, hj⟩
    have hxs : isSpace x = false := by rcases hx with rfl | rfl <;> decide
    refine ⟨lead ++ (x :: (js ++ ch! '%' :: rest)), by simp [Field.text], ?_, ?_⟩
    · cases lead with
      | nil => exact ⟨x, _, rfl, by rcases hx with rfl | rfl <;> decide⟩
      | cons y l => exact ⟨y, _, rfl, by rintro rfl; exact absurd (hl _ (List.mem_cons_self ..)) (by decide)⟩
    · unfold fieldDescr
      rw [dropWhile_blanks hl hxs]
      have := hr rest
      rw [List.cons_append] at this
      simp only [if_pos hx, this]
      have hd : (x :: (js ++ ch! '%' :: rest)).drop (x :: js).length = ch! '%' :: rest := by simp
      rw [hd]
      simp

theorem litConfs_eq (env : Env) (raw : Bytes) : litConfs env raw = litParsers (litMeaning env raw) := rfl

theorem fieldStart_parts {env : Env} : ∀ {parts : List (Field × Bytes)}, (∀ p ∈ parts, ∃ j, Declares env p.1 j) →
    FieldStart (parts.flatMap fun p => p.1.text ++ escPct p.2)
  | [], _ => .inl rfl
  | p :: ps, h => by
    obtain ⟨j, hj⟩ := h p (List.mem_cons_self ..)
    obtain ⟨t, h1, ⟨d, u, rfl, hd⟩, _⟩ := fieldDescr_declares hj (escPct p.2 ++ ps.flatMap fun p => p.1.text ++ escPct p.2)
    refine .inr ⟨d, u, ?_, hd⟩
    rw [List.flatMap_cons, List.append_assoc, h1]

/-- a rule text, with the configurations its fields declare, is read as the parsers it denotes -/
theorem lexRuleF_text {env : Env} : ∀ (parts : List (Field × Json × Bytes)) (lit : Bytes) (fuel : Nat),
    (∀ p ∈ parts, Declares env p.1 p.2.1) → parts.length < fuel →
    lexRuleF env fuel (ruleText lit (parts.map fun p => (p.1, p.2.2))) =
      ⟨ruleConfs env lit (parts.map fun p => (p.2.1, p.2.2)), .complete, []⟩
  | parts, lit, 0, _, hf => by omega
  | [], lit, fuel + 1, _, _ => by
    unfold lexRuleF ruleText
    simp only [List.map_nil, List.flatMap_nil, List.append_nil]
    have := litSplit_esc [] (.inl rfl) lit
    rw [List.append_nil] at this
    simp only [this]
    simp [ruleConfs, litConfs_eq]
  | (f, j, l) :: parts, lit, fuel + 1, h, hf => by
    have hj := h _ (List.mem_cons_self ..)
    have ih := lexRuleF_text parts l fuel (fun p hp => h p (List.mem_cons_of_mem _ hp)) (by simpa using hf)
    have hfs := fieldStart_parts (env := env) (parts := ((f, j, l) :: parts).map fun p => (p.1, p.2.2)) (by
      intro p hp
      obtain ⟨q, hq, rfl⟩ := List.mem_map.1 hp
      exact ⟨_, h q hq⟩)
    unfold lexRuleF ruleText
    simp only [litSplit_esc _ hfs lit]
    obtain ⟨t, h1, _, h2⟩ := fieldDescr_declares hj (ruleText l (parts.map fun p => (p.1, p.2.2)))
    have h3 : (((f, j, l) :: parts).map fun p => (p.1, p.2.2)).flatMap (fun p => p.1.text ++ escPct p.2) = ch! '%' :: t := by
      rw [← h1]
      simp [ruleText]
    simp only [h3, h2, ih]
    simp [ruleConfs, litConfs_eq]

theorem text_length {env : Env} : ∀ {parts : List (Field × Bytes)}, (∀ p ∈ parts, ∃ j, Declares env p.1 j) →
    parts.length ≤ (parts.flatMap fun p => p.1.text ++ escPct p.2).length
  | [], _ => by simp
  | p :: ps, h => by
    have ih := text_length fun q hq => h q (List.mem_cons_of_mem _ hq)
    obtain ⟨j, hj⟩ := h p (List.mem_cons_self ..)
    obtain ⟨t, h1, _, _⟩ := fieldDescr_declares hj []
    have : 0 < p.1.text.length := by
      rw [List.append_nil] at h1; rw [h1]; simp
    rw [List.flatMap_cons, List.length_append, List.length_append, List.length_cons]
    omega

theorem lexRule_text {env : Env} (parts : List (Field × Json × Bytes)) (lit : Bytes)
    (h : ∀ p ∈ parts, Declares env p.1 p.2.1) :
    lexRule env (ruleText lit (parts.map fun p => (p.1, p.2.2))) =
      ⟨ruleConfs env lit (parts.map fun p => (p.2.1, p.2.2)), .complete, []⟩ := by
  refine lexRuleF_text parts lit _ h ?_
  have := text_length (env := env) (parts := parts.map fun p => (p.1, p.2.2)) (by
    intro p hp
    obtain ⟨q, hq, rfl⟩ := List.mem_map.1 hp
    exact ⟨_, h q hq⟩)
  rw [List.length_map] at this
  unfold ruleText
  rw [List.length_append]
  omega

/-! ### Tags -/

theorem tagLoop_word : ∀ (w : Bytes) (cur : Option Bytes) (acc : List Bytes) (t : Bytes),
    (∀ c ∈ w, c ≠ ch! ',' ∧ c ≠ ch! ':' ∧ c ≠ 0) → w ≠ [] →
    tagLoop (w ++ t) cur acc = tagLoop t (some (cur.getD [] ++ w)) acc
  | [], _, _, _, _, h => absurd rfl h
  | c :: w, cur, acc, t, h, _ => by
    have hc := h c (List.mem_cons_self ..)
    rw [List.cons_append]
    conv => lhs; unfold tagLoop
    rw [if_neg hc.2.1, if_neg hc.1]
    cases w with
    | nil => simp
    | cons d w =>
      rw [tagLoop_word (d :: w) _ _ _ (fun x hx => h x (List.mem_cons_of_mem _ hx)) (by simp)]
      simp

theorem tagLoop_tags : ∀ (tags : List Bytes) (acc : List Bytes) (t : Bytes), (∀ w ∈ tags, TagOK w) →
    tagLoop (tagText tags ++ ch! ':' :: t) none acc = .ok (acc ++ tags, t)
  | [], acc, t, _ => by simp [tagText, tagLoop]
  | [w], acc, t, h => by
    have hw := h w (List.mem_cons_self ..)
    rw [tagText, tagLoop_word w none acc _ hw.2 hw.1]
    simp only [tagLoop, if_true, Option.getD_none, List.nil_append]
    rw [noNul_self fun c hc => (hw.2 c hc).2.2]
  | w :: v :: ts, acc, t, h => by
    have hw := h w (List.mem_cons_self ..)
    have ih := tagLoop_tags (v :: ts) (acc ++ [w]) t fun x hx => h x (List.mem_cons_of_mem _ hx)
    rw [tagText.eq_3 _ _ (by simp), List.append_assoc, List.append_assoc, tagLoop_word w none acc _ hw.2 hw.1]
    simp only [List.cons_append, List.nil_append, Option.getD_none]
    conv => lhs; unfold tagLoop
    rw [if_neg (by decide), if_pos rfl]
    simp only [noNul_self fun c hc => (hw.2 c hc).2.2]
    rw [ih]
    simp

/-! ### Reading lines -/

theorem src_not_eof {c : UInt8} (src : Src) (h0 : c ≠ 0) (h255 : c ≠ 255) : src.isEof c = false := by
  cases src <;> simp [Src.isEof, h0, h255]

theorem readLine_comment (src : Src) : ∀ (t rest : Bytes) (line : Nat) (inP : Bool) (errs : List LoadErr),
    (∀ c ∈ t, c ≠ ch! '\n' ∧ c ≠ 0 ∧ c ≠ 255) →
    readLine src (t ++ ch! '\n' :: rest) line [] inP true errs = readLine src rest (line + 1) [] inP false errs ∧
    readLine src t line [] inP true errs = ⟨none, [], true, line + 1, errs⟩
  | [], rest, line, inP, errs, _ => by
    constructor
    · rw [List.nil_append]
      conv => lhs; unfold readLine
      rw [if_neg (by cases src <;> decide), if_pos rfl, if_pos rfl]
    · rfl
  | c :: t, rest, line, inP, errs, h => by
    have hc := h c (List.mem_cons_self ..)
    have ih := readLine_comment src t rest line inP errs fun x hx => h x (List.mem_cons_of_mem _ hx)
    constructor
    · rw [List.cons_append]
      conv => lhs; unfold readLine
      rw [if_neg (by rw [src_not_eof src hc.2.1 hc.2.2]; simp), if_pos rfl, if_neg hc.1]
      exact ih.1
    · conv => lhs; unfold readLine
      rw [if_neg (by rw [src_not_eof src hc.2.1 hc.2.2]; simp), if_pos rfl, if_neg hc.1]
      exact ih.2

theorem readLine_text (src : Src) : ∀ (t rest : Bytes) (line : Nat) (acc : Bytes) (inP : Bool) (errs : List LoadErr),
    (∀ c ∈ t, c ≠ ch! '\n' ∧ c ≠ 0 ∧ c ≠ 255) → (acc = [] → isComment t = false) → acc ++ t ≠ [] →
    (t.count (ch! '%') + (if inP then 1 else 0)) % 2 = 0 → acc.length + t.length < 65536 →
    readLine src (t ++ ch! '\n' :: rest) line acc inP false errs = ⟨some (acc ++ t), rest, false, line + 1, errs⟩ ∧
    readLine src t line acc inP false errs = ⟨some (acc ++ t), [], true, line, errs⟩
  | [], rest, line, acc, inP, errs, _, _, hne, hpar, _ => by
    have hP : inP = false := by cases inP <;> simp at hpar ⊢
    subst hP
    rw [List.append_nil] at hne ⊢
    constructor
    · rw [List.nil_append]
      conv => lhs; unfold readLine
      rw [if_neg (by cases src <;> decide), if_neg (by decide), if_pos rfl]
      simp [hne]
    · unfold readLine
      rw [if_neg (by decide), if_neg hne]
  | c :: t, rest, line, acc, inP, errs, h, hcm, hne, hpar, hlen => by
    have hc := h c (List.mem_cons_self ..)
    have hcm' : ¬(c = ch! '#' ∧ acc = []) := by
      rintro ⟨rfl, ha⟩
      exact absurd (hcm ha) (by simp [isComment])
    have ih := readLine_text src t rest line (acc ++ [c]) (if c = ch! '%' then !inP else inP) errs
      (fun x hx => h x (List.mem_cons_of_mem _ hx)) (by simp) (by simp) (by
        by_cases hx : c = ch! '%'
        · subst hx
          rw [List.count_cons_self] at hpar
          rw [if_pos rfl]
          cases inP <;> simp at hpar ⊢ <;> omega
        · rw [List.count_cons_of_ne hx] at hpar
          rw [if_neg hx]
          exact hpar) (by simp at hlen ⊢; omega)
    simp only [List.length_cons] at hlen
    rw [List.append_assoc, List.singleton_append] at ih
    constructor
    · rw [List.cons_append]
      conv => lhs; unfold readLine
      rw [if_neg (by rw [src_not_eof src hc.2.1 hc.2.2]; simp), if_neg (by decide), if_neg hc.1, if_neg hcm']
      dsimp only
      rw [if_neg (by unfold maxLine; omega)]
      exact ih.1
    · conv => lhs; unfold readLine
      rw [if_neg (by rw [src_not_eof src hc.2.1 hc.2.2]; simp), if_neg (by decide), if_neg hc.1, if_neg hcm']
      dsimp only
      rw [if_neg (by unfold maxLine; omega)]
      exact ih.2

/-- the first line of a text -/
theorem readLine_first (src : Src) (l rest : Bytes) (hl : LineOK l) (line : Nat) (errs : List LoadErr) :
    readLine src (l ++ ch! '\n' :: rest) line [] false false errs =
      if skipped l then readLine src rest (line + 1) [] false false errs
      else ⟨some l, rest, false, line + 1, errs⟩ := by
  cases l with
  | nil =>
    rw [if_pos (by rfl), List.nil_append]
    conv => lhs; unfold readLine
    rw [if_neg (by cases src <;> decide), if_neg (by decide), if_pos rfl]
    simp
  | cons c t =>
    have hc := hl.1 c (List.mem_cons_self ..)
    by_cases hx : c = ch! '#'
    · subst hx
      rw [if_pos (by rfl), List.cons_append]
      conv => lhs; unfold readLine
      rw [if_neg (by cases src <;> decide), if_neg (by decide), if_neg (by decide), if_pos ⟨rfl, rfl⟩]
      exact (readLine_comment src t rest line false errs fun x hx => hl.1 x (List.mem_cons_of_mem _ hx)).1
    · have hcm : isComment (c :: t) = false := by simp [isComment, hx]
      rw [if_neg (by simp [skipped, hcm])]
      rcases hl.2 with h | ⟨h1, h2⟩
      · rw [hcm] at h; cases h
      · have := (readLine_text src (c :: t) rest line [] false errs hl.1 (fun _ => hcm) (by simp) (by simpa using h1)
          (by simpa using h2)).1
        simpa using this

/-- the last line of a text without newline at its end -/
theorem readLine_last (src : Src) (l : Bytes) (hl : LineOK l) (line : Nat) (errs : List LoadErr) :
    readLine src l line [] false false errs =
      ⟨if skipped l then none else some l, [], true, if isComment l then line + 1 else line, errs⟩ := by
  cases l with
  | nil => rfl
  | cons c t =>
    have hc := hl.1 c (List.mem_cons_self ..)
    by_cases hx : c = ch! '#'
    · subst hx
      have hcm : isComment (ch! '#' :: t) = true := rfl
      rw [hcm, if_pos rfl, if_pos (by rfl)]
      conv => lhs; unfold readLine
      rw [if_neg (by cases src <;> decide), if_neg (by decide), if_neg (by decide), if_pos ⟨rfl, rfl⟩]
      exact (readLine_comment src t [] line false errs fun x hx => hl.1 x (List.mem_cons_of_mem _ hx)).2
    · have hcm : isComment (c :: t) = false := by simp [isComment, hx]
      have hsk : skipped (c :: t) = false := by simp [skipped, hcm]
      rw [hcm, hsk]
      simp only [Bool.false_eq_true, if_false]
      rcases hl.2 with h | ⟨h1, h2⟩
      · rw [hcm] at h; cases h
      · have := (readLine_text src (c :: t) [] line [] false errs hl.1 (fun _ => hcm) (by simp) (by simpa using h1)
          (by simpa using h2)).2
        simpa using this

end LN
