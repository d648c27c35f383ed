import Verif.Proofs.Enc
import Verif.Props.Examples
/-
C56-C58: the encoders of lognormalizer.
-/
set_option autoImplicit false
namespace LN
variable {env : Env}

/-! ### C56: CSV -/

/-- **C56** (members whose value is a string or an integer; see below for the others) For every event and every list of names the CSV
encoder succeeds, and reading its output gives for each name, in the order of the list, the text of the member of this name, or
an empty column if there is none (or its value is null). -/
theorem C56_recover_partial (o : Obj) (first : Bytes) (rest : List (UInt8 × Bytes)) (hf : CsvName first)
    (hr : ∀ p ∈ rest, (p.1 = ch! ',' ∨ p.1 = ch! ' ') ∧ CsvName p.2)
    (ho : ∀ n ∈ first :: rest.map (·.2), ∀ j, Obj.get o n = some j → j = .null ∨ Scalar env j) :
    (fmtCSV env o (some (namesText first rest))).1 = true ∧
    csvDecode (fmtCSV env o (some (namesText first rest))).2 =
      some ((first :: rest.map (·.2)).map fun n => ((Obj.get o n).filter (· != .null)).map (textOfJson env)) := by
  have h0 : (namesText first rest).filter (· != 0) = namesText first rest := by
    rw [List.filter_eq_self]
    intro c hc
    have : c ≠ 0 := by
      rcases List.mem_append.1 hc with hc | hc
      · exact (hf c hc).2.2
      · obtain ⟨p, hp, hc⟩ := List.mem_flatMap.1 hc
        rcases List.mem_cons.1 hc with rfl | hc
        · rcases (hr p hp).1 with h | h <;> rw [h] <;> decide
        · exact ((hr p hp).2 c hc).2.2
    simpa using this
  refine ⟨rfl, ?_⟩
  unfold fmtCSV
  dsimp only
  rw [h0, nameList_text hf hr]
  obtain ⟨pos, cols', h1, h2⟩ := csvRun_cols (env := env) (o := o) (rest.map (·.2)) first [] ho
  unfold csvDecode
  rw [h1]
  rw [List.nil_append] at h2
  rw [← h2]
  cases pos <;> rfl

/-- **C56** (values of any kind) For every event and every list of names the CSV encoder succeeds, and its output reads as the columns for
these names, in the order of the list, each with the text `csvText` of the value; the column is empty if there is no such member, or its value is null. -/
theorem C56_every_event (o : Obj) (first : Bytes) (rest : List (UInt8 × Bytes)) (hf : CsvName first)
    (hr : ∀ p ∈ rest, (p.1 = ch! ',' ∨ p.1 = ch! ' ') ∧ CsvName p.2) :
    (fmtCSV env o (some (namesText first rest))).1 = true ∧
    csvDecode (fmtCSV env o (some (namesText first rest))).2 =
      some ((first :: rest.map (·.2)).map fun n => ((Obj.get o n).filter (· ≠ .null)).map (csvText env)) := by
  have h0 : (namesText first rest).filter (· != 0) = namesText first rest := by
    rw [List.filter_eq_self]
    intro c hc
    have : c ≠ 0 := by
      rcases List.mem_append.1 hc with hc | hc
      · exact (hf c hc).2.2
      · obtain ⟨p, hp, hc⟩ := List.mem_flatMap.1 hc
        rcases List.mem_cons.1 hc with rfl | hc
        · rcases (hr p hp).1 with h | h <;> rw [h] <;> decide
        · exact ((hr p hp).2 c hc).2.2
    simpa using this
  refine ⟨rfl, ?_⟩
  show csvDecode (csvCols env o (nameList ((namesText first rest).filter (· != 0)))) = _
  rw [h0, nameList_text hf hr]
  obtain ⟨pos, cols', h1, h2⟩ := csvRun_cols_all (env := env) (o := o) (rest.map (·.2)) first []
  unfold csvDecode
  rw [h1]
  rw [List.nil_append] at h2
  rw [← h2]
  cases pos <;> rfl

/-- an array with null, a truth value and a missing member -/
example : csvDecode (fmtCSV Ex.env [(bs! "a", .arr [.str (bs! "x"), .null, .str (bs! "y\"")]), (bs! "b", .bool true)] (some (bs! "a,b c"))).2 =
    some [some (bs! "[y\","), some (bs! "***unsupported type***"), none] := by decide

/-- **C56** Two events with the same encoding agree in the texts of all requested members. -/
theorem C56_unambiguous_partial (o o' : Obj) (first : Bytes) (rest : List (UInt8 × Bytes)) (hf : CsvName first)
    (hr : ∀ p ∈ rest, (p.1 = ch! ',' ∨ p.1 = ch! ' ') ∧ CsvName p.2)
    (ho : ∀ n ∈ first :: rest.map (·.2), ∀ j, Obj.get o n = some j → Scalar env j)
    (ho' : ∀ n ∈ first :: rest.map (·.2), ∀ j, Obj.get o' n = some j → Scalar env j)
    (he : fmtCSV env o (some (namesText first rest)) = fmtCSV env o' (some (namesText first rest))) :
    ∀ n ∈ first :: rest.map (·.2), (Obj.get o n).map (textOfJson env) = (Obj.get o' n).map (textOfJson env) := by
  have h1 := (C56_recover_partial o first rest hf hr fun n hn j hj => .inr (ho n hn j hj)).2
  have h2 := (C56_recover_partial o' first rest hf hr fun n hn j hj => .inr (ho' n hn j hj)).2
  rw [he, h2] at h1
  have h3 := List.map_inj_left.1 (Option.some.inj h1)
  intro n hn
  have key : ∀ (o : Obj), (∀ j, Obj.get o n = some j → Scalar env j) → (Obj.get o n).filter (· != .null) = Obj.get o n := by
    intro o h
    cases hg : Obj.get o n with
    | none => rfl
    | some j =>
      have := (csvField_scalar (h j hg)).2
      simp [Option.filter, this]
  have h4 := h3 n hn
  rw [key o (ho n hn), key o' (ho' n hn)] at h4
  exact h4.symm

/-- a serialiser for the examples: the digit of small numbers -/
def Ex.encEnv : Env := { Ex.env with ser := fun j => match j with | .int n => [UInt8.ofNat (48 + n.toNat)] | _ => bs! "?" }

/-- an event with quotes, line feeds, commas; a number; a missing member -/
def Ex.event : Obj := [(bs! "msg", .str (bs! "say \"hi\",\n\x01<b>&]\\")), (bs! "n", .int 7), (bs! "other", .str [])]

example : fmtCSV Ex.encEnv Ex.event (some (bs! "msg,n missing,other")) =
      (true, bs! "\"say \\\"hi\\\",\\n\\u0001<b>&]\\\\\",\"7\",,\"\"") ∧
    csvDecode (bs! "\"say \\\"hi\\\",\\n\\u0001<b>&]\\\\\",\"7\",,\"\"") =
      some [some (bs! "say \"hi\",\n\x01<b>&]\\"), some (bs! "7"), none, some []] := by
  refine ⟨by decide +kernel, by decide +kernel⟩

/-- the hypotheses of `C56_recover_partial` hold for it -/
example : namesText (bs! "msg") [(ch! ',', bs! "n"), (ch! ' ', bs! "missing"), (ch! ',', bs! "other")] = bs! "msg,n missing,other" ∧
    ∀ n ∈ [bs! "msg", bs! "n", bs! "missing", bs! "other"], ∀ j, Obj.get Ex.event n = some j → j = .null ∨ Scalar Ex.encEnv j := by
  refine ⟨by decide, ?_⟩
  intro n hn j hj
  right
  simp only [List.mem_cons, List.not_mem_nil, or_false] at hn
  rcases hn with rfl | rfl | rfl | rfl
  · cases hj; exact ⟨.inl ⟨_, rfl⟩, by decide⟩
  · cases hj; exact ⟨.inr ⟨_, rfl⟩, by decide⟩
  · cases hj
  · cases hj; exact ⟨.inl ⟨_, rfl⟩, by decide⟩

/-- **C56 violated** for arrays, which are written in reverse order and without escaping commas: the array of "a,b" and the array
of "b" and "a" and the string "[a,b]" have the same encoding. Members with the value null cannot be told from missing ones,
objects not from each other. -/
theorem C56_arrays_violated (env : Env) :
    fmtCSV env [(bs! "f", .arr [.str (bs! "a,b")])] (some (bs! "f")) = fmtCSV env [(bs! "f", .arr [.str (bs! "b"), .str (bs! "a")])] (some (bs! "f")) ∧
    fmtCSV env [(bs! "f", .str (bs! "[a,b]"))] (some (bs! "f")) = fmtCSV env [(bs! "f", .arr [.str (bs! "b"), .str (bs! "a")])] (some (bs! "f")) ∧
    fmtCSV env [(bs! "f", .null)] (some (bs! "f")) = fmtCSV env [] (some (bs! "f")) ∧
    fmtCSV env [(bs! "f", .obj [])] (some (bs! "f")) = fmtCSV env [(bs! "f", .bool true)] (some (bs! "f")) := by
  refine ⟨by rfl, by rfl, by rfl, by rfl⟩

/-! ### C57: RFC 5424 -/

theorem get_mem {o : Obj} {n : Bytes} {j : Json} (h : Obj.get o n = some j) : (n, j) ∈ o := by
  induction o with
  | nil => cases h
  | cons m o ih =>
    obtain ⟨k, v⟩ := m
    unfold Obj.get at h
    split at h
    · rename_i hk; cases h; subst hk; exact List.mem_cons_self ..
    · exact List.mem_cons_of_mem _ (ih h)

/-- **C57** (events as demanded by `SdOK`) For every event the output is a structured data element from which the names and the texts of all
values can be read: tags first, then the members in order. -/
theorem C57_recover_partial (o : Obj) (h : SdOK env o) :
    ∃ rc text, fmtRFC5424 env o = .ok (rc, text) ∧ sdDecode text = some (sdMeaning env o) := by
  have hf := sdRun_fields (env := env) (otherMembers o) (by
    intro m hm
    obtain ⟨h1, h2⟩ := List.mem_filter.1 hm
    exact h.1 m h1 (by simpa using h2))
  unfold fmtRFC5424 sdMeaning
  cases hg : Obj.get o (bs! "event.tags") with
  | none =>
    refine ⟨_, _, rfl, ?_⟩
    unfold sdDecode
    rw [if_pos (by rfl)]
    have e : (bs! "[cee@115" ++ (otherMembers o).flatMap (fun m => bs! " " ++ sdField env m.1 m.2) ++ bs! "]").drop 8 =
        (otherMembers o).flatMap (fun m => bs! " " ++ sdField env m.1 m.2) ++ bs! "]" := by rfl
    rw [e, sdRun_append, hf, Option.bind_some]
    rfl
  | some j =>
    obtain ⟨l, rfl, hne, hl⟩ := h.2 j hg
    have ht := sdRun_tags (env := env) hne hl []
    dsimp only
    rw [if_pos ht.2]
    refine ⟨_, _, rfl, ?_⟩
    unfold sdDecode
    rw [if_pos (by rfl)]
    have e : (bs! "[cee@115" ++ (sdTags env l).1 ++ (otherMembers o).flatMap (fun m => bs! " " ++ sdField env m.1 m.2) ++ bs! "]").drop 8 =
        (sdTags env l).1 ++ ((otherMembers o).flatMap (fun m => bs! " " ++ sdField env m.1 m.2) ++ bs! "]") := by
      rw [List.append_assoc, List.append_assoc]; rfl
    rw [e, sdRun_append, ht.1, Option.bind_some, sdRun_append, hf, Option.bind_some]
    rfl

/-- **C57** Two such events with the same encoding have the same tags, names and texts of values. -/
theorem C57_unambiguous_partial (o o' : Obj) (h : SdOK env o) (h' : SdOK env o') {rc rc' : Bool} {text : Bytes}
    (he : fmtRFC5424 env o = .ok (rc, text)) (he' : fmtRFC5424 env o' = .ok (rc', text)) : sdMeaning env o = sdMeaning env o' := by
  obtain ⟨_, _, h1, h2⟩ := C57_recover_partial o h
  obtain ⟨_, _, h3, h4⟩ := C57_recover_partial o' h'
  rw [he] at h1
  rw [he'] at h3
  cases h1
  cases h3
  exact Option.some.inj (h2.symm.trans h4)

/-- the event of the examples with tags -/
def Ex.tagged : Obj := Ex.event ++ [(bs! "list", .arr [.str (bs! "x,y"), .str (bs! "z")]), (bs! "event.tags", .arr [.str (bs! "t1"), .str (bs! "t2")])]

theorem Ex.tagged_ok : SdOK encEnv tagged ∧ XmlOK encEnv tagged := by
  have hm : ∀ m ∈ tagged, m.1 ≠ bs! "event.tags" →
      ((∀ c ∈ m.1, c ≠ ch! '=' ∧ c ≠ ch! ' ' ∧ c ≠ ch! ']' ∧ c ≠ ch! '"') ∧ ∀ c ∈ m.1, c ≠ ch! '<' ∧ c ≠ ch! '>') ∧
      (Scalar encEnv m.2 ∨ ∃ l, m.2 = .arr l ∧ l ≠ [] ∧ ∀ j ∈ l, Readable encEnv j) := by
    intro m hm hne
    simp only [tagged, event, List.cons_append, List.nil_append, List.mem_cons, List.not_mem_nil, or_false] at hm
    rcases hm with rfl | rfl | rfl | rfl | rfl
    · exact ⟨⟨by decide, by decide⟩, .inl ⟨.inl ⟨_, rfl⟩, by decide⟩⟩
    · exact ⟨⟨by decide, by decide⟩, .inl ⟨.inr ⟨_, rfl⟩, by decide⟩⟩
    · exact ⟨⟨by decide, by decide⟩, .inl ⟨.inl ⟨_, rfl⟩, by decide⟩⟩
    · refine ⟨⟨by decide, by decide⟩, .inr ⟨_, rfl, by simp, ?_⟩⟩
      intro j hj
      simp only [List.mem_cons, List.not_mem_nil, or_false] at hj
      rcases hj with rfl | rfl <;> exact ⟨by simp, by decide⟩
    · exact absurd rfl hne
  have ht : ∀ j, Obj.get tagged (bs! "event.tags") = some j → j = .arr [.str (bs! "t1"), .str (bs! "t2")] := by
    intro j hj
    have : Obj.get tagged (bs! "event.tags") = some (.arr [.str (bs! "t1"), .str (bs! "t2")]) := by rfl
    rw [this] at hj
    exact (Option.some.inj hj).symm
  refine ⟨⟨fun m h1 h2 => ⟨(hm m h1 h2).1.1, (hm m h1 h2).2⟩, ?_⟩, ⟨fun m h1 h2 => ⟨(hm m h1 h2).1.2, ?_⟩, ?_⟩⟩
  · intro j hj
    refine ⟨_, ht j hj, by simp, ?_⟩
    intro t h
    simp only [List.mem_cons, List.not_mem_nil, or_false] at h
    rcases h with rfl | rfl <;> exact ⟨⟨by simp, by decide⟩, by decide⟩
  · rcases (hm m h1 h2).2 with h | ⟨l, h3, _, h4⟩
    · exact .inl h
    · exact .inr ⟨l, h3, h4⟩
  · intro j hj
    refine ⟨_, ht j hj, ?_⟩
    intro t h
    simp only [List.mem_cons, List.not_mem_nil, or_false] at h
    rcases h with rfl | rfl <;> exact ⟨⟨by simp, by decide⟩, by decide⟩

example : fmtRFC5424 Ex.encEnv Ex.tagged = .ok (true,
    bs! "[cee@115 event.tags=\"t2,t1\" msg=\"say \\\"hi\\\"\\,\\n\x01<b>&\\]\\\\\" n=\"7\" other=\"\" list=\"z,x\\,y\"]") ∧
    sdMeaning Ex.encEnv Ex.tagged = [(bs! "event.tags", [bs! "t2", bs! "t1"]), (bs! "msg", [bs! "say \"hi\",\n\x01<b>&]\\"]), (bs! "n", [bs! "7"]),
      (bs! "other", [[]]), (bs! "list", [bs! "z", bs! "x,y"])] := by
  refine ⟨by decide +kernel, by decide +kernel⟩

/-- **C57 violated** for names and tags, which are not escaped: an event with one oddly named member has the encoding of
an event with two members; so has a tag. -/
theorem C57_names_violated (env : Env) :
    fmtRFC5424 env [(bs! "a=\"1\" b", .str (bs! "2"))] = fmtRFC5424 env [(bs! "a", .str (bs! "1")), (bs! "b", .str (bs! "2"))] ∧
    fmtRFC5424 env [(bs! "event.tags", .arr [.str (bs! "t\" x=\"1")])] =
      fmtRFC5424 env [(bs! "event.tags", .arr [.str (bs! "t")]), (bs! "x", .str (bs! "1"))] := by
  refine ⟨by rfl, by rfl⟩

/-- unescaping as RFC 5424 (6.3.3) defines it: a backslash in front of anything but quote, backslash and bracket is a
regular character -/
def rfcUnescape : Bytes → Bytes
  | c :: d :: t =>
    if c = ch! '\\' ∧ (d = ch! '"' ∨ d = ch! '\\' ∨ d = ch! ']') then d :: rfcUnescape t else c :: rfcUnescape (d :: t)
  | t => t

/-- **C57 violated** for a reader which follows RFC 5424: a line feed and a backslash followed by n are both read as the latter. -/
theorem C57_newline_violated (env : Env) :
    ∃ v w : Bytes, fmtRFC5424 env [(bs! "a", .str (bs! "\n"))] = .ok (false, bs! "[cee@115 a=\"" ++ v ++ bs! "\"]") ∧
      fmtRFC5424 env [(bs! "a", .str (bs! "\\n"))] = .ok (false, bs! "[cee@115 a=\"" ++ w ++ bs! "\"]") ∧
      rfcUnescape v = rfcUnescape w :=
  ⟨bs! "\\n", bs! "\\\\n", by rfl, by rfl, by decide⟩

/-- **C57, C58 violated** The encoders report failure for every event without tags, although the output is complete. -/
theorem C57_return_code_violated (o : Obj) (h : Obj.get o (bs! "event.tags") = none) :
    (∃ text, fmtRFC5424 env o = .ok (false, text)) ∧ ∃ text, fmtXML env o = .ok (false, text) := by
  unfold fmtRFC5424 fmtXML
  rw [h]
  exact ⟨⟨_, rfl⟩, ⟨_, rfl⟩⟩

example : Obj.get Ex.event (bs! "event.tags") = none := by rfl

/-! ### C58: XML -/

/-- the tokens the XML of an event consists of: markup is fixed but for the names of fields; values and tags are character data -/
def eventToks (env : Env) (o : Obj) : List XmlTok :=
  [.markup (bs! "event")] ++
  (match Obj.get o (bs! "event.tags") with
    | some j => [.markup (bs! "event.tags")] ++
        (itemsOf env j).flatMap (fun t => [.markup (bs! "tag")] ++ t.map .data ++ [.markup (bs! "/tag")]) ++ [.markup (bs! "/event.tags")]
    | none => []) ++
  (o.filter fun m => m.1 != bs! "event.tags").flatMap (fun m =>
    [.markup (bs! "field name=\"" ++ m.1 ++ bs! "\"")] ++
    (itemsOf env m.2).flatMap (fun t => [.markup (bs! "value")] ++ t.map .data ++ [.markup (bs! "/value")]) ++ [.markup (bs! "/field")]) ++
  [.markup (bs! "/event")]

/-- **C58** (events as demanded by `XmlOK`) The output is an XML text in which no byte of a value is markup. -/
theorem C58_no_markup_partial (o : Obj) (h : XmlOK env o) :
    ∃ rc text, fmtXML env o = .ok (rc, text) ∧ xmlTokens text = some (eventToks env o) := by
  have hf : Tok ((otherMembers o).flatMap fun m => xmlField env m.1 m.2) ((otherMembers o).flatMap fun m => fieldToks m.1 (itemsOf env m.2)) := by
    refine Tok.flatMap fun m hm => ?_
    obtain ⟨h1, h2⟩ := List.mem_filter.1 hm
    have := h.1 m h1 (by simpa using h2)
    exact tok_field this.1 this.2
  have hb : Tok (bs! "<event>") [.markup (bs! "event")] := tok_markup (n := bs! "event") (by decide)
  have he : Tok (bs! "</event>") [.markup (bs! "/event")] := tok_markup (n := bs! "/event") (by decide)
  have fin : ∀ {s l}, Tok s l → xmlTokens s = some l := by
    intro s l hs
    unfold xmlTokens
    rw [hs []]
    rfl
  unfold fmtXML eventToks
  cases hg : Obj.get o (bs! "event.tags") with
  | none =>
    refine ⟨_, _, rfl, fin ?_⟩
    rw [List.append_nil]
    exact (hb.append hf).append he
  | some j =>
    obtain ⟨l, rfl, hl⟩ := h.2 j hg
    have ht := tok_tags (env := env) hl
    dsimp only
    rw [if_pos ht.2]
    exact ⟨_, _, rfl, fin (((hb.append ht.1).append hf).append he)⟩

/-- **C58** Tags, names and the texts of all values can be read from the output. -/
theorem C58_recover_partial (o : Obj) (h : XmlOK env o) :
    ∃ rc text, fmtXML env o = .ok (rc, text) ∧ xmlDecode text = some (xmlMeaning env o) := by
  obtain ⟨rc, text, h1, h2⟩ := C58_no_markup_partial o h
  refine ⟨rc, text, h1, ?_⟩
  unfold xmlDecode
  rw [h2, Option.bind_some]
  have hfs : ∀ (o : Obj), (o.flatMap fun m => fieldToks m.1 (itemsOf env m.2)) =
      (o.map fun m => (m.1, itemsOf env m.2)).flatMap fun m => fieldToks m.1 m.2 := by
    intro o; rw [List.flatMap_map]
  have key : evRun (eventToks env o) (.start, [], []) = some (.done, xmlMeaning env o) := by
    unfold eventToks
    rw [evRun_append, evRun_append, evRun_append]
    have e1 : evRun [.markup (bs! "event")] (.start, [], []) = some (.outside, [], []) := rfl
    have e2 : evRun (match Obj.get o (bs! "event.tags") with
        | some j => [.markup (bs! "event.tags")] ++
          (itemsOf env j).flatMap (fun t => [.markup (bs! "tag")] ++ t.map .data ++ [.markup (bs! "/tag")]) ++ [.markup (bs! "/event.tags")]
        | none => []) (.outside, [], []) = some (.outside, (xmlMeaning env o).1, []) := by
      unfold xmlMeaning
      cases hg : Obj.get o (bs! "event.tags") with
      | none => rfl
      | some j => exact evRun_tags (itemsOf env j) []
    rw [e1, Option.bind_some, e2, Option.bind_some]
    have e3 := evRun_fields (tags := (xmlMeaning env o).1) ((o.filter fun m => m.1 != bs! "event.tags").map fun m => (m.1, itemsOf env m.2)) []
    rw [← hfs] at e3
    unfold fieldToks valueToks at e3
    rw [e3, Option.bind_some]
    rfl
  rw [key]

example : fmtXML Ex.encEnv [(bs! "m", .str (bs! "a<b&c>")), (bs! "l", .arr [.str (bs! "1"), .str (bs! "2")])] = .ok (false,
    bs! "<event><field name=\"m\"><value>a&lt;b&amp;c></value></field><field name=\"l\"><value>2</value><value>1</value></field></event>") := by
  decide +kernel

/-- the hypothesis holds for an event with all kinds of values (`Ex.tagged_ok`) -/
example : (xmlMeaning Ex.encEnv Ex.tagged).1 = [bs! "t2", bs! "t1"] := by decide +kernel

/-- **C58 violated** for tags and names, which are not escaped. -/
theorem C58_tags_violated (env : Env) :
    (∃ rc, fmtXML env [(bs! "event.tags", .arr [.str (bs! "<x>")])] =
      .ok (rc, bs! "<event><event.tags><tag><x></tag></event.tags></event>")) ∧
    fmtXML env [(bs! "a\"></field><field name=\"b", .arr [])] = fmtXML env [(bs! "a", .arr []), (bs! "b", .arr [])] := by
  refine ⟨⟨_, by rfl⟩, by rfl⟩

end LN
