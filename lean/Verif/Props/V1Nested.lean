import Verif.Proofs.V1Nested
import Verif.Props.V1
import Verif.Proofs.Finish
/-
C73: field types of version 1 rulebases which apply other types, or other rulebases. What the types accept is specified in
Spec/V1Nested (`V1Ty.accepts`). `V1Ty.normOf E root fuel` is `ln_normalize` on the contexts made for the fields.
-/
set_option autoImplicit false
namespace LN
open Spec

/-- C73: A field `%name:type%`, where the type is `interpret`, `suffixed`, `named_suffixed` or `tokenized` applied (any number of times) to a simple
type, is understood as such, and then matches exactly what the type accepts, and delivers the value described there.

Missing for the full property: messages with NUL bytes, `suffixed` where nothing follows the value, empty separators of `tokenized`, separators whose escapes
are resolved twice, interpretation of what is not a simple type (see the `_violated` theorems); lists of suffixes delimited by several characters;
the quirks mentioned at `V1Ty.accepts`. -/
theorem C73_nested_types_partial (E : V1Env) (root : V1Load) (hu : E.env.unescape [] = []) (he : E.env.TokOK) (x : V1Ty) (hx : x.OK E) (self : V1CtxId)
    {nm : Bytes} (hn : V1NameOK nm) (rest : Bytes) :
    ∃ f, v1FieldDescr E self (nm ++ ch! ':' :: (x.descr ++ ch! '%' :: rest)) = some (f, rest) ∧ f.name = nm ∧ f.prs = .fn x.fn ∧
      ∀ (s : Bytes) (offs fuel : Nat), (0 : UInt8) ∉ s → s.length < 2 ^ 64 → V1Digits x.leaf s → x.Followed E s → offs ≤ s.length →
        x.depth + s.length + 4 ≤ fuel →
        (∀ n v, x.accepts E (s.drop offs) n v → ∃ w, v1RunOf E (V1Ty.normOf E root fuel) fuel f s offs = .ok (n, w) ∧ V1Step.value s ⟨f, offs, n, w⟩ = v) ∧
        ((∀ n v, ¬ x.accepts E (s.drop offs) n v) → v1RunOf E (V1Ty.normOf E root fuel) fuel f s offs = .fail) := by
  refine ⟨⟨nm, .fn x.fn, x.extra, x.pdata⟩, ?_, rfl, rfl, fun s offs fuel hz hl hd hfol ho hf => ?_⟩
  · have := v1FieldDescr_descr E self hn (V1Ty.descr_ok hx).1 (V1Ty.type_eq hx) rest
    rw [V1Ty.data_eq self hx] at this
    exact this
  · exact V1Ty.does E root hu he hz hl x hx hd hfol (List.suffix_refl s) ho hf _ rfl rfl

/-- C73 for the engine: what C64, C65 and C70 assume about parsers holds for these fields, too. -/
theorem C73_engine_assumptions (E : V1Env) (root : V1Load) (hu : E.env.unescape [] = []) (he : E.env.TokOK) {s : Bytes} (hz : (0 : UInt8) ∉ s)
    (hl : s.length < 2 ^ 64) (hd : ∀ i, ((s.drop i).takeWhile isDigit).length ≤ 9) (fuel : Nat) :
    V1RunOK (fun f => V1Plain E f ∨ ∃ x : V1Ty, f.prs = .fn x.fn ∧ f.raw = x.extra ∧ f.pdata = x.pdata ∧ x.OK E ∧ x.Followed E s ∧ x.depth + s.length + 4 ≤ fuel)
      (v1RunOf E (V1Ty.normOf E root fuel) fuel) s := by
  have h0 := C72_engine_assumptions E (V1Ty.normOf E root fuel) fuel he hl hd
  have key : ∀ f off, (∃ x : V1Ty, f.prs = .fn x.fn ∧ f.raw = x.extra ∧ f.pdata = x.pdata ∧ x.OK E ∧ x.Followed E s ∧ x.depth + s.length + 4 ≤ fuel) → off ≤ s.length →
      (v1RunOf E (V1Ty.normOf E root fuel) fuel f s off = .fail ∨
        ∃ len v, v1RunOf E (V1Ty.normOf E root fuel) fuel f s off = .ok (len, v) ∧ off + len ≤ s.length) := by
    rintro f off ⟨x, h1, h2, h3, h4, h5, h6⟩ ho
    have hdx : V1Digits x.leaf s := fun _ => hd
    have := V1Ty.does E root hu he hz hl x h4 hdx h5 (List.suffix_refl s) ho h6 f h2 h3
    have e : v1RunOf E (V1Ty.normOf E root fuel) fuel f s off = v1Parser E (V1Ty.normOf E root fuel) fuel x.fn f s off := by
      unfold v1RunOf
      rw [h1]
    rw [e]
    by_cases hex : ∃ n v, x.accepts E (s.drop off) n v
    · obtain ⟨n, v, hv⟩ := hex
      obtain ⟨w, hw, _⟩ := this.1 n v hv
      refine .inr ⟨n, w, hw, ?_⟩
      have hsuf := List.drop_suffix off s
      have := V1Ty.accepts_le E he h4 (V1Ty.noNul_suffix hz hsuf) (V1Ty.digits_suffix hdx hsuf) hv
      rw [List.length_drop] at this
      omega
    · exact .inl (this.2 fun n v hv => hex ⟨n, v, hv⟩)
  refine ⟨⟨hl, fun f off len v hf ho hr => ?_⟩, fun f off hf ho => ?_⟩
  · rcases hf with hf | hf
    · exact h0.within f off len v hf ho hr
    · rcases key f off hf ho with h1 | ⟨l, w, h1, h2⟩
      · rw [h1] at hr; cases hr
      · rw [h1] at hr; cases hr; exact h2
  · rcases hf with hf | hf
    · exact h0.total f off hf ho
    · rcases key f off hf ho with h1 | ⟨l, w, h1, h2⟩
      · exact .inl h1
      · exact .inr ⟨l, w, h1⟩

namespace Ex
/-- `number` -/
def tNum : V1Ty := .simple (bs! "number") none .number
/-- `word` -/
def tWord : V1Ty := .simple (bs! "word") none .word
/-- `interpret:int:number` -/
def tInt : V1Ty := .interpret (bs! "int") .int10 tNum
/-- `tokenized:, :interpret:int:number` -/
def tInts : V1Ty := .tokenized (bs! ", ") (bs! ", ") tInt
/-- `suffixed:,:ms,s:number` -/
def tDur : V1Ty := .suffixed none (bs! ",") (bs! "ms,s") [bs! "ms", bs! "s"] tNum

theorem tNum_ok : tNum.OK E1 := ⟨⟨by decide, by decide, by decide, by simp⟩, by decide, rfl, trivial, by decide⟩
theorem tInt_ok : tInt.OK E1 := ⟨tNum_ok, rfl, by decide⟩
theorem tInts_ok : tInts.OK E1 := ⟨tInt_ok, ⟨by decide, by decide, by decide⟩, by decide, by decide, by decide, by decide⟩
theorem tDur_ok : tDur.OK E1 :=
  ⟨tNum_ok, ⟨by decide, by decide, by decide⟩, ⟨by decide, by decide, by decide⟩, by decide, ⟨ch! ',', by decide, by decide, by decide, by decide⟩, by simp⟩
end Ex

example : Ex.tInts.descr = bs! "tokenized:, :interpret:int:number" := by decide
example : Ex.tDur.descr = bs! "suffixed:,:ms,s:number" := by decide
/-- the list `1, 22` in front of a period -/
example : Ex.tInts.accepts Ex.E1 (bs! "1, 22.") 5 (.arr [.int 1, .int 22]) := by
  refine .inr ⟨_, .more (n := 1) (m := 2) (r := bs! "22.") (by decide) (.inl ⟨by decide, bs! "1", ⟨⟨by decide, by decide, by decide, by decide⟩, by decide⟩, rfl⟩) (by decide)
    (.last (by decide) (.inl ⟨by decide, bs! "22", ⟨⟨by decide, by decide, by decide, by decide⟩, by decide⟩, rfl⟩) (by decide)), by decide⟩
/-- `12ms` -/
example : Ex.tDur.accepts Ex.E1 (bs! "12ms;") 4 (.obj [(bs! "value", .str (bs! "12")), (bs! "suffix", .str (bs! "ms"))]) :=
  .inl ⟨by decide, 2, .str (bs! "12"), [], bs! "ms", [bs! "s"], ⟨⟨by decide, by decide, by decide, by decide⟩, by decide⟩, rfl, by decide, by simp, rfl, rfl⟩


private theorem digit_facts {c : UInt8} (h : isDigit c = true) : isSpace c = false ∧ c ≠ ch! '-' ∧ c ≠ ch! '+' := by
  simp only [isDigit, isSpace, Bool.and_eq_true, decide_eq_true_eq, Bool.or_eq_false_iff, Bool.and_eq_false_iff, decide_eq_false_iff_not, beq_eq_false_iff_ne,
    UInt8.le_iff_toNat_le, ← UInt8.toNat_inj, UInt8.reduceToNat, ne_eq] at h ⊢
  omega

/-- C73: where the rules of `descent` and `recursive` fields come from, and which of their fields holds the rest of the text: `descent:file:rem`
uses the rulebase `file` (which has to exist), `recursive:rem` the rulebase the field is in; without `:rem` the rest is called `tail`. -/
theorem C73_nested_rulebase (E : V1Env) (self : V1CtxId) {nm : Bytes} (hn : V1NameOK nm) (rest file rem : Bytes) (hf : V1Ty.ArgOK file)
    (hfe : E.env.unescape file = file) (hex : (E.files file).isSome) (hr : ch! '%' ∉ rem ∧ (0 : UInt8) ∉ rem) :
    v1FieldDescr E self (nm ++ ch! ':' :: (bs! "descent:" ++ file ++ ch! ':' :: rem ++ ch! '%' :: rest)) =
      some (⟨nm, .fn .recursive, some (file ++ ch! ':' :: rem), some (.recursive (.file file) rem)⟩, rest) ∧
    v1FieldDescr E self (nm ++ ch! ':' :: (bs! "descent:" ++ file ++ ch! '%' :: rest)) =
      some (⟨nm, .fn .recursive, some file, some (.recursive (.file file) (bs! "tail"))⟩, rest) ∧
    v1FieldDescr E self (nm ++ ch! ':' :: (bs! "recursive:" ++ rem ++ ch! '%' :: rest)) =
      some (⟨nm, .fn .recursive, some rem, some (.recursive self rem)⟩, rest) ∧
    v1FieldDescr E self (nm ++ ch! ':' :: (bs! "recursive" ++ ch! '%' :: rest)) =
      some (⟨nm, .fn .recursive, none, some (.recursive self (bs! "tail"))⟩, rest) := by
  obtain ⟨a1, a2, a3⟩ := hf
  obtain ⟨c, hc⟩ := Option.isSome_iff_exists.1 hex
  have hz : noNul (file ++ ch! ':' :: rem) = file ++ ch! ':' :: rem :=
    noNul_id (by simp only [List.mem_append, List.mem_cons, not_or]; exact ⟨a3, by decide, hr.2⟩)
  have hs : pconsSplit 1 file = [file] := by
    have : file.dropWhile (fun c => c != ch! ':') = [] := by
      have hall : ∀ x ∈ file, (x != ch! ':') = true := by intro x hx; simp; rintro rfl; exact a1 hx
      clear hfe hex hc hz a1 a2 a3
      induction file with
      | nil => rfl
      | cons x l ih => rw [List.dropWhile_cons, if_pos (hall x (by simp))]; exact ih fun y hy => hall y (by simp [hy])
    rw [pconsSplit, this]
  refine ⟨?_, ?_, ?_, ?_⟩
  · have h := v1FieldDescr_descr E self hn (ty := bs! "descent") (e := some (file ++ ch! ':' :: rem))
      ⟨by decide, by decide, by decide, by intro x hx; cases hx; simp only [List.mem_append, List.mem_cons, not_or]; exact ⟨a2, by decide, hr.1⟩⟩
      (p := (.fn .recursive, .descent)) (by decide) rest
    have hd : v1Data E self .descent (some (file ++ ch! ':' :: rem)) = some (.recursive (.file file) rem) := by
      show v1RecData E self .descent _ = _
      rw [v1RecData, pconsArgs, hz, pconsSplit_cons 0 a1, pconsSplit]
      simp [unescArg, hfe, noNul_id a3, hc]
    rw [hd] at h
    rw [← h]; simp [v1Descr]
  · have h := v1FieldDescr_descr E self hn (ty := bs! "descent") (e := some file)
      ⟨by decide, by decide, by decide, by intro x hx; cases hx; exact a2⟩ (p := (.fn .recursive, .descent)) (by decide) rest
    have hd : v1Data E self .descent (some file) = some (.recursive (.file file) (bs! "tail")) := by
      show v1RecData E self .descent _ = _
      rw [v1RecData, pconsArgs, noNul_id a3, hs]
      simp [unescArg, hfe, noNul_id a3, hc, tailName]
    rw [hd] at h
    rw [← h]; simp [v1Descr]
  · have h := v1FieldDescr_descr E self hn (ty := bs! "recursive") (e := some rem)
      ⟨by decide, by decide, by decide, by intro x hx; cases hx; exact hr.1⟩ (p := (.fn .recursive, .recursive)) (by decide) rest
    have hd : v1Data E self .recursive (some rem) = some (.recursive self rem) := by
      show v1RecData E self .recursive _ = _
      rw [v1RecData, pconsArgs, noNul_id hr.2, pconsSplit]
      simp
    rw [hd] at h
    rw [← h]; simp [v1Descr]
  · have h := v1FieldDescr_descr E self hn (ty := bs! "recursive") (e := none)
      ⟨by decide, by decide, by decide, by intro x hx; cases hx⟩ (p := (.fn .recursive, .recursive)) (by decide) rest
    rw [show v1Data E self .recursive none = some (.recursive self (bs! "tail")) from rfl] at h
    rw [← h]; simp [v1Descr]

example : V1NameOK (bs! "f") ∧ V1Ty.ArgOK (bs! "/etc/x.rb") :=
  ⟨⟨by decide, by decide, by intro c h; cases h; decide⟩, by decide, by decide, by decide⟩

/-- C73: `interpret:int` of digits delivers their value, as far as a `long` can hold it. -/
theorem C73_int_value (E : V1Env) {ds : Bytes} (hds : ∀ c ∈ ds, isDigit c = true) :
    V1Ty.meaning E .int10 ds = .int (if decVal ds ≤ 9223372036854775807 then (decVal ds : Int) else 9223372036854775807) := by
  have hfold : ∀ (l : Bytes) (a : Nat), (∀ c ∈ l, isDigit c = true) →
      l.foldl (fun v c => v * 10 + hexVal c) a = l.foldl (fun v c => v * 10 + (c.toNat - 48)) a := by
    intro l
    induction l with
    | nil => intros; rfl
    | cons c l ih =>
      intro a h
      rw [List.foldl_cons, List.foldl_cons, ih _ fun d hd => h d (by simp [hd])]
      rw [hexVal, if_pos (h c (by simp))]
  have hd : strtolDigits 10 ds = decVal ds := by
    have e : ds.takeWhile (fun c => if 10 = 16 then isXDigit c else isDigit c) = ds := by
      have : (fun c : UInt8 => if 10 = 16 then isXDigit c else isDigit c) = isDigit := by funext c; rfl
      rw [this]
      exact takeWhile_all hds
    unfold strtolDigits
    rw [e, hfold ds 0 hds]
    rfl
  show Json.int (strtol 10 ds) = _
  have e : strtol 10 ds = if (strtolDigits 10 ds : Int) > 9223372036854775807 then 9223372036854775807 else
      if (strtolDigits 10 ds : Int) < -9223372036854775808 then -9223372036854775808 else (strtolDigits 10 ds : Int) := by
    cases ds with
    | nil => rfl
    | cons c l =>
      obtain ⟨h1, h2, h3⟩ := digit_facts (hds c (by simp))
      unfold strtol
      rw [List.dropWhile_cons_of_neg (by simp [h1])]
      simp only [if_neg h2, if_neg h3]
      cases l with
      | nil => rfl
      | cons d l =>
        cases l with
        | nil => rfl
        | cons e l => simp
  rw [e, hd]
  congr 1
  split <;> split <;> omega

/-- C73: `interpret:base16int` of hexadecimal digits, with or without `0x` in front of them, delivers their value, as far as a `long` can hold it. -/
theorem C73_hex_value (E : V1Env) {ds pre : Bytes} (hne : ds ≠ []) (hds : ∀ c ∈ ds, isXDigit c = true) (hpre : pre ∈ [[], bs! "0x", bs! "0X"]) :
    V1Ty.meaning E .int16 (pre ++ ds) = .int (if hexValue ds ≤ 9223372036854775807 then (hexValue ds : Int) else 9223372036854775807) := by
  have hx : ∀ c : UInt8, isXDigit c = true → isSpace c = false ∧ c ≠ ch! '-' ∧ c ≠ ch! '+' ∧ c ≠ ch! 'x' ∧ c ≠ ch! 'X' := by
    have h : ∀ n : Fin 256, let c := UInt8.ofNat n.val
        isXDigit c = true → isSpace c = false ∧ c ≠ ch! '-' ∧ c ≠ ch! '+' ∧ c ≠ ch! 'x' ∧ c ≠ ch! 'X' := by decide +kernel
    intro c
    have := h ⟨c.toNat, c.toNat_lt⟩
    simpa using this
  have hd : strtolDigits 16 ds = hexValue ds := by
    have e : ds.takeWhile (fun c => if 16 = 16 then isXDigit c else isDigit c) = ds := by
      have : (fun c : UInt8 => if 16 = 16 then isXDigit c else isDigit c) = isXDigit := by funext c; rfl
      rw [this]
      exact takeWhile_all hds
    unfold strtolDigits
    rw [e]
    rfl
  obtain ⟨c, l, rfl⟩ : ∃ c l, ds = c :: l := by
    cases ds with
    | nil => exact absurd rfl hne
    | cons c l => exact ⟨c, l, rfl⟩
  obtain ⟨h1, h2, h3, -, -⟩ := hx c (hds c (by simp))
  show Json.int (strtol 16 (pre ++ c :: l)) = _
  have e : strtol 16 (pre ++ c :: l) = if (strtolDigits 16 (c :: l) : Int) > 9223372036854775807 then 9223372036854775807 else
      if (strtolDigits 16 (c :: l) : Int) < -9223372036854775808 then -9223372036854775808 else (strtolDigits 16 (c :: l) : Int) := by
    simp only [List.mem_cons, List.not_mem_nil, or_false] at hpre
    rcases hpre with rfl | rfl | rfl
    · unfold strtol
      rw [List.nil_append, List.dropWhile_cons_of_neg (by simp [h1])]
      simp only [if_neg h2, if_neg h3]
      cases l with
      | nil => rfl
      | cons d l =>
        obtain ⟨-, -, -, h4, h5⟩ := hx d (hds d (by simp))
        cases l with
        | nil => rfl
        | cons e l => simp [h4, h5]
    · unfold strtol
      have : (bs! "0x" ++ c :: l).dropWhile isSpace = ch! '0' :: ch! 'x' :: c :: l := by
        rw [show bs! "0x" ++ c :: l = ch! '0' :: ch! 'x' :: c :: l from rfl, List.dropWhile_cons_of_neg (by decide)]
      rw [this]
      simp [hds c]
    · unfold strtol
      have : (bs! "0X" ++ c :: l).dropWhile isSpace = ch! '0' :: ch! 'X' :: c :: l := by
        rw [show bs! "0X" ++ c :: l = ch! '0' :: ch! 'X' :: c :: l from rfl, List.dropWhile_cons_of_neg (by decide)]
      rw [this]
      simp [hds c]
  rw [e, hd]
  congr 1
  split <;> split <;> omega

example : V1Ty.meaning Ex.E1 .int16 (bs! "0X00ff") = .int 255 := by
  rw [show bs! "0X00ff" = bs! "0X" ++ bs! "00ff" from rfl, C73_hex_value _ (by decide) (by decide) (by decide)]; decide

example : V1Ty.meaning Ex.E1 .int10 (bs! "0042") = .int 42 := by rw [C73_int_value _ (by decide)]; decide
example : V1Ty.meaning Ex.E1 .bool (bs! "False") = .bool false ∧ V1Ty.meaning Ex.E1 .bool (bs! "0") = .bool true := by decide
example : V1Ty.meaning Ex.E1 .int16 (bs! "0x1F") = .int 31 := by decide

/-! ### descent and recursive -/

private theorem event_cons {s : Bytes} {k : Bytes} {v : Json} : ∀ (l : List V1Step) (o : Obj), (∀ p ∈ l, cstr p.f.name ≠ k) →
    l.foldl (fun o x => if x.f.name = bs! "-" then o else Obj.add o (cstr x.f.name) (x.value s)) ((k, v) :: o) =
      (k, v) :: l.foldl (fun o x => if x.f.name = bs! "-" then o else Obj.add o (cstr x.f.name) (x.value s)) o
  | [], _, _ => rfl
  | p :: l, o, h => by
    rw [List.foldl_cons, List.foldl_cons]
    split
    · exact event_cons l o fun q hq => h q (by simp [hq])
    · rw [Obj.add, if_neg (Ne.symm (h p (by simp)))]
      exact event_cons l _ fun q hq => h q (by simp [hq])

private theorem event_get {s k : Bytes} : ∀ (l : List V1Step) (o : Obj), o.get k = none → (∀ p ∈ l, cstr p.f.name ≠ k) →
    Obj.get (l.foldl (fun o x => if x.f.name = bs! "-" then o else Obj.add o (cstr x.f.name) (x.value s)) o) k = none
  | [], _, h, _ => h
  | p :: l, o, h, hl => by
    rw [List.foldl_cons]
    refine event_get l _ ?_ fun q hq => hl q (by simp [hq])
    split
    · exact h
    · rw [Obj.get_add_ne _ _ (Ne.symm (hl p (by simp)))]
      exact h

private theorem event_mem {s k : Bytes} : ∀ (l : List V1Step) (o : Obj), (∀ m ∈ o, m.1 ≠ k) → (∀ p ∈ l, cstr p.f.name ≠ k) →
    ∀ m ∈ l.foldl (fun o x => if x.f.name = bs! "-" then o else Obj.add o (cstr x.f.name) (x.value s)) o, m.1 ≠ k
  | [], _, h, _ => h
  | p :: l, o, h, hl => by
    rw [List.foldl_cons]
    refine event_mem l _ ?_ fun q hq => hl q (by simp [hq])
    split
    · exact h
    · have hadd : ∀ (o : Obj), (∀ m ∈ o, m.1 ≠ k) → ∀ m ∈ Obj.add o (cstr p.f.name) (p.value s), m.1 ≠ k := by
        intro o
        induction o with
        | nil =>
          intro _ m hm
          rw [Obj.add, List.mem_singleton] at hm
          rw [hm]
          exact hl p (by simp)
        | cons a o ih =>
          intro ho m hm
          obtain ⟨a1, a2⟩ := a
          rw [Obj.add] at hm
          split at hm
          · rcases List.mem_cons.1 hm with rfl | hm
            · exact hl p (by simp)
            · exact ho m (by simp [hm])
          · rcases List.mem_cons.1 hm with rfl | hm
            · exact ho _ (by simp)
            · exact ih (fun m hm => ho m (by simp [hm])) m hm
      exact hadd o h

private theorem match_rest {run : V1Run} {s : Bytes} {i : Nat} {toks : List VTok} {tr : List V1Step} (h : V1Match run s i toks tr) :
    ∀ p ∈ tr, p.f.prs = .rest → p.v = none ∧ p.len = s.length - p.off ∧ p.off ≤ s.length := by
  induction h with
  | nil => simp
  | ch _ _ ih => exact ih
  | fld h1 _ _ ih =>
    intro p hp hr
    rcases List.mem_cons.1 hp with rfl | hp
    · rw [h1] at hr; cases hr
    · exact ih p hp hr
  | rest _ h2 _ ih =>
    intro p hp hr
    rcases List.mem_cons.1 hp with rfl | hp
    · exact ⟨rfl, rfl, h2⟩
    · exact ih p hp hr

variable {pd : V1Pd}

/-- C73: `descent` and `recursive` apply the rules of another file, or of the rulebase itself, to the rest of the message. If one of these rules matches, the
field delivers the event of the match; the text which the field `rem` of the rule (of type rest, by default called `tail`) matched does not belong to the
field. If none matches, the field matches the empty text, without a value.

`c`: the rules, `L` what was loaded.
Missing for the full property: messages with NUL bytes; rules with tags, and the conditions of C64. -/
theorem C73_descent_partial {E : V1Env} {root L : V1Load} {c : V1CtxId} {fuel : Nat} (hL : v1CtxLoad E root fuel c = .ok L) {s : Bytes} {offs : Nat}
    (ho : offs ≤ s.length)
    (hz : (0 : UInt8) ∉ s) {rem : Bytes} {res : V1Res}
    (hrun : V1RunIn pd.ok (v1RunOf E (V1Ty.normOf E root fuel) fuel) (s.drop offs)) (hxs : ∀ x ∈ L.xs, x.OK pd ∧ x.tags = none)
    (hres : v1NormN E root (fuel + 1) c (s.drop offs) [] = .ok res) :
    (res.matched = true → ∃ x ∈ L.xs, ∃ tr, V1Match (v1RunOf E (V1Ty.normOf E root fuel) fuel) (s.drop offs) 0 x.toks tr ∧
      ((∀ p ∈ tr, cstr p.f.name ≠ rem ∧ cstr p.f.name ≠ bs! "unparsed-data") →
        v1Recursive (V1Ty.normOf E root (fuel + 1)) (some (.recursive c rem)) s offs =
          .ok (s.length - offs, some (.obj (v1Event (s.drop offs) [] tr)))) ∧
      (∀ tr' p, tr = tr' ++ [p] → p.f.prs = .rest → p.f.name ≠ bs! "-" → cstr p.f.name = rem → rem ≠ bs! "unparsed-data" →
        (∀ q ∈ tr', cstr q.f.name ≠ rem ∧ cstr q.f.name ≠ bs! "unparsed-data") →
        v1Recursive (V1Ty.normOf E root (fuel + 1)) (some (.recursive c rem)) s offs = .ok (p.off, some (.obj (v1Event (s.drop offs) [] tr'))))) ∧
    (res.matched = false → v1Recursive (V1Ty.normOf E root (fuel + 1)) (some (.recursive c rem)) s offs = .ok (0, none)) := by
  have hzt : (0 : UInt8) ∉ s.drop offs := fun h => hz (List.mem_of_mem_drop h)
  have hlen : s.length - offs = (s.drop offs).length := by rw [List.length_drop]
  have hn : V1Ty.normOf E root (fuel + 1) c (s.drop offs) [] = .ok res.json := by
    unfold V1Ty.normOf
    rw [hres]
    rfl
  have hv : v1Normalize (v1RunOf E (V1Ty.normOf E root fuel) fuel) L.annots fuel (loadV1 L.xs) (s.drop offs) [] = .ok res := by
    rw [v1NormN, hL, R.ok_bind'] at hres
    exact hres
  constructor
  · intro hm
    obtain ⟨x, hx, tr, hlast, hmt, hdel⟩ := C64_match_is_real_partial hrun (fun x hx => (hxs x hx).1) hv hm
    rw [(hxs x hx).2] at hdel
    have hdel : res.json = v1Event (s.drop offs) [] tr := hdel
    refine ⟨x, hx, tr, hmt, fun hno => ?_, fun tr' p htr h1 h3 h4 h7 h8 => ?_⟩
    · rw [v1Recursive]
      rw [hn, R.ok_bind', hdel]
      have g1 : Obj.get (v1Event (s.drop offs) [] tr) (bs! "unparsed-data") = none :=
        event_get _ _ rfl fun p hp => (hno p (List.mem_reverse.1 hp)).2
      have g2 : Obj.get (v1Event (s.drop offs) [] tr) rem = none :=
        event_get _ _ rfl fun p hp => (hno p (List.mem_reverse.1 hp)).1
      rw [g1]
      dsimp only
      rw [g2]
    · obtain ⟨h2, h5, h6⟩ := match_rest hmt p (by rw [htr]; simp) h1
      have hval : p.value (s.drop offs) = .str ((s.drop offs).drop p.off) := by
        unfold V1Step.value
        rw [h2, Option.getD_none, newString, slice, h5, List.take_of_length_le (Nat.le_of_eq List.length_drop), V1Ty.cstr_id fun h => hzt (List.mem_of_mem_drop h)]
      have hev : v1Event (s.drop offs) [] tr = (rem, .str ((s.drop offs).drop p.off)) :: v1Event (s.drop offs) [] tr' := by
        unfold v1Event
        rw [htr, List.reverse_append, List.reverse_singleton, List.singleton_append, List.foldl_cons, if_neg h3, h4, hval, Obj.add]
        exact event_cons _ _ fun q hq => (h8 q (List.mem_reverse.1 hq)).1
      rw [v1Recursive]
      rw [hn, R.ok_bind', hdel, hev]
      have g1 : Obj.get ((rem, Json.str ((s.drop offs).drop p.off)) :: v1Event (s.drop offs) [] tr') (bs! "unparsed-data") = none := by
        rw [Obj.get, if_neg h7]
        exact event_get _ _ rfl fun q hq => (h8 q (List.mem_reverse.1 hq)).2
      rw [g1]
      dsimp only
      rw [show Obj.get ((rem, Json.str ((s.drop offs).drop p.off)) :: v1Event (s.drop offs) [] tr') rem = some (.str ((s.drop offs).drop p.off)) by
        rw [Obj.get, if_pos rfl]]
      dsimp only
      have hdl : Obj.del ((rem, Json.str ((s.drop offs).drop p.off)) :: v1Event (s.drop offs) [] tr') rem = v1Event (s.drop offs) [] tr' := by
        unfold Obj.del
        rw [List.filter_cons_of_neg (by simp), List.filter_eq_self]
        intro m hm
        have := event_mem (s := s.drop offs) (k := rem) tr'.reverse [] (by simp) (fun q hq => (h8 q (List.mem_reverse.1 hq)).1) m hm
        simpa using this
      rw [hdl, hlen, strLenOf, V1Ty.sizeSub_tail (V1Ty.len_drop_le _ _) hrun.size, V1Ty.len_drop h6]
  · intro hm
    obtain ⟨i, _, hj⟩ := C70_no_match_partial hrun (fun x hx => (hxs x hx).1) hzt hv hm
    rw [v1Recursive]
    rw [hn, R.ok_bind', hj, Obj.get_add_self]

/-- C73: what `descent` delivers is what the rules of the file `n` say, and nothing else: rules, prefixes and annotations of the rulebase it is used in
(`root`) do not count. `C73_descent_partial` for the rules of a file. -/
theorem C73_descent_file_partial {E : V1Env} {root L : V1Load} {n text : Bytes} {fuel : Nat} (hfile : E.files n = some text)
    (hL : v1LoadText E (.file n) fuel {} text = .ok L) {s : Bytes} {offs : Nat} (ho : offs ≤ s.length)
    (hz : (0 : UInt8) ∉ s) {rem : Bytes} {res : V1Res}
    (hrun : V1RunIn pd.ok (v1RunOf E (V1Ty.normOf E root fuel) fuel) (s.drop offs)) (hxs : ∀ x ∈ L.xs, x.OK pd ∧ x.tags = none)
    (hres : v1NormN E root (fuel + 1) (.file n) (s.drop offs) [] = .ok res) :
    (res.matched = true → ∃ x ∈ L.xs, ∃ tr, V1Match (v1RunOf E (V1Ty.normOf E root fuel) fuel) (s.drop offs) 0 x.toks tr ∧
      ((∀ p ∈ tr, cstr p.f.name ≠ rem ∧ cstr p.f.name ≠ bs! "unparsed-data") →
        v1Recursive (V1Ty.normOf E root (fuel + 1)) (some (.recursive (.file n) rem)) s offs =
          .ok (s.length - offs, some (.obj (v1Event (s.drop offs) [] tr)))) ∧
      (∀ tr' p, tr = tr' ++ [p] → p.f.prs = .rest → p.f.name ≠ bs! "-" → cstr p.f.name = rem → rem ≠ bs! "unparsed-data" →
        (∀ q ∈ tr', cstr q.f.name ≠ rem ∧ cstr q.f.name ≠ bs! "unparsed-data") →
        v1Recursive (V1Ty.normOf E root (fuel + 1)) (some (.recursive (.file n) rem)) s offs = .ok (p.off, some (.obj (v1Event (s.drop offs) [] tr'))))) ∧
    (res.matched = false → v1Recursive (V1Ty.normOf E root (fuel + 1)) (some (.recursive (.file n) rem)) s offs = .ok (0, none)) :=
  C73_descent_partial (by rw [v1CtxLoad, hfile]; exact hL) ho hz hrun hxs hres

/-! ### examples, and what does not hold -/

namespace Ex
/-- with one file, called `f` -/
def E2 : V1Env := { env := Ex.envJ, files := fun n => if n = bs! "f" then some (bs! "rule=:%a:number% %tail:rest%\n") else none }
/-- load the text, and normalise the message -/
def v1t (text msg : Bytes) : R V1Res := (v1LoadText E2 .root 0 {} text).bind fun L => v1NormN E2 L 20 .root msg []
end Ex

example : Ex.v1t (bs! "rule=:%u:descent:f:tail%x\n") (bs! "1 x") = .ok ⟨true, [(bs! "u", .obj [(bs! "a", .str (bs! "1"))])]⟩ := by decide +kernel
example : Ex.v1t (bs! "rule=:%u:tokenized:, :interpret:int:number%.\n") (bs! "1, 22.") = .ok ⟨true, [(bs! "u", .arr [.int 1, .int 22])]⟩ := by decide +kernel
example : Ex.v1t (bs! "rule=:%u:suffixed:,:ms,s:number%.\n") (bs! "12ms.") =
    .ok ⟨true, [(bs! "u", .obj [(bs! "value", .str (bs! "12")), (bs! "suffix", .str (bs! "ms"))])]⟩ := by decide +kernel

/-- the rules around do not count: `%a:number% %tail:rest%` is in the file, `z` is not -/
example : Ex.v1t (bs! "prefix=p \nrule=:%u:descent:f:tail%x\nrule=:z\n") (bs! "p 1 x") = .ok ⟨true, [(bs! "u", .obj [(bs! "a", .str (bs! "1"))])]⟩ := by
  decide +kernel

/-- C73, violated: where there is no number, `interpret` of a number matches nevertheless (the same holds for `suffixed` and `descent`). -/
theorem C73_always_matches_violated :
    Ex.v1t (bs! "rule=:%u:interpret:int:number%x\n") (bs! "x") = .ok ⟨true, [(bs! "u", .str [])]⟩ ∧
    Ex.v1t (bs! "rule=:%u:suffixed:,:s:number%x\n") (bs! "x") = .ok ⟨true, [(bs! "u", .str [])]⟩ ∧
    Ex.v1t (bs! "rule=:%u:descent:f%x\n") (bs! "x") = .ok ⟨true, [(bs! "u", .str [])]⟩ := by decide +kernel

/-- C73, violated: NULL is dereferenced if the message ends where the suffix should be. -/
theorem C73_suffix_at_end_violated : Ex.v1t (bs! "rule=:%u:suffixed:,:ms,s:number%\n") (bs! "12") = .ub .nullDeref := by decide +kernel

/-- C73, violated: an integer interpreted again is used after it is freed. -/
theorem C73_int_of_int_violated : Ex.v1t (bs! "rule=:%u:interpret:int:interpret:int:number%\n") (bs! "5") = .ub .useAfterFree := by decide +kernel

/-- C73, violated: tokenizing with the rules of a file which does not exist dereferences NULL. -/
theorem C73_missing_file_violated : Ex.v1t (bs! "rule=:%u:tokenized:,:descent:/no/file%\n") (bs! "5") = .ub .nullDeref := by decide +kernel

/-- C73, violated: whether the separator behind the last element belongs to the list depends on what follows it. -/
theorem C73_trailing_separator_violated :
    Ex.v1t (bs! "rule=:%u:tokenized:,:number%\n") (bs! "1,2,") = .ok ⟨true, [(bs! "u", .arr [.str (bs! "1"), .str (bs! "2")])]⟩ ∧
    Ex.v1t (bs! "rule=:%u:tokenized:,:number%,.\n") (bs! "1,2,.") = .ok ⟨true, [(bs! "u", .arr [.str (bs! "1"), .str (bs! "2")])]⟩ := by decide +kernel

/-- C73, violated: text between a NUL byte and the end of the message is skipped: here `%u%` takes four bytes. -/
theorem C73_nul_violated :
    Ex.v1t (bs! "rule=:%u:interpret:int:number%x\n") [ch! '1', ch! ' ', 0, ch! ' ', ch! 'x'] = .ok ⟨true, [(bs! "u", .int 1)]⟩ := by decide +kernel

/-- C73, violated: with an empty separator and elements which may be empty the loop does not end, however many rounds are permitted. -/
theorem C73_empty_separator_violated (E : V1Env) (norm : V1Norm) (c : V1CtxId) (t : Bytes) (ht : t ≠ [])
    (hn : norm c t [] = .ok [(bs! "tail", .str t), (bs! "default", .str [])]) (ms : List Json) (rounds : Nat) :
    v1TokLoop norm [] (some c) true (bs! "tail") rounds t [] ms = .oof := by
  induction rounds generalizing ms with
  | zero => rfl
  | succ k ih =>
    rw [v1TokLoop, if_neg ht]
    dsimp only
    rw [if_pos rfl, hn, R.ok_bind']
    have g1 : Obj.get [(bs! "tail", .str t), (bs! "default", .str [])] (bs! "default") = some (.str []) := rfl
    have g2 : Obj.get [(bs! "tail", .str t), (bs! "default", .str [])] (bs! "tail") = some (.str t) := rfl
    have g3 : Obj.del (Obj.del [(bs! "tail", .str t), (bs! "default", .str [])] (bs! "tail")) (bs! "default") = [] := rfl
    simp only [g1, g2, g3, if_true, Option.isSome_some, if_neg ht, List.nil_prefix, List.length_nil, List.drop_zero]
    exact ih _

/-- such elements: `char-sep` in front of the separator -/
example : V1Ty.normOf Ex.E2 {} 8 (.gen (bs! "char-sep:,")) (bs! ",") [] = .ok [(bs! "tail", .str (bs! ",")), (bs! "default", .str [])] := by decide +kernel

/-- C73, violated: a rule beginning with a field of type `recursive` makes `ln_normalize` call itself with the same message without end. -/
theorem C73_endless_recursion_violated (E : V1Env) (L : V1Load) (f : V1Field) (hf : f.prs = .fn .recursive) (rem : Bytes) (hd : f.pdata = some (.recursive .root rem))
    (hL : L.xs = [⟨[], [(f, [])], none, true⟩]) (s : Bytes) (hs : s ≠ []) (fuel : Nat) (o : Obj) : v1NormN E L fuel .root s o = .oof := by
  induction fuel generalizing o with
  | zero => rfl
  | succ k ih =>
    rw [v1NormN, v1CtxLoad, R.ok_bind', hL]
    have hT : loadV1 [⟨[], [(f, [])], none, true⟩] = .node [] false none [(f, .node [] true none [] [])] [] := by
      have b : ∀ (t : PTree) (k : PTree → PTree), t.pfx = [] → buildPTree t [] k = k t := by
        intro t k ht
        unfold buildPTree
        rw [buildPTreeN]
        simp [ht, commonLen]
      simp only [loadV1, List.foldl, addSample, addSegs, if_true]
      rw [b _ _ rfl]
      simp only [addFDescr, PTree.empty, PTree.pfx, PTree.terminal, PTree.tags, PTree.fields, PTree.subs, addFieldTo]
      rw [b _ _ rfl]
      rfl
    rw [hT]
    unfold v1Normalize
    cases k with
    | zero => rfl
    | succ k =>
      have hpos : 0 < s.length := List.length_pos_iff.2 hs
      rw [v1Rec, if_neg (by omega)]
      have hm : ∀ t : Bytes, cmpLen t [] = 0 := by intro t; cases t <;> rfl
      simp only [PTree.pfx, PTree.fields, PTree.subs, hm, Nat.add_zero, List.length_nil, Nat.lt_irrefl, if_false]
      rw [v1Fields, hf]
      dsimp only
      have hr : v1RunOf E (fun c s o => (v1NormN E L (k + 1) c s o).bind fun r => .ok r.json) (k + 1) f s 0 = .oof := by
        have e : v1RunOf E (fun c s o => (v1NormN E L (k + 1) c s o).bind fun r => .ok r.json) (k + 1) f s 0 =
            v1Recursive (fun c s o => (v1NormN E L (k + 1) c s o).bind fun r => .ok r.json) f.pdata s 0 := by
          unfold v1RunOf
          rw [hf]
          rfl
        rw [e, hd, v1Recursive]
        rw [List.drop_zero, ih]
        rfl
      rw [hr]
      rfl

/-- such a rulebase -/
example : (v1LoadText Ex.E2 .root 0 {} (bs! "rule=:%u:recursive%\n")) =
    .ok { xs := [⟨[], [(⟨bs! "u", .fn .recursive, none, some (.recursive .root (bs! "tail"))⟩, [])], none, true⟩] } := by decide +kernel

end LN
