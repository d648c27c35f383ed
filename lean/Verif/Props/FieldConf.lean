import Verif.Proofs.FieldKind
import Verif.Props.Examples
/-
C75: field descriptions mean what they say.
-/
set_option autoImplicit false
namespace LN
open Spec

/-- **C75** A description of a field is understood: the field gets the name given (none for `-`), the priority given (30000
by default), which counts before how specific its type is. -/
theorem C75_name_and_priority {env : Env} {f : FType} {o : Obj} (h : Describes f o) :
    ∃ p, confField env [] (.obj o) = some p ∧ p.name = fieldName o ∧ p.prio = fieldPrio o * 256 + f.prio := by
  obtain ⟨p, h1, _, h2, h3, _⟩ := confField_ok (env := env) h
  exact ⟨p, h1, h2, h3⟩

/-- **C75** The field accepts exactly what its type and parameters say, with the value they say (delivered if the field has
a name). Missing: the messages and parameters excluded by `InScope`. -/
theorem C75_field_means_partial {env : Env} {f : FType} {o : Obj} (h : Describes f o) {p : Parser}
    (hp : confField env [] (.obj o) = some p) {s : Bytes} {offs : Nat} (ht : Tame s) (hl : offs ≤ s.length)
    (hs : f.InScope env o s offs p.name.isSome) :
    (∀ n v, f.Means env o (s.drop offs) n v →
      runParser env s offs p.kind p.name.isSome = .ok (n, if p.name.isSome then v else none)) ∧
    ((∀ n v, ¬ f.Means env o (s.drop offs) n v) → runParser env s offs p.kind p.name.isSome = .fail) := by
  obtain ⟨q, h1, h2, _⟩ := confField_ok (env := env) h
  rw [hp] at h1; cases h1
  exact kind_does h2 h.params ht hl hs

/-- The types for which `C75_field_means_partial` has conditions on the whole message are recognised on every one. -/
theorem C75_other_types {env : Env} {f : FType} {o : Obj} (h : Describes f o) {p : Parser}
    (hp : confField env [] (.obj o) = some p) :
    (f = .cef → p.kind = .cef) ∧ (f = .cee → p.kind = .cee) := by
  obtain ⟨q, h1, h2, _⟩ := confField_ok (env := env) h
  rw [hp] at h1; cases h1
  exact ⟨fun e => by subst e; exact h2, fun e => by subst e; exact h2⟩

/-- Whatever the description, the priority of a field is the number given (24 bits of it, the upper ones are lost) and, below it, that of the type. -/
theorem C75_priority_any {env : Env} {types : List (Bytes × NodeId)} {o : Obj} {p : Parser} (hp : confField env types (.obj o) = some p) :
    ∃ q : Nat, q < 256 ∧ p.prio = prioOf (confPrio env (.obj o)) q := by
  have hm : ∀ a pp, prioOf a pp = prioOf a (pp % 256) := fun a pp => by unfold prioOf; rw [Nat.mod_mod]
  have hlt : ∀ n : Nat, n % 256 < 256 := fun n => Nat.mod_lt n (by decide)
  unfold confField at hp
  dsimp only at hp
  split at hp
  · cases hp
  · split at hp
    · rw [Option.map_eq_some_iff] at hp
      obtain ⟨i, -, rfl⟩ := hp
      exact ⟨16, by decide, rfl⟩
    · split at hp
      · cases hp
      · split at hp
        · cases hp
        · split at hp
          · cases hp
            exact ⟨_, hlt _, hm _ _⟩
          · cases hp

/-- A priority which is no number: `true` counts as 1; `false`, lists and objects count as 0; `null` is as good as no priority at all, which is 30000. -/
theorem C75_priority_no_number {env : Env} {types : List (Bytes × NodeId)} {o : Obj} {p : Parser} (hp : confField env types (.obj o) = some p) {v : Json}
    (hv : Obj.get o (bs! "priority") = some v) :
    (v = .bool true → ∃ q : Nat, q < 256 ∧ p.prio = 1 * 256 + q) ∧
    (v = .bool false ∨ (∃ l, v = .arr l) ∨ (∃ x, v = .obj x) → ∃ q : Nat, q < 256 ∧ p.prio = 0 * 256 + q) ∧
    (v = .null → ∃ q : Nat, q < 256 ∧ p.prio = 30000 * 256 + q) := by
  obtain ⟨q, hq, h⟩ := C75_priority_any hp
  have hz : confPrio env (.obj o) = 0 → p.prio = 0 * 256 + q := by
    intro e
    rw [h, e]
    unfold prioOf wrap32
    rw [Nat.mod_eq_of_lt hq]
    omega
  refine ⟨?_, ?_, ?_⟩
  · rintro rfl
    refine ⟨q, hq, ?_⟩
    have hc : confPrio env (.obj o) = 1 := by
      unfold confPrio Json.ptr Json.member
      simp only [hv]
      rfl
    rw [h, hc]
    unfold prioOf wrap32
    rw [Nat.mod_eq_of_lt hq]
    omega
  · intro e
    refine ⟨q, hq, hz ?_⟩
    unfold confPrio Json.ptr Json.member
    rcases e with rfl | ⟨l, rfl⟩ | ⟨x, rfl⟩ <;> simp only [hv] <;> rfl
  · rintro rfl
    refine ⟨q, hq, ?_⟩
    have hc : confPrio env (.obj o) = 30000 := by
      unfold confPrio Json.ptr Json.member
      simp only [hv]
    rw [h, hc]
    unfold prioOf wrap32
    rw [Nat.mod_eq_of_lt hq]
    omega

/-- **C75, violated** Priority numbers are not what they seem if they are too large: the largest ones (all from 2147483647 on) count as -1, so that the field is
tried before all fields whose priority is not negative; the smallest ones (all up to -2147483648) count as 0. -/
theorem C75_priority_limits_violated {env : Env} {types : List (Bytes × NodeId)} {o : Obj} {p : Parser} (hp : confField env types (.obj o) = some p) {n : Int}
    (hn : Obj.get o (bs! "priority") = some (.int n)) :
    (2147483647 ≤ n → ∃ q : Nat, q < 256 ∧ p.prio = -1 * 256 + q) ∧ (n ≤ -2147483648 → ∃ q : Nat, q < 256 ∧ p.prio = 0 * 256 + q) := by
  obtain ⟨q, hq, h⟩ := C75_priority_any hp
  have hc : confPrio env (.obj o) = intOf env (.int n) := by
    unfold confPrio Json.ptr Json.member
    simp only [hn]
  have h64 : int64Of env (.int n) = n := rfl
  have hi : intOf env (.int n) = if n > 2147483647 then 2147483647 else if n < -2147483648 then -2147483648 else n := by
    unfold intOf
    simp only [h64]
  rw [hc] at h
  constructor
  · intro hl
    have : intOf env (.int n) = 2147483647 := by
      rw [hi]
      split
      · rfl
      · split <;> omega
    refine ⟨q, hq, ?_⟩
    rw [h, this]
    unfold prioOf wrap32
    rw [Nat.mod_eq_of_lt hq]
    omega
  · intro hl
    have : intOf env (.int n) = -2147483648 := by
      rw [hi]
      split
      · omega
      · split
        · rfl
        · omega
    refine ⟨q, hq, ?_⟩
    rw [h, this]
    unfold prioOf wrap32
    rw [Nat.mod_eq_of_lt hq]
    omega

/-- such descriptions -/
example : (confField Ex.env [] (.obj [(bs! "type", .str (bs! "rest")), (bs! "priority", .int 99999999999)])).map (·.prio) = some (-1 * 256 + 255) ∧
    (confField Ex.env [] (.obj [(bs! "type", .str (bs! "rest")), (bs! "priority", .int (-99999999999))])).map (·.prio) = some 255 := by decide +kernel

example : (confField Ex.env [] (.obj [(bs! "type", .str (bs! "rest")), (bs! "priority", .bool true)])).map (·.prio) = some (1 * 256 + 255) ∧
    (confField Ex.env [] (.obj [(bs! "type", .str (bs! "rest")), (bs! "priority", .arr [])])).map (·.prio) = some 255 ∧
    (confField Ex.env [] (.obj [(bs! "type", .str (bs! "rest")), (bs! "priority", .null)])).map (·.prio) = some (30000 * 256 + 255) := by decide +kernel

/-- Priorities: fields are compared by the priority given, then by how specific their types are. -/
theorem C75_priority_order {env : Env} {f f' : FType} {o o' : Obj} (h : Describes f o) (h' : Describes f' o') {p p' : Parser}
    (hp : confField env [] (.obj o) = some p) (hp' : confField env [] (.obj o') = some p') :
    p.prio ≤ p'.prio ↔ fieldPrio o < fieldPrio o' ∨ (fieldPrio o = fieldPrio o' ∧ f.prio ≤ f'.prio) := by
  obtain ⟨q, h1, _, h2⟩ := C75_name_and_priority (env := env) h
  obtain ⟨q', h1', _, h2'⟩ := C75_name_and_priority (env := env) h'
  rw [hp] at h1; cases h1
  rw [hp'] at h1'; cases h1'
  rw [h2, h2']
  have a := (type_none_special f).2.2.2.1
  have b := (type_none_special f').2.2.2.1
  omega

namespace Ex

/-- `%{"name":"n","type":"number","maxval":99,"format":"number","priority":7}%` -/
def oNumber : Obj := [(bs! "name", .str (bs! "n")), (bs! "type", .str (bs! "number")), (bs! "maxval", .int 99),
  (bs! "format", .str (bs! "number")), (bs! "priority", .int 7)]

theorem oNumber_ok : Describes .number oNumber where
  nodup := by decide
  type := by rfl
  name := .inr ⟨bs! "n", rfl, by decide⟩
  prio := .inr ⟨7, by decide, by decide, rfl⟩
  params := ⟨.inr ⟨bs! "number", by simp, rfl⟩, .inr ⟨99, by decide, by decide, rfl⟩⟩

example : fieldName oNumber = some (bs! "n") ∧ fieldPrio oNumber = 7 ∧
    FType.number.Means Ex.env oNumber (bs! "42 x") 2 (some (.int 42)) :=
  ⟨rfl, rfl, ⟨by decide, ⟨by decide, by decide, fun c h => by cases h; rfl⟩, by decide⟩, rfl⟩

theorem oNumber_msg : Tame (bs! "a42 x") := by
  refine ⟨by decide, fun i => ?_, by decide⟩
  have := (List.takeWhile_prefix (l := (bs! "a42 x").drop i) isDigit).length_le
  simp at this
  omega

example (p : Parser) (hp : confField Ex.env [] (.obj oNumber) = some p) :
    runParser Ex.env (bs! "a42 x") 1 p.kind p.name.isSome = .ok (2, some (.int 42)) := by
  have := (C75_field_means_partial oNumber_ok hp oNumber_msg (offs := 1) (by decide) trivial).1 2 (some (.int 42))
    ⟨⟨by decide, ⟨by decide, by decide, fun c h => by cases h; rfl⟩, by decide⟩, rfl⟩
  obtain ⟨q, h1, h2, _⟩ := C75_name_and_priority (env := Ex.env) oNumber_ok
  rw [hp] at h1; cases h1
  rw [h2] at this ⊢
  exact this

/-- `%{"name":"-","type":"string","quoting.mode":"none","matching.permitted":[{"class":"digit"},{"chars":"ab"}],"matching.mode":"lazy"}%` -/
def oString : Obj := [(bs! "name", .str (bs! "-")), (bs! "type", .str (bs! "string")), (bs! "quoting.mode", .str (bs! "none")),
  (bs! "matching.permitted", .arr [.obj [(bs! "class", .str (bs! "digit"))], .obj [(bs! "chars", .str (bs! "ab"))]]),
  (bs! "matching.mode", .str (bs! "lazy"))]

theorem oString_conf : StrConf oString { quoteMode := .none, esc := .none, lazy := true
                                         perm := fun c => isDigit c || ((bs! "ab").contains c || false) } where
  keys := by decide
  quoting := .inr (.inr (.inl ⟨rfl, rfl⟩))
  escape := ⟨.inl rfl, rfl⟩
  begin := ⟨.inl rfl, rfl⟩
  end_ := ⟨.inl rfl, rfl⟩
  perm := .list [[(bs! "class", .str (bs! "digit"))], [(bs! "chars", .str (bs! "ab"))]] rfl
    (.cons (p := isDigit) (by
      have := PermMember.cls (bs! "digit") (by simp)
      have e : classP (bs! "digit") = isDigit := by funext c; rfl
      rwa [e] at this) (.cons (.chars (bs! "ab") (by decide)) .nil))
  mode := ⟨.inr ⟨bs! "lazy", by simp, rfl⟩, rfl⟩
  strip := rfl

theorem oString_ok : Describes .string oString where
  nodup := by decide
  type := by rfl
  name := .inr ⟨bs! "-", rfl, by decide⟩
  prio := .inl rfl
  params := ⟨_, oString_conf⟩

example : fieldName oString = none ∧ fieldPrio oString = 30000 := ⟨rfl, rfl⟩

/-- messages in the scope of cee-syslog and cef fields: the announcement at the beginning, an event at its end, or neither anywhere -/
example (offs : Nat) (h : offs ≤ (bs! "@cee: {}").length) : FType.cee.InScope Ex.env [] (bs! "@cee: {}") offs true ∧
    FType.cef.InScope Ex.env [] (bs! "@cee: {}") offs true ∧
    FType.cef.InScope Ex.env [] (bs! "x " ++ Ex.cefMsg.text) 2 true := by
  have h8 : (bs! "@cee: {}").length = 8 := rfl
  rw [h8] at h
  refine ⟨⟨by decide, ?_⟩, ?_, fun _ => ⟨Ex.cefMsg, ?_, by decide⟩⟩
  · intro hp
    have : ∀ i, i ≤ 8 → bs! "@cee:" <+: (bs! "@cee: {}").drop i → i = 0 := by decide
    exact this offs h hp
  · intro hp
    have : ∀ i, i ≤ 8 → ¬ bs! "CEF:0|" <+: (bs! "@cee: {}").drop i := by decide
    exact absurd hp (this offs h)
  · unfold CefMsg.Valid; decide

/-- the type decides only between equal priorities -/
example : fieldPrio oNumber < fieldPrio oString ∧ FType.number.prio < FType.string.prio := by decide

end Ex

/-! ### malformed descriptions -/

theorem oneChar_bad {o : Obj} {k : Bytes} {v : Json} (d : UInt8) (h : Obj.get o k = some v) (hv : ∀ c, v ≠ .str [c]) : oneChar o k d = none := by
  unfold oneChar
  rw [h]
  split
  · rename_i e; cases e
  · rename_i c e; cases e; exact absurd rfl (hv c)
  · rfl

/-- **C75, malformed parameters (violated)** The constructors do find errors, but their result is ignored: a `name-value-list` whose separator or assignator
is not a single character is accepted, and whatever message is tried, its missing data is dereferenced. -/
theorem C75_malformed_list_violated {env : Env} {o : Obj} {v : Json} {k : Bytes} (hk : k ∈ [bs! "extradata", bs! "separator", bs! "assignator"])
    (hty : Obj.get o (bs! "type") = some (.str (bs! "name-value-list"))) (hv : Obj.get o k = some v) (hbad : ∀ c, v ≠ .str [c]) :
    ∃ p, confField env [] (.obj o) = some p ∧ ∀ (s : Bytes) (offs : Nat) (want : Bool), runParser env s offs p.kind want = .ub .nullDeref := by
  have hn : ctorNameValue (confRest env (.obj o)) = none := by
    have hg : Obj.get (confRest env (.obj o)) k = some v := by
      unfold confRest
      rw [get_filter, show Json.members (.obj o) = o from rfl, hv]
      intro u
      simp only [List.mem_cons, List.not_mem_nil, or_false] at hk
      rcases hk with rfl | rfl | rfl <;> simp
    unfold ctorNameValue
    simp only [List.mem_cons, List.not_mem_nil, or_false] at hk
    rcases hk with rfl | rfl | rfl
    · simp [oneChar_bad _ hg hbad]
    · cases h1 : oneChar (confRest env (.obj o)) (bs! "extradata") 0 with
      | none => simp
      | some c => simp [oneChar_bad _ hg hbad]
    · cases h1 : oneChar (confRest env (.obj o)) (bs! "extradata") 0 with
      | none => simp
      | some c =>
        cases h2 : oneChar (confRest env (.obj o)) (bs! "separator") c with
        | none => simp [h2]
        | some d => simp [oneChar_bad _ hg hbad]
  have hc : construct env (bs! "name-value-list") (confRest env (.obj o)) = .ok (.nameValue none) := by
    rw [← hn]; rfl
  have hs : (Json.ptr (.obj o) (bs! "type")).bind (strOf env) = some (bs! "name-value-list") := by
    simp only [Json.ptr, Json.member, hty]
    rfl
  refine ⟨{ kind := .nameValue none, node := 0, prio := prioOf (confPrio env (.obj o)) 8, name := confName env (.obj o), conf := .obj o }, ?_, ?_⟩
  · unfold confField
    simp only [hs]
    rw [if_neg (by decide), if_neg (by decide)]
    have hp : parserPrio (bs! "name-value-list") = some 8 := by decide
    simp only [hp, hc]
  · intro s offs want
    rfl

/-- `%{"type":"name-value-list","separator":"::"}%` -/
example : ∃ p, confField Ex.env [] (.obj [(bs! "type", .str (bs! "name-value-list")), (bs! "separator", .str (bs! "::"))]) = some p ∧
    runParser Ex.env (bs! "a=b") 0 p.kind true = .ub .nullDeref := by
  obtain ⟨p, h1, h2⟩ := C75_malformed_list_violated (env := Ex.env) (k := bs! "separator") (v := .str (bs! "::"))
    (o := [(bs! "type", .str (bs! "name-value-list")), (bs! "separator", .str (bs! "::"))]) (by decide) rfl rfl (fun c h => by cases h)
  exact ⟨p, h1, h2 _ _ _⟩

/-- **C75 violated** for permitted characters outside ASCII: reading a description of a `string` field with any such character writes outside of the table of
permitted characters. -/
theorem C75_eight_bit_permitted_violated {env : Env} {w : Bytes} (h0 : (0 : UInt8) ∉ w) (c : UInt8) (hc : c ∈ w) (h8 : 128 ≤ c) :
    construct env (bs! "string") [(bs! "matching.permitted", .str w)] = .ub .bufferOverflow ∧
    construct env (bs! "string") [(bs! "matching.permitted", .arr [.obj [(bs! "chars", .str w)]])] = .ub .bufferOverflow := by
  have hw : cstr w = w := cstr_noNul fun c hc e => h0 (e ▸ hc)
  have ha : ∀ p, addPermitted p w = .ub .bufferOverflow := by
    intro p
    unfold addPermitted
    rw [if_pos]
    rw [List.any_eq_true]
    exact ⟨c, hc, by simpa using h8⟩
  have h1 : ctorPermitted env (.str w) = .ub .bufferOverflow := by
    simp only [ctorPermitted, hw, ha]
  have h2 : ctorPermitted env (.arr [.obj [(bs! "chars", .str w)]]) = .ub .bufferOverflow := by
    simp only [ctorPermitted, permArr, Json.members, foldMembers, permElem, strOf, hw]
    rw [if_pos (by decide)]
    simp only [ha]
    rfl
  have key : ∀ v, ctorPermitted env v = .ub .bufferOverflow → stringParam env {} (bs! "matching.permitted") v = .ub .bufferOverflow := by
    intro v hv
    unfold stringParam
    have hl : lower (bs! "matching.permitted") = bs! "matching.permitted" := by decide
    simp only [hl]
    rw [if_neg (by decide), if_neg (by decide), if_neg (by decide), if_neg (by decide), if_pos trivial, hv]
    rfl
  have fin : ∀ v, ctorPermitted env v = .ub .bufferOverflow → construct env (bs! "string") [(bs! "matching.permitted", v)] = .ub .bufferOverflow := by
    intro v hv
    have : ctorString env [(bs! "matching.permitted", v)] = .ub .bufferOverflow := by
      simp only [ctorString, foldMembers, key v hv]
      rfl
    show (ctorString env [(bs! "matching.permitted", v)]).bind _ = _
    rw [this]; rfl
  exact ⟨fin _ h1, fin _ h2⟩

/-- a setting of a `string` field that the documentation does not know -/
def BadSetting (k w : Bytes) : Prop :=
  (k = bs! "quoting.mode" ∧ lower w ∉ [bs! "auto", bs! "none", bs! "required"]) ∨
  (k = bs! "quoting.escape.mode" ∧ lower w ∉ [bs! "none", bs! "backslash", bs! "double", bs! "both"]) ∨
  (k = bs! "quoting.char.begin" ∧ w.length ≠ 1) ∨
  (k = bs! "quoting.char.end" ∧ w.length ≠ 1) ∨
  (k = bs! "matching.mode" ∧ lower w ∉ [bs! "strict", bs! "lazy"])

theorem one_bad {w : Bytes} (h : w.length ≠ 1) : one w = none := by
  match w with
  | [] => rfl
  | [_] => exact absurd rfl h
  | _ :: _ :: _ => rfl

theorem stringParam_bad {env : Env} {k w : Bytes} (h0 : (0 : UInt8) ∉ w) (h : BadSetting k w) (d : DataString) :
    stringParam env d k (.str w) = .ok none := by
  unfold stringParam
  rcases h with ⟨rfl, h⟩ | ⟨rfl, h⟩ | ⟨rfl, h⟩ | ⟨rfl, h⟩ | ⟨rfl, h⟩
  · rw [show lower (bs! "quoting.mode") = bs! "quoting.mode" by decide]
    dsimp only
    rw [if_pos rfl, needStr_text env h0, R.ok_bind']
    simp only [List.mem_cons, List.not_mem_nil, or_false, not_or] at h
    rw [if_neg h.1, if_neg h.2.1, if_neg h.2.2]
  · rw [show lower (bs! "quoting.escape.mode") = bs! "quoting.escape.mode" by decide]
    dsimp only
    rw [if_neg (by decide), if_pos rfl, needStr_text env h0, R.ok_bind']
    simp only [List.mem_cons, List.not_mem_nil, or_false, not_or] at h
    rw [if_neg h.1, if_neg h.2.1, if_neg h.2.2.1, if_neg h.2.2.2]
  · rw [show lower (bs! "quoting.char.begin") = bs! "quoting.char.begin" by decide]
    dsimp only
    rw [if_neg (by decide), if_neg (by decide), if_pos rfl, needStr_text env h0, R.ok_bind', one_bad h]
    rfl
  · rw [show lower (bs! "quoting.char.end") = bs! "quoting.char.end" by decide]
    dsimp only
    rw [if_neg (by decide), if_neg (by decide), if_neg (by decide), if_pos rfl, needStr_text env h0, R.ok_bind', one_bad h]
    rfl
  · rw [show lower (bs! "matching.mode") = bs! "matching.mode" by decide]
    dsimp only
    rw [if_neg (by decide), if_neg (by decide), if_neg (by decide), if_neg (by decide), if_neg (by decide), if_pos rfl,
      needStr_text env h0, R.ok_bind']
    simp only [List.mem_cons, List.not_mem_nil, or_false, not_or] at h
    rw [if_neg h.1, if_neg h.2]

theorem ctorString_bad {env : Env} {o : Obj} {k w : Bytes} (h0 : (0 : UInt8) ∉ w) (h : BadSetting k w) (hm : (k, Json.str w) ∈ o)
    {d : Option DataString} (hd : ctorString env o = .ok d) : d = none := by
  unfold ctorString at hd
  have none_stays : ∀ (l : Obj), foldMembers (fun (d : Option DataString) k v =>
      match d with
      | none => .ok none
      | some d => stringParam env d k v) l none = .ok none := by
    intro l
    induction l with
    | nil => rfl
    | cons a tl ih => exact ih
  have key : ∀ (l : Obj) (x d : Option DataString), (k, Json.str w) ∈ l → foldMembers (fun (d : Option DataString) k v =>
      match d with
      | none => .ok none
      | some d => stringParam env d k v) l x = .ok d → d = none := by
    intro l
    induction l with
    | nil => intro x d hm; cases hm
    | cons a tl ih =>
      intro x d hm hf
      cases x with
      | none => rw [none_stays] at hf; cases hf; rfl
      | some x =>
        rw [foldMembers] at hf
        rcases List.mem_cons.1 hm with e | hm
        · subst e
          simp only [stringParam_bad h0 h, R.ok_bind', none_stays] at hf
          cases hf; rfl
        · cases hs : stringParam env x a.1 a.2 with
          | ok y => simp only [hs, R.ok_bind'] at hf; exact ih y d hm hf
          | fail => simp only [hs] at hf; cases hf
          | ub u => simp only [hs] at hf; cases hf
          | oof => simp only [hs] at hf; cases hf
  revert hd
  cases hf : foldMembers (fun (d : Option DataString) k v =>
      match d with
      | none => .ok none
      | some d => stringParam env d k v) o (some {}) with
  | ok y => intro hd; rw [R.ok_bind', key o _ y hm hf] at hd; cases hd; rfl
  | fail => intro hd; cases hd
  | ub u => intro hd; cases hd
  | oof => intro hd; cases hd

/-- **C75, malformed settings (violated)** A `string` field with a quote "character" that is not one character, or with an unknown quoting, escape or matching
mode: the error is found (and reported), but the rule is loaded all the same, and whatever message is tried at the field, its missing data is dereferenced. -/
theorem C75_malformed_string_violated {env : Env} {o : Obj} {k w : Bytes} (h0 : (0 : UInt8) ∉ w) (h : BadSetting k w)
    (hty : Obj.get o (bs! "type") = some (.str (bs! "string"))) (hm : (k, Json.str w) ∈ o) {p : Parser} (hp : confField env [] (.obj o) = some p)
    (s : Bytes) (offs : Nat) (want : Bool) : runParser env s offs p.kind want = .ub .nullDeref := by
  have hs : (Json.ptr (.obj o) (bs! "type")).bind (strOf env) = some (bs! "string") := by
    simp only [Json.ptr, Json.member, hty]
    rfl
  have hm' : (k, Json.str w) ∈ confRest env (.obj o) := by
    unfold confRest
    refine List.mem_filter.2 ⟨hm, ?_⟩
    rcases h with ⟨rfl, _⟩ | ⟨rfl, _⟩ | ⟨rfl, _⟩ | ⟨rfl, _⟩ | ⟨rfl, _⟩ <;> simp
  unfold confField at hp
  simp only [hs] at hp
  rw [if_neg (by decide), if_neg (by decide)] at hp
  have hpp : parserPrio (bs! "string") = some 32 := by decide
  simp only [hpp] at hp
  have hc : construct env (bs! "string") (confRest env (.obj o)) = (ctorString env (confRest env (.obj o))).bind fun d => .ok (.string d) := rfl
  rw [hc] at hp
  cases he : ctorString env (confRest env (.obj o)) with
  | ok d =>
    rw [he, R.ok_bind'] at hp
    have := ctorString_bad h0 h hm' he
    subst this
    cases hp
    rfl
  | fail => rw [he] at hp; cases hp
  | ub u => rw [he] at hp; cases hp
  | oof => rw [he] at hp; cases hp

/-- the field with two quote characters is loaded: `%{"type":"string","quoting.char.begin":"<<"}%` -/
example : ∃ p, confField Ex.env [] (.obj [(bs! "type", .str (bs! "string")), (bs! "quoting.char.begin", .str (bs! "<<"))]) = some p ∧
    runParser Ex.env (bs! "<<a") 0 p.kind true = .ub .nullDeref := by
  refine ⟨_, rfl, C75_malformed_string_violated (k := bs! "quoting.char.begin") (w := bs! "<<") (by decide) (.inr (.inr (.inl ⟨rfl, by decide⟩)))
    (o := [(bs! "type", .str (bs! "string")), (bs! "quoting.char.begin", .str (bs! "<<"))]) (env := Ex.env) rfl (by decide) rfl _ _ _⟩

end LN
