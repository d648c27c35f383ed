import Verif.Spec.FieldConf
import Verif.Spec.Rules
import Verif.Proofs.Samp
import Verif.Proofs.Fields
/-
Constructors of field parsers against the specification of parameters.
-/
set_option autoImplicit false
namespace LN
open Spec

/-! ### Objects -/

theorem get_none_of {o : Obj} {k : Bytes} (h : k ∉ o.map (·.1)) : Obj.get o k = none := by
  induction o with
  | nil => rfl
  | cons m tl ih =>
    simp only [List.map_cons, List.mem_cons, not_or] at h
    simp only [Obj.get]
    rw [if_neg (fun e => h.1 e.symm), ih h.2]

theorem get_mem {o : Obj} {k : Bytes} {v : Json} (h : Obj.get o k = some v) : (k, v) ∈ o := by
  induction o with
  | nil => simp [Obj.get] at h
  | cons m tl ih =>
    obtain ⟨k', v'⟩ := m
    simp only [Obj.get] at h
    split at h
    · rename_i e; cases h; subst e; simp
    · exact List.mem_cons_of_mem _ (ih h)

theorem get_of_mem {o : Obj} {k : Bytes} {v : Json} (hn : (o.map (·.1)).Nodup) (h : (k, v) ∈ o) :
    Obj.get o k = some v := by
  induction o with
  | nil => simp at h
  | cons m tl ih =>
    obtain ⟨k', v'⟩ := m
    simp only [List.map_cons, List.nodup_cons] at hn
    simp only [Obj.get]
    rcases List.mem_cons.1 h with e | h
    · cases e; rw [if_pos rfl]
    · rw [if_neg, ih hn.2 h]
      intro e; subst e
      exact hn.1 (List.mem_map.2 ⟨_, h, rfl⟩)

theorem get_filter {o : Obj} {k : Bytes} {P : Bytes × Json → Bool} (h : ∀ v, P (k, v) = true) :
    Obj.get (o.filter P) k = Obj.get o k := by
  induction o with
  | nil => rfl
  | cons m tl ih =>
    obtain ⟨k', v'⟩ := m
    by_cases e : k' = k
    · subst e
      rw [List.filter_cons_of_pos (h v')]
      simp [Obj.get]
    · simp only [List.filter_cons]
      split <;> simp only [Obj.get, if_neg e, ih]

/-! ### Folding over members -/

/-- one after the other, the parameters in `ks` -/
def applyKeys {α : Type} (g : Bytes → Json → α → α) (o : Obj) : List Bytes → α → α
  | [], d => d
  | k :: ks, d => applyKeys g o ks (match Obj.get o k with | none => d | some v => g k v d)

theorem applyKeys_congr {α : Type} {g : Bytes → Json → α → α} {o o' : Obj} : ∀ {ks : List Bytes} {d : α},
    (∀ k ∈ ks, Obj.get o k = Obj.get o' k) → applyKeys g o ks d = applyKeys g o' ks d
  | [], _, _ => rfl
  | k :: ks, d, h => by
    simp only [applyKeys]
    rw [h k (by simp)]
    exact applyKeys_congr fun k' hk => h k' (by simp [hk])

theorem applyKeys_cons {α : Type} {g : Bytes → Json → α → α} {k : Bytes} {v : Json} {tl : Obj}
    (hk : k ∉ tl.map (·.1))
    (hcom : ∀ k' v', (k', v') ∈ tl → ∀ d, g k v (g k' v' d) = g k' v' (g k v d)) :
    ∀ {ks : List Bytes} {d : α}, ks.Nodup → k ∈ ks →
      applyKeys g ((k, v) :: tl) ks d = applyKeys g tl ks (g k v d)
  | [], _, _, h => by simp at h
  | k' :: ks, d, hn, h => by
    simp only [List.nodup_cons] at hn
    simp only [applyKeys]
    by_cases e : k' = k
    · subst e
      rw [get_none_of hk]
      simp only [Obj.get, if_true]
      refine applyKeys_congr fun k2 h2 => ?_
      simp only [Obj.get]
      rw [if_neg]
      intro e2; subst e2; exact hn.1 h2
    · have hk2 : k ∈ ks := by
        rcases List.mem_cons.1 h with h | h
        · exact absurd h.symm e
        · exact h
      rw [applyKeys_cons hk hcom hn.2 hk2]
      have e' : ¬ k = k' := fun h => e h.symm
      simp only [Obj.get, if_neg e']
      cases hg : Obj.get tl k' with
      | none => rfl
      | some v' => simp only [hcom k' v' (get_mem hg)]

theorem foldMembers_keys {α : Type} {f : α → Bytes → Json → R α} {g : Bytes → Json → α → α} {ks : List Bytes}
    (hks : ks.Nodup) : ∀ {o : Obj} {d : α}, (o.map (·.1)).Nodup →
    (∀ k v, (k, v) ∈ o → ∀ d, f d k v = .ok (g k v d)) →
    (∀ k v, (k, v) ∈ o → k ∉ ks → ∀ d, g k v d = d) →
    (∀ k v k' v', (k, v) ∈ o → (k', v') ∈ o → k ≠ k' → ∀ d, g k v (g k' v' d) = g k' v' (g k v d)) →
    foldMembers f o d = .ok (applyKeys g o ks d)
  | [], d, _, _, _, _ => by
    simp only [foldMembers]
    congr 1
    clear hks
    induction ks with
    | nil => rfl
    | cons k ks ih => simpa [applyKeys, Obj.get] using ih
  | (k, v) :: tl, d, hn, hf, hid, hcom => by
    simp only [List.map_cons, List.nodup_cons] at hn
    simp only [foldMembers]
    rw [hf k v (by simp), R.ok_bind']
    rw [foldMembers_keys hks hn.2 (fun k v h => hf k v (by simp [h])) (fun k v h => hid k v (by simp [h]))
      (fun k v k' v' h h' => hcom k v k' v' (by simp [h]) (by simp [h']))]
    congr 1
    by_cases hk : k ∈ ks
    · refine (applyKeys_cons hn.1 ?_ hks hk).symm
      intro k' v' h d
      refine hcom k v k' v' (by simp) (by simp [h]) ?_ d
      intro e; subst e
      exact hn.1 (List.mem_map.2 ⟨_, h, rfl⟩)
    · rw [hid k v (by simp) hk]
      refine applyKeys_congr fun k2 h2 => ?_
      simp only [Obj.get]
      rw [if_neg]
      intro e; subst e; exact hk h2

/-! ### Parameters -/

theorem strOf_text (env : Env) {w : Bytes} (h : (0 : UInt8) ∉ w) : strOf env (.str w) = some w := by
  simp only [strOf]; rw [cstr_noNul fun c hc e => h (e ▸ hc)]

theorem needStr_text (env : Env) {w : Bytes} (h : (0 : UInt8) ∉ w) : needStr env (.str w) = .ok w := by
  simp only [needStr, strOf_text env h]

theorem strP_of {o : Obj} {k w : Bytes} (h : Obj.get o k = some (.str w)) : strP o k = some w := by
  simp [strP, h]

theorem strP_none {o : Obj} {k : Bytes} (h : Obj.get o k = none) : strP o k = none := by
  simp [strP, h]

theorem intP_of {o : Obj} {k : Bytes} {n : Int} (h : Obj.get o k = some (.int n)) : intP o k = n := by
  simp [intP, h]

theorem intP_none {o : Obj} {k : Bytes} (h : Obj.get o k = none) : intP o k = 0 := by
  simp [intP, h]

/-- a fold which looks at `format` and `maxval` at most -/
theorem otherParam_ok {α : Type} (env : Env) (d : α) {o : Obj} (hn : (o.map (·.1)).Nodup)
    (hname : Obj.get o (bs! "name") = none ∨ ∃ w, TextP o (bs! "name") w) {k : Bytes} {v : Json}
    (hm : (k, v) ∈ o) : otherParam env d k v = .ok d := by
  unfold otherParam
  split
  · rename_i e; subst e
    have hg := get_of_mem hn hm
    rcases hname with h | ⟨w, h, hz⟩
    · rw [h] at hg; cases hg
    · rw [h] at hg; cases hg
      rw [needStr_text env hz]; rfl
  · rfl

/-! ### Constructors -/

section
variable {env : Env} {o : Obj}

/-- the `format` of a timestamp -/
def dateFmt (o : Obj) : Fmt :=
  if strP o (bs! "format") = some (bs! "timestamp-unix") then .asTsUx
  else if strP o (bs! "format") = some (bs! "timestamp-unix-ms") then .asTsUxMs
  else .asString

/-- the `format` of a number -/
def numFormat (o : Obj) : Fmt :=
  if strP o (bs! "format") = some (bs! "number") then .asNumber else .asString

theorem ctorDate_ok (hn : (o.map (·.1)).Nodup)
    (hname : Obj.get o (bs! "name") = none ∨ ∃ w, TextP o (bs! "name") w)
    (hf : OneOf o (bs! "format") [bs! "string", bs! "timestamp-unix", bs! "timestamp-unix-ms"]) :
    ctorDate env o = .ok (dateFmt o) := by
  unfold ctorDate
  rw [foldMembers_keys (g := fun k _ d => if k = bs! "format" then dateFmt o else d) (ks := [bs! "format"])
    (by decide) hn]
  · simp only [applyKeys]
    rcases hf with h | ⟨w, hw, h⟩
    · simp only [h]; simp [dateFmt, strP_none h]
    · simp only [h, if_true]
  · intro k v hm d
    split
    · rename_i e; subst e
      have hg := get_of_mem hn hm
      rcases hf with h | ⟨w, hw, h⟩
      · rw [h] at hg; cases hg
      · rw [h] at hg; cases hg
        have hs := strP_of h
        simp only [List.mem_cons, List.not_mem_nil, or_false] at hw
        rcases hw with rfl | rfl | rfl <;> rw [needStr_text env (by decide), R.ok_bind'] <;>
          simp [dateFmt, hs]
    · exact otherParam_ok env d hn hname hm
  · intro k v _ hk d
    simp only [List.mem_singleton] at hk
    simp only [if_neg hk]
  · intro k v k' v' _ _ hne d
    by_cases h1 : k = bs! "format" <;> by_cases h2 : k' = bs! "format" <;> simp [h1, h2]

theorem numFmt_ok (hn : (o.map (·.1)).Nodup) (hf : OneOf o (bs! "format") [bs! "string", bs! "number"]) {v : Json}
    (hm : (bs! "format", v) ∈ o) (d : Fmt) : numFmt env d v = .ok (numFormat o) := by
  have hg := get_of_mem hn hm
  rcases hf with h | ⟨w, hw, h⟩
  · rw [h] at hg; cases hg
  · rw [h] at hg; cases hg
    have hs := strP_of h
    simp only [List.mem_cons, List.not_mem_nil, or_false] at hw
    unfold numFmt
    rcases hw with rfl | rfl <;> rw [needStr_text env (by decide), R.ok_bind'] <;>
      simp [numFormat, hs]

theorem ctorFloat_ok (hn : (o.map (·.1)).Nodup)
    (hname : Obj.get o (bs! "name") = none ∨ ∃ w, TextP o (bs! "name") w)
    (hf : OneOf o (bs! "format") [bs! "string", bs! "number"]) :
    ctorFloat env o = .ok (numFormat o) := by
  unfold ctorFloat
  rw [foldMembers_keys (g := fun k _ d => if k = bs! "format" then numFormat o else d) (ks := [bs! "format"])
    (by decide) hn]
  · simp only [applyKeys]
    rcases hf with h | ⟨w, hw, h⟩
    · simp only [h]; simp [numFormat, strP_none h]
    · simp only [h, if_true]
  · intro k v hm d
    split
    · rename_i e; subst e
      exact numFmt_ok hn hf hm d
    · exact otherParam_ok env d hn hname hm
  · intro k v _ hk d
    simp only [List.mem_singleton] at hk
    simp only [if_neg hk]
  · intro k v k' v' _ _ hne d
    by_cases h1 : k = bs! "format" <;> by_cases h2 : k' = bs! "format" <;> simp [h1, h2]

theorem ctorNumber_ok (hn : (o.map (·.1)).Nodup)
    (hname : Obj.get o (bs! "name") = none ∨ ∃ w, TextP o (bs! "name") w)
    (hf : OneOf o (bs! "format") [bs! "string", bs! "number"])
    (hmv : IntOr o (bs! "maxval") 0 9223372036854775807) :
    ctorNumber env o = .ok { maxval := intP o (bs! "maxval"), fmt := numFormat o } := by
  unfold ctorNumber
  have hne : (bs! "maxval") ≠ bs! "format" := by decide
  rw [foldMembers_keys (g := fun k _ (d : DataNumber) => if k = bs! "maxval" then { d with maxval := intP o (bs! "maxval") }
      else if k = bs! "format" then { d with fmt := numFormat o } else d) (ks := [bs! "maxval", bs! "format"])
    (by decide) hn]
  · simp only [applyKeys]
    rcases hf with h | ⟨w, hw, h⟩ <;> rcases hmv with h2 | ⟨m, hm1, hm2, h2⟩ <;>
      simp [h, h2, numFormat, strP, intP]
  · intro k v hm d
    split
    · rename_i e; subst e
      have hg := get_of_mem hn hm
      rcases hmv with h | ⟨w, hw, _, h⟩
      · rw [h] at hg; cases hg
      · rw [h] at hg; cases hg
        simp [int64Of, intP, h]
    · split
      · rename_i e; subst e
        rw [numFmt_ok hn hf hm, R.ok_bind']
      · exact otherParam_ok env d hn hname hm
  · intro k v _ hk d
    simp only [List.mem_cons, List.not_mem_nil, or_false, not_or] at hk
    simp only [if_neg hk.1, if_neg hk.2]
  · intro k v k' v' _ _ hne d
    by_cases h1 : k = bs! "maxval" <;> by_cases h2 : k' = bs! "maxval" <;>
      by_cases h3 : k = bs! "format" <;> by_cases h4 : k' = bs! "format" <;> simp [h1, h2, h3, h4]

theorem ctorHexNumber_ok (hn : (o.map (·.1)).Nodup)
    (hname : Obj.get o (bs! "name") = none ∨ ∃ w, TextP o (bs! "name") w)
    (hf : OneOf o (bs! "format") [bs! "string", bs! "number"])
    (hmv : IntOr o (bs! "maxval") 0 9223372036854775807) :
    ctorHexNumber env o = .ok { maxval := (intP o (bs! "maxval")).toNat, fmt := numFormat o } := by
  unfold ctorHexNumber
  have hne : (bs! "maxval") ≠ bs! "format" := by decide
  rw [foldMembers_keys (g := fun k _ (d : DataHexNumber) => if k = bs! "maxval" then { d with maxval := (intP o (bs! "maxval")).toNat }
      else if k = bs! "format" then { d with fmt := numFormat o } else d) (ks := [bs! "maxval", bs! "format"])
    (by decide) hn]
  · simp only [applyKeys]
    rcases hf with h | ⟨w, hw, h⟩ <;> rcases hmv with h2 | ⟨m, hm1, hm2, h2⟩ <;>
      simp [h, h2, numFormat, strP, intP]
  · intro k v hm d
    split
    · rename_i e; subst e
      have hg := get_of_mem hn hm
      rcases hmv with h | ⟨w, hw, hw2, h⟩
      · rw [h] at hg; cases hg
      · rw [h] at hg; cases hg
        simp only [int64Of, intP, h]
        rw [Int.emod_eq_of_lt hw (by omega)]
    · split
      · rename_i e; subst e
        rw [numFmt_ok hn hf hm, R.ok_bind']
      · exact otherParam_ok env d hn hname hm
  · intro k v _ hk d
    simp only [List.mem_cons, List.not_mem_nil, or_false, not_or] at hk
    simp only [if_neg hk.1, if_neg hk.2]
  · intro k v k' v' _ _ hne d
    by_cases h1 : k = bs! "maxval" <;> by_cases h2 : k' = bs! "maxval" <;>
      by_cases h3 : k = bs! "format" <;> by_cases h4 : k' = bs! "format" <;> simp [h1, h2, h3, h4]

theorem ctorStr_ok {k w : Bytes} (h : TextP o k w) : ctorStr env k o = .ok (some w) := by
  unfold ctorStr
  rw [h.1]
  simp only [needStr_text env h.2, R.ok_bind']

theorem oneChar_ok {k : Bytes} (h : CharOr o k) (d : UInt8) : oneChar o k d = some (charP o k d) := by
  unfold oneChar charP strP
  rcases h with h | ⟨c, _, h⟩ <;> simp [h]

theorem ctorNameValue_ok (h1 : CharOr o (bs! "extradata")) (h2 : CharOr o (bs! "separator"))
    (h3 : CharOr o (bs! "assignator")) : ctorNameValue o = some (nvConf o) := by
  unfold ctorNameValue
  rw [oneChar_ok h1]
  simp only [Option.bind_eq_bind, Option.bind_some, oneChar_ok h2, oneChar_ok h3]
  rfl

theorem ctorLEA_ok (hn : (o.map (·.1)).Nodup) (h : CharOr o (bs! "terminator")) :
    ctorLEA env o = .ok (charP o (bs! "terminator") 0) := by
  unfold ctorLEA
  -- the loop flag is never set
  have key : ∀ (l : Obj) (d : UInt8), (l.map (·.1)).Nodup → CharOr l (bs! "terminator") →
      foldMembers (fun (d : UInt8 × Bool) k v =>
        if d.2 then .ok d
        else if k = bs! "terminator" then (needStr env v).bind fun s =>
          match s with
          | [c] => .ok (c, false)
          | _ => .ok (d.1, true)
        else .ok d) l (d, false) = .ok (charP l (bs! "terminator") d, false) := by
    intro l
    induction l with
    | nil => intro d _ _; simp [foldMembers, charP, strP, Obj.get]
    | cons m tl ih =>
      obtain ⟨k, v⟩ := m
      intro d hn h
      simp only [List.map_cons, List.nodup_cons] at hn
      simp only [foldMembers, Bool.false_eq_true, if_false]
      by_cases e : k = bs! "terminator"
      · subst e
        rw [if_pos rfl]
        have hnone := get_none_of hn.1
        rcases h with h | ⟨c, hc, h⟩
        · simp [Obj.get] at h
        · simp only [Obj.get, if_true, Option.some.injEq] at h
          subst h
          rw [needStr_text env (by simpa using fun h => hc h.symm), R.ok_bind', R.ok_bind', ih c hn.2 (.inl hnone)]
          simp [charP, strP, hnone, Obj.get]
      · rw [if_neg e, R.ok_bind', ih d hn.2 (by simpa [CharOr, Obj.get, e] using h)]
        simp [charP, strP, Obj.get, e]
  exact congrArg (fun x : R (UInt8 × Bool) => x.bind fun d => .ok d.1) (key o 0 hn h)

theorem lower_noUpper {k : Bytes} (h : ∀ c ∈ k, isUpper c = false) : lower k = k := by
  unfold lower
  induction k with
  | nil => rfl
  | cons c k ih =>
    simp only [List.map_cons]
    rw [ih fun c hc => h c (by simp [hc]), h c (by simp)]
    rfl

theorem addPermitted_ok {w : Bytes} (h : ∀ c ∈ w, c ≠ 0 ∧ c < 128) (p : UInt8 → Bool) :
    addPermitted p w = .ok fun c => p c || w.contains c := by
  unfold addPermitted
  rw [if_neg]
  simp only [List.any_eq_true, decide_eq_true_eq, not_exists, not_and]
  intro c hc hge
  have := (h c hc).2
  simp only [UInt8.le_iff_toNat_le, UInt8.lt_iff_toNat_lt, ge_iff_le, UInt8.reduceToNat] at this hge
  omega

theorem permElem_ok {m : Bytes × Json} {q : UInt8 → Bool} (h : PermMember m q) (p : UInt8 → Bool) :
    permElem env p m.1 m.2 = .ok fun c => p c || q c := by
  cases h with
  | chars w hw =>
    unfold permElem
    dsimp only
    rw [if_pos (by decide), strOf_text env fun h0 => (hw 0 h0).1 rfl]
    exact addPermitted_ok hw p
  | cls w hw =>
    unfold permElem
    simp only [List.mem_cons, List.not_mem_nil, or_false] at hw
    dsimp only
    rw [if_neg (by decide), if_pos (by decide)]
    rcases hw with rfl | rfl | rfl | rfl <;> rw [needStr_text env (by decide), R.ok_bind'] <;> rfl

theorem permMembers_append {a b : Obj} {q : UInt8 → Bool} (h : PermMembers (a ++ b) q) :
    ∃ q1 q2, PermMembers a q1 ∧ PermMembers b q2 ∧ q = fun c => q1 c || q2 c := by
  induction a generalizing q with
  | nil => exact ⟨_, q, .nil, h, by simp⟩
  | cons m a ih =>
    cases h with
    | cons hm hs =>
      obtain ⟨q1, q2, h1, h2, rfl⟩ := ih hs
      exact ⟨_, q2, .cons hm h1, h2, by funext c; simp [Bool.or_assoc]⟩

theorem foldPerm_ok : ∀ {ms : Obj} {q : UInt8 → Bool} (_ : PermMembers ms q) (p : UInt8 → Bool),
    foldMembers (permElem env) ms p = .ok fun c => p c || q c
  | [], _, .nil, p => by simp [foldMembers]
  | (k, v) :: ms, _, .cons hm hs, p => by
    simp only [foldMembers]
    rw [show permElem env p k v = _ from permElem_ok hm p, R.ok_bind', foldPerm_ok hs]
    simp [Bool.or_assoc]

theorem permArr_ok : ∀ {l : List Obj} {q : UInt8 → Bool} (_ : PermMembers l.flatten q) (p : UInt8 → Bool),
    permArr env (l.map .obj) p = .ok fun c => p c || q c
  | [], q, h, p => by
    cases h; simp [permArr]
  | a :: l, q, h, p => by
    rw [List.flatten_cons] at h
    obtain ⟨q1, q2, h1, h2, rfl⟩ := permMembers_append h
    simp only [List.map_cons, permArr, Json.members]
    rw [foldPerm_ok h1, R.ok_bind', permArr_ok h2]
    simp [Bool.or_assoc]

/-- the escape mode as given -/
def rawEsc (o : Obj) : EscMode :=
  if strP o (bs! "quoting.escape.mode") = some (bs! "none") then .none
  else if strP o (bs! "quoting.escape.mode") = some (bs! "backslash") then .backslash
  else if strP o (bs! "quoting.escape.mode") = some (bs! "double") then .double
  else .both

/-- what the parameter `k` sets -/
def strUpd (o : Obj) (d : DataString) (k : Bytes) (x : DataString) : DataString :=
  if k = bs! "quoting.mode" then { x with quoteMode := d.quoteMode }
  else if k = bs! "quoting.escape.mode" then { x with esc := rawEsc o }
  else if k = bs! "quoting.char.begin" then { x with qb := d.qb }
  else if k = bs! "quoting.char.end" then { x with qe := d.qe }
  else if k = bs! "matching.permitted" then { x with perm := d.perm }
  else if k = bs! "matching.mode" then { x with lazy := d.lazy }
  else x

theorem stringParam_ok (hn : (o.map (·.1)).Nodup) {d : DataString} (hd : StrConf o d) (x : DataString) {k : Bytes} {v : Json}
    (hm : (k, v) ∈ o) : stringParam env x k v = .ok (some (strUpd o d k x)) := by
  have hg := get_of_mem hn hm
  have hk := lower_noUpper (hd.keys k (List.mem_map.2 ⟨_, hm, rfl⟩))
  unfold stringParam strUpd
  dsimp only
  rw [hk]
  split
  · rename_i e; subst e
    rcases hd.quoting with ⟨h, hq⟩ | ⟨h, hq⟩ | ⟨h, hq⟩ | ⟨h, hq⟩ <;> rw [h] at hg <;> cases hg <;>
      rw [needStr_text env (by decide), R.ok_bind', hq] <;> rfl
  · split
    · rename_i e; subst e
      rcases hd.escape.1 with h | ⟨w, hw, h⟩ <;> rw [h] at hg <;> cases hg
      have hs := strP_of h
      simp only [List.mem_cons, List.not_mem_nil, or_false] at hw
      unfold rawEsc
      rw [hs]
      rcases hw with rfl | rfl | rfl | rfl <;> rw [needStr_text env (by decide), R.ok_bind'] <;> rfl
    · split
      · rename_i e; subst e
        rcases hd.begin.1 with h | ⟨c, hc, h⟩ <;> rw [h] at hg <;> cases hg
        rw [needStr_text env (by simpa using fun h => hc h.symm), R.ok_bind', hd.begin.2]
        simp [one, charP, strP, h]
      · split
        · rename_i e; subst e
          rcases hd.end_.1 with h | ⟨c, hc, h⟩ <;> rw [h] at hg <;> cases hg
          rw [needStr_text env (by simpa using fun h => hc h.symm), R.ok_bind', hd.end_.2]
          simp [one, charP, strP, h]
        · split
          · rename_i e; subst e
            have hp := hd.perm
            generalize d.perm = q at hp
            cases hp with
            | all h => rw [h] at hg; cases hg
            | text w h ha =>
              rw [h] at hg; cases hg
              simp only [ctorPermitted]
              rw [cstr_noNul fun c hc => (ha c hc).1, addPermitted_ok ha, R.ok_bind']
              simp
            | list l h hp =>
              rw [h] at hg; cases hg
              simp only [ctorPermitted]
              rw [permArr_ok hp, R.ok_bind']
              simp
          · split
            · rename_i e; subst e
              rcases hd.mode.1 with h | ⟨w, hw, h⟩ <;> rw [h] at hg <;> cases hg
              have hs := strP_of h
              have hl := hd.mode.2
              rw [hs] at hl
              rw [hl]
              simp only [List.mem_cons, List.not_mem_nil, or_false] at hw
              rcases hw with rfl | rfl <;> rw [needStr_text env (by decide), R.ok_bind'] <;> rfl
            · rfl

theorem strUpd_eq (o : Obj) (d : DataString) (k : Bytes) (x : DataString) :
    strUpd o d k x =
      { quoteMode := if k = bs! "quoting.mode" then d.quoteMode else x.quoteMode
        strip := x.strip
        esc := if k = bs! "quoting.escape.mode" then rawEsc o else x.esc
        lazy := if k = bs! "matching.mode" then d.lazy else x.lazy
        qb := if k = bs! "quoting.char.begin" then d.qb else x.qb
        qe := if k = bs! "quoting.char.end" then d.qe else x.qe
        perm := if k = bs! "matching.permitted" then d.perm else x.perm } := by
  unfold strUpd
  repeat' split
  all_goals first
    | (simp_all; done)
    | rfl

theorem strUpd_comm (o : Obj) (d : DataString) (k k' : Bytes) (x : DataString) :
    strUpd o d k (strUpd o d k' x) = strUpd o d k' (strUpd o d k x) := by
  simp only [strUpd_eq, DataString.mk.injEq, true_and]
  refine ⟨?_, ?_, ?_, ?_, ?_, ?_⟩ <;> (repeat' split) <;> rfl

theorem ctorString_ok (hn : (o.map (·.1)).Nodup) {d : DataString} (hd : StrConf o d) :
    ctorString env o = .ok (some d) := by
  unfold ctorString
  rw [foldMembers_keys (g := fun k _ x => x.map (strUpd o d k)) (ks := [bs! "quoting.mode", bs! "quoting.escape.mode",
    bs! "quoting.char.begin", bs! "quoting.char.end", bs! "matching.permitted", bs! "matching.mode"]) (by decide) hn]
  · have step : ∀ (k : Bytes) (ks : List Bytes) (x : DataString),
        applyKeys (fun k _ x => Option.map (strUpd o d k) x) o (k :: ks) (some x) =
          applyKeys (fun k _ x => Option.map (strUpd o d k) x) o ks (some
               { quoteMode := if k = bs! "quoting.mode" ∧ (Obj.get o k).isSome = true then d.quoteMode else x.quoteMode
                 strip := x.strip
                 esc := if k = bs! "quoting.escape.mode" ∧ (Obj.get o k).isSome = true then rawEsc o else x.esc
                 lazy := if k = bs! "matching.mode" ∧ (Obj.get o k).isSome = true then d.lazy else x.lazy
                 qb := if k = bs! "quoting.char.begin" ∧ (Obj.get o k).isSome = true then d.qb else x.qb
                 qe := if k = bs! "quoting.char.end" ∧ (Obj.get o k).isSome = true then d.qe else x.qe
                 perm := if k = bs! "matching.permitted" ∧ (Obj.get o k).isSome = true then d.perm else x.perm }) := by
      intro k ks x
      rw [applyKeys]
      cases Obj.get o k with
      | none => simp
      | some v => simp [strUpd_eq]
    have nil : ∀ x, applyKeys (fun k _ x => Option.map (strUpd o d k) x) o [] x = x := fun _ => rfl
    simp only [step, nil, R.ok_bind', Option.map_some, R.ok.injEq, Option.some.injEq]
    obtain ⟨_, hq, he, hb, hen, hp, hmd, hst⟩ := hd
    have e1 : (if (Obj.get o (bs! "quoting.mode")).isSome = true then d.quoteMode else .auto) = d.quoteMode := by
      rcases hq with ⟨h, h'⟩ | ⟨h, h'⟩ | ⟨h, h'⟩ | ⟨h, h'⟩ <;> simp [h, h']
    have e2 : (if (Obj.get o (bs! "quoting.escape.mode")).isSome = true then rawEsc o else .both) = rawEsc o := by
      rcases he.1 with h | ⟨w, _, h⟩ <;> simp [h, rawEsc, strP]
    have e3 : (if (Obj.get o (bs! "quoting.char.begin")).isSome = true then d.qb else (ch! '"')) = d.qb := by
      rcases hb.1 with h | ⟨w, _, h⟩ <;> simp [h, hb.2, charP, strP]
    have e4 : (if (Obj.get o (bs! "quoting.char.end")).isSome = true then d.qe else (ch! '"')) = d.qe := by
      rcases hen.1 with h | ⟨w, _, h⟩ <;> simp [h, hen.2, charP, strP]
    have e5 : (if (Obj.get o (bs! "matching.permitted")).isSome = true then d.perm else fun _ => true) = d.perm := by
      generalize d.perm = q at hp
      cases hp with
      | all h => simp [h]
      | text w h _ => simp [h]
      | list l h _ => simp [h]
    have e7 : Obj.get o (bs! "matching.permitted") = none → (fun _ => true) = d.perm := by
      intro h; rw [← e5, h]; rfl
    have e6 : (if (Obj.get o (bs! "matching.mode")).isSome = true then d.lazy else false) = d.lazy := by
      rcases hmd.1 with h | ⟨w, _, h⟩ <;> simp [h, hmd.2, strP]
    have hesc : d.esc = if d.quoteMode = .none then .none else rawEsc o := he.2
    simp only [List.cons.injEq, and_true, true_and, and_false, false_and, if_false, e1, e2, e3, e4, e5, e6,
      and_self, reduceCtorEq]
    obtain ⟨d1, d2, d3, d4, d5, d6, d7⟩ := d
    dsimp only at hesc hst ⊢
    subst hst
    split at hesc <;> rename_i hc <;> simp [hc, hesc] <;> exact e7
  · intro k v hm x
    cases x with
    | none => rfl
    | some x => exact stringParam_ok hn hd x hm
  · intro k v _ hk x
    simp only [List.mem_cons, List.not_mem_nil, or_false, not_or] at hk
    cases x with
    | none => rfl
    | some x => simp [strUpd, hk]
  · intro k v k' v' _ _ hne x
    cases x with
    | none => rfl
    | some x => simp [strUpd_comm o d k k']

end

end LN
