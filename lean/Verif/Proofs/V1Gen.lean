import Verif.Model.V1Samp
import Verif.Spec.V1Fields
import Verif.Proofs.Fields
import Verif.Proofs.V1Norm
/- field descriptions of version 1, and the contexts made for fields -/
set_option autoImplicit false
namespace LN
open Spec

theorem tw_all {p : UInt8 → Bool} {a : Bytes} {c : UInt8} {t : Bytes} (h : ∀ x ∈ a, p x = true) (hc : p c = false) :
    (a ++ c :: t).takeWhile p = a ∧ (a ++ c :: t).dropWhile p = c :: t := by
  induction a with
  | nil => simp [hc]
  | cons x a ih =>
    have hx := h x (by simp)
    have := ih fun y hy => h y (by simp [hy])
    simp [hx, this]

theorem v1Split_field {nm ty : Bytes} {e : Option Bytes} (hn : V1NameOK nm) (hd : V1DescrOK ty e) (t : Bytes) :
    v1Split (nm ++ ch! ':' :: (v1Descr ty e ++ ch! '%' :: t)) = some (nm, ty, e, t) := by
  have h0 : (nm ++ ch! ':' :: (v1Descr ty e ++ ch! '%' :: t)).dropWhile isSpace = nm ++ ch! ':' :: (v1Descr ty e ++ ch! '%' :: t) := by
    cases hnm : nm with
    | nil => exact absurd hnm hn.ne
    | cons c l =>
      have := hn.space c (by rw [hnm]; rfl)
      simp [this]
  have h1 : (nm ++ ch! ':' :: (v1Descr ty e ++ ch! '%' :: t)).takeWhile (· != ch! ':') = nm :=
    (tw_all (fun x hx => by simp; rintro rfl; exact hn.colon hx) (by simp)).1
  unfold v1Split
  simp only [h0, h1]
  rw [if_neg hn.ne]
  have h2 : (nm ++ ch! ':' :: (v1Descr ty e ++ ch! '%' :: t)).drop nm.length = ch! ':' :: (v1Descr ty e ++ ch! '%' :: t) := by simp
  rw [h2]
  dsimp only
  have hty : ∀ x ∈ ty, (x != ch! ':' && x != ch! '%') = true := by
    intro x hx
    simp only [Bool.and_eq_true, bne_iff_ne, ne_eq]
    exact ⟨by rintro rfl; exact hd.colon hx, by rintro rfl; exact hd.pct hx⟩
  cases e with
  | none =>
    obtain ⟨a1, a2⟩ := tw_all (p := fun c => c != ch! ':' && c != ch! '%') (a := ty) (c := ch! '%') (t := t) hty (by decide)
    rw [show v1Descr ty none = ty from rfl, a1, a2, hd.trim]
    simp
  | some x =>
    have hx := hd.extra x rfl
    obtain ⟨a1, a2⟩ := tw_all (p := fun c => c != ch! ':' && c != ch! '%') (a := ty) (c := ch! ':') (t := x ++ ch! '%' :: t) hty (by decide)
    rw [show v1Descr ty (some x) ++ ch! '%' :: t = ty ++ ch! ':' :: (x ++ ch! '%' :: t) from by simp [v1Descr], a1, a2, hd.trim]
    dsimp only
    rw [if_neg (by decide)]
    obtain ⟨b1, b2⟩ := tw_all (p := fun c => c != ch! '%') (a := x) (c := ch! '%') (t := t)
      (fun y hy => by simp; rintro rfl; exact hx hy) (by simp)
    rw [b1, b2]
    rfl

theorem default_ok : V1NameOK (bs! "default") := ⟨by decide, by decide, by decide⟩
theorem tail_ok : V1NameOK (bs! "tail") := ⟨by decide, by decide, by decide⟩

theorem v1Content_descr {ty : Bytes} {e : Option Bytes} (hd : V1DescrOK ty e) {p : V1Prs × V1Cons} (hp : v1Type ty = some p) :
    v1Content (v1Descr ty e) = some (p.1, p.2, e) := by
  have h := v1Split_field default_ok hd []
  unfold v1Content
  have e1 : bs! "default:" ++ v1Descr ty e ++ [ch! '%'] = bs! "default" ++ ch! ':' :: (v1Descr ty e ++ ch! '%' :: []) := by simp
  rw [e1, h]
  simp [hp]

theorem v1FieldDescr_descr (E : V1Env) (self : V1CtxId) {nm ty : Bytes} {e : Option Bytes} (hn : V1NameOK nm) (hd : V1DescrOK ty e)
    {p : V1Prs × V1Cons} (hp : v1Type ty = some p) (t : Bytes) :
    v1FieldDescr E self (nm ++ ch! ':' :: (v1Descr ty e ++ ch! '%' :: t)) = some (⟨nm, p.1, e, v1Data E self p.2 e⟩, t) := by
  unfold v1FieldDescr
  rw [v1Split_field hn hd]
  simp [hp]

/-! ### the context for a field -/

/-- the field `default` of the context -/
def genField (E : V1Env) (ty : Bytes) (e : Option Bytes) (p : V1Prs × V1Cons) : V1Field :=
  ⟨bs! "default", p.1, e, v1Data E (.gen (v1Descr ty e)) p.2 e⟩

/-- the field `tail` of the context -/
def tailField : V1Field := ⟨bs! "tail", .rest, none, none⟩

theorem litSplit_field {c : UInt8} {t : Bytes} (hc : c ≠ ch! '%') : litSplit (ch! '%' :: c :: t) = ([], ch! '%' :: c :: t) := by
  rw [litSplit]
  simp [hc]

theorem v1LexF_gen (E : V1Env) (hu : E.env.unescape [] = []) {ty : Bytes} {e : Option Bytes} (hd : V1DescrOK ty e)
    {p : V1Prs × V1Cons} (hp : v1Type ty = some p) (n : Nat) (t : Bytes) :
    v1LexF E (.gen (v1Descr ty e)) (n + 1) (ch! '%' :: (bs! "default" ++ ch! ':' :: (v1Descr ty e ++ ch! '%' :: t))) =
      ([], (genField E ty e p, (v1LexF E (.gen (v1Descr ty e)) n t).1) :: (v1LexF E (.gen (v1Descr ty e)) n t).2.1,
        (v1LexF E (.gen (v1Descr ty e)) n t).2.2) := by
  rw [v1LexF]
  have h1 : litSplit (ch! '%' :: (bs! "default" ++ ch! ':' :: (v1Descr ty e ++ ch! '%' :: t))) =
      ([], ch! '%' :: (bs! "default" ++ ch! ':' :: (v1Descr ty e ++ ch! '%' :: t))) := litSplit_field (by decide)
  rw [h1]
  dsimp only
  rw [v1FieldDescr_descr E _ default_ok hd hp]
  simp only [hu]
  rfl

theorem v1GenLoad_eq (E : V1Env) (hu : E.env.unescape [] = []) {ty : Bytes} {e : Option Bytes} (hd : V1DescrOK ty e)
    {p : V1Prs × V1Cons} (hp : v1Type ty = some p) :
    v1GenLoad E (v1Descr ty e) = .ok { xs := [⟨[], [(genField E ty e p, []), (tailField, [])], none, true⟩, ⟨[], [(genField E ty e p, [])], none, true⟩] } := by
  have line : ∀ (st : V1Load) (suf : Bytes), st.rulePrefix = none →
      v1ProcessSamp E (.gen (v1Descr ty e)) 0 st (v1GenLine (v1Descr ty e) suf) =
        .ok { st with xs := st.xs ++ [v1Lex E (.gen (v1Descr ty e)) none (ch! '%' :: (bs! "default" ++ ch! ':' :: (v1Descr ty e ++ ch! '%' :: suf)))] } := by
    intro st suf hst
    unfold v1ProcessSamp
    have h1 : lineType (v1GenLine (v1Descr ty e) suf) =
        (bs! "rule", ch! ':' :: ch! '%' :: (bs! "default" ++ ch! ':' :: (v1Descr ty e ++ ch! '%' :: suf))) := by
      unfold lineType v1GenLine
      simp
    rw [h1]
    dsimp only
    rw [if_neg (by decide), if_neg (by decide), if_pos (by decide)]
    unfold v1ProcessRule
    rw [tagLoop, if_pos rfl]
    dsimp only
    rw [if_neg (by simp), hst]
    rfl
  unfold v1GenLoad
  rw [line _ _ rfl, R.ok_bind', line _ _ rfl]
  have tailLex : ∀ n, v1LexF E (.gen (v1Descr ty e)) (n + 2) (bs! "%tail:rest%") = ([], [(tailField, [])], true) := by
    intro n
    rw [v1LexF]
    have h1 : litSplit (bs! "%tail:rest%") = ([], bs! "%tail:rest%") := by decide
    rw [h1]
    dsimp only
    have h2 : v1FieldDescr E (.gen (v1Descr ty e)) (bs! "tail:rest%") = some (tailField, []) := by
      have := v1FieldDescr_descr E (.gen (v1Descr ty e)) (nm := bs! "tail") (ty := bs! "rest") (e := none) tail_ok
        ⟨by decide, by decide, by decide, by simp⟩ (p := (.rest, .none)) (by decide) []
      exact this
    rw [h2]
    dsimp only
    rw [v1LexF]
    simp [litSplit, hu]
  have nilLex : ∀ n, v1LexF E (.gen (v1Descr ty e)) (n + 1) [] = ([], [], true) := by
    intro n
    rw [v1LexF]
    simp [litSplit, hu]
  have a1 : v1Lex E (.gen (v1Descr ty e)) none (ch! '%' :: (bs! "default" ++ ch! ':' :: (v1Descr ty e ++ ch! '%' :: bs! "%tail:rest%"))) =
      ⟨[], [(genField E ty e p, []), (tailField, [])], none, true⟩ := by
    unfold v1Lex
    rw [v1LexF_gen E hu hd hp]
    obtain ⟨n, hn⟩ : ∃ n, (ch! '%' :: (bs! "default" ++ ch! ':' :: (v1Descr ty e ++ ch! '%' :: bs! "%tail:rest%"))).length = n + 2 :=
      ⟨(ch! '%' :: (bs! "default" ++ ch! ':' :: (v1Descr ty e ++ ch! '%' :: bs! "%tail:rest%"))).length - 2, by simp⟩
    rw [hn, tailLex]
  have a2 : v1Lex E (.gen (v1Descr ty e)) none (ch! '%' :: (bs! "default" ++ ch! ':' :: (v1Descr ty e ++ ch! '%' :: []))) =
      ⟨[], [(genField E ty e p, [])], none, true⟩ := by
    unfold v1Lex
    rw [v1LexF_gen E hu hd hp]
    obtain ⟨n, hn⟩ : ∃ n, (ch! '%' :: (bs! "default" ++ ch! ':' :: (v1Descr ty e ++ ch! '%' :: []))).length = n + 1 :=
      ⟨(ch! '%' :: (bs! "default" ++ ch! ':' :: (v1Descr ty e ++ ch! '%' :: []))).length - 1, by simp⟩
    rw [hn, nilLex]
  rw [a1, a2]
  rfl

/-- the tree of such a context -/
def genTree (f : V1Field) : PTree := .node [] false none [(f, .node [] true none [(tailField, .node [] true none [] [])] [])] []

theorem loadV1_gen (f : V1Field) :
    loadV1 [⟨[], [(f, []), (tailField, [])], none, true⟩, ⟨[], [(f, [])], none, true⟩] = genTree f := by
  have hs : f.same f = true := by simp [V1Field.same]
  have b : ∀ (t : PTree) (k : PTree → PTree), t.pfx = [] → buildPTree t [] k = k t := by
    intro t k ht
    unfold buildPTree
    rw [buildPTreeN]
    simp [ht, commonLen]
  simp only [loadV1, List.foldl, addSample, addSegs, if_true]
  rw [b _ _ rfl]
  simp only [addFDescr, PTree.empty, PTree.pfx, PTree.terminal, PTree.tags, PTree.fields, PTree.subs, addFieldTo]
  rw [b _ _ rfl]
  simp only [addFDescr, PTree.pfx, PTree.terminal, PTree.tags, PTree.fields, PTree.subs, addFieldTo, PTree.empty]
  rw [b _ _ rfl, b _ _ rfl]
  simp only [markTerminal, addFDescr, PTree.pfx, PTree.terminal, PTree.tags, PTree.fields, PTree.subs, addFieldTo, PTree.empty, hs, if_true]
  rw [b _ _ rfl]
  rfl

/-- what normalising with such a context delivers, `x` = outcome of the parser of its field -/
def genRes (f : V1Field) (s : Bytes) (o : Obj) (x : PR) : R V1Res :=
  match x with
  | .fail => .ok ⟨false, Obj.add (Obj.add o (bs! "originalmsg") (.str s)) (bs! "unparsed-data") (.str s)⟩
  | .ub k => .ub k
  | .oof => .oof
  | .ok (len, v) =>
    .ok ⟨true, v1Store f s 0 len v (if len < s.length then Obj.add o (bs! "tail") (.str (s.drop len)) else o)⟩

theorem v1Normalize_gen (run : V1Run) (fuel : Nat) (f : V1Field) {k : V1Fn} (hk : f.prs = .fn k) {s : Bytes} (hs : s ≠ []) (hz : (0 : UInt8) ∉ s)
    (hl : s.length < 2 ^ 64) (hin : ∀ len v, run f s 0 = .ok (len, v) → len ≤ s.length) (o : Obj) :
    v1Normalize run [] (fuel + 3) (genTree f) s o = genRes f s o (run f s 0) := by
  have hpos : 0 < s.length := List.length_pos_iff.2 hs
  have hcs : cstr s = s := cstr_noNul fun c hc h0 => hz (h0 ▸ hc)
  obtain ⟨c, s', rfl⟩ : ∃ c s', s = c :: s' := by
    cases s with
    | nil => exact absurd rfl hs
    | cons c s' => exact ⟨c, s', rfl⟩
  unfold v1Normalize
  rw [v1Rec, if_neg (by omega)]
  have hm : ∀ t : Bytes, cmpLen t [] = 0 := by intro t; cases t <;> rfl
  simp only [genTree, PTree.pfx, PTree.fields, PTree.subs, hm, Nat.add_zero, List.length_nil, Nat.lt_irrefl, if_false]
  rw [v1Fields, hk]
  dsimp only
  cases hr : run f (c :: s') 0 with
  | fail =>
    dsimp only
    rw [v1Fields]
    have e1 : ((c :: s')[0]? : Option UInt8) = some c := rfl
    simp only [R.bind, v1After, e1, v1Lit, PTree.subs, subGet, v1Hit]
    have hne : ¬ (((c :: s').length : Int) - ((0 : Nat) : Int) = 0) := by omega
    rw [if_neg hne]
    simp only [R.bind, v1Rest, Bool.false_eq_true, if_false]
    rw [if_neg hne]
    simp only [R.bind, Bool.false_eq_true, if_false]
    rw [if_neg (by omega)]
    unfold v1Unparsed
    rw [hcs]
    simp only
    rw [if_neg (by omega)]
    have e2 : ((((c :: s').length : Int) - (((c :: s').length : Int) - ((0 : Nat) : Int))).toNat) = 0 := by omega
    rw [e2]
    rfl
  | ub u => rfl
  | oof => rfl
  | ok p =>
    obtain ⟨len, v⟩ := p
    have hle := hin len v hr
    dsimp only
    have hsz : sizeT (0 + len) = len := by unfold sizeT; omega
    rw [hsz, v1Rec]
    by_cases hlt : (c :: s').length ≤ len
    · rw [if_pos hlt]
      have e2 : ¬ len < (c :: s').length := by omega
      simp only [R.bind, v1Hit, PTree.pfx, PTree.terminal, PTree.tags, List.length_nil, v1After, Int.neg_zero, genRes, if_neg e2, if_true,
        Int.ofNat_zero, Int.natCast_zero]
    · rw [if_neg hlt]
      have e2 : len < (c :: s').length := by omega
      simp only [PTree.pfx, PTree.fields, hm, Nat.add_zero, List.length_nil, Nat.lt_irrefl, if_false]
      rw [v1Fields]
      dsimp only [tailField]
      rw [v1Fields]
      have e3 : ((c :: s')[len]? : Option UInt8) = some ((c :: s')[len]) := List.getElem?_eq_getElem e2
      have hne : ¬ ((((c :: s').length : Int)) - ((len : Nat) : Int) = 0) := by omega
      simp only [R.bind, v1After, e3, v1Lit, PTree.subs, subGet, v1Hit, if_neg hne, v1Rest]
      rw [v1Rec, if_pos (Nat.le_refl _)]
      have hnt : newString (slice (c :: s') len ((c :: s').length - len)) = .str ((c :: s').drop len) := by
        rw [newString, slice, List.take_of_length_le (by simp)]
        rw [cstr_noNul]
        intro x hx h0
        exact hz (h0 ▸ List.mem_of_mem_drop hx)
      simp only [R.bind, PTree.pfx, PTree.terminal, PTree.tags, List.length_nil, if_true, genRes, if_pos e2]
      have hst : v1Store ⟨bs! "tail", .rest, none, none⟩ (c :: s') len ((c :: s').length - len) none o = Obj.add o (bs! "tail") (.str ((c :: s').drop len)) := by
        unfold v1Store
        rw [if_neg (by decide), Option.getD_none, hnt]
        rfl
      rw [hst]
      rfl

theorem v1NormN_gen (E : V1Env) (root : V1Load) (hu : E.env.unescape [] = []) {ty : Bytes} {e : Option Bytes} (hd : V1DescrOK ty e)
    {k : V1Fn} {cons : V1Cons} (hp : v1Type ty = some (.fn k, cons)) (fuel : Nat) {s : Bytes} (hs : s ≠ []) (hz : (0 : UInt8) ∉ s)
    (hl : s.length < 2 ^ 64)
    (hin : ∀ len v, v1Parser E (fun c s o => (v1NormN E root (fuel + 3) c s o).bind fun r => .ok r.json) (fuel + 3) k (genField E ty e (.fn k, cons)) s 0
      = .ok (len, v) → len ≤ s.length) (o : Obj) :
    v1NormN E root (fuel + 4) (.gen (v1Descr ty e)) s o = genRes (genField E ty e (.fn k, cons)) s o
      (v1Parser E (fun c s o => (v1NormN E root (fuel + 3) c s o).bind fun r => .ok r.json) (fuel + 3) k (genField E ty e (.fn k, cons)) s 0) := by
  rw [v1NormN, v1CtxLoad, v1GenLoad_eq E hu hd hp]
  rw [R.ok_bind']
  dsimp only
  rw [loadV1_gen]
  exact v1Normalize_gen (v1RunOf E (fun c s o => (v1NormN E root (fuel + 3) c s o).bind fun r => .ok r.json) (fuel + 3)) fuel
    (genField E ty e (.fn k, cons)) rfl hs hz hl hin o

/-- with an empty message nothing matches -/
theorem v1NormN_gen_nil (E : V1Env) (root : V1Load) (hu : E.env.unescape [] = []) {ty : Bytes} {e : Option Bytes} (hd : V1DescrOK ty e)
    {k : V1Fn} {cons : V1Cons} (hp : v1Type ty = some (.fn k, cons)) (fuel : Nat) (o : Obj) :
    v1NormN E root (fuel + 2) (.gen (v1Descr ty e)) [] o =
      .ok ⟨false, Obj.add (Obj.add o (bs! "originalmsg") (.str [])) (bs! "unparsed-data") (.str [])⟩ := by
  rw [v1NormN, v1CtxLoad, v1GenLoad_eq E hu hd hp]
  rw [R.ok_bind']
  dsimp only
  rw [loadV1_gen]
  unfold v1Normalize
  rw [v1Rec, if_pos (by simp)]
  rfl

end LN
