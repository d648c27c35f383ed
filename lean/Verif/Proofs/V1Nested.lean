import Verif.Proofs.V1Gen
import Verif.Spec.V1Nested
import Verif.Props.V1Fields
/- field types of version 1 which apply other ones -/
set_option autoImplicit false
namespace LN
open Spec

theorem noNul_id {a : Bytes} (h : (0 : UInt8) ∉ a) : noNul a = a := by
  unfold noNul
  rw [List.filter_eq_self]
  intro x hx
  simp only [bne_iff_ne, ne_eq]
  rintro rfl
  exact h hx

theorem pconsSplit_cons (n : Nat) {a : Bytes} (h : ch! ':' ∉ a) (t : Bytes) :
    pconsSplit (n + 1) (a ++ ch! ':' :: t) = a :: pconsSplit n t := by
  obtain ⟨h1, h2⟩ := tw_all (p := fun c => c != ch! ':') (a := a) (c := ch! ':') (t := t)
    (fun x hx => by simp; rintro rfl; exact h hx) (by simp)
  rw [pconsSplit, h1, h2]

theorem strtok_word (c : UInt8) : ∀ (x : Bytes) (cur t : Bytes), c ∉ x → strtok [c] (x ++ t) cur = strtok [c] t (cur ++ x)
  | [], cur, t, _ => by simp
  | a :: x, cur, t, h => by
    rw [List.cons_append, strtok, if_neg (by simp; rintro rfl; simp at h), strtok_word c x _ t (by simp at h; exact h.2)]
    simp

theorem strtok_join (c : UInt8) : ∀ (l : List Bytes), (∀ x ∈ l, x ≠ [] ∧ c ∉ x) → strtok [c] (joinBy c l) [] = l
  | [], _ => by simp [joinBy, strtok]
  | [x], h => by
    have := strtok_word c x [] [] (h x (by simp)).2
    rw [List.append_nil, List.nil_append] at this
    rw [joinBy, this, strtok, if_neg (h x (by simp)).1]
  | x :: y :: l, h => by
    have hx := h x (by simp)
    rw [joinBy, strtok_word c x [] _ hx.2, List.nil_append, strtok, if_pos (by simp), if_neg hx.1,
      strtok_join c (y :: l) fun z hz => h z (by simp [hz])]
    simp

theorem joinBy_noNul (c : UInt8) (hc : c ≠ 0) : ∀ (l : List Bytes), (∀ x ∈ l, (0 : UInt8) ∉ x) → (0 : UInt8) ∉ joinBy c l
  | [], _ => by simp [joinBy]
  | [x], h => h x (by simp)
  | x :: y :: l, h => by
    have h1 := h x (by simp)
    have h2 := joinBy_noNul c hc (y :: l) fun z hz => h z (by simp [hz])
    rw [joinBy]
    simp only [List.mem_append, List.mem_cons, not_or]
    exact ⟨h1, Ne.symm hc, h2⟩
    simp

namespace V1Ty

/-- what the constructors make of it -/
def pdata : V1Ty → Option V1Data
  | simple _ _ _ => none
  | interpret _ i inner => some (.interpret (.gen inner.descr) i)
  | suffixed names _ _ sufs inner => some (.suffixed (.gen inner.descr) sufs (names.getD (bs! "value", bs! "suffix")).1 (names.getD (bs! "value", bs! "suffix")).2)
  | tokenized _ sep inner => some (.tokenized sep (some (.gen inner.descr)) true (bs! "tail"))

/-- its constructor -/
def cons : V1Ty → V1Cons
  | simple _ _ _ => .none
  | interpret _ _ _ => .interpret
  | suffixed none _ _ _ _ => .suffixed
  | suffixed (some _) _ _ _ _ => .namedSuffixed
  | tokenized _ _ _ => .tokenized

theorem type_eq {E : V1Env} {x : V1Ty} (h : x.OK E) : v1Type x.ty = some (.fn x.fn, x.cons) := by
  cases x with
  | simple t e k => exact v1TypeNames_ok _ h.2.1
  | interpret nm i inner => rfl
  | suffixed names d s l inner => cases names <;> rfl
  | tokenized r s inner => rfl

theorem interp_name {nm : Bytes} {i : V1Interp} (h : nm ∈ interpNames i) : ArgOK nm ∧ v1InterpOf nm = some i := by
  cases i with
  | int10 =>
    rcases List.mem_cons.1 h with rfl | h
    · exact ⟨⟨by decide, by decide, by decide⟩, by decide⟩
    · rcases List.mem_cons.1 h with rfl | h
      · exact ⟨⟨by decide, by decide, by decide⟩, by decide⟩
      · cases h
  | int16 =>
    rcases List.mem_cons.1 h with rfl | h
    · exact ⟨⟨by decide, by decide, by decide⟩, by decide⟩
    · cases h
  | float =>
    rcases List.mem_cons.1 h with rfl | h
    · exact ⟨⟨by decide, by decide, by decide⟩, by decide⟩
    · cases h
  | bool =>
    rcases List.mem_cons.1 h with rfl | h
    · exact ⟨⟨by decide, by decide, by decide⟩, by decide⟩
    · cases h

theorem descr_ok {E : V1Env} : ∀ {x : V1Ty}, x.OK E → V1DescrOK x.ty x.extra ∧ (0 : UInt8) ∉ x.descr := by
  have key : ∀ {ty e : Bytes}, ch! ':' ∉ ty → ch! '%' ∉ ty → trimRight ty = ty → (0 : UInt8) ∉ ty → ch! '%' ∉ e → (0 : UInt8) ∉ e →
      V1DescrOK ty (some e) ∧ (0 : UInt8) ∉ v1Descr ty (some e) := by
    intro ty e h1 h2 h3 h4 h5 h6
    refine ⟨⟨h1, h2, h3, fun y hy => ?_⟩, ?_⟩
    · cases hy; exact h5
    · simp only [v1Descr, List.mem_append, List.mem_cons, not_or]
      exact ⟨h4, by decide, h6⟩
  have pct : ∀ {ty : Bytes} {e : Option Bytes}, V1DescrOK ty e → ch! '%' ∉ v1Descr ty e := by
    intro ty e h
    cases e with
    | none => exact h.pct
    | some e =>
      simp only [v1Descr, List.mem_append, List.mem_cons, not_or]
      exact ⟨h.pct, by decide, h.extra e rfl⟩
  have arg : ∀ {c : UInt8} {a t : Bytes}, c ≠ ch! ':' → c ∉ a → c ∉ t → c ∉ a ++ ch! ':' :: t := by
    intro c a t h1 h2 h3
    simp only [List.mem_append, List.mem_cons, not_or]
    exact ⟨h2, h1, h3⟩
  intro x
  induction x with
  | simple t e k => exact fun h => ⟨h.1, h.2.2.2.2⟩
  | interpret nm i inner ih =>
    intro h
    obtain ⟨⟨a1, a2, a3⟩, _⟩ := interp_name h.2.2
    obtain ⟨b1, b2⟩ := ih h.1
    exact key (ty := bs! "interpret") (by decide) (by decide) (by decide) (by decide) (arg (by decide) a2 (pct b1)) (arg (by decide) a3 b2)
  | tokenized raw sep inner ih =>
    intro h
    obtain ⟨h1, ⟨a1, a2, a3⟩, _⟩ := h
    obtain ⟨b1, b2⟩ := ih h1
    exact key (ty := bs! "tokenized") (by decide) (by decide) (by decide) (by decide) (arg (by decide) a2 (pct b1)) (arg (by decide) a3 b2)
  | suffixed names d s l inner ih =>
    intro h
    obtain ⟨h1, ⟨a1, a2, a3⟩, ⟨c1, c2, c3⟩, _, _, hn⟩ := h
    obtain ⟨b1, b2⟩ := ih h1
    have q1 := arg (c := ch! '%') (by decide) a2 (arg (by decide) c2 (pct b1))
    have q2 := arg (c := 0) (by decide) a3 (arg (by decide) c3 b2)
    cases names with
    | none => exact key (ty := bs! "suffixed") (by decide) (by decide) (by decide) (by decide) q1 q2
    | some n =>
      obtain ⟨⟨d1, d2, d3⟩, ⟨e1, e2, e3⟩, _⟩ := hn n rfl
      exact key (ty := bs! "named_suffixed") (by decide) (by decide) (by decide) (by decide) (arg (by decide) d2 (arg (by decide) e2 q1)) (arg (by decide) d3 (arg (by decide) e3 q2))

theorem descr_noNul {E : V1Env} {x : V1Ty} (h : x.OK E) {e : Bytes} (he : x.extra = some e) : (0 : UInt8) ∉ e := by
  have := (descr_ok h).2
  rw [descr, he, v1Descr] at this
  simp only [List.mem_append, List.mem_cons, not_or] at this
  exact this.2.2

theorem inner_notRec {E : V1Env} {x : V1Ty} (h : x.OK E) : (V1Prs.fn x.fn = .fn .recursive) = False := by
  cases x with
  | simple t e k =>
    simp only [eq_iff_iff, iff_false, fn]
    intro hk
    cases hk
    exact absurd h.2.2.1 (by decide)
  | interpret nm i inner => simp [fn]
  | suffixed names d s l inner => simp [fn]
  | tokenized r s inner => simp [fn]

theorem data_eq {E : V1Env} (self : V1CtxId) {x : V1Ty} (h : x.OK E) : v1Data E self x.cons x.extra = x.pdata := by
  have nn : ∀ {e : Bytes}, x.extra = some e → noNul e = e := fun he => noNul_id (descr_noNul h he)
  cases x with
  | simple t e k => rfl
  | interpret nm i inner =>
    obtain ⟨⟨a1, a2, a3⟩, a4⟩ := interp_name h.2.2
    have e := nn (e := nm ++ ch! ':' :: v1Descr inner.ty inner.extra) rfl
    show v1InterpData (some _) = _
    rw [v1InterpData, pconsArgs, e, pconsSplit_cons 0 a1, pconsSplit]
    simp only [a4, Option.map_some]
    rfl
  | tokenized raw sep inner =>
    obtain ⟨h1, ⟨a1, a2, a3⟩, h4, h5, h6, h7⟩ := h
    have e := nn (e := raw ++ ch! ':' :: v1Descr inner.ty inner.extra) rfl
    show v1TokData E self (some _) = _
    rw [v1TokData, pconsArgs, e, pconsSplit_cons 0 a1, pconsSplit]
    dsimp only
    rw [v1Content_descr (descr_ok h1).1 (type_eq h1)]
    dsimp only
    rw [if_neg (by rw [inner_notRec h1]; exact id), unescArg, h4, noNul_id h7, h5]
    rfl
  | suffixed names d s l inner =>
    obtain ⟨h1, ⟨a1, a2, a3⟩, ⟨c1, c2, c3⟩, hl, ⟨c, hc0, hd, hs, hx⟩, hn⟩ := h
    have hs' : strtok (unescArg E.env d) (unescArg E.env s) [] = l := by
      rw [unescArg, unescArg, hd, hs, noNul_id (by simp [Ne.symm hc0]), noNul_id (joinBy_noNul c hc0 l fun x hx' => (hx x hx').2.2)]
      exact strtok_join c l fun x hx' => ⟨(hx x hx').1, (hx x hx').2.1⟩
    have key : ∀ vn sn, (0 : UInt8) ∉ d ++ ch! ':' :: (s ++ ch! ':' :: v1Descr inner.ty inner.extra) →
        v1SufData E.env vn sn (some (d ++ ch! ':' :: (s ++ ch! ':' :: v1Descr inner.ty inner.extra))) = some (.suffixed (.gen inner.descr) l vn sn) := by
      intro vn sn hz
      rw [v1SufData, pconsArgs, noNul_id hz, pconsSplit_cons 1 a1, pconsSplit_cons 0 c1, pconsSplit]
      dsimp only
      rw [hs', if_neg hl]
      rfl
    cases names with
    | none => exact key _ _ (descr_noNul (x := suffixed none d s l inner) ⟨h1, ⟨a1, a2, a3⟩, ⟨c1, c2, c3⟩, hl, ⟨c, hc0, hd, hs, hx⟩, hn⟩ rfl)
    | some n =>
      obtain ⟨⟨d1, d2, d3⟩, ⟨e1, e2, e3⟩, _⟩ := hn n rfl
      have e := nn (e := n.1 ++ ch! ':' :: (n.2 ++ ch! ':' :: (d ++ ch! ':' :: (s ++ ch! ':' :: v1Descr inner.ty inner.extra)))) rfl
      show v1NamedSufData E.env (some _) = _
      rw [v1NamedSufData, pconsArgs, e, pconsSplit_cons 1 d1, pconsSplit_cons 0 e1, pconsSplit]
      dsimp only
      refine key n.1 n.2 ?_
      have := (descr_noNul (x := suffixed (some n) d s l inner) ⟨h1, ⟨a1, a2, a3⟩, ⟨c1, c2, c3⟩, hl, ⟨c, hc0, hd, hs, hx⟩, hn⟩ rfl)
      simp only [List.mem_append, List.mem_cons, not_or] at this ⊢
      exact ⟨this.2.2.2.2.1, this.2.2.2.2.2⟩


/-- the innermost type -/
def leaf : V1Ty → V1Fn
  | simple _ _ k => k
  | interpret _ _ inner => inner.leaf
  | suffixed _ _ _ _ inner => inner.leaf
  | tokenized _ _ inner => inner.leaf

/-- what is said about a parser: it accepts `acc` -/
def Does (x : PR) (f : V1Field) (s : Bytes) (offs : Nat) (acc : Nat → Json → Prop) : Prop :=
  (∀ n v, acc n v → ∃ w, x = .ok (n, w) ∧ V1Step.value s ⟨f, offs, n, w⟩ = v) ∧ ((∀ n v, ¬ acc n v) → x = .fail)

theorem digits_suffix {k : V1Fn} {s t : Bytes} (hd : V1Digits k s) (ht : t <:+ s) : V1Digits k t := by
  intro h i
  obtain ⟨a, rfl⟩ := ht
  have := hd h (a.length + i)
  rwa [← List.drop_drop, List.drop_left] at this

theorem noNul_suffix {s t : Bytes} (hz : (0 : UInt8) ∉ s) (ht : t <:+ s) : (0 : UInt8) ∉ t := fun h => hz (ht.subset h)

theorem does_simple (E : V1Env) (norm : V1Norm) (fuel : Nat) {ty : Bytes} {e : Option Bytes} {k : V1Fn} (h : (simple ty e k).OK E) {t : Bytes}
    (hz : (0 : UInt8) ∉ t) (hd : V1Digits k t) {offs : Nat} (ho : offs ≤ t.length) (f : V1Field) (hf : f.raw = e) :
    Does (v1Parser E norm fuel k f t offs) f t offs (accepts E (simple ty e k) (t.drop offs)) := by
  have := C71_simple_types_partial E norm fuel k f h.2.2.1 (by rw [hf]; exact h.2.2.2.1) hd (fun c hc h0 => hz (h0 ▸ hc)) ho
  rw [hf] at this
  refine ⟨?_, fun hno => this.2 fun n hn => hno n _ ⟨hn, rfl⟩⟩
  rintro n v ⟨hn, rfl⟩
  exact this.1 n hn

theorem toks_le {el : Bytes → Nat → Json → Prop} {sep t : Bytes} {l : List Json} {n : Nat}
    (hel : ∀ t' n v, t' <:+ t → el t' n v → n ≤ t'.length) (h : Toks el sep t l n) : n ≤ t.length := by
  induction h with
  | last _ h1 _ => exact hel _ _ _ (List.suffix_refl _) h1
  | noelt _ h1 _ _ _ => exact hel _ _ _ (List.suffix_refl _) h1
  | @trail t n v _ h1 h2 =>
    have h3 := hel _ _ _ (List.suffix_refl _) h1
    have := congrArg List.length h2
    rw [List.length_drop] at this
    omega
  | @more t r n m v l _ h1 h2 _ ih =>
    have h3 := hel _ _ _ (List.suffix_refl _) h1
    have hr : r <:+ t := ((List.suffix_append sep r).trans (h2 ▸ List.drop_suffix n t))
    have h4 := ih fun t' n v ht => hel t' n v (ht.trans hr)
    have := congrArg List.length h2
    rw [List.length_drop, List.length_append] at this
    omega

theorem accepts_le (E : V1Env) (he : E.env.TokOK) : ∀ {x : V1Ty}, x.OK E → ∀ {t : Bytes}, (0 : UInt8) ∉ t → V1Digits x.leaf t → ∀ {n : Nat} {v : Json},
    x.accepts E t n v → n ≤ t.length := by
  intro x
  induction x with
  | simple ty e k =>
    intro h t hz hd n v hn
    obtain ⟨w, h1, _⟩ := (does_simple E Ex.norm1 0 h hz hd (offs := 0) (Nat.zero_le _) ⟨[], .rest, e, none⟩ rfl).1 n v (by rwa [List.drop_zero])
    have hin : V1InMsg k = true := by have := h.2.2.1; revert this; cases k <;> simp [V1Simple, V1InMsg]
    have := (v1Parser_within E Ex.norm1 0 k ⟨[], .rest, e, none⟩ he hin (Nat.zero_le t.length)).1 _ h1
    unfold Within at this
    omega
  | interpret nm i inner ih =>
    intro h t hz hd n v hn
    rcases hn with ⟨_, txt, h1, _⟩ | ⟨_, rfl, _⟩
    · exact ih h.1 hz hd h1
    · exact Nat.zero_le _
  | suffixed names d s l inner ih =>
    intro h t hz hd n v hn
    rcases hn with ⟨_, m, w, pre, y, post, h1, _, h2, _, rfl, _⟩ | ⟨_, rfl, _⟩
    · have := ih h.1 hz hd h1
      have h3 := h2.length_le
      rw [List.length_drop] at h3
      omega
    · exact Nat.zero_le _
  | tokenized raw sep inner ih =>
    intro h t hz hd n v hn
    rcases hn with ⟨rfl, rfl, _⟩ | ⟨l, h1, _⟩
    · exact Nat.le_refl _
    · exact toks_le (fun t' n v ht hv => ih h.1 (noNul_suffix hz ht) (digits_suffix hd ht) hv) h1

/-- `ln_normalize` on a context, for the parsers -/
def normOf (E : V1Env) (root : V1Load) (fuel : Nat) : V1Norm := fun c s o => (v1NormN E root fuel c s o).bind fun r => .ok r.json

/-- what the context for a field delivers -/
def ctxObj (t : Bytes) (n : Nat) (v : Json) : Obj :=
  if n < t.length then [(bs! "tail", .str (t.drop n)), (bs! "default", v)] else [(bs! "default", v)]

theorem ctx_does (E : V1Env) (root : V1Load) (hu : E.env.unescape [] = []) (he : E.env.TokOK) {x : V1Ty} (h : x.OK E) {t : Bytes} (ht : t ≠ [])
    (hz : (0 : UInt8) ∉ t) (hd : V1Digits x.leaf t) (hl : t.length < 2 ^ 64) (fuel : Nat)
    (hx : ∀ f : V1Field, f.raw = x.extra → f.pdata = x.pdata →
      Does (v1Parser E (normOf E root (fuel + 3)) (fuel + 3) x.fn f t 0) f t 0 (accepts E x t)) :
    (∀ n v, accepts E x t n v → normOf E root (fuel + 4) (.gen x.descr) t [] = .ok (ctxObj t n v)) ∧
    ((∀ n v, ¬ accepts E x t n v) → normOf E root (fuel + 4) (.gen x.descr) t [] =
      .ok [(bs! "originalmsg", .str t), (bs! "unparsed-data", .str t)]) := by
  have hx := hx (genField E x.ty x.extra (.fn x.fn, x.cons)) rfl (data_eq _ h)
  have hin : ∀ len v, v1Parser E (normOf E root (fuel + 3)) (fuel + 3) x.fn (genField E x.ty x.extra (.fn x.fn, x.cons)) t 0 = .ok (len, v) →
      len ≤ t.length := by
    intro len v hr
    by_cases hex : ∃ n v, accepts E x t n v
    · obtain ⟨n, v', hn⟩ := hex
      obtain ⟨w, h1, _⟩ := hx.1 n v' hn
      rw [h1] at hr
      cases hr
      exact accepts_le E he h hz hd hn
    · rw [hx.2 fun n v hn => hex ⟨n, v, hn⟩] at hr
      cases hr
  have key := v1NormN_gen E root hu (descr_ok h).1 (type_eq h) fuel ht hz hl hin []
  have key' : normOf E root (fuel + 4) (.gen x.descr) t [] =
      (genRes (genField E x.ty x.extra (.fn x.fn, x.cons)) t [] (v1Parser E (normOf E root (fuel + 3)) (fuel + 3) x.fn
        (genField E x.ty x.extra (.fn x.fn, x.cons)) t 0)).bind fun r => .ok r.json := by
    show (v1NormN E root (fuel + 4) (.gen (v1Descr x.ty x.extra)) t []).bind _ = _
    rw [key]
    rfl
  constructor
  · intro n v hn
    obtain ⟨w, h1, h2⟩ := hx.1 n v hn
    have h2 : w.getD (newString (slice t 0 n)) = v := h2
    rw [key', h1, genRes, R.ok_bind']
    dsimp only
    rw [v1Store, if_neg (show ¬ (genField E x.ty x.extra (.fn x.fn, x.cons)).name = bs! "-" from show ¬ bs! "default" = bs! "-" by decide), h2]
    unfold ctxObj
    split <;> rfl
  · intro hno
    rw [key', hx.2 hno, genRes, R.ok_bind']
    rfl


theorem sizeSub_tail {a b : Nat} (hab : b ≤ a) (h : a < 2 ^ 64) : sizeSub a b = a - b := by
  unfold sizeSub sizeT
  omega

theorem len_drop_le (r : Bytes) (n : Nat) : (r.drop n).length ≤ r.length := by rw [List.length_drop]; omega

theorem len_drop {r : Bytes} {n : Nat} (h : n ≤ r.length) : r.length - (r.drop n).length = n := by rw [List.length_drop]; omega

theorem ctxObj_unparsed (t : Bytes) (n : Nat) (v : Json) : (ctxObj t n v).get (bs! "unparsed-data") = none := by
  unfold ctxObj
  split <;> rfl

theorem ctxObj_default (t : Bytes) (n : Nat) (v : Json) : (ctxObj t n v).get (bs! "default") = some v := by
  unfold ctxObj
  split <;> rfl

theorem ctxObj_tail (t : Bytes) (n : Nat) (v : Json) : (ctxObj t n v).get (bs! "tail") = if n < t.length then some (.str (t.drop n)) else none := by
  unfold ctxObj
  split <;> rfl

theorem ctx_nil (E : V1Env) (root : V1Load) (hu : E.env.unescape [] = []) {x : V1Ty} (h : x.OK E) (fuel : Nat) :
    normOf E root (fuel + 4) (.gen x.descr) [] [] = .ok [(bs! "originalmsg", .str []), (bs! "unparsed-data", .str [])] := by
  have key := v1NormN_gen_nil E root hu (descr_ok h).1 (type_eq h) (fuel + 2) []
  show (v1NormN E root (fuel + 4) (.gen (v1Descr x.ty x.extra)) [] []).bind _ = _
  rw [key]
  rfl

theorem cstr_id {a : Bytes} (h : (0 : UInt8) ∉ a) : cstr a = a := cstr_noNul fun c hc h0 => h (h0 ▸ hc)

theorem text_empty (s : Bytes) (offs : Nat) : newString (slice s offs 0) = .str [] := by
  simp [newString, slice, cstr]

theorem simple_text (E : V1Env) {x : V1Ty} (h : x.isSimple = true) {t : Bytes} (hz : (0 : UInt8) ∉ t) {n : Nat} {v : Json} (hv : accepts E x t n v) :
    ∃ txt, v = .str txt ∧ (0 : UInt8) ∉ txt := by
  cases x with
  | simple ty e k =>
    refine ⟨_, hv.2, fun h0 => hz ?_⟩
    have hsub : ∀ {a b : Nat} {y : UInt8}, y ∈ (t.drop a).take b → y ∈ t := fun hy => List.mem_of_mem_drop (List.mem_of_mem_take hy)
    unfold v1Text at h0
    split at h0
    · exact hsub h0
    · split at h0
      · exact hsub h0
      · exact List.mem_of_mem_take h0
    · exact List.mem_of_mem_take h0
  | interpret nm i inner => cases h
  | suffixed names d s l inner => cases h
  | tokenized r s inner => cases h

theorem reinterpret_eq (E : V1Env) (i : V1Interp) {txt : Bytes} (h : (0 : UInt8) ∉ txt) :
    v1Reinterpret E i (some (.str txt)) = .ok (some (meaning E i txt)) := by
  have e : txt.map lowerC = foldCase txt := by
    unfold foldCase
    refine List.map_congr_left fun c _ => ?_
    unfold lowerC isUpper
    simp only [Bool.and_eq_true, decide_eq_true_eq]
  cases i <;> simp [v1Reinterpret, meaning, cstr_id h, e]

theorem does_interpret (E : V1Env) {inner : V1Ty} {nm : Bytes} {i : V1Interp} (h : (interpret nm i inner).OK E) (norm : V1Norm) {t : Bytes}
    (hz : (0 : UInt8) ∉ t) (hl : t.length < 2 ^ 64) {offs : Nat} (ho : offs ≤ t.length)
    (h0 : t.drop offs = [] → norm (.gen inner.descr) [] [] = .ok [(bs! "originalmsg", .str []), (bs! "unparsed-data", .str [])])
    (hc : t.drop offs ≠ [] → (∀ n v, accepts E inner (t.drop offs) n v → norm (.gen inner.descr) (t.drop offs) [] = .ok (ctxObj (t.drop offs) n v)) ∧
      ((∀ n v, ¬ accepts E inner (t.drop offs) n v) → norm (.gen inner.descr) (t.drop offs) [] =
        .ok [(bs! "originalmsg", .str (t.drop offs)), (bs! "unparsed-data", .str (t.drop offs))]))
    (hle : ∀ n v, accepts E inner (t.drop offs) n v → n ≤ (t.drop offs).length) (f : V1Field) :
    Does (v1InterpretP E norm (interpret nm i inner).pdata t offs) f t offs (accepts E (interpret nm i inner) (t.drop offs)) := by
  have hzt : (0 : UInt8) ∉ t.drop offs := fun h => hz (List.mem_of_mem_drop h)
  have hlen : t.length - offs = (t.drop offs).length := by rw [List.length_drop]
  have hl' : (t.drop offs).length < 2 ^ 64 := by rw [List.length_drop]; omega
  have fails : (t.drop offs = [] ∨ ∀ n v, ¬ accepts E inner (t.drop offs) n v) → v1InterpretP E norm (interpret nm i inner).pdata t offs = .ok (0, none) := by
    intro hno
    rw [pdata, v1InterpretP]
    by_cases he : t.drop offs = []
    · rw [he, h0 he, R.ok_bind']; rfl
    · rw [(hc he).2 (hno.resolve_left he), R.ok_bind']; rfl
  constructor
  · rintro n v (⟨hne, txt, h1, rfl⟩ | ⟨hno, rfl, rfl⟩)
    · refine ⟨some (meaning E i txt), ?_, rfl⟩
      obtain ⟨txt', e1, e2⟩ := simple_text E h.2.1 hzt h1
      cases e1
      rw [pdata, v1InterpretP]
      rw [(hc hne).1 _ _ h1, R.ok_bind', ctxObj_unparsed]
      dsimp only
      rw [ctxObj_default, reinterpret_eq E i e2, R.ok_bind', ctxObj_tail, hlen]
      have hn := hle _ _ h1
      split
      · rw [strLenOf, sizeSub_tail (len_drop_le _ _) hl', len_drop hn]
      · rw [show strLenOf none = 0 from rfl, sizeSub_tail (Nat.zero_le _) hl']
        rename_i hnl
        rw [show (t.drop offs).length - 0 = n by omega]
    · exact ⟨none, fails hno, text_empty _ _⟩
  · intro hno
    exfalso
    by_cases hex : t.drop offs = [] ∨ ∀ n v, ¬ accepts E inner (t.drop offs) n v
    · exact hno 0 (.str []) (.inr ⟨hex, rfl, rfl⟩)
    · obtain ⟨h1, h2⟩ := not_or.1 hex
      obtain ⟨n, h2⟩ := Classical.not_forall.1 h2
      obtain ⟨v, h2⟩ := Classical.not_forall.1 h2
      have h2 := Classical.not_not.1 h2
      obtain ⟨txt, rfl, _⟩ := simple_text E h.2.1 hzt h2
      exact hno n _ (.inl ⟨h1, txt, h2, rfl⟩)

theorem findSuffix_some {frag : Bytes} {pre post : List Bytes} {x : Bytes} (hx : x <+: frag) (hp : ∀ y ∈ pre, ¬ y <+: frag) :
    v1FindSuffix frag (pre ++ x :: post) = some x := by
  induction pre with
  | nil => rw [List.nil_append, v1FindSuffix, if_pos hx]
  | cons y pre ih => rw [List.cons_append, v1FindSuffix, if_neg (hp y (by simp)), ih fun z hz => hp z (by simp [hz])]

theorem findSuffix_none {frag : Bytes} {l : List Bytes} (h : ∀ y ∈ l, ¬ y <+: frag) : v1FindSuffix frag l = none := by
  induction l with
  | nil => rfl
  | cons y l ih => rw [v1FindSuffix, if_neg (h y (by simp)), ih fun z hz => h z (by simp [hz])]

theorem first_split {P : Bytes → Prop} {l : List Bytes} (h : ∃ x ∈ l, P x) : ∃ pre x post, l = pre ++ x :: post ∧ P x ∧ ∀ y ∈ pre, ¬ P y := by
  induction l with
  | nil => simp at h
  | cons a l ih =>
    by_cases ha : P a
    · exact ⟨[], a, l, rfl, ha, by simp⟩
    · have : ∃ x ∈ l, P x := by
        obtain ⟨x, hx, hp⟩ := h
        rcases List.mem_cons.1 hx with rfl | hx
        · exact absurd hp ha
        · exact ⟨x, hx, hp⟩
      obtain ⟨pre, x, post, e, h1, h2⟩ := ih this
      refine ⟨a :: pre, x, post, by rw [e]; rfl, h1, fun y hy => ?_⟩
      rcases List.mem_cons.1 hy with rfl | hy
      · exact ha
      · exact h2 y hy

theorem does_suffixed (E : V1Env) {inner : V1Ty} {names : Option (Bytes × Bytes)} {rawD rawS : Bytes} {sufs : List Bytes}
    (h : (suffixed names rawD rawS sufs inner).OK E) (norm : V1Norm) {t : Bytes}
    (hz : (0 : UInt8) ∉ t) (hl : t.length < 2 ^ 64) {offs : Nat} (ho : offs ≤ t.length)
    (h0 : t.drop offs = [] → norm (.gen inner.descr) [] [] = .ok [(bs! "originalmsg", .str []), (bs! "unparsed-data", .str [])])
    (hc : t.drop offs ≠ [] → (∀ n v, accepts E inner (t.drop offs) n v → norm (.gen inner.descr) (t.drop offs) [] = .ok (ctxObj (t.drop offs) n v)) ∧
      ((∀ n v, ¬ accepts E inner (t.drop offs) n v) → norm (.gen inner.descr) (t.drop offs) [] =
        .ok [(bs! "originalmsg", .str (t.drop offs)), (bs! "unparsed-data", .str (t.drop offs))]))
    (hfol : t.drop offs ≠ [] → ∀ n v, accepts E inner (t.drop offs) n v → n < (t.drop offs).length) (f : V1Field) :
    Does (v1Suffixed norm (suffixed names rawD rawS sufs inner).pdata t offs) f t offs (accepts E (suffixed names rawD rawS sufs inner) (t.drop offs)) := by
  have hzt : (0 : UInt8) ∉ t.drop offs := fun h => hz (List.mem_of_mem_drop h)
  have hlen : t.length - offs = (t.drop offs).length := by rw [List.length_drop]
  have hl' : (t.drop offs).length < 2 ^ 64 := by rw [List.length_drop]; omega
  have hnames : (names.getD (bs! "value", bs! "suffix")).1 ≠ (names.getD (bs! "value", bs! "suffix")).2 := by
    cases names with
    | none => decide
    | some n => exact (h.2.2.2.2.2 n rfl).2.2
  have run : ∀ n v, t.drop offs ≠ [] → accepts E inner (t.drop offs) n v → v1Suffixed norm (suffixed names rawD rawS sufs inner).pdata t offs =
      match v1FindSuffix ((t.drop offs).drop n) sufs with
      | none => .ok (0, none)
      | some x => .ok (sizeT (n + x.length), some (.obj [((names.getD (bs! "value", bs! "suffix")).1, v), ((names.getD (bs! "value", bs! "suffix")).2, .str x)])) := by
    intro n v hne hv
    have hn := hfol hne _ _ hv
    rw [pdata, v1Suffixed]
    rw [(hc hne).1 _ _ hv, R.ok_bind', ctxObj_unparsed]
    dsimp only
    rw [ctxObj_tail, if_pos hn, ctxObj_default]
    dsimp only
    rw [cstr_id fun h => hzt (List.mem_of_mem_drop h), hlen, sizeSub_tail (len_drop_le _ _) hl', len_drop (Nat.le_of_lt hn)]
    have e2 : ∀ x : Bytes, Obj.add [((names.getD (bs! "value", bs! "suffix")).1, v)] (names.getD (bs! "value", bs! "suffix")).2 (.str x) =
        [((names.getD (bs! "value", bs! "suffix")).1, v), ((names.getD (bs! "value", bs! "suffix")).2, .str x)] := by
      intro x
      rw [Obj.add, if_neg hnames, Obj.add]
    rw [Option.getD_some]
    cases v1FindSuffix ((t.drop offs).drop n) sufs with
    | none => rfl
    | some x => dsimp only; rw [e2]
  have fails : (t.drop offs = [] ∨ ∀ m w, accepts E inner (t.drop offs) m w → ∀ x ∈ sufs, ¬ x <+: (t.drop offs).drop m) →
      v1Suffixed norm (suffixed names rawD rawS sufs inner).pdata t offs = .ok (0, none) := by
    intro hno
    by_cases he : t.drop offs = []
    · rw [pdata, v1Suffixed]
      rw [he, h0 he, R.ok_bind']; rfl
    · by_cases hex : ∃ n v, accepts E inner (t.drop offs) n v
      · obtain ⟨n, v, hv⟩ := hex
        rw [run n v he hv, findSuffix_none (hno.resolve_left he n v hv)]
      · rw [pdata, v1Suffixed]
        rw [(hc he).2 fun n v hv => hex ⟨n, v, hv⟩, R.ok_bind']; rfl
  constructor
  · rintro n v (⟨hne, m, w, pre, x, post, h1, hs, h2, h3, rfl, rfl⟩ | ⟨hno, rfl, rfl⟩)
    · have hm := hfol hne _ _ h1
      have hx := h2.length_le
      rw [List.length_drop, List.length_drop] at hx
      refine ⟨some _, ?_, rfl⟩
      rw [run m w hne h1, hs, findSuffix_some h2 h3]
      dsimp only
      rw [show sizeT (m + x.length) = m + x.length by unfold sizeT; rw [List.length_drop] at hm; omega]
    · exact ⟨none, fails hno, text_empty _ _⟩
  · intro hno
    exfalso
    by_cases hex : t.drop offs = [] ∨ ∀ m w, accepts E inner (t.drop offs) m w → ∀ x ∈ sufs, ¬ x <+: (t.drop offs).drop m
    · exact hno 0 (.str []) (.inr ⟨hex, rfl, rfl⟩)
    · obtain ⟨h1, h2⟩ := not_or.1 hex
      obtain ⟨m, h2⟩ := Classical.not_forall.1 h2
      obtain ⟨w, h2⟩ := Classical.not_forall.1 h2
      obtain ⟨h3, h4⟩ := Classical.not_imp.1 h2
      obtain ⟨x, h4⟩ := Classical.not_forall.1 h4
      obtain ⟨h5, h6⟩ := Classical.not_imp.1 h4
      obtain ⟨pre, x, post, e, h7, h8⟩ := first_split (P := fun x => x <+: (t.drop offs).drop m) ⟨x, h5, Classical.not_not.1 h6⟩
      exact hno _ _ (.inl ⟨h1, m, w, pre, x, post, h3, e, h7, h8, rfl, rfl⟩)


/-- the hypotheses on contexts, for `tokenized` -/
structure CtxOK (E : V1Env) (norm : V1Norm) (inner : V1Ty) (s : Bytes) : Prop where
  ok : ∀ t, t <:+ s → t ≠ [] → ∀ n v, accepts E inner t n v → norm (.gen inner.descr) t [] = .ok (ctxObj t n v)
  no : ∀ t, t <:+ s → t ≠ [] → (∀ n v, ¬ accepts E inner t n v) → norm (.gen inner.descr) t [] =
    .ok [(bs! "originalmsg", .str t), (bs! "unparsed-data", .str t)]
  le : ∀ t, t <:+ s → ∀ n v, accepts E inner t n v → n ≤ t.length

theorem tokLoop_step {E : V1Env} {norm : V1Norm} {inner : V1Ty} {s : Bytes} (hc : CtxOK E norm inner s) {sep : Bytes} (hs : sep ≠ []) {t : Bytes} (ht : t <:+ s)
    (hne : t ≠ []) {n : Nat} {v : Json} (hv : accepts E inner t n v) (fuel : Nat) (ms : List Json) :
    v1TokLoop norm sep (some (.gen inner.descr)) true (bs! "tail") (fuel + 1) t [] ms =
      if sep <+: t.drop n then v1TokLoop norm sep (some (.gen inner.descr)) true (bs! "tail") fuel ((t.drop n).drop sep.length) [] (ms ++ [v])
      else .ok ((t.drop n).length, ms ++ [v]) := by
  have hn := hc.le t ht n v hv
  rw [v1TokLoop, if_neg hne]
  dsimp only
  rw [if_pos rfl, hc.ok t ht hne n v hv, R.ok_bind']
  simp only [ctxObj_default, ctxObj_tail, if_true, Option.isSome_some, Option.getD_some]
  by_cases hlt : n < t.length
  · rw [if_pos hlt]
    dsimp only
    have hd : t.drop n ≠ [] := by
      intro h
      have := congrArg List.length h
      rw [List.length_drop, List.length_nil] at this
      omega
    have hdel : Obj.del (Obj.del (ctxObj t n v) (bs! "tail")) (bs! "default") = [] := by
      rw [ctxObj, if_pos hlt]
      rfl
    rw [if_neg hd, hdel]
  · rw [if_neg hlt]
    dsimp only
    have hd : t.drop n = [] := List.drop_of_length_le (by omega)
    rw [hd, if_neg (by simpa using hs)]
    rfl

theorem tokLoop_nil (norm : V1Norm) (sep : Bytes) (c : Option V1CtxId) (u : Bool) (rem : Bytes) (fuel : Nat) (o : Obj) (ms : List Json) :
    v1TokLoop norm sep c u rem (fuel + 1) [] o ms = .ok (0, ms) := by
  unfold v1TokLoop
  rw [if_pos rfl]

theorem tokLoop_no {E : V1Env} {norm : V1Norm} {inner : V1Ty} {s : Bytes} (hc : CtxOK E norm inner s) {sep : Bytes} {t : Bytes} (ht : t <:+ s)
    (hne : t ≠ []) (hno : ∀ n v, ¬ accepts E inner t n v) (fuel : Nat) (ms : List Json) :
    v1TokLoop norm sep (some (.gen inner.descr)) true (bs! "tail") (fuel + 1) t [] ms =
      if ms = [] then .fail else .ok (t.length + sep.length, ms) := by
  rw [v1TokLoop, if_neg hne]
  dsimp only
  rw [if_pos rfl, hc.no t ht hne hno, R.ok_bind']
  rfl

theorem tokLoop_toks {E : V1Env} {norm : V1Norm} {inner : V1Ty} {s : Bytes} (hc : CtxOK E norm inner s) {sep : Bytes} (hs : sep ≠ []) {t : Bytes}
    {l : List Json} {n : Nat} (h : Toks (accepts E inner) sep t l n) :
    ∀ (ms : List Json) (fuel : Nat), t <:+ s → t.length < fuel →
      v1TokLoop norm sep (some (.gen inner.descr)) true (bs! "tail") fuel t [] ms = .ok (t.length - n, ms ++ l) := by
  have hsl : 0 < sep.length := List.length_pos_iff.2 hs
  induction h with
  | last hne h1 h2 =>
    intro ms fuel ht hf
    obtain ⟨fuel, rfl⟩ : ∃ m, fuel = m + 1 := ⟨fuel - 1, by omega⟩
    rw [tokLoop_step hc hs ht hne h1, if_neg h2, List.length_drop]
  | @trail t n v hne h1 h2 =>
    intro ms fuel ht hf
    have h3 := hc.le t ht n v h1
    have h4 := congrArg List.length h2
    rw [List.length_drop] at h4
    obtain ⟨fuel, rfl⟩ : ∃ m, fuel = m + 2 := ⟨fuel - 2, by omega⟩
    rw [tokLoop_step hc hs ht hne h1, h2, if_pos (List.prefix_refl _), List.drop_length, tokLoop_nil]
    congr 2
    omega
  | @noelt t r n v hne h1 h2 h3 h4 =>
    intro ms fuel ht hf
    have h5 := hc.le t ht n v h1
    have h6 := congrArg List.length h2
    rw [List.length_drop, List.length_append] at h6
    have hr : r <:+ t := ((List.suffix_append sep r).trans (h2 ▸ List.drop_suffix n t))
    obtain ⟨fuel, rfl⟩ : ∃ m, fuel = m + 2 := ⟨fuel - 2, by omega⟩
    rw [tokLoop_step hc hs ht hne h1, h2, if_pos (List.prefix_append _ _), List.drop_left, tokLoop_no hc (hr.trans ht) h3 h4, if_neg (by simp)]
    congr 2
    omega
  | @more t r n m v l hne h1 h2 _ ih =>
    intro ms fuel ht hf
    have h5 := hc.le t ht n v h1
    have h6 := congrArg List.length h2
    rw [List.length_drop, List.length_append] at h6
    have hr : r <:+ t := ((List.suffix_append sep r).trans (h2 ▸ List.drop_suffix n t))
    obtain ⟨fuel, rfl⟩ : ∃ m, fuel = m + 1 := ⟨fuel - 1, by omega⟩
    rw [tokLoop_step hc hs ht hne h1, h2, if_pos (List.prefix_append _ _), List.drop_left, ih _ _ (hr.trans ht) (by omega)]
    simp only [List.append_assoc, List.singleton_append]
    congr 2
    omega

theorem toks_total {E : V1Env} {norm : V1Norm} {inner : V1Ty} {s : Bytes} (hc : CtxOK E norm inner s) {sep : Bytes} (hs : sep ≠ []) :
    ∀ (k : Nat) (t : Bytes), t.length ≤ k → t <:+ s → t ≠ [] → (∃ n v, accepts E inner t n v) → ∃ l n, Toks (accepts E inner) sep t l n := by
  have hsl : 0 < sep.length := List.length_pos_iff.2 hs
  intro k
  induction k with
  | zero =>
    intro t h _ hne _
    exact absurd (List.length_eq_zero_iff.1 (by omega)) hne
  | succ k ih =>
    rintro t h ht hne ⟨n, v, hv⟩
    by_cases hp : sep <+: t.drop n
    · obtain ⟨r, hr⟩ := hp
      have h6 := congrArg List.length hr
      rw [List.length_drop, List.length_append] at h6
      by_cases h0 : r = []
      · subst h0
        exact ⟨_, _, .trail hne hv (by rw [← hr, List.append_nil])⟩
      · by_cases hex : ∃ n v, accepts E inner r n v
        · have hrs : r <:+ t := ((List.suffix_append sep r).trans (hr ▸ List.drop_suffix n t))
          obtain ⟨l, m, hl⟩ := ih r (by omega) (hrs.trans ht) h0 hex
          exact ⟨_, _, .more hne hv hr.symm hl⟩
        · exact ⟨_, _, .noelt hne hv hr.symm h0 fun m w hw => hex ⟨m, w, hw⟩⟩
    · exact ⟨_, _, .last hne hv hp⟩

theorem does_tokenized {E : V1Env} {inner : V1Ty} {raw sep : Bytes} (h : (tokenized raw sep inner).OK E) {norm : V1Norm} {s : Bytes}
    (hc : CtxOK E norm inner s) (hl : s.length < 2 ^ 64) {t : Bytes} (ht : t <:+ s) {offs : Nat} (ho : offs ≤ t.length) {fuel : Nat} (hf : s.length < fuel)
    (f : V1Field) :
    Does (v1Tokenized norm fuel (tokenized raw sep inner).pdata t offs) f t offs (accepts E (tokenized raw sep inner) (t.drop offs)) := by
  have hs : sep ≠ [] := h.2.2.2.2.1
  have htd : t.drop offs <:+ s := (List.drop_suffix _ _).trans ht
  have hle : (t.drop offs).length ≤ s.length := htd.length_le
  have hlen : t.length - offs = (t.drop offs).length := by rw [List.length_drop]
  obtain ⟨g, rfl⟩ : ∃ m, fuel = m + 1 := ⟨fuel - 1, by omega⟩
  constructor
  · rintro n v (⟨h1, rfl, rfl⟩ | ⟨l, h1, rfl⟩)
    · refine ⟨some (.arr []), ?_, rfl⟩
      rw [pdata, v1Tokenized, h1, tokLoop_nil, R.ok_bind']
      dsimp only
      rw [hlen, h1]
      rfl
    · refine ⟨some (.arr l), ?_, rfl⟩
      rw [pdata, v1Tokenized, tokLoop_toks hc hs h1 [] _ htd (by omega), R.ok_bind']
      have hn := toks_le (fun t' n v ht' => hc.le t' (ht'.trans htd) n v) h1
      dsimp only
      rw [hlen, sizeSub_tail (by omega) (by omega), List.nil_append]
      congr 2
      omega
  · intro hno
    by_cases he : t.drop offs = []
    · exact absurd (.inl ⟨he, rfl, rfl⟩) (hno 0 (.arr []))
    · by_cases hex : ∃ n v, accepts E inner (t.drop offs) n v
      · obtain ⟨l, n, hl⟩ := toks_total hc hs _ _ (Nat.le_refl _) htd he hex
        exact absurd (.inr ⟨l, hl, rfl⟩) (hno n (.arr l))
      · rw [pdata, v1Tokenized, tokLoop_no hc htd he fun m w hw => hex ⟨m, w, hw⟩, if_pos rfl]
        rfl

theorem does (E : V1Env) (root : V1Load) (hu : E.env.unescape [] = []) (he : E.env.TokOK) {s : Bytes} (hz : (0 : UInt8) ∉ s) (hl : s.length < 2 ^ 64) :
    ∀ (x : V1Ty), x.OK E → V1Digits x.leaf s → x.Followed E s → ∀ {t : Bytes}, t <:+ s → ∀ {offs : Nat}, offs ≤ t.length →
      ∀ {fuel : Nat}, x.depth + s.length + 4 ≤ fuel → ∀ (f : V1Field), f.raw = x.extra → f.pdata = x.pdata →
      Does (v1Parser E (normOf E root fuel) fuel x.fn f t offs) f t offs (accepts E x (t.drop offs)) := by
  intro x
  induction x with
  | simple ty e k =>
    intro h hd _ t ht offs ho fuel _ f hf _
    exact does_simple E _ _ h (noNul_suffix hz ht) (digits_suffix hd ht) ho f hf
  | interpret nm i inner ih =>
    intro h hd hfol t ht offs ho fuel hfu f _ hp
    obtain ⟨g, rfl⟩ : ∃ m, fuel = m + 4 := ⟨fuel - 4, by omega⟩
    have htd : t.drop offs <:+ s := (List.drop_suffix _ _).trans ht
    have hlt : (t.drop offs).length ≤ s.length := htd.length_le
    show Does (v1InterpretP E _ f.pdata t offs) _ _ _ _
    rw [hp]
    rw [depth] at hfu
    refine does_interpret E h _ (noNul_suffix hz ht) (Nat.lt_of_le_of_lt ht.length_le hl) ho (fun _ => ctx_nil E root hu h.1 g) (fun hne => ?_)
      (fun n v hv => accepts_le E he h.1 (noNul_suffix hz htd) (digits_suffix hd htd) hv) f
    refine ctx_does E root hu he h.1 hne (noNul_suffix hz htd) (digits_suffix hd htd) (by omega) g fun f' h1 h2 => ?_
    exact ih h.1 hd hfol htd (Nat.zero_le _) (by omega) f' h1 h2
  | suffixed names d s' l inner ih =>
    intro h hd hfol t ht offs ho fuel hfu f _ hp
    obtain ⟨g, rfl⟩ : ∃ m, fuel = m + 4 := ⟨fuel - 4, by omega⟩
    have htd : t.drop offs <:+ s := (List.drop_suffix _ _).trans ht
    have hlt : (t.drop offs).length ≤ s.length := htd.length_le
    show Does (v1Suffixed _ f.pdata t offs) _ _ _ _
    rw [hp]
    rw [depth] at hfu
    refine does_suffixed E h _ (noNul_suffix hz ht) (Nat.lt_of_le_of_lt ht.length_le hl) ho (fun _ => ctx_nil E root hu h.1 g) (fun hne => ?_)
      (fun hne n v hv => hfol.2 _ htd hne n v hv) f
    refine ctx_does E root hu he h.1 hne (noNul_suffix hz htd) (digits_suffix hd htd) (by omega) g fun f' h1 h2 => ?_
    exact ih h.1 hd hfol.1 htd (Nat.zero_le _) (by omega) f' h1 h2
  | tokenized raw sep inner ih =>
    intro h hd hfol t ht offs ho fuel hfu f _ hp
    obtain ⟨g, rfl⟩ : ∃ m, fuel = m + 4 := ⟨fuel - 4, by omega⟩
    show Does (v1Tokenized _ _ f.pdata t offs) _ _ _ _
    rw [hp]
    rw [depth] at hfu
    have hc : ∀ t', t' <:+ s → t' ≠ [] → _ := fun t' ht' hne =>
      ctx_does E root hu he h.1 hne (noNul_suffix hz ht') (digits_suffix hd ht') (Nat.lt_of_le_of_lt ht'.length_le hl) g fun f' h1 h2 =>
        ih h.1 hd hfol ht' (Nat.zero_le _) (by omega) f' h1 h2
    exact does_tokenized h ⟨fun t' ht' hne => (hc t' ht' hne).1, fun t' ht' hne => (hc t' ht' hne).2,
      fun t' ht' n v hv => accepts_le E he h.1 (noNul_suffix hz ht') (digits_suffix hd ht') hv⟩ hl ht ho (by omega) f

end V1Ty
end LN
