import Verif.Spec.V1
import Verif.Proofs.RLemmas
/- The version 1 tree is a map from samples to tags. -/
set_option autoImplicit false
namespace LN

/-! ### reading the tree -/

/-- reading the tree from behind the prefix -/
def post (t : PTree) (ts : List VTok) : Option (Option (List Bytes)) := lookAt ts [] t

theorem lookAt_chars (a : Bytes) (p : Bytes) (t : PTree) (ts : List VTok) : lookAt (chars a ++ ts) (a ++ p) t = lookAt ts p t := by
  induction a with
  | nil => rfl
  | cons c a ih =>
    show lookAt (.ch c :: (chars a ++ ts)) (c :: (a ++ p)) t = _
    simp only [lookAt, if_true]
    exact ih

/-- only what follows the prefix matters -/
theorem lookAt_congr {t t' : PTree} (h : ∀ ts, post t ts = post t' ts) : ∀ (ts : List VTok) (p : Bytes), lookAt ts p t = lookAt ts p t'
  | ts, [] => h ts
  | [], _ :: _ => rfl
  | .fld _ :: _, _ :: _ => rfl
  | .ch c :: ts, d :: p => by
    simp only [lookAt]
    rw [lookAt_congr h ts p]

theorem post_withPfx (t : PTree) (p : Bytes) (ts : List VTok) : post (t.withPfx p) ts = post t ts := by
  cases t with
  | node q b tg fs ss =>
    cases ts with
    | nil => rfl
    | cons x ts => cases x <;> rfl

@[simp] theorem withPfx_pfx (t : PTree) (p : Bytes) : (t.withPfx p).pfx = p := rfl
@[simp] theorem withSub_pfx (t : PTree) (c : UInt8) (t' : PTree) : (t.withSub c t').pfx = t.pfx := rfl
@[simp] theorem node_pfx (p : Bytes) (b : Bool) (tg : Option (List Bytes)) (fs : List (V1Field × PTree)) (ss : List (UInt8 × PTree)) :
    (PTree.node p b tg fs ss).pfx = p := rfl

theorem subGet_set (l : List (UInt8 × PTree)) (c d : UInt8) (t : PTree) :
    subGet (subSet l c t) d = if c = d then some t else subGet l d := by
  induction l with
  | nil => simp [subSet, subGet]
  | cons x l ih =>
    obtain ⟨e, t'⟩ := x
    simp only [subSet]
    by_cases hec : e = c
    · simp only [hec, if_true, subGet]
      by_cases hcd : c = d
      · simp [hcd]
      · simp [hcd]
    · simp only [hec, if_false, subGet]
      by_cases hed : e = d
      · have : c ≠ d := fun h => hec (by rw [hed, h])
        simp [hed, this]
      · simp only [hed, if_false]; exact ih

theorem post_withSub (t : PTree) (c : UInt8) (t' : PTree) (ts : List VTok) :
    post (t.withSub c t') ts = match ts with
      | .ch d :: ts' => if c = d then look t' ts' else post t ts
      | _ => post t ts := by
  cases t with
  | node q b tg fs ss =>
    cases ts with
    | nil => rfl
    | cons x ts =>
      cases x with
      | fld f => rfl
      | ch d =>
        show (match subGet (subSet ss c t') d with | none => none | some t' => lookAt ts t'.pfx t') = _
        rw [subGet_set]
        by_cases hcd : c = d
        · simp only [hcd, if_true]; rfl
        · simp only [hcd, if_false]; rfl

/-! ### shape of trees -/

/-- a node behind a `rest` field -/
def PTree.RestLeaf (t : PTree) : Prop := t.pfx = [] ∧ t.terminal = true ∧ t.fields = [] ∧ t.subs = []

/-- something ends here, or goes on -/
def PTree.live (t : PTree) : Bool := !t.fields.isEmpty || !t.subs.isEmpty || t.terminal

theorem notLeaf_of_live {t : PTree} (h : t.live = true) : t.isTrueLeaf = false := by
  unfold PTree.live at h
  unfold PTree.isTrueLeaf
  cases h1 : t.fields.isEmpty <;> cases h2 : t.subs.isEmpty <;> cases h3 : t.terminal <;> simp_all

/-- shape of trees made from well formed samples -/
inductive PTree.Good (pd : V1Pd) : PTree → Prop
  | mk {p : Bytes} {b : Bool} {tg : Option (List Bytes)} {fs : List (V1Field × PTree)} {ss : List (UInt8 × PTree)} :
      (∀ f t, (f, t) ∈ fs → PTree.Good pd t) →
      (∀ f t, (f, t) ∈ fs → pd.OK f ∧ f.prs ≠ .iptables ∧ (f.prs = .rest → t.RestLeaf) ∧ t.live = true) →
      (fs.map Prod.fst).Nodup → (∀ c t, (c, t) ∈ ss → PTree.Good pd t) → (∀ c t, (c, t) ∈ ss → t.live = true) →
      PTree.Good pd (.node p b tg fs ss)

theorem good_empty (pd : V1Pd) : PTree.Good pd .empty :=
  .mk (fun _ _ h => by cases h) (fun _ _ h => by cases h) List.nodup_nil (fun _ _ h => by cases h) (fun _ _ h => by cases h)

theorem PTree.Good.withPfx {pd : V1Pd} {t : PTree} (h : t.Good pd) (p : Bytes) : (t.withPfx p).Good pd := by
  cases h with
  | mk a b c d e => exact .mk a b c d e

theorem mem_of_subGet {l : List (UInt8 × PTree)} {c : UInt8} {t : PTree} (h : subGet l c = some t) : (c, t) ∈ l := by
  induction l with
  | nil => cases h
  | cons x l ih =>
    obtain ⟨d, t'⟩ := x
    simp only [subGet] at h
    split at h
    · rename_i hd; cases h; rw [hd]; exact List.mem_cons_self
    · exact List.mem_cons_of_mem _ (ih h)

theorem mem_of_fldGet {l : List (V1Field × PTree)} {f : V1Field} {t : PTree} (h : fldGet l f = some t) : (f, t) ∈ l := by
  induction l with
  | nil => cases h
  | cons x l ih =>
    obtain ⟨d, t'⟩ := x
    simp only [fldGet] at h
    split at h
    · rename_i hd; cases h; rw [hd]; exact List.mem_cons_self
    · exact List.mem_cons_of_mem _ (ih h)

theorem fldGet_of_mem {l : List (V1Field × PTree)} {f : V1Field} {t : PTree} (hn : (l.map Prod.fst).Nodup) (h : (f, t) ∈ l) :
    fldGet l f = some t := by
  induction l with
  | nil => cases h
  | cons x l ih =>
    obtain ⟨d, t'⟩ := x
    simp only [List.map_cons, List.nodup_cons] at hn
    simp only [fldGet]
    rcases List.mem_cons.1 h with h | h
    · cases h; simp
    · have : d ≠ f := fun e => hn.1 (by rw [e]; exact List.mem_map_of_mem (f := Prod.fst) h)
      rw [if_neg this]; exact ih hn.2 h

theorem mem_subSet {l : List (UInt8 × PTree)} {c : UInt8} {t : PTree} {x : UInt8 × PTree} (h : x ∈ subSet l c t) : x = (c, t) ∨ x ∈ l := by
  induction l with
  | nil => simp only [subSet, List.mem_singleton] at h; exact .inl h
  | cons y l ih =>
    obtain ⟨d, t'⟩ := y
    simp only [subSet] at h
    split at h
    · rename_i hd
      rcases List.mem_cons.1 h with h | h
      · left; rw [h, hd]
      · right; exact List.mem_cons_of_mem _ h
    · rcases List.mem_cons.1 h with h | h
      · right; rw [h]; exact List.mem_cons_self
      · rcases ih h with h | h
        · exact .inl h
        · right; exact List.mem_cons_of_mem _ h

theorem subSet_ne_nil (l : List (UInt8 × PTree)) (c : UInt8) (t : PTree) : subSet l c t ≠ [] := by
  cases l with
  | nil => simp [subSet]
  | cons x l => simp only [subSet]; split <;> simp

theorem PTree.Good.withSub {pd : V1Pd} {t t' : PTree} (h : t.Good pd) (c : UInt8) (h' : t'.Good pd)
    (hl : t'.live = true) : (t.withSub c t').Good pd := by
  cases h with
  | mk a b n d e =>
    refine .mk a b n (fun x u hx => ?_) (fun x u hx => ?_)
    · rcases mem_subSet hx with hx | hx
      · cases hx; exact h'
      · exact d x u hx
    · rcases mem_subSet hx with hx | hx
      · cases hx; exact hl
      · exact e x u hx

theorem withSub_live (t : PTree) (c : UInt8) (t' : PTree) : (t.withSub c t').live = true := by
  cases t with
  | node p b tg fs ss =>
    have := subSet_ne_nil ss c t'
    simp [PTree.live, PTree.withSub, PTree.subs, List.isEmpty_iff, this]

theorem withPfx_live (t : PTree) (p : Bytes) : (t.withPfx p).live = t.live := rfl

/-! ### building -/

theorem commonLen_le_left (s p : Bytes) : commonLen s p ≤ s.length := by
  fun_induction commonLen s p with
  | case1 s b p ih => simp only [List.length_cons]; omega
  | case2 => simp
  | case3 => simp

theorem commonLen_le_right (s p : Bytes) : commonLen s p ≤ p.length := by
  fun_induction commonLen s p with
  | case1 s b p ih => simp only [List.length_cons]; omega
  | case2 => simp
  | case3 => simp

theorem commonLen_take (s p : Bytes) : s.take (commonLen s p) = p.take (commonLen s p) := by
  fun_induction commonLen s p with
  | case1 s b p ih => simp only [List.take_succ_cons, ih]
  | case2 => simp
  | case3 => simp

theorem commonLen_ne (s p : Bytes) {a b : UInt8} (ha : s[commonLen s p]? = some a) (hb : p[commonLen s p]? = some b) : a ≠ b := by
  fun_induction commonLen s p with
  | case1 s b' p ih =>
    simp only [List.getElem?_cons_succ] at ha hb
    exact ih ha hb
  | case2 a' s b' p h =>
    simp only [List.getElem?_cons_zero, Option.some.injEq] at ha hb
    rw [← ha, ← hb]; exact h
  | case3 s p h =>
    cases s with
    | nil => simp at ha
    | cons x s =>
      cases p with
      | nil => simp at hb
      | cons y p => exact (h x s y p rfl rfl).elim

/-- splitting does not change what the tree stands for -/
theorem look_split (t : PTree) (m : Nat) (hm : m < t.pfx.length) (ts : List VTok) : look (splitTree t m) ts = look t ts := by
  unfold splitTree
  have hg : t.pfx[m]? = some t.pfx[m] := List.getElem?_eq_getElem hm
  rw [hg]
  dsimp only
  have hp : t.pfx = t.pfx.take m ++ t.pfx[m] :: t.pfx.drop (m + 1) := by
    rw [← List.drop_eq_getElem_cons hm, List.take_append_drop]
  generalize hq : t.pfx.take m = q
  generalize hc : t.pfx[m] = c
  generalize hd : t.pfx.drop (m + 1) = d
  rw [hq, hc, hd] at hp
  unfold look
  simp only [node_pfx]
  have key : ∀ (q : Bytes) (ts : List VTok), lookAt ts q (.node q false none [] [(c, t.withPfx d)]) = lookAt ts (q ++ c :: d) t := by
    intro q0
    have : ∀ (q : Bytes) (ts : List VTok), lookAt ts q (.node q0 false none [] [(c, t.withPfx d)]) = lookAt ts (q ++ c :: d) t := by
      intro q
      induction q with
      | nil =>
        intro ts
        cases ts with
        | nil => simp [lookAt, PTree.terminal]
        | cons x ts =>
          cases x with
          | fld f => simp [lookAt, PTree.fields, fldGet]
          | ch e =>
            simp only [lookAt, PTree.subs, subGet, List.nil_append]
            by_cases hce : c = e
            · simp only [hce, if_true, withPfx_pfx]
              exact lookAt_congr (fun ts => post_withPfx t d ts) ts d
            · have : ¬ e = c := fun h => hce h.symm
              simp only [hce, this, if_false]
      | cons x q ih =>
        intro ts
        cases ts with
        | nil => rfl
        | cons y ts =>
          cases y with
          | fld f => rfl
          | ch e =>
            simp only [lookAt, List.cons_append]
            rw [ih ts]
    exact this q0
  rw [key q ts, ← hp]

theorem split_pfx (t : PTree) (m : Nat) (hm : m < t.pfx.length) : (splitTree t m).pfx = t.pfx.take m := by
  unfold splitTree
  rw [List.getElem?_eq_getElem hm]
  rfl

theorem split_live (t : PTree) (m : Nat) (hm : m < t.pfx.length) : (splitTree t m).live = true := by
  unfold splitTree
  rw [List.getElem?_eq_getElem hm]
  simp [PTree.live, PTree.subs]

theorem split_subs (t : PTree) (m : Nat) (hm : m < t.pfx.length) (c : UInt8) (h : t.pfx[m] ≠ c) : subGet (splitTree t m).subs c = none := by
  unfold splitTree
  rw [List.getElem?_eq_getElem hm]
  simp [PTree.subs, subGet, h]

theorem split_good {pd : V1Pd} {t : PTree} (h : t.Good pd) (m : Nat) (hm : m < t.pfx.length)
    (hl : t.live = true) : (splitTree t m).Good pd := by
  unfold splitTree
  rw [List.getElem?_eq_getElem hm]
  refine .mk (fun _ _ h => by cases h) (fun _ _ h => by cases h) List.nodup_nil (fun c u hu => ?_) (fun c u hu => ?_)
  · simp only [List.mem_singleton, Prod.mk.injEq] at hu
    rw [hu.2]; exact h.withPfx _
  · simp only [List.mem_singleton, Prod.mk.injEq] at hu
    rw [hu.2]; exact hl

/-- nothing but the prefix can follow -/
theorem lookAt_notPfx (t : PTree) : ∀ (ts : List VTok) (p : Bytes), (∀ ts', ts ≠ chars p ++ ts') → lookAt ts p t = none
  | ts, [], h => (h ts rfl).elim
  | [], _ :: _, _ => rfl
  | .fld _ :: _, _ :: _, _ => rfl
  | .ch c :: ts, d :: p, h => by
    simp only [lookAt]
    split
    · rename_i hcd
      refine lookAt_notPfx t ts p fun ts' e => h ts' ?_
      rw [e, hcd]; rfl
    · rfl

theorem look_pfx (t : PTree) (ts : List VTok) : look t (chars t.pfx ++ ts) = post t ts := by
  have := lookAt_chars t.pfx [] t ts
  rw [List.append_nil] at this
  exact this

theorem look_leaf {t : PTree} (h : t.live = false) (ts : List VTok) : look t ts = none := by
  have h0 : ∀ ts, post t ts = none := by
    intro ts
    cases t with
    | node p b tg fs ss =>
      simp only [PTree.live, PTree.fields, PTree.subs, PTree.terminal, Bool.or_eq_false_iff, Bool.not_eq_false',
        List.isEmpty_iff] at h
      obtain ⟨⟨rfl, rfl⟩, rfl⟩ := h
      cases ts with
      | nil => rfl
      | cons x ts => cases x <;> rfl
  by_cases hp : ∃ ts', ts = chars t.pfx ++ ts'
  · obtain ⟨ts', rfl⟩ := hp
    rw [look_pfx]; exact h0 _
  · exact lookAt_notPfx t ts _ fun ts' e => hp ⟨ts', e⟩

/-- what building has to achieve: below the literal `s` the tree is changed by `k`, elsewhere nothing is changed -/
structure Built (pd : V1Pd) (t : PTree) (s : Bytes) (k : PTree → PTree) (out r : PTree) : Prop where
  goodr : r.Good pd
  good : out.Good pd
  live : out.live = true
  node : ∀ ts, post r ts = look t (chars s ++ ts)
  below : ∀ ts, look out (chars s ++ ts) = post (k r) ts
  other : ∀ ts, (∀ ts', ts ≠ chars s ++ ts') → look out ts = look t ts

theorem built_here {pd : V1Pd} {t r : PTree} {s : Bytes} {k : PTree → PTree} (hg : r.Good pd)
    (hk : (k r).Good pd ∧ (k r).live = true ∧ (k r).pfx = r.pfx) (hp : r.pfx = s) (hl : ∀ ts, look r ts = look t ts) :
    Built pd t s k (k r) r where
  goodr := hg
  good := hk.1
  live := hk.2.1
  node ts := by rw [← hl, ← hp, look_pfx]
  below ts := by rw [← hp, ← hk.2.2, look_pfx]
  other ts h := by
    rw [← hl]
    rw [← hp] at h
    have h1 := lookAt_notPfx r ts r.pfx h
    have h2 := lookAt_notPfx (k r) ts r.pfx h
    rw [← hk.2.2] at h2
    exact h2.trans h1.symm

theorem built_sub {pd : V1Pd} {t u o r : PTree} {s s' : Bytes} {c : UInt8} {k : PTree → PTree} (hg : u.Good pd)
    (hl : ∀ ts, look u ts = look t ts) (hs : s = u.pfx ++ c :: s') (hr : r.Good pd) (ho : o.Good pd) (hol : o.live = true)
    (hn : ∀ ts, post r ts = post u (.ch c :: (chars s' ++ ts))) (hb : ∀ ts, look o (chars s' ++ ts) = post (k r) ts)
    (hx : ∀ ts, (∀ ts', ts ≠ chars s' ++ ts') → look o ts = post u (.ch c :: ts)) : Built pd t s k (u.withSub c o) r := by
  have hc : ∀ ts, chars s ++ ts = chars u.pfx ++ (.ch c :: (chars s' ++ ts)) := by
    intro ts; rw [hs]; simp [chars]
  refine ⟨hr, hg.withSub c ho hol, withSub_live _ _ _, fun ts => ?_, fun ts => ?_, fun ts h => ?_⟩
  · rw [← hl, hc, look_pfx]; exact hn ts
  · rw [hc]
    have := look_pfx (u.withSub c o) (.ch c :: (chars s' ++ ts))
    rw [withSub_pfx] at this
    rw [this, post_withSub]
    simp only [if_true]; exact hb ts
  · rw [← hl]
    by_cases hp : ∃ ts', ts = chars u.pfx ++ ts'
    · obtain ⟨ts', rfl⟩ := hp
      have := look_pfx (u.withSub c o) ts'
      rw [withSub_pfx] at this
      rw [this, look_pfx, post_withSub]
      cases ts' with
      | nil => rfl
      | cons x ts' =>
        cases x with
        | fld f => rfl
        | ch d =>
          dsimp only
          split
          · rename_i hcd
            subst hcd
            exact hx ts' fun ts'' e => h ts'' (by rw [hc, e])
          · rfl
    · have h1 := lookAt_notPfx u ts u.pfx fun ts' e => hp ⟨ts', e⟩
      have h2 := lookAt_notPfx (u.withSub c o) ts u.pfx fun ts' e => hp ⟨ts', e⟩
      exact h2.trans h1.symm

theorem storePfx_all {s : Bytes} (h : s.length < 65536) : storePfx s 0 = s := by
  unfold storePfx
  rw [Nat.sub_zero, Nat.mod_eq_of_lt h, List.take_length]

theorem good_bare (pd : V1Pd) (p : Bytes) : PTree.Good pd (.node p false none [] []) :=
  (good_empty pd).withPfx p

/-- a new node below `u` -/
theorem built_new {pd : V1Pd} {t u : PTree} {str : Bytes} {i : Nat} {s : Bytes} {c : UInt8} {k : PTree → PTree}
    (hk : ∀ t : PTree, t.Good pd → (k t).Good pd ∧ (k t).live = true ∧ (k t).pfx = t.pfx) (hg : u.Good pd) (hu : u.live = true)
    (hl : ∀ ts, look u ts = look t ts) (hlen : str.length < 65536) (hc : str[i]? = some c)
    (hs : s = u.pfx ++ c :: str.drop (i + 1)) (hn : subGet u.subs c = none) : ∃ r, Built pd t s k (addPTree u str i k) r := by
  have hsp : storePfx (str.drop (i + 1)) 0 = str.drop (i + 1) := storePfx_all (by rw [List.length_drop]; omega)
  have hpn : ∀ ts, post u (.ch c :: ts) = none := by
    intro ts
    show (match subGet u.subs c with | none => none | some t' => lookAt ts t'.pfx t') = none
    rw [hn]
  unfold addPTree
  rw [notLeaf_of_live hu, hc, hsp]
  dsimp only [Bool.false_eq_true, if_false]
  obtain ⟨hk1, hk2, hk3⟩ := hk _ (good_bare pd (str.drop (i + 1)))
  refine ⟨_, built_sub hg hl hs (good_bare pd (str.drop (i + 1))) hk1 hk2 (fun ts => ?_) (fun ts => ?_) (fun ts h => ?_)⟩
  · rw [hpn]
    cases ts with
    | nil => rfl
    | cons x ts => cases x <;> rfl
  · have := look_pfx (k (.node (str.drop (i + 1)) false none [] [])) ts
    rw [hk3] at this
    exact this
  · rw [hpn]
    refine lookAt_notPfx _ ts _ ?_
    rw [hk3]; exact h

theorem build_spec {pd : V1Pd} {str : Bytes} {k : PTree → PTree}
    (hk : ∀ t : PTree, t.Good pd → (k t).Good pd ∧ (k t).live = true ∧ (k t).pfx = t.pfx) (hlen : str.length < 65536) :
    ∀ (n : Nat) (t : PTree) (offs : Nat), t.Good pd → (t.live = true ∨ t.pfx = [] ∧ offs = 0) → offs ≤ str.length →
      str.length - offs < n → ∃ r, Built pd t (str.drop offs) k (buildPTreeN str k n t offs) r := by
  intro n
  induction n with
  | zero => intro t offs _ _ _ h; omega
  | succ n ih =>
    intro t offs hg hl ho hn
    have hm1 := commonLen_le_left (str.drop offs) t.pfx
    have hm2 := commonLen_le_right (str.drop offs) t.pfx
    have hm3 := commonLen_take (str.drop offs) t.pfx
    have hm4 := @commonLen_ne (str.drop offs) t.pfx
    unfold buildPTreeN
    dsimp only
    generalize commonLen (str.drop offs) t.pfx = m at *
    rw [List.length_drop] at hm1
    by_cases hi : offs + m = str.length
    · rw [if_pos hi]
      have hs : str.drop offs = t.pfx.take m := by
        rw [← hm3, List.take_of_length_le]; rw [List.length_drop]; omega
      by_cases hmp : m = t.pfx.length
      · rw [if_pos hmp]
        refine ⟨t, built_here hg (hk t hg) ?_ (fun _ => rfl)⟩
        rw [hs, hmp, List.take_length]
      · rw [if_neg hmp]
        have hlt : m < t.pfx.length := by omega
        have hlive : t.live = true := by
          rcases hl with h | h
          · exact h
          · rw [h.1] at hlt; simp at hlt
        have hsg := split_good hg m hlt hlive
        refine ⟨splitTree t m, built_here hsg (hk _ hsg) ?_ (look_split t m hlt)⟩
        rw [split_pfx t m hlt, hs]
    · rw [if_neg hi]
      have hilt : offs + m < str.length := by omega
      have hc : str[offs + m]? = some str[offs + m] := List.getElem?_eq_getElem hilt
      have hsd : str.drop offs = t.pfx.take m ++ str[offs + m] :: str.drop (offs + m + 1) := by
        rw [← hm3]
        have h := List.take_append_drop m (str.drop offs)
        rw [List.drop_drop, List.drop_eq_getElem_cons hilt] at h
        exact h.symm
      generalize str[offs + m] = c at hc hsd
      by_cases hmp : m < t.pfx.length
      · rw [if_pos hmp]
        have hlive : t.live = true := by
          rcases hl with h | h
          · exact h
          · rw [h.1] at hmp; simp at hmp
        have hne : t.pfx[m] ≠ c := by
          have := hm4 (a := c) (b := t.pfx[m]) (by rw [List.getElem?_drop]; exact hc) (List.getElem?_eq_getElem hmp)
          exact this.symm
        exact built_new hk (split_good hg m hmp hlive) (split_live t m hmp) (look_split t m hmp) hlen hc
          (by rw [split_pfx t m hmp]; exact hsd) (split_subs t m hmp c hne)
      · rw [if_neg hmp, hc]
        have hpm : t.pfx.take m = t.pfx := List.take_of_length_le (by omega)
        rw [hpm] at hsd
        dsimp only
        cases hsub : subGet t.subs c with
        | none =>
          dsimp only
          by_cases hlive : t.live = true
          · exact built_new hk hg hlive (fun _ => rfl) hlen hc hsd hsub
          · have hlf : t.live = false := by simpa using hlive
            have hpo : t.pfx = [] ∧ offs = 0 := hl.resolve_left hlive
            have hm0 : m = 0 := by have := hpo.1; rw [this] at hm2; simpa using hm2
            obtain ⟨hp0, rfl⟩ := hpo
            subst hm0
            have htl : t.isTrueLeaf = true := by
              unfold PTree.live at hlf
              unfold PTree.isTrueLeaf
              cases h1 : t.fields.isEmpty <;> cases h2 : t.subs.isEmpty <;> cases h3 : t.terminal <;> simp_all
            unfold addPTree
            rw [htl, if_pos rfl]
            have hsp : storePfx str (0 + 0) = str := storePfx_all hlen
            rw [hsp]
            have hg' := hg.withPfx str
            refine ⟨t.withPfx str, built_here hg' (hk _ hg') rfl (fun ts => ?_)⟩
            rw [look_leaf hlf]
            exact look_leaf (t := t.withPfx str) (by rw [withPfx_live]; exact hlf) ts
        | some t' =>
          dsimp only
          have hmem := mem_of_subGet hsub
          have hg' : t'.Good pd ∧ t'.live = true := by
            cases hg with
            | mk a b c' d e => exact ⟨d _ _ hmem, e _ _ hmem⟩
          obtain ⟨r, hr⟩ := ih t' (offs + m + 1) hg'.1 (.inl hg'.2) (by omega) (by omega)
          have hpt : ∀ ts, post t (.ch c :: ts) = look t' ts := by
            intro ts
            show (match subGet t.subs c with | none => none | some t' => lookAt ts t'.pfx t') = _
            rw [hsub]; rfl
          exact ⟨r, built_sub hg (fun _ => rfl) hsd hr.goodr hr.good hr.live (fun ts => by rw [hpt]; exact hr.node ts) hr.below
            (fun ts h => by rw [hpt]; exact hr.other ts h)⟩


theorem buildPTree_spec {pd : V1Pd} {str : Bytes} {k : PTree → PTree}
    (hk : ∀ t : PTree, t.Good pd → (k t).Good pd ∧ (k t).live = true ∧ (k t).pfx = t.pfx) (hlen : str.length < 65536)
    {t : PTree} (hg : t.Good pd) (hl : t.live = true ∨ t.pfx = []) : ∃ r, Built pd t str k (buildPTree t str k) r := by
  have := build_spec hk hlen (str.length + 1) t 0 hg (hl.imp_right fun h => ⟨h, rfl⟩) (Nat.zero_le _) (by omega)
  rwa [List.drop_zero] at this

/-! ### fields -/

theorem same_iff {pd : V1Pd} {a b : V1Field} (ha : pd.OK a) (hb : pd.OK b) :
    a.same b = true ↔ a = b := by
  cases a; cases b
  simp only [V1Field.same, Bool.and_eq_true, beq_iff_eq, V1Field.mk.injEq] at *
  constructor
  · rintro ⟨⟨rfl, rfl⟩, rfl⟩; exact ⟨rfl, rfl, rfl, ha.1.trans hb.1.symm⟩
  · rintro ⟨rfl, rfl, rfl, _⟩; exact ⟨⟨rfl, rfl⟩, rfl⟩

/-- subtree behind a field; an empty one is put there if there is none -/
def subOf (l : List (V1Field × PTree)) (f : V1Field) : PTree := (fldGet l f).getD .empty

section fields
variable {pd : V1Pd} {f : V1Field} (hf : pd.OK f) (k : PTree → PTree)
include hf

theorem addFieldTo_mem {l : List (V1Field × PTree)} (hl : ∀ g t, (g, t) ∈ l → pd.OK g) {g : V1Field} {t : PTree}
    (h : (g, t) ∈ addFieldTo l f k) : (g = f ∧ t = k (subOf l f)) ∨ (g, t) ∈ l := by
  induction l with
  | nil =>
    simp only [addFieldTo, List.mem_singleton, Prod.mk.injEq] at h
    exact .inl h
  | cons x l ih =>
    obtain ⟨g', t'⟩ := x
    have hs := same_iff (hl g' t' List.mem_cons_self) hf
    simp only [addFieldTo] at h
    by_cases e : g' = f
    · rw [if_pos (hs.2 e)] at h
      rcases List.mem_cons.1 h with h | h
      · cases h; exact .inl ⟨e, by simp [subOf, fldGet, e]⟩
      · exact .inr (List.mem_cons_of_mem _ h)
    · rw [if_neg (fun h => e (hs.1 h))] at h
      rcases List.mem_cons.1 h with h | h
      · cases h; exact .inr List.mem_cons_self
      · have hsub : subOf ((g', t') :: l) f = subOf l f := by simp [subOf, fldGet, e]
        rw [hsub]
        exact (ih (fun g t h => hl g t (List.mem_cons_of_mem _ h)) h).imp_right (List.mem_cons_of_mem _)

theorem addFieldTo_get {l : List (V1Field × PTree)} (hl : ∀ g t, (g, t) ∈ l → pd.OK g) (g : V1Field) :
    fldGet (addFieldTo l f k) g = if f = g then some (k (subOf l f)) else fldGet l g := by
  induction l with
  | nil => simp only [addFieldTo, fldGet, subOf, Option.getD_none]
  | cons x l ih =>
    obtain ⟨g', t'⟩ := x
    have hs := same_iff (hl g' t' List.mem_cons_self) hf
    have ih := ih (fun g t h => hl g t (List.mem_cons_of_mem _ h))
    simp only [addFieldTo]
    by_cases e : g' = f
    · rw [if_pos (hs.2 e)]
      subst e
      simp only [fldGet, subOf, if_true, Option.getD_some]
      by_cases e2 : g' = g <;> simp [e2]
    · rw [if_neg (fun h => e (hs.1 h))]
      have hsub : subOf ((g', t') :: l) f = subOf l f := by simp [subOf, fldGet, e]
      rw [hsub]
      simp only [fldGet]
      rw [ih]
      by_cases e2 : g' = g
      · have : f ≠ g := fun h => e (by rw [e2, h])
        simp [e2, this]
      · simp [e2]

theorem addFieldTo_keys {l : List (V1Field × PTree)} (hl : ∀ g t, (g, t) ∈ l → pd.OK g) :
    (addFieldTo l f k).map Prod.fst = if f ∈ l.map Prod.fst then l.map Prod.fst else l.map Prod.fst ++ [f] := by
  induction l with
  | nil => simp [addFieldTo]
  | cons x l ih =>
    obtain ⟨g', t'⟩ := x
    have hs := same_iff (hl g' t' List.mem_cons_self) hf
    have ih := ih (fun g t h => hl g t (List.mem_cons_of_mem _ h))
    simp only [addFieldTo]
    by_cases e : g' = f
    · rw [if_pos (hs.2 e)]
      simp [e]
    · rw [if_neg (fun h => e (hs.1 h))]
      have e' : ¬ f = g' := fun h => e h.symm
      simp only [List.map_cons, ih, List.mem_cons, e', false_or]
      split <;> simp

theorem addFieldTo_nodup {l : List (V1Field × PTree)} (hl : ∀ g t, (g, t) ∈ l → pd.OK g)
    (hn : (l.map Prod.fst).Nodup) : ((addFieldTo l f k).map Prod.fst).Nodup := by
  rw [addFieldTo_keys hf k hl]
  split
  · exact hn
  · rename_i h
    rw [List.nodup_append]
    refine ⟨hn, by simp, fun a ha b hb => ?_⟩
    rw [List.mem_singleton] at hb
    rintro rfl
    exact h (hb ▸ ha)

end fields

theorem addFieldTo_ne_nil (l : List (V1Field × PTree)) (f : V1Field) (k : PTree → PTree) : addFieldTo l f k ≠ [] := by
  cases l with
  | nil => simp [addFieldTo]
  | cons x l => simp only [addFieldTo]; split <;> simp

theorem look_empty (ts : List VTok) : look .empty ts = none := look_leaf rfl ts

theorem post_fld (t : PTree) (f : V1Field) (ts : List VTok) : post t (.fld f :: ts) = look (subOf t.fields f) ts := by
  show (match fldGet t.fields f with | none => none | some t' => lookAt ts t'.pfx t') = _
  unfold subOf
  cases fldGet t.fields f with
  | none => exact (look_empty ts).symm
  | some t' => rfl

theorem PTree.Good.field {pd : V1Pd} {t : PTree} (h : t.Good pd) {f : V1Field} {t' : PTree} (hm : (f, t') ∈ t.fields) :
    t'.Good pd ∧ pd.OK f ∧ f.prs ≠ .iptables ∧ (f.prs = .rest → t'.RestLeaf) ∧ t'.live = true := by
  cases h with
  | mk a b c d e => exact ⟨a _ _ hm, b _ _ hm⟩

theorem PTree.Good.sub {pd : V1Pd} {t : PTree} (h : t.Good pd) {c : UInt8} {t' : PTree} (hm : (c, t') ∈ t.subs) :
    t'.Good pd ∧ t'.live = true := by
  cases h with
  | mk a b c d e => exact ⟨d _ _ hm, e _ _ hm⟩

theorem PTree.Good.nodup {pd : V1Pd} {t : PTree} (h : t.Good pd) : (t.fields.map Prod.fst).Nodup := by
  cases h with
  | mk a b c d e => exact c

theorem good_subOf {pd : V1Pd} {t : PTree} (h : t.Good pd) (f : V1Field) :
    (subOf t.fields f).Good pd ∧ ((subOf t.fields f).live = true ∨ (subOf t.fields f).pfx = []) := by
  unfold subOf
  cases hg : fldGet t.fields f with
  | none => exact ⟨good_empty pd, .inr rfl⟩
  | some t' =>
    have := h.field (mem_of_fldGet hg)
    exact ⟨this.1, .inl this.2.2.2.2⟩

theorem good_addFDescr {pd : V1Pd} {t : PTree} (h : t.Good pd) {f : V1Field} {k : PTree → PTree}
    (hf : pd.OK f) (hi : f.prs ≠ .iptables) (hk : (k (subOf t.fields f)).Good pd)
    (hl : (k (subOf t.fields f)).live = true) (hr : f.prs = .rest → (k (subOf t.fields f)).RestLeaf) : (addFDescr t f k).Good pd := by
  cases t with
  | node p b tg fs ss =>
    cases h with
    | mk h1 h2 h3 h4 h5 =>
      have hl' : ∀ g t, (g, t) ∈ fs → pd.OK g := fun g t hm => (h2 g t hm).1
      refine .mk (fun g u hm => ?_) (fun g u hm => ?_) (addFieldTo_nodup hf k hl' h3) h4 h5
      · rcases addFieldTo_mem hf k hl' hm with ⟨_, e⟩ | hm
        · rw [e]; exact hk
        · exact h1 g u hm
      · rcases addFieldTo_mem hf k hl' hm with ⟨e1, e⟩ | hm
        · rw [e, e1]; exact ⟨hf, hi, hr, hl⟩
        · exact h2 g u hm

theorem live_addFDescr (t : PTree) (f : V1Field) (k : PTree → PTree) : (addFDescr t f k).live = true := by
  have := addFieldTo_ne_nil t.fields f k
  simp [PTree.live, addFDescr, PTree.fields, List.isEmpty_iff]
  exact .inl (.inl this)

theorem post_addFDescr {pd : V1Pd} {t : PTree} (h : t.Good pd) {f : V1Field} (k : PTree → PTree)
    (hf : pd.OK f) (ts : List VTok) :
    post (addFDescr t f k) ts = match ts with
      | .fld g :: ts' => if f = g then look (k (subOf t.fields f)) ts' else post t ts
      | _ => post t ts := by
  cases ts with
  | nil => cases t; rfl
  | cons x ts =>
    cases x with
    | ch c => cases t; rfl
    | fld g =>
      have hl' : ∀ g u, (g, u) ∈ t.fields → pd.OK g := fun g u hm => (h.field hm).2.1
      dsimp only
      show (match fldGet (addFieldTo t.fields f k) g with | none => none | some t' => lookAt ts t'.pfx t') = _
      rw [addFieldTo_get hf k hl' g]
      by_cases e : f = g
      · rw [if_pos e, if_pos e]; rfl
      · rw [if_neg e, if_neg e]; rfl

/-! ### samples -/

theorem post_mark (tg : Option (List Bytes)) (t : PTree) (ts : List VTok) :
    post (markTerminal tg t) ts = if ts = [] then some tg else post t ts := by
  cases ts with
  | nil => rfl
  | cons x ts => cases t; cases x <;> rfl

theorem good_mark {pd : V1Pd} {t : PTree} (h : t.Good pd) (tg : Option (List Bytes)) :
    (markTerminal tg t).Good pd ∧ (markTerminal tg t).live = true ∧ (markTerminal tg t).pfx = t.pfx := by
  refine ⟨?_, ?_, ?_⟩
  · cases h with
    | mk a b c d e => exact .mk a b c d e
  · simp [markTerminal, PTree.live, PTree.terminal]
  · cases t; rfl

/-- the fields and literals after the first literal -/
structure SegsOK (pd : V1Pd) (l : List (V1Field × Bytes)) : Prop where
  lits : ∀ p ∈ l, p.2.length < 65536
  data : ∀ p ∈ l, pd.OK p.1
  noIpt : ∀ p ∈ l, p.1.prs ≠ .iptables
  restLast : ∀ a b p, l = a ++ p :: b → p.1.prs = .rest → p.2 = [] ∧ b = []

theorem SegsOK.tail {pd : V1Pd} {p : V1Field × Bytes} {l : List (V1Field × Bytes)} (h : SegsOK pd (p :: l)) : SegsOK pd l where
  lits q hq := h.lits q (List.mem_cons_of_mem _ hq)
  data q hq := h.data q (List.mem_cons_of_mem _ hq)
  noIpt q hq := h.noIpt q (List.mem_cons_of_mem _ hq)
  restLast a b q e := h.restLast (p :: a) b q (by rw [e]; rfl)

theorem build_nil (t : PTree) (k : PTree → PTree) (h : t.pfx = []) : buildPTree t [] k = k t := by
  unfold buildPTree buildPTreeN
  simp [h, commonLen]

def segToks (l : List (V1Field × Bytes)) : List VTok := l.flatMap fun p => .fld p.1 :: chars p.2

theorem addSegs_spec {pd : V1Pd} (tg : Option (List Bytes)) : ∀ (rest : List (V1Field × Bytes)) (lit : Bytes) (t : PTree),
    SegsOK pd rest → lit.length < 65536 → t.Good pd → (t.live = true ∨ t.pfx = []) →
    (addSegs (markTerminal tg) rest lit t).Good pd ∧ (addSegs (markTerminal tg) rest lit t).live = true ∧
    ∀ ts, look (addSegs (markTerminal tg) rest lit t) ts = if ts = chars lit ++ segToks rest then some tg else look t ts := by
  intro rest
  induction rest with
  | nil =>
    intro lit t _ hlen hg hl
    obtain ⟨r, hr⟩ := buildPTree_spec (k := markTerminal tg) (fun t h => good_mark h tg) hlen hg hl
    refine ⟨hr.good, hr.live, fun ts => ?_⟩
    show look (buildPTree t lit (markTerminal tg)) ts = _
    by_cases hp : ∃ ts', ts = chars lit ++ ts'
    · obtain ⟨ts', rfl⟩ := hp
      rw [hr.below, post_mark, hr.node]
      have : (chars lit ++ ts' = chars lit ++ segToks []) ↔ ts' = [] := by simp [segToks]
      by_cases e : ts' = []
      · rw [if_pos e, if_pos (this.2 e)]
      · rw [if_neg e, if_neg (fun h => e (this.1 h))]
    · rw [hr.other ts fun ts' e => hp ⟨ts', e⟩, if_neg (fun e => hp ⟨_, e⟩)]
  | cons x rest ih =>
    obtain ⟨f, l⟩ := x
    intro lit t hs hlen hg hl
    have hf := hs.data (f, l) List.mem_cons_self
    have hi := hs.noIpt (f, l) List.mem_cons_self
    have hll := hs.lits (f, l) List.mem_cons_self
    have hsub := fun (t : PTree) (h : t.Good pd) => ih l (subOf t.fields f) hs.tail hll (good_subOf h f).1 (good_subOf h f).2
    have hrest : ∀ t : PTree, t.Good pd → f.prs = .rest → (addSegs (markTerminal tg) rest l (subOf t.fields f)).RestLeaf := by
      intro t h hfr
      obtain ⟨h1, h2⟩ := hs.restLast [] rest (f, l) rfl hfr
      dsimp only at h1
      subst h1 h2
      show (buildPTree (subOf t.fields f) [] (markTerminal tg)).RestLeaf
      unfold subOf
      cases hgf : fldGet t.fields f with
      | none => rw [Option.getD_none, build_nil _ _ rfl]; exact ⟨rfl, rfl, rfl, rfl⟩
      | some t' =>
        have hrl := (h.field (mem_of_fldGet hgf)).2.2.2.1 hfr
        rw [Option.getD_some, build_nil _ _ hrl.1]
        exact ⟨hrl.1, rfl, hrl.2.2.1, hrl.2.2.2⟩
    have hk : ∀ t : PTree, t.Good pd → (addFDescr t f (addSegs (markTerminal tg) rest l)).Good pd ∧
        (addFDescr t f (addSegs (markTerminal tg) rest l)).live = true ∧
        (addFDescr t f (addSegs (markTerminal tg) rest l)).pfx = t.pfx := fun t h =>
      ⟨good_addFDescr h hf hi (hsub t h).1 (hsub t h).2.1 (hrest t h), live_addFDescr _ _ _, rfl⟩
    obtain ⟨r, hr⟩ := buildPTree_spec hk hlen hg hl
    refine ⟨hr.good, hr.live, fun ts => ?_⟩
    show look (buildPTree t lit fun t => addFDescr t f (addSegs (markTerminal tg) rest l)) ts = _
    by_cases hp : ∃ ts', ts = chars lit ++ ts'
    · obtain ⟨ts', rfl⟩ := hp
      rw [hr.below, post_addFDescr hr.goodr _ hf, ← hr.node]
      simp only [List.append_cancel_left_eq]
      cases ts' with
      | nil => rw [if_neg (by simp [segToks])]
      | cons y ts' =>
        cases y with
        | ch c => rw [if_neg (by simp [segToks])]
        | fld g =>
          dsimp only
          by_cases e : f = g
          · subst e
            have hts : segToks ((f, l) :: rest) = .fld f :: (chars l ++ segToks rest) := rfl
            rw [if_pos rfl, post_fld, hts]
            simp only [List.cons.injEq, true_and]
            exact (hsub r hr.goodr).2.2 ts'
          · rw [if_neg e, if_neg]
            simp only [segToks, List.flatMap_cons, List.cons_append, List.cons.injEq, VTok.fld.injEq, not_and]
            exact fun h => (e h.symm).elim
    · rw [hr.other ts fun ts' e => hp ⟨ts', e⟩, if_neg (fun e => hp ⟨_, e⟩)]

theorem V1Sample.OK.segs {pd : V1Pd} {x : V1Sample} (h : x.OK pd) : SegsOK pd x.rest := ⟨h.lits, h.data, h.noIpt, h.restLast⟩

theorem addSample_spec {pd : V1Pd} {t : PTree} {x : V1Sample} (hx : x.OK pd) (hg : t.Good pd)
    (hl : t.live = true ∨ t.pfx = []) : (addSample t x).Good pd ∧ (addSample t x).live = true ∧
    ∀ ts, look (addSample t x) ts = if ts = x.toks then some x.tags else look t ts := by
  unfold addSample
  rw [hx.complete, if_pos rfl]
  exact addSegs_spec x.tags x.rest x.lit t hx.segs hx.lit hg hl

theorem loadV1_spec {pd : V1Pd} {xs : List V1Sample} (hxs : ∀ x ∈ xs, x.OK pd) : (loadV1 xs).Good pd ∧
    ((loadV1 xs).live = true ∨ (loadV1 xs).pfx = []) ∧ ∀ ts, look (loadV1 xs) ts = (lastOf xs ts).map V1Sample.tags := by
  have : ∀ ys : List V1Sample, (∀ x ∈ ys, x.OK pd) → (loadV1 ys.reverse).Good pd ∧
      ((loadV1 ys.reverse).live = true ∨ (loadV1 ys.reverse).pfx = []) ∧
      ∀ ts, look (loadV1 ys.reverse) ts = (ys.find? fun x => x.toks = ts).map V1Sample.tags := by
    intro ys
    induction ys with
    | nil => intro _; exact ⟨good_empty pd, .inr rfl, fun ts => look_empty ts⟩
    | cons y ys ih =>
      intro h
      obtain ⟨h1, h2, h3⟩ := ih fun x hx => h x (List.mem_cons_of_mem _ hx)
      have e : loadV1 (y :: ys).reverse = addSample (loadV1 ys.reverse) y := by simp [loadV1]
      obtain ⟨g1, g2, g3⟩ := addSample_spec (h y List.mem_cons_self) h1 h2
      rw [e]
      refine ⟨g1, .inl g2, fun ts => ?_⟩
      rw [g3, List.find?_cons]
      by_cases hy : y.toks = ts
      · simp [hy]
      · have : ¬ ts = y.toks := fun e => hy e.symm
        simp only [hy, this, if_false, decide_false]
        exact h3 ts
  have h := this xs.reverse fun x hx => hxs x (List.mem_reverse.1 hx)
  rw [List.reverse_reverse] at h
  exact h

end LN
