import Verif.Proofs.V1
/- The version 1 normaliser finds what the tree stands for. -/
set_option autoImplicit false
namespace LN

theorem bind_ok {α β : Type} {x : R α} {f : α → R β} {b : β} (h : x.bind f = .ok b) : ∃ a, x = .ok a ∧ f a = .ok b := by
  cases x with
  | ok a => exact ⟨a, rfl, h⟩
  | fail => cases h
  | ub k => cases h
  | oof => cases h

/-- there is a match, and it ends at a sample with these tags -/
def Hit (left : Int) (st : V1St) : Prop := left = 0 ∧ ∃ tg, st.en = some (true, tg)

theorem v1Hit_ok {left : Int} {st : V1St} {b : Bool} (h : v1Hit left st = .ok b) : b = true ↔ Hit left st := by
  unfold v1Hit at h
  unfold Hit
  by_cases hl : left = 0
  · rw [if_pos hl] at h
    cases he : st.en with
    | none => rw [he] at h; cases h
    | some e =>
      rw [he] at h
      cases h
      obtain ⟨b, tg⟩ := e
      simp only [hl, true_and, Option.some.injEq, Prod.mk.injEq]
      exact ⟨fun h => ⟨tg, h, rfl⟩, fun ⟨_, h, _⟩ => h⟩
  · rw [if_neg hl] at h
    cases h
    simp [hl]

theorem v1Hit_total {left : Int} {st : V1St} (h : left = 0 → st.en ≠ none) : ∃ b, v1Hit left st = .ok b := by
  unfold v1Hit
  by_cases hl : left = 0
  · rw [if_pos hl]
    cases he : st.en with
    | none => exact (h hl he).elim
    | some e => exact ⟨_, rfl⟩
  · rw [if_neg hl]; exact ⟨_, rfl⟩

theorem v1Event_cons (s : Bytes) (o : Obj) (f : V1Field) (i len : Nat) (v : Option Json) (tr : List V1Step) :
    v1Event s o (⟨f, i, len, v⟩ :: tr) = v1Store f s i len v (v1Event s o tr) := by
  simp only [v1Event, List.reverse_cons, List.foldl_append, List.foldl_cons, List.foldl_nil, v1Store, V1Step.value]

/-- a real match of a sample in the tree -/
def Real (run : V1Run) (s : Bytes) (t : PTree) (offs : Nat) (st st' : V1St) : Prop :=
  ∃ toks tr tg, st'.en = some (true, tg) ∧ look t toks = some tg ∧ V1Match run s offs toks tr ∧ st'.json = v1Event s st.json tr

/-- what `v1Rec` guarantees -/
structure RecSpec (run : V1Run) (s : Bytes) (t : PTree) (offs : Nat) (st : V1St) (left : Int) (st' : V1St) : Prop where
  hit : Hit left st' → Real run s t offs st st'
  miss : ¬ Hit left st' → st'.json = st.json
  en : left = 0 → st'.en ≠ none
  le : left ≤ (s.length : Int) - offs

/-- what the loop over the fields guarantees -/
inductive LoopSpec (run : V1Run) (s : Bytes) (offs : Nat) (r : Int) (rest : Option (V1Field × PTree)) (l : List (V1Field × PTree)) (st : V1St) :
    V1Loop → Prop
  | hit {f : V1Field} {t : PTree} {n : V1Fn} {len : Nat} {v : Option Json} {st0 st' : V1St} : (f, t) ∈ l → f.prs = .fn n → run f s offs = .ok (len, v) →
      st0.json = st.json → Real run s t (offs + len) st0 { st' with json := st'.json } → offs + len ≤ s.length →
      LoopSpec run s offs r rest l st (.hit { st' with json := v1Store f s offs len v st'.json })
  | miss {r' : Int} {rest' : Option (V1Field × PTree)} {st' : V1St} : st'.json = st.json → r' ≤ r → (0 < r → 0 < r') →
      (rest' = rest ∨ ∃ x ∈ l, x.1.prs = .rest ∧ rest' = some x) → (∀ x ∈ l, x.1.prs = .rest → rest' ≠ none) →
      (rest ≠ none → rest' ≠ none) → LoopSpec run s offs r rest l st (.miss r' rest' offs st')

theorem sizeT_of_le {F : V1Field → Prop} {run : V1Run} {s : Bytes} (hrun : V1RunIn F run s) {n : Nat} (h : n ≤ s.length) : sizeT n = n :=
  Nat.mod_eq_of_lt (Nat.lt_of_le_of_lt h hrun.size)

theorem v1Fields_spec {F : V1Field → Prop} {run : V1Run} {s : Bytes} (hrun : V1RunIn F run s) {rec : PTree → Nat → V1St → R (Int × V1St)} {offs : Nat}
    (ho : offs ≤ s.length) : ∀ (l : List (V1Field × PTree)) (r : Int) (rest : Option (V1Field × PTree)) (st : V1St) (res : V1Loop),
    (∀ x ∈ l, F x.1 ∧ x.1.prs ≠ .iptables) →
    (∀ x ∈ l, ∀ off st left st', off ≤ s.length → rec x.2 off st = .ok (left, st') → RecSpec run s x.2 off st left st') →
    v1Fields run s rec offs l r rest offs st = .ok res → LoopSpec run s offs r rest l st res := by
  intro l
  induction l with
  | nil =>
    intro r rest st res _ _ h
    simp only [v1Fields] at h
    cases h
    exact .miss rfl (Int.le_refl _) id (.inl rfl) (fun _ h => by cases h) id
  | cons x l ih =>
    obtain ⟨f, t⟩ := x
    intro r rest st res hi hrec h
    have hi' : ∀ x ∈ l, F x.1 ∧ x.1.prs ≠ .iptables := fun x hx => hi x (List.mem_cons_of_mem _ hx)
    have hrec' := fun x (hx : x ∈ l) => hrec x (List.mem_cons_of_mem _ hx)
    rw [v1Fields] at h
    have weak : ∀ {r1 : Int} {rest1 : Option (V1Field × PTree)} {st1 : V1St}, st1.json = st.json → r1 ≤ r → (0 < r → 0 < r1) →
        (rest1 = rest ∧ f.prs ≠ .rest ∨ f.prs = .rest ∧ rest1 = some (f, t)) →
        LoopSpec run s offs r1 rest1 l st1 res → LoopSpec run s offs r rest ((f, t) :: l) st res := by
      intro r1 rest1 st1 h1 h2 h3 h4 h5
      cases h5 with
      | hit a b c d e g => exact .hit (List.mem_cons_of_mem _ a) b c (d.trans h1) e g
      | @miss r' rest' st' a b c d e g =>
        refine .miss (a.trans h1) (by omega) (fun h => c (h3 h)) ?_ ?_ ?_
        · rcases d with d | ⟨x, hx, hx1, hx2⟩
          · rcases h4 with ⟨h4, _⟩ | ⟨h4, h4'⟩
            · exact .inl (d.trans h4)
            · exact .inr ⟨(f, t), List.mem_cons_self, h4, d.trans h4'⟩
          · exact .inr ⟨x, List.mem_cons_of_mem _ hx, hx1, hx2⟩
        · intro x hx hxr
          rcases List.mem_cons.1 hx with hx | hx
          · subst hx
            rcases h4 with ⟨_, h4⟩ | ⟨h4, h4'⟩
            · exact (h4 hxr).elim
            · exact g (by rw [h4']; simp)
          · exact e x hx hxr
        · intro hne
          rcases h4 with ⟨h4, _⟩ | ⟨_, h4⟩
          · exact g (by rw [h4]; exact hne)
          · exact g (by rw [h4]; simp)
    cases hp : f.prs with
    | iptables => exact ((hi (f, t) List.mem_cons_self).2 hp).elim
    | rest =>
      rw [hp] at h
      dsimp only at h
      exact weak rfl (Int.le_refl _) id (.inr ⟨hp, rfl⟩) (ih r (some (f, t)) st res hi' hrec' h)
    | fn n =>
      rw [hp] at h
      dsimp only at h
      have hnr : f.prs ≠ .rest := by rw [hp]; simp
      cases hf : run f s offs with
      | ub k => rw [hf] at h; cases h
      | oof => rw [hf] at h; cases h
      | fail =>
        rw [hf] at h
        dsimp only at h
        exact weak rfl (Int.le_refl _) id (.inl ⟨rfl, hnr⟩) (ih r rest st res hi' hrec' h)
      | ok y =>
        obtain ⟨len, v⟩ := y
        rw [hf] at h
        have hlen := hrun.within f offs len v (hi (f, t) List.mem_cons_self).1 ho hf
        dsimp only at h
        rw [sizeT_of_le hrun hlen] at h
        obtain ⟨⟨left, st1⟩, h1, h2⟩ := bind_ok h
        dsimp only at h2
        obtain ⟨b, h3, h4⟩ := bind_ok h2
        have hs := hrec (f, t) List.mem_cons_self _ _ _ _ hlen h1
        have hb := v1Hit_ok h3
        cases b with
        | true =>
          rw [if_pos rfl] at h4
          cases h4
          exact .hit List.mem_cons_self hp hf rfl (hs.hit (hb.1 rfl)) hlen
        | false =>
          have hn : ¬ Hit left st1 := fun h => by have := hb.2 h; cases this
          rw [if_neg (by simp)] at h4
          refine weak (hs.miss hn) ?_ ?_ (.inl ⟨rfl, hnr⟩) (ih _ rest st1 res hi' hrec' h4)
          · split
            · omega
            · exact Int.le_refl _
          · intro h0; split
            · omega
            · exact h0

theorem cmpLen_le (a b : Bytes) : cmpLen a b ≤ b.length := by
  fun_induction cmpLen a b with
  | case1 => simp only [List.length_cons]; omega
  | case2 => simp
  | case3 => simp

theorem cmpLen_le_left (a b : Bytes) : cmpLen a b ≤ a.length := by
  fun_induction cmpLen a b with
  | case1 => simp only [List.length_cons]; omega
  | case2 => simp
  | case3 => simp

theorem cmpLen_prefix {a b : Bytes} (h : cmpLen a b = b.length) : ∃ c, a = b ++ c := by
  fun_induction cmpLen a b with
  | case1 a s b p h1 ih =>
    obtain ⟨c, hc⟩ := ih (by simpa using h)
    exact ⟨c, by rw [hc, h1.1]; rfl⟩
  | case2 a s b p h1 => simp at h
  | case3 a b h1 =>
    cases b with
    | nil => exact ⟨a, rfl⟩
    | cons x b => simp at h

theorem cmpLen_all {p c : Bytes} (h : ∀ x ∈ p, x < 128) : cmpLen (p ++ c) p = p.length := by
  induction p with
  | nil => cases c <;> rfl
  | cons x p ih =>
    simp only [List.cons_append, cmpLen, true_and, List.length_cons]
    rw [if_pos (h x List.mem_cons_self), ih fun y hy => h y (List.mem_cons_of_mem _ hy)]

theorem V1Match.chars {run : V1Run} {s : Bytes} {toks : List VTok} {tr : List V1Step} : ∀ {p : Bytes} {off : Nat} {c : Bytes},
    s.drop off = p ++ c → V1Match run s (off + p.length) toks tr → V1Match run s off (chars p ++ toks) tr := by
  intro p
  induction p with
  | nil => intro off c _ h; exact h
  | cons x p ih =>
    intro off c hd h
    refine .ch ?_ (ih (c := c) ?_ ?_)
    · have := congrArg (·[0]?) hd
      simpa [List.getElem?_drop] using this
    · rw [← List.drop_drop, hd]; rfl
    · have : off + 1 + p.length = off + (x :: p).length := by simp only [List.length_cons]; omega
      rw [this]; exact h

theorem V1Match.chars_inv {run : V1Run} {s : Bytes} {toks : List VTok} {tr : List V1Step} : ∀ {p : Bytes} {off : Nat},
    V1Match run s off (LN.chars p ++ toks) tr → ∃ c, s.drop off = p ++ c ∧ V1Match run s (off + p.length) toks tr := by
  intro p
  induction p with
  | nil => intro off h; exact ⟨_, rfl, h⟩
  | cons x p ih =>
    intro off h
    cases h with
    | ch h1 h2 =>
      obtain ⟨c, hc, hm⟩ := ih h2
      obtain ⟨hlt, hx⟩ := List.getElem?_eq_some_iff.1 h1
      refine ⟨c, ?_, ?_⟩
      · rw [List.drop_eq_getElem_cons hlt, hc, hx]; rfl
      · have : off + 1 + p.length = off + (x :: p).length := by simp only [List.length_cons]; omega
        rw [this] at hm; exact hm

theorem V1Match.le {run : V1Run} {s : Bytes} {off : Nat} {toks : List VTok} {tr : List V1Step}
    (h : V1Match run s off toks tr) : off ≤ s.length := by
  induction h with
  | nil => exact Nat.le_refl _
  | ch h _ _ => exact Nat.le_of_lt (List.getElem?_eq_some_iff.1 h).1
  | fld _ _ _ ih => omega
  | rest _ h _ _ => exact h

theorem restLeaf_rec {run : V1Run} {s : Bytes} {fuel : Nat} {t : PTree} (h : t.RestLeaf) {st : V1St} {x : Int × V1St}
    (hx : v1Rec run s fuel t s.length st = .ok x) : x = (0, { st with en := some (true, t.tags) }) := by
  cases fuel with
  | zero => cases hx
  | succ n =>
    rw [v1Rec, if_pos (Nat.le_refl _)] at hx
    cases hx
    rw [h.1, h.2.1]
    rfl

/-- soundness of the recursion -/
theorem v1Rec_sound {pd : V1Pd} {run : V1Run} {s : Bytes} (hrun : V1RunIn pd.ok run s) : ∀ (fuel : Nat) (t : PTree) (offs : Nat)
    (st : V1St) (left : Int) (st' : V1St), t.Good pd → offs ≤ s.length → v1Rec run s fuel t offs st = .ok (left, st') →
    RecSpec run s t offs st left st' := by
  intro fuel
  induction fuel with
  | zero => intro t offs st left st' _ _ h; cases h
  | succ n ih =>
    intro t offs st left st' hg ho h
    rw [v1Rec] at h
    by_cases hend : s.length ≤ offs
    · rw [if_pos hend] at h
      cases h
      have he : offs = s.length := by omega
      refine ⟨?_, fun _ => rfl, fun _ => by simp, by omega⟩
      rintro ⟨h0, tg, htg⟩
      have hp : t.pfx = [] := by
        cases hpf : t.pfx with
        | nil => rfl
        | cons a b => rw [hpf] at h0; simp only [List.length_cons] at h0; omega
      simp only [Option.some.injEq, Prod.mk.injEq] at htg
      refine ⟨[], [], tg, by simp [htg], ?_, by rw [he]; exact .nil, rfl⟩
      unfold look
      rw [hp, ← htg.2]
      simp [lookAt, htg.1]
    · rw [if_neg hend] at h
      dsimp only at h
      have hc1 := cmpLen_le (s.drop offs) t.pfx
      have hc2 := cmpLen_le_left (s.drop offs) t.pfx
      have hc3 := @cmpLen_prefix (s.drop offs) t.pfx
      rw [List.length_drop] at hc2
      generalize cmpLen (s.drop offs) t.pfx = m at *
      by_cases hm : m < t.pfx.length
      · rw [if_pos hm] at h
        by_cases hlt : offs + m < s.length
        · rw [if_pos hlt] at h
          cases h
          exact ⟨fun h => by have := h.1; omega, fun _ => rfl, fun h => by omega, by omega⟩
        · rw [if_neg hlt] at h
          cases h
          exact ⟨fun h => by have := h.1; omega, fun _ => rfl, fun h => by omega, by omega⟩
      · rw [if_neg hm] at h
        have hme : m = t.pfx.length := by omega
        obtain ⟨c0, hpre⟩ := hc3 hme
        have ho' : offs + m ≤ s.length := by omega
        obtain ⟨lp, hl1, hl2⟩ := bind_ok h
        have hloop := v1Fields_spec hrun ho' t.fields _ none st lp
          (fun x hx => ⟨(hg.field (f := x.1) (t' := x.2) hx).2.1.2, (hg.field (f := x.1) (t' := x.2) hx).2.2.1⟩)
          (fun x hx off st left st' ho h => ih x.2 off st left st' (hg.field (f := x.1) (t' := x.2) hx).1 ho h) hl1
        -- a match below the prefix is one of the whole node
        have lift : ∀ {tg : Option (List Bytes)} {toks : List VTok} {tr : List V1Step}, post t toks = some tg →
            V1Match run s (offs + m) toks tr →
            look t (chars t.pfx ++ toks) = some tg ∧ V1Match run s offs (chars t.pfx ++ toks) tr := by
          intro tg toks tr hp hmt
          rw [look_pfx]
          exact ⟨hp, .chars hpre (by rw [← hme]; exact hmt)⟩
        cases hloop with
        | @hit f u k len v st0 st1 hmem hfn hrf h0 hreal hlen =>
          simp only [v1After] at hl2
          cases hl2
          obtain ⟨toks, tr, tg, he, hlk, hmt, hj⟩ := hreal
          have hreal : Real run s t offs st { st1 with json := v1Store f s (offs + m) len v st1.json } := by
            have hp : post t (.fld f :: toks) = some tg := by
              show (match fldGet t.fields f with | none => none | some t' => lookAt toks t'.pfx t') = _
              rw [fldGet_of_mem hg.nodup hmem]; exact hlk
            obtain ⟨l1, l2⟩ := lift hp (.fld hfn hrf hmt)
            exact ⟨_, _, tg, he, l1, l2, by rw [v1Event_cons, ← h0, ← hj]⟩
          exact ⟨fun _ => hreal, fun h => (h ⟨rfl, tg, he⟩).elim, fun _ => by rw [he]; simp, by omega⟩
        | @miss r' rest' st1 hj hr hr0 hrest _ _ =>
          simp only [v1After] at hl2
          cases hch : s[offs + m]? with
          | none =>
            rw [hch] at hl2
            cases hl2
            have hom : offs + m = s.length := by
              have := List.getElem?_eq_none_iff.1 hch
              omega
            refine ⟨?_, fun _ => hj, fun _ => by simp, by omega⟩
            rintro ⟨_, tg, htg⟩
            simp only [Option.some.injEq, Prod.mk.injEq] at htg
            have hp : post t [] = some tg := by
              show (if t.terminal then some t.tags else none) = _
              rw [htg.1, ← htg.2]; rfl
            obtain ⟨l1, l2⟩ := lift hp (by rw [hom]; exact .nil)
            exact ⟨_, _, tg, by simp [htg], l1, l2, hj⟩
          | some c =>
            rw [hch] at hl2
            dsimp only at hl2
            have hlt : offs + m < s.length := (List.getElem?_eq_some_iff.1 hch).1
            have hr1 : 0 < r' := hr0 (by omega)
            obtain ⟨⟨r2, st2⟩, hl3, hl4⟩ := bind_ok hl2
            dsimp only at hl4
            -- the literal
            have hlit : (Hit r2 st2 → Real run s t offs st st2) ∧ (¬ Hit r2 st2 → st2.json = st.json) ∧ (r2 = 0 → st2.en ≠ none) ∧
                r2 ≤ r' := by
              unfold v1Lit at hl3
              cases hsub : subGet t.subs c with
              | none =>
                rw [hsub] at hl3
                cases hl3
                exact ⟨fun h => by have := h.1; omega, fun _ => hj, fun h => by omega, Int.le_refl _⟩
              | some u =>
                rw [hsub] at hl3
                obtain ⟨⟨left2, st3⟩, h1, h2⟩ := bind_ok hl3
                dsimp only at h2
                simp only [R.ok.injEq, Prod.mk.injEq] at h2
                obtain ⟨h2, rfl⟩ := h2
                have hs := ih u (offs + m + 1) st1 left2 st3 (hg.sub (mem_of_subGet hsub)).1 hlt h1
                have hz : r2 = 0 → left2 = 0 := by
                  intro h; rw [h] at h2
                  split at h2
                  · exact h2
                  · omega
                refine ⟨fun hh => ?_, fun hh => ?_, fun hh => hs.en (hz hh), ?_⟩
                · obtain ⟨toks, tr, tg, he, hlk, hmt, hj'⟩ := hs.hit ⟨hz hh.1, hh.2⟩
                  have hp : post t (.ch c :: toks) = some tg := by
                    show (match subGet t.subs c with | none => none | some t' => lookAt toks t'.pfx t') = _
                    rw [hsub]; exact hlk
                  obtain ⟨l1, l2⟩ := lift hp (.ch hch hmt)
                  exact ⟨_, _, tg, he, l1, l2, by rw [hj', hj]⟩
                · rw [hs.miss (fun hl => hh ⟨?_, hl.2⟩), hj]
                  have := hl.1
                  rw [this, if_pos hr1] at h2
                  exact h2.symm
                · rw [← h2]; split
                  · omega
                  · exact Int.le_refl _
            obtain ⟨b, hb1, hb2⟩ := bind_ok hl4
            have hb := v1Hit_ok hb1
            cases b with
            | true =>
              rw [if_pos rfl] at hb2
              cases hb2
              have hh := hb.1 rfl
              refine ⟨fun h => hlit.1 ⟨hh.1, h.2⟩, fun h => (h ⟨rfl, hh.2⟩).elim, fun _ => ?_, by omega⟩
              obtain ⟨tg, htg⟩ := hh.2
              rw [htg]; simp
            | false =>
              rw [if_neg (by simp)] at hb2
              have hn : ¬ Hit r2 st2 := fun h => by have := hb.2 h; cases this
              unfold v1Rest at hb2
              cases hrs : rest' with
              | none =>
                rw [hrs] at hb2
                cases hb2
                exact ⟨fun h => (hn h).elim, fun _ => hlit.2.1 hn, hlit.2.2.1, by omega⟩
              | some x =>
                obtain ⟨f, u⟩ := x
                rw [hrs] at hb2
                obtain ⟨x4, h1, h2⟩ := bind_ok hb2
                obtain ⟨y, hy, hyr, hye⟩ := hrest.resolve_left (by rw [hrs]; simp)
                rw [hrs] at hye
                cases hye
                have hfld := hg.field hy
                have hx4 := restLeaf_rec (hfld.2.2.2.1 hyr) h1
                subst hx4
                dsimp only at h2
                cases h2
                have hlk : look u [] = some u.tags := by
                  have hrl := hfld.2.2.2.1 hyr
                  unfold look
                  rw [hrl.1]
                  simp [lookAt, hrl.2.1]
                have hp : post t [.fld f] = some u.tags := by
                  show (match fldGet t.fields f with | none => none | some t' => lookAt [] t'.pfx t') = _
                  rw [fldGet_of_mem hg.nodup hy]; exact hlk
                obtain ⟨l1, l2⟩ := lift hp (.rest hyr (Nat.le_of_lt hlt) .nil)
                refine ⟨fun _ => ⟨_, _, u.tags, rfl, l1, l2, ?_⟩, fun h => (h ⟨rfl, u.tags, rfl⟩).elim, fun _ => by simp, by omega⟩
                rw [v1Event_cons]
                dsimp only
                rw [hlit.2.1 hn]
                rfl

/-- a field is not lost -/
theorem v1Fields_complete {F : V1Field → Prop} {run : V1Run} {s : Bytes} {rec : PTree → Nat → V1St → R (Int × V1St)} {offs : Nat}
    {f : V1Field} {t : PTree} {n : V1Fn} {len : Nat} {v : Option Json} (hrun : V1RunIn F run s) (hle : offs + len ≤ s.length) (hf : f.prs = .fn n) (hr : run f s offs = .ok (len, v))
    (hrec : ∀ st left st', rec t (offs + len) st = .ok (left, st') → Hit left st') :
    ∀ (l : List (V1Field × PTree)) (r : Int) (rest : Option (V1Field × PTree)) (st : V1St) (res : V1Loop),
    (∀ x ∈ l, x.1.prs ≠ .iptables) → (f, t) ∈ l → v1Fields run s rec offs l r rest offs st = .ok res →
    ∃ st', res = .hit st' := by
  intro l
  induction l with
  | nil => intro r rest st res _ h _; cases h
  | cons x l ih =>
    obtain ⟨g, u⟩ := x
    intro r rest st res hi hm h
    have hi' : ∀ x ∈ l, x.1.prs ≠ .iptables := fun x hx => hi x (List.mem_cons_of_mem _ hx)
    rw [v1Fields] at h
    by_cases hgf : (g, u) = (f, t)
    · cases hgf
      rw [hf, hr] at h
      dsimp only at h
      rw [sizeT_of_le hrun hle] at h
      obtain ⟨⟨left, st1⟩, h1, h2⟩ := bind_ok h
      dsimp only at h2
      obtain ⟨b, h3, h4⟩ := bind_ok h2
      have := (v1Hit_ok h3).2 (hrec _ _ _ h1)
      rw [this, if_pos rfl] at h4
      cases h4
      exact ⟨_, rfl⟩
    · have hm' : (f, t) ∈ l := by
        rcases List.mem_cons.1 hm with h | h
        · exact (hgf h.symm).elim
        · exact h
      cases hp : g.prs with
      | iptables => exact (hi (g, u) List.mem_cons_self hp).elim
      | rest =>
        rw [hp] at h
        exact ih _ _ _ _ hi' hm' h
      | fn k =>
        rw [hp] at h
        dsimp only at h
        cases hrg : run g s offs with
        | fail => rw [hrg] at h; exact ih _ _ _ _ hi' hm' h
        | ub k => rw [hrg] at h; cases h
        | oof => rw [hrg] at h; cases h
        | ok y =>
          obtain ⟨len', v'⟩ := y
          rw [hrg] at h
          dsimp only at h
          obtain ⟨⟨left, st1⟩, h1, h2⟩ := bind_ok h
          dsimp only at h2
          obtain ⟨b, h3, h4⟩ := bind_ok h2
          cases b with
          | true => rw [if_pos rfl] at h4; cases h4; exact ⟨_, rfl⟩
          | false => rw [if_neg (by simp)] at h4; exact ih _ _ _ _ hi' hm' h4

/-- completeness of the recursion -/
theorem v1Rec_complete {pd : V1Pd} {run : V1Run} {s : Bytes} (hrun : V1RunIn pd.ok run s) : ∀ (fuel : Nat) (t : PTree) (offs : Nat)
    (st : V1St) (left : Int) (st' : V1St) (toks : List VTok) (tr : List V1Step) (tg : Option (List Bytes)), t.Good pd →
    V1Match run s offs toks tr → look t toks = some tg → (∀ x ∈ tr, x.off < s.length) → (∀ c, .ch c ∈ toks → c < 128) →
    v1Rec run s fuel t offs st = .ok (left, st') → Hit left st' := by
  intro fuel
  induction fuel with
  | zero => intro t offs st left st' toks tr tg _ _ _ _ _ h; cases h
  | succ n ih =>
    intro t offs st left st' toks tr tg hg hmt hlk hoff hasc h
    have ho := hmt.le
    have hsound := v1Rec_sound (pd := pd) hrun n
    rw [v1Rec] at h
    by_cases hend : s.length ≤ offs
    · rw [if_pos hend] at h
      cases h
      have htk : toks = [] := by
        cases hmt with
        | nil => rfl
        | ch h _ => have := (List.getElem?_eq_some_iff.1 h).1; omega
        | fld _ _ _ => have := hoff _ List.mem_cons_self; dsimp only at this; omega
        | rest _ _ _ => have := hoff _ List.mem_cons_self; dsimp only at this; omega
      subst htk
      unfold look at hlk
      cases hpf : t.pfx with
      | cons a b => rw [hpf] at hlk; simp [lookAt] at hlk
      | nil =>
        rw [hpf] at hlk
        simp only [lookAt] at hlk
        have ht : t.terminal = true := by
          by_cases h : t.terminal
          · exact h
          · rw [if_neg h] at hlk; cases hlk
        exact ⟨by simp, t.tags, by simp [ht]⟩
    · rw [if_neg hend] at h
      obtain ⟨toks', rfl⟩ : ∃ ts', toks = chars t.pfx ++ ts' := by
        apply Classical.byContradiction
        intro hne
        have := lookAt_notPfx t toks t.pfx fun ts' e => hne ⟨ts', e⟩
        have h2 : look t toks = none := this
        rw [h2] at hlk; cases hlk
      rw [look_pfx] at hlk
      obtain ⟨c0, hd, hmt'⟩ := hmt.chars_inv
      have hasc' : ∀ x ∈ t.pfx, x < 128 := fun x hx => hasc x (List.mem_append_left _ (List.mem_map_of_mem hx))
      have hcl : cmpLen (s.drop offs) t.pfx = t.pfx.length := by rw [hd]; exact cmpLen_all hasc'
      have hasc2 : ∀ c, .ch c ∈ toks' → c < 128 := fun c hc => hasc c (List.mem_append_right _ hc)
      dsimp only at h
      rw [hcl, if_neg (Nat.lt_irrefl _)] at h
      generalize offs + t.pfx.length = o at *
      have ho' := hmt'.le
      obtain ⟨lp, hl1, hl2⟩ := bind_ok h
      have hipt : ∀ x ∈ t.fields, x.1.prs ≠ .iptables := fun x hx => (hg.field (f := x.1) (t' := x.2) hx).2.2.1
      have hloop := v1Fields_spec hrun ho' t.fields _ none st lp (fun x hx => ⟨(hg.field (f := x.1) (t' := x.2) hx).2.1.2, hipt x hx⟩)
        (fun x hx off st left st' ho h => hsound x.2 off st left st' (hg.field (f := x.1) (t' := x.2) hx).1 ho h) hl1
      cases hloop with
      | @hit f u k len v st0 st1 hmem hfn hrf h0 hreal hlen =>
        simp only [v1After] at hl2
        cases hl2
        obtain ⟨_, _, tg', he, _⟩ := hreal
        exact ⟨rfl, tg', he⟩
      | @miss r' rest' st1 hj hr hr0 hrest hrest2 _ =>
        simp only [v1After] at hl2
        cases hch : s[o]? with
        | none =>
          rw [hch] at hl2
          cases hl2
          have hoe : s.length ≤ o := List.getElem?_eq_none_iff.1 hch
          have htk : toks' = [] := by
            cases hmt' with
            | nil => rfl
            | ch h _ => rw [hch] at h; cases h
            | fld _ _ _ => have := hoff _ List.mem_cons_self; dsimp only at this; omega
            | rest _ _ _ => have := hoff _ List.mem_cons_self; dsimp only at this; omega
          subst htk
          have ht : t.terminal = true := by
            by_cases h : t.terminal
            · exact h
            · have h2 : post t [] = if t.terminal then some t.tags else none := rfl
              rw [h2, if_neg h] at hlk; cases hlk
          exact ⟨rfl, t.tags, by simp [ht]⟩
        | some c =>
          rw [hch] at hl2
          dsimp only at hl2
          have hlt : o < s.length := (List.getElem?_eq_some_iff.1 hch).1
          have hr1 : 0 < r' := hr0 (by omega)
          obtain ⟨⟨r2, st2⟩, hl3, hl4⟩ := bind_ok hl2
          dsimp only at hl4
          obtain ⟨b, hb1, hb2⟩ := bind_ok hl4
          have hb := v1Hit_ok hb1
          -- `rest`, if it is there, matches
          have hresthit : rest' ≠ none → b = false → Hit left st' := by
            intro hne hbf
            rw [hbf, if_neg (by simp)] at hb2
            unfold v1Rest at hb2
            cases hrs : rest' with
            | none => exact (hne hrs).elim
            | some x =>
              obtain ⟨f, u⟩ := x
              rw [hrs] at hb2
              obtain ⟨x4, h1, h2⟩ := bind_ok hb2
              obtain ⟨y, hy, hyr, hye⟩ := hrest.resolve_left (by rw [hrs]; simp)
              rw [hrs] at hye
              cases hye
              have hx4 := restLeaf_rec ((hg.field hy).2.2.2.1 hyr) h1
              subst hx4
              dsimp only at h2
              cases h2
              exact ⟨rfl, u.tags, rfl⟩
          cases hbb : b with
          | true =>
            rw [hbb, if_pos rfl] at hb2
            cases hb2
            exact ⟨rfl, (hb.1 hbb).2⟩
          | false =>
            cases hmt' with
            | nil => omega
            | @ch _ d toks2 _ hd2 hm2 =>
              rw [hch] at hd2
              cases hd2
              have hsub : ∃ u, subGet t.subs c = some u ∧ look u toks2 = some tg := by
                have h2 : post t (.ch c :: toks2) = match subGet t.subs c with | none => none | some t' => lookAt toks2 t'.pfx t' := rfl
                rw [h2] at hlk
                cases hs : subGet t.subs c with
                | none => rw [hs] at hlk; cases hlk
                | some u => rw [hs] at hlk; exact ⟨u, rfl, hlk⟩
              obtain ⟨u, hsub, hlk2⟩ := hsub
              unfold v1Lit at hl3
              rw [hsub] at hl3
              obtain ⟨⟨left2, st3⟩, h1, h2⟩ := bind_ok hl3
              simp only [R.ok.injEq, Prod.mk.injEq] at h2
              obtain ⟨h2, rfl⟩ := h2
              have hh := ih u (o + 1) st1 left2 st3 toks2 tr tg (hg.sub (mem_of_subGet hsub)).1 hm2 hlk2 hoff
                (fun c hc => hasc2 c (List.mem_cons_of_mem _ hc)) h1
              have h20 : r2 = 0 := by
                rw [hh.1, if_pos hr1] at h2; exact h2.symm
              have : b = true := hb.2 ⟨h20, hh.2⟩
              rw [hbb] at this; cases this
            | @fld _ len f v k toks2 tr2 hfn hrf hm2 =>
              have hsub : ∃ u, fldGet t.fields f = some u ∧ look u toks2 = some tg := by
                have h2 : post t (.fld f :: toks2) = match fldGet t.fields f with | none => none | some t' => lookAt toks2 t'.pfx t' := rfl
                rw [h2] at hlk
                cases hs : fldGet t.fields f with
                | none => rw [hs] at hlk; cases hlk
                | some u => rw [hs] at hlk; exact ⟨u, rfl, hlk⟩
              obtain ⟨u, hsub, hlk2⟩ := hsub
              have hmem := mem_of_fldGet hsub
              obtain ⟨st9, h9⟩ := v1Fields_complete hrun hm2.le hfn hrf (fun st left st' h => ih u (o + len) st left st' toks2 tr2 tg
                (hg.field hmem).1 hm2 hlk2 (fun x hx => hoff x (List.mem_cons_of_mem _ hx))
                (fun c hc => hasc2 c (List.mem_cons_of_mem _ hc)) h) t.fields _ _ _ _ hipt hmem hl1
              cases h9
            | @rest _ f toks2 tr2 hfr _ hm2 =>
              have hsub : ∃ u, fldGet t.fields f = some u := by
                have h2 : post t (.fld f :: toks2) = match fldGet t.fields f with | none => none | some t' => lookAt toks2 t'.pfx t' := rfl
                rw [h2] at hlk
                cases hs : fldGet t.fields f with
                | none => rw [hs] at hlk; cases hlk
                | some u => exact ⟨u, rfl⟩
              obtain ⟨u, hsub⟩ := hsub
              exact hresthit (hrest2 _ (mem_of_fldGet hsub) hfr) hbb

/-! ### the search ends -/

theorem sizeOf_field {t : PTree} {f : V1Field} {u : PTree} (h : (f, u) ∈ t.fields) : sizeOf u < sizeOf t := by
  cases t with
  | node p b tg fs ss =>
    have h1 := List.sizeOf_lt_of_mem h
    simp only [PTree.node.sizeOf_spec]
    have h2 : sizeOf (f, u) = 1 + sizeOf f + sizeOf u := rfl
    simp only [PTree.fields] at h1
    omega

theorem sizeOf_sub {t : PTree} {c : UInt8} {u : PTree} (h : (c, u) ∈ t.subs) : sizeOf u < sizeOf t := by
  cases t with
  | node p b tg fs ss =>
    have h1 := List.sizeOf_lt_of_mem h
    simp only [PTree.node.sizeOf_spec]
    have h2 : sizeOf (c, u) = 1 + sizeOf c + sizeOf u := rfl
    simp only [PTree.subs] at h1
    omega


theorem v1Fields_total {F : V1Field → Prop} {run : V1Run} {s : Bytes} (hrun : V1RunOK F run s) {rec : PTree → Nat → V1St → R (Int × V1St)} {offs : Nat}
    (ho : offs ≤ s.length) : ∀ (l : List (V1Field × PTree)) (r : Int) (rest : Option (V1Field × PTree)) (st : V1St),
    (∀ x ∈ l, F x.1 ∧ x.1.prs ≠ .iptables) →
    (∀ x ∈ l, ∀ off st left st', off ≤ s.length → rec x.2 off st = .ok (left, st') → left = 0 → st'.en ≠ none) →
    (∀ x ∈ l, ∀ off st, off ≤ s.length → ∃ y, rec x.2 off st = .ok y) →
    ∃ res, v1Fields run s rec offs l r rest offs st = .ok res := by
  intro l
  induction l with
  | nil => intro r rest st _ _ _; exact ⟨_, rfl⟩
  | cons x l ih =>
    obtain ⟨f, t⟩ := x
    intro r rest st hi he ht
    have ih := fun r rest st => ih r rest st (fun x hx => hi x (List.mem_cons_of_mem _ hx)) (fun x hx => he x (List.mem_cons_of_mem _ hx))
      (fun x hx => ht x (List.mem_cons_of_mem _ hx))
    rw [v1Fields]
    cases hp : f.prs with
    | iptables => exact ((hi (f, t) List.mem_cons_self).2 hp).elim
    | rest => exact ih _ _ _
    | fn n =>
      dsimp only
      rcases hrun.total f offs (hi (f, t) List.mem_cons_self).1 ho with hf | ⟨len, v, hf⟩
      · rw [hf]; exact ih _ _ _
      · rw [hf]
        have hlen := hrun.within f offs len v (hi (f, t) List.mem_cons_self).1 ho hf
        dsimp only
        rw [sizeT_of_le hrun.toV1RunIn hlen]
        obtain ⟨⟨left, st1⟩, hy⟩ := ht (f, t) List.mem_cons_self (offs + len) st hlen
        rw [hy]
        obtain ⟨b, hb⟩ := v1Hit_total (he (f, t) List.mem_cons_self _ _ _ _ hlen hy)
        show ∃ res, (v1Hit left st1).bind _ = _
        rw [hb]
        cases b with
        | true => exact ⟨_, rfl⟩
        | false => exact ih _ _ _

/-- the search ends, without undefined behaviour -/
theorem v1Rec_total {pd : V1Pd} {run : V1Run} {s : Bytes} (hrun : V1RunOK pd.ok run s) : ∀ (fuel : Nat) (t : PTree) (offs : Nat)
    (st : V1St), t.Good pd → offs ≤ s.length → sizeOf t < fuel → ∃ y, v1Rec run s fuel t offs st = .ok y := by
  intro fuel
  induction fuel with
  | zero => intro t offs st _ _ h; omega
  | succ n ih =>
    intro t offs st hg ho hn
    have hsound := v1Rec_sound (pd := pd) hrun.toV1RunIn n
    rw [v1Rec]
    by_cases hend : s.length ≤ offs
    · rw [if_pos hend]; exact ⟨_, rfl⟩
    · rw [if_neg hend]
      dsimp only
      have hc2 := cmpLen_le_left (s.drop offs) t.pfx
      rw [List.length_drop] at hc2
      generalize cmpLen (s.drop offs) t.pfx = m at *
      by_cases hm : m < t.pfx.length
      · rw [if_pos hm]; split <;> exact ⟨_, rfl⟩
      · rw [if_neg hm]
        have ho' : offs + m ≤ s.length := by omega
        have hipt : ∀ x ∈ t.fields, pd.ok x.1 ∧ x.1.prs ≠ .iptables := fun x hx =>
          ⟨(hg.field (f := x.1) (t' := x.2) hx).2.1.2, (hg.field (f := x.1) (t' := x.2) hx).2.2.1⟩
        have hrs := fun (x : V1Field × PTree) (hx : x ∈ t.fields) off st left st' (ho : off ≤ s.length) h =>
          hsound x.2 off st left st' (hg.field (f := x.1) (t' := x.2) hx).1 ho h
        have hrt := fun (x : V1Field × PTree) (hx : x ∈ t.fields) off st (ho : off ≤ s.length) =>
          ih x.2 off st (hg.field (f := x.1) (t' := x.2) hx).1 ho (by have := sizeOf_field (f := x.1) (u := x.2) hx; omega)
        obtain ⟨lp, hlp⟩ := v1Fields_total hrun ho' t.fields ((s.length : Int) - (offs + m : Nat)) none st hipt
          (fun x hx off st left st' ho h => (hrs x hx off st left st' ho h).en) hrt
        have hloop := v1Fields_spec hrun.toV1RunIn ho' t.fields _ none st lp hipt hrs hlp
        rw [hlp]
        show ∃ y, v1After s (v1Rec run s n) t (offs + m) lp = .ok y
        cases hloop with
        | hit => exact ⟨_, rfl⟩
        | @miss r' rest' st1 hj hr hr0 hrest _ _ =>
          simp only [v1After]
          cases hch : s[offs + m]? with
          | none => exact ⟨_, rfl⟩
          | some c =>
            dsimp only
            have hlt : offs + m < s.length := (List.getElem?_eq_some_iff.1 hch).1
            have hr1 : 0 < r' := hr0 (by omega)
            have hlit : ∃ r2 st2, v1Lit (v1Rec run s n) (subGet t.subs c) (offs + m) r' st1 = .ok (r2, st2) ∧ (r2 = 0 → st2.en ≠ none) := by
              unfold v1Lit
              cases hsub : subGet t.subs c with
              | none => exact ⟨_, _, rfl, fun h => by omega⟩
              | some u =>
                have hmem := mem_of_subGet hsub
                obtain ⟨⟨left2, st3⟩, hy⟩ := ih u (offs + m + 1) st1 (hg.sub hmem).1 hlt (by have := sizeOf_sub hmem; omega)
                have hs := hsound u (offs + m + 1) st1 left2 st3 (hg.sub hmem).1 hlt hy
                dsimp only
                rw [hy]
                refine ⟨_, _, rfl, fun h => ?_⟩
                split at h
                · exact hs.en h
                · omega
            obtain ⟨r2, st2, hl, he⟩ := hlit
            obtain ⟨b, hb⟩ := v1Hit_total he
            rw [hl]
            show ∃ y, (v1Hit r2 st2).bind _ = _
            rw [hb]
            cases b with
            | true => exact ⟨_, rfl⟩
            | false =>
              show ∃ y, v1Rest s (v1Rec run s n) rest' (offs + m) r2 st2 = .ok y
              unfold v1Rest
              cases hrs' : rest' with
              | none => exact ⟨_, rfl⟩
              | some x =>
                obtain ⟨f, u⟩ := x
                obtain ⟨y, hy, hyr, hye⟩ := hrest.resolve_left (by rw [hrs']; simp)
                rw [hrs'] at hye
                cases hye
                obtain ⟨⟨z1, z2⟩, hz⟩ := hrt _ hy s.length st2 (Nat.le_refl _)
                dsimp only
                rw [hz]
                exact ⟨_, rfl⟩

end LN
