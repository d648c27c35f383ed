import Verif.Proofs.SampDoc
import Verif.Spec.LoadTerm
import Verif.Props.Build
/- Loading terminates and keeps the graph intact. -/
set_option autoImplicit false
namespace LN

/-- outcome without use after free; `Q` on success; it may run forever only if `T` -/
def MemT {α : Type} (T : Prop) (Q : α → Prop) : R α → Prop
  | .ok a => Q a
  | .fail => False
  | .ub k => k ≠ .useAfterFree
  | .oof => T

namespace MemT
variable {α β : Type} {T : Prop} {P : α → Prop} {Q : β → Prop}

theorem bind {x : R α} {f : α → R β} (hx : MemT T P x) (hf : ∀ a, P a → MemT T Q (f a)) :
    MemT T Q (x.bind f) := by
  cases x with
  | ok a => exact hf a hx
  | fail => exact hx
  | ub k => exact hx
  | oof => exact hx

theorem of {x : R α} (hx : Mem P x) : MemT T P x := by
  cases x with
  | ok a => exact hx
  | fail => exact hx
  | ub k => exact hx
  | oof => exact hx.elim

theorem mono {x : R α} {P' : α → Prop} (hx : MemT T P x) (h : ∀ a, P a → P' a) : MemT T P' x := by
  cases x with
  | ok a => exact h a hx
  | fail => exact hx
  | ub k => exact hx
  | oof => exact hx

end MemT

/-- the graph of the state is intact -/
def LoadSt.Good (st : LoadSt) : Prop := Inv st.b st.b.ctxRefs

theorem lexRuleF_ub {env : Env} : ∀ (fuel : Nat) (s : Bytes) (k : UB), (lexRuleF env fuel s).fin = .ub k → k = .oobRead
  | 0, s, k, h => by cases h
  | fuel + 1, s, k, h => by
    have hf : ∀ (t : Bytes) (k : UB), fieldDescr env t = .ub k → k = .oobRead := by
      have htail : ∀ (n ty : Bytes) (j : Option Json) (e : List LoadErr) (r : Bytes) (k : UB),
          legacyTail env n ty j e r = .ub k → k = .oobRead := by
        intro n ty j e r k h
        unfold legacyTail at h
        split at h
        · cases h; rfl
        · split at h <;> cases h
      intro t k h
      unfold fieldDescr at h
      dsimp only at h
      split at h
      · cases h; rfl
      · split at h
        · split at h
          · cases h
          · split at h
            · cases h
            · split at h <;> cases h
        · unfold legacyField at h
          dsimp only at h
          split at h
          · cases h
          · split at h
            · cases h
            · split at h
              · cases h
              · split at h
                · cases h
                · split at h
                  · split at h <;> exact htail _ _ _ _ _ _ h
                  · exact htail _ _ _ _ _ _ h
    unfold lexRuleF at h
    dsimp only at h
    split at h
    · cases h
    · split at h
      · rename_i hd
        cases h
        exact hf _ _ hd
      · cases h
      · exact lexRuleF_ub fuel _ k h

theorem addSamp_false {env : Env} {b : Bld} {dag : NodeId} {cs : List Json} {tags : Option (List Bytes)} {file : Bytes} {line : Nat} :
    addSamp env b dag cs false tags file line = (addSeq env cs b dag).bind fun x => .ok x.1 := by
  unfold addSamp
  refine R_bind_congr _ fun x => ?_
  obtain ⟨b, r⟩ := x
  cases r <;> rfl

theorem addSampText_good {env : Env} {st : LoadSt} {dag : NodeId} {text : Bytes} {tags : Option (List Bytes)}
    (h : ∀ complete, Mem (fun x : Bld => Inv x x.ctxRefs)
      (addSamp env st.b dag (lexRule env text).confs complete tags (st.file.getD []) st.line)) :
    Mem LoadSt.Good (addSampText env st dag text tags) := by
  unfold addSampText
  dsimp only
  split
  · exact Mem.bind (h true) fun b hb => hb
  · exact Mem.bind (h false) fun b hb => hb
  · rename_i k hk
    have h1 := h false
    rw [addSamp_false] at h1
    have hk' : k = .oobRead := lexRuleF_ub _ _ _ hk
    subst hk'
    cases hx : addSeq env (lexRule env text).confs st.b dag with
    | ok x =>
      obtain ⟨b, r⟩ := x
      rw [hx] at h1
      cases r with
      | none => exact h1
      | some n => exact (by decide : UB.oobRead ≠ UB.useAfterFree)
    | fail => rw [hx] at h1; exact h1
    | ub k => rw [hx] at h1; exact h1
    | oof => rw [hx] at h1; exact h1

theorem tagLoop_result : ∀ (s : Bytes) (cur : Option Bytes) (acc : List Bytes),
    tagLoop s cur acc ≠ .oof ∧ tagLoop s cur acc ≠ .ub .useAfterFree
  | [], cur, acc => by unfold tagLoop; simp
  | c :: t, cur, acc => by
    unfold tagLoop
    split
    · cases cur <;> simp
    · split
      · cases cur with
        | none => simp
        | some w => exact tagLoop_result t _ _
      · exact tagLoop_result t _ _

theorem processRule_good {env : Env} {st : LoadSt} (h : st.Good) (s : Bytes) : Mem LoadSt.Good (processRule env st s) := by
  unfold processRule
  have h1 := tagLoop_result s none []
  split
  · exact h
  · rename_i hk
    intro he
    rw [hk, he] at h1
    exact h1.2 rfl
  · rename_i hk
    exact h1.1 hk
  · split
    · exact h
    · refine addSampText_good fun complete => ?_
      exact (BOp.run_ok (env := env) (srt := stableSorter) h (.rule _ complete _ _ _)).mono fun x hx => hx.1

theorem processType_good {env : Env} {st : LoadSt} (h : st.Good) (s : Bytes) : Mem LoadSt.Good (processType env st s) := by
  unfold processType
  split
  · exact h
  · exact h
  · split
    · exact h
    · dsimp only
      refine addSampText_good fun complete => ?_
      exact (BOp.run_ok (env := env) (srt := stableSorter) h (.typeDef _ _ complete _ _ _)).mono fun x hx => hx.1

theorem dropWhile_suffix' (p : UInt8 → Bool) (s : Bytes) : s.dropWhile p <:+ s := List.dropWhile_suffix p

theorem getAnnotationOp_rest {s t : Bytes} {op : Option AnnotOp} (h : getAnnotationOp s = .ok op t) :
    (s.dropWhile isSpace = [] ∧ t = s ∧ op = none) ∨ (t <:+ s ∧ t.length < s.length) := by
  unfold getAnnotationOp at h
  split at h
  · rename_i hd
    cases h
    exact .inl ⟨hd, rfl, rfl⟩
  · rename_i c u hd
    have hs : c :: u <:+ s := hd ▸ dropWhile_suffix' isSpace s
    have hpos : 0 < s.length := by have := hs.length_le; simp at this; omega
    right
    split at h
    · cases h
      exact ⟨List.nil_suffix, by simpa using hpos⟩
    · split at h
      · cases h
      · split at h
        · cases h
        · generalize hgf : getFieldName u = gf at h
          obtain ⟨nm, rest⟩ := gf
          dsimp only at h
          split at h
          · cases h
          · rename_i d v
            split at h
            · cases h
            · split at h
              · cases h
              · rename_i q w hw
                split at h
                · cases h
                · simp only [AOpRes.ok.injEq] at h
                  rw [← h.2]
                  have e1 : (w.dropWhile fun x => x != ch! '"').drop 1 <:+ w :=
                    (List.drop_suffix ..).trans (dropWhile_suffix' _ _)
                  have e2 : q :: w <:+ v := hw ▸ dropWhile_suffix' isSpace v
                  have e3 : d :: v <:+ u := by
                    have : (getFieldName u).2 = d :: v := by rw [hgf]
                    rw [← this]
                    exact dropWhile_suffix' _ _
                  have e4 : w <:+ s := (List.suffix_cons q w).trans (e2.trans ((List.suffix_cons d v).trans
                    (e3.trans ((List.suffix_cons c u).trans hs))))
                  refine ⟨e1.trans e4, ?_⟩
                  have l1 := e1.length_le
                  have l2 := e2.length_le
                  have l3 := e3.length_le
                  have l4 := hs.length_le
                  simp only [List.length_cons] at l2 l3 l4
                  omega

theorem annotLoop_result : ∀ (fuel : Nat) (a : Annot) (s : Bytes), (∃ x, annotLoop fuel a s = .ok x) ∨ annotLoop fuel a s = .oof
  | 0, a, s => by
    unfold annotLoop
    split
    · exact .inl ⟨_, rfl⟩
    · exact .inr rfl
  | fuel + 1, a, s => by
    unfold annotLoop
    split
    · exact .inl ⟨_, rfl⟩
    · dsimp only
      split
      · exact .inl ⟨_, rfl⟩
      · exact annotLoop_result fuel _ _
      · exact annotLoop_result fuel _ _

theorem all_of_dropWhile_nil {p : UInt8 → Bool} : ∀ {s : Bytes}, s.dropWhile p = [] → ∀ x ∈ s, p x = true
  | [], _, x, hx => by cases hx
  | c :: t, h, x, hx => by
    rw [List.dropWhile_cons] at h
    split at h
    · rename_i hc
      rcases List.mem_cons.1 hx with rfl | hx
      · exact hc
      · exact all_of_dropWhile_nil h x hx
    · cases h

theorem not_blank_of_last {s : Bytes} (hne : s ≠ []) (hl : ∀ c ∈ s.getLast?, isSpace c = false) : s.dropWhile isSpace ≠ [] := by
  intro h
  have hc : s.getLast? = some (s.getLast hne) := List.getLast?_eq_some_getLast hne
  have h1 := hl _ (by rw [hc]; rfl)
  have h2 : ∀ x ∈ s, isSpace x = true := all_of_dropWhile_nil h
  rw [h2 _ (List.getLast_mem hne)] at h1
  cases h1

theorem last_suffix {t s : Bytes} (h : t <:+ s) (hl : ∀ c ∈ s.getLast?, isSpace c = false) : ∀ c ∈ t.getLast?, isSpace c = false := by
  intro c hc
  obtain ⟨u, rfl⟩ := h
  refine hl c ?_
  have h1 : t.getLast? = some c := hc
  show (u ++ t).getLast? = some c
  rw [List.getLast?_append, h1]
  rfl

theorem annotLoop_ends : ∀ (fuel : Nat) (a : Annot) (s : Bytes), (∀ c ∈ s.getLast?, isSpace c = false) → s.length ≤ fuel →
    annotLoop fuel a s ≠ .oof
  | 0, a, s, _, hf => by
    have : s = [] := List.length_eq_zero_iff.1 (by omega)
    subst this
    unfold annotLoop
    simp
  | fuel + 1, a, s, hl, hf => by
    unfold annotLoop
    split
    · simp
    · rename_i hne
      dsimp only
      have hnb := not_blank_of_last hne hl
      split
      · simp
      · rename_i t hg
        rcases getAnnotationOp_rest hg with ⟨h1, _⟩ | ⟨h1, h2⟩
        · exact absurd h1 hnb
        · exact annotLoop_ends fuel _ _ (last_suffix h1 hl) (by omega)
      · rename_i t hg
        rcases getAnnotationOp_rest hg with ⟨h1, _⟩ | ⟨h1, h2⟩
        · exact absurd h1 hnb
        · exact annotLoop_ends fuel _ _ (last_suffix h1 hl) (by omega)

theorem processAnnotate_good {fuel : Nat} {st : LoadSt} (h : st.Good) (s : Bytes) {T : Prop}
    (hT : T ∨ ((∀ c ∈ s.getLast?, isSpace c = false) ∧ s.length ≤ fuel)) : MemT T LoadSt.Good (processAnnotate fuel st s) := by
  unfold processAnnotate
  dsimp only
  split
  · rename_i c t tag hd ht
    split
    · exact h
    · have hsuf : t <:+ s := by
        have : c :: t <:+ (getFieldName s).2 := hd ▸ dropWhile_suffix' isSpace _
        exact (List.suffix_cons c t).trans (this.trans (dropWhile_suffix' _ _))
      rcases annotLoop_result fuel { tag := tag, ops := [] } t with ⟨⟨a, e⟩, hx⟩ | hx
      · rw [hx, R.ok_bind']
        dsimp only
        cases e <;> cases a <;> exact h
      · rw [hx]
        rcases hT with hT | ⟨h1, h2⟩
        · exact hT
        · exact absurd hx (annotLoop_ends _ _ _ (last_suffix hsuf h1) (Nat.le_trans hsuf.length_le h2))
  · exact h

theorem processSamp_good {env : Env} {inc : IncludeRec} {fuel : Nat} {st : LoadSt} (h : st.Good) (l : Bytes) {T : Prop}
    (hinc : ∀ st f, st.Good → includes l f → MemT T (fun r : LoadSt × Bool => r.1.Good) (inc st f))
    (hT : T ∨ (AnnotOK l ∧ l.length ≤ fuel)) :
    MemT T (fun r : LoadSt × Bool => r.1.Good) (processSamp env inc fuel st l) := by
  have hsuf : (lineType l).2 <:+ l := (List.drop_suffix ..).trans (dropWhile_suffix' _ _)
  unfold processSamp
  dsimp only
  split
  · exact h
  · split
    · exact h
    · split
      · split
        · split
          · exact h
          · exact (by decide : UB.nullDeref ≠ UB.useAfterFree)
        · exact h
      · split
        · exact MemT.bind (MemT.of (processRule_good h _)) fun x hx => hx
        · split
          · exact MemT.bind (MemT.of (processType_good h _)) fun x hx => hx
          · split
            · rename_i hk
              refine MemT.bind (processAnnotate_good h _ ?_) fun x hx => hx
              rcases hT with hT | ⟨h1, h2⟩
              · exact .inl hT
              · exact .inr ⟨last_suffix hsuf (h1 hk), Nat.le_trans hsuf.length_le h2⟩
            · split
              · rename_i hk
                unfold processInclude
                split
                · exact (by decide : UB.oobRead ≠ UB.useAfterFree)
                · rename_i c t hc
                  exact MemT.bind (hinc st _ h ⟨hk, c, t, hc, rfl⟩) fun x hx => hx
              · exact h

theorem readLine_rest (src : Src) : ∀ (inp : Bytes) (line : Nat) (acc : Bytes) (inP comment : Bool) (errs : List LoadErr),
    acc.length < maxLine →
    (((readLine src inp line acc inP comment errs).eof = false →
      (readLine src inp line acc inP comment errs).rest.length < inp.length) ∧
    ∀ l, (readLine src inp line acc inP comment errs).buf = some l → l.length < maxLine)
  | [], line, acc, inP, comment, errs, ha => by
    unfold readLine
    split
    · simp
    · refine ⟨by simp, fun l hl => ?_⟩
      dsimp only at hl
      split at hl
      · cases hl
      · cases hl; exact ha
  | c :: t, line, acc, inP, comment, errs, ha => by
    have step : ∀ (line : Nat) (acc : Bytes) (inP comment : Bool) (errs : List LoadErr), acc.length < maxLine →
      (((readLine src t line acc inP comment errs).eof = false →
        (readLine src t line acc inP comment errs).rest.length < (c :: t).length) ∧
      ∀ l, (readLine src t line acc inP comment errs).buf = some l → l.length < maxLine) := by
      intro line acc inP comment errs ha
      have := readLine_rest src t line acc inP comment errs ha
      refine ⟨fun he => ?_, this.2⟩
      have := this.1 he
      simp; omega
    unfold readLine
    split
    · split
      · split
        · simp
        · exact step _ _ _ _ _ ha
      · refine ⟨by simp, fun l hl => ?_⟩
        dsimp only at hl
        split at hl
        · cases hl
        · cases hl; exact ha
    · split
      · split
        · exact step _ _ _ _ _ ha
        · exact step _ _ _ _ _ ha
      · split
        · split
          · exact step _ _ _ _ _ (by decide)
          · split
            · refine ⟨by simp, fun l hl => ?_⟩
              dsimp only at hl
              cases hl; exact ha
            · exact step _ _ _ _ _ ha
        · split
          · exact step _ _ _ _ _ ha
          · dsimp only
            split
            · exact ⟨by simp, by simp⟩
            · refine step _ _ _ _ _ ?_
              rw [List.length_append]
              simp
              omega

theorem readAll_good {env : Env} {inc : IncludeRec} {fuel : Nat} {src : Src} {T : Prop} : ∀ (rounds : Nat) (st : LoadSt) (inp : Bytes),
    st.Good → inp.length < rounds →
    (∀ st f l, st.Good → IsLine src inp l → includes l f → MemT T (fun r : LoadSt × Bool => r.1.Good) (inc st f)) →
    (T ∨ (65536 ≤ fuel ∧ ∀ l, IsLine src inp l → AnnotOK l)) →
    MemT T (fun r : LoadSt × Bool => r.1.Good) (readAll env inc fuel src rounds st inp)
  | 0, st, inp, _, h, _, _ => by omega
  | rounds + 1, st, inp, hg, hr, hinc, hT => by
    rw [readAll_succ]
    have hrest := readLine_rest src inp st.line [] false false [] (by decide)
    refine MemT.bind (P := fun r : LoadSt × Bool => r.1.Good) ?_ ?_
    · unfold afterLine
      dsimp only
      split
      · exact hg
      · rename_i l hl
        have hil : IsLine src inp l := .here st.line hl
        refine processSamp_good (T := T) (st := { st with line := (readLine src inp st.line [] false false []).line
                                                        , errs := st.errs ++ (readLine src inp st.line [] false false []).errs }) hg l (fun st f h1 h2 => hinc st f l h1 hil h2) ?_
        rcases hT with h | ⟨h1, h2⟩
        · exact .inl h
        · have := hrest.2 l hl
          unfold maxLine at this
          exact .inr ⟨h2 l hil, by omega⟩
    · rintro ⟨st1, ok⟩ hg1
      dsimp only
      split
      · exact hg1
      · split
        · exact hg1
        · rename_i he
          have he' : (readLine src inp st.line [] false false []).eof = false := by simpa using he
          refine readAll_good rounds st1 _ hg1 (by have := hrest.1 he'; omega) ?_ ?_
          · intro st f l h1 h2 h3
            exact hinc st f l h1 (.next _ he' h2) h3
          · rcases hT with h | ⟨h1, h2⟩
            · exact .inl h
            · exact .inr ⟨h1, fun l hl => h2 l (.next _ he' hl)⟩

theorem optimizeTop_good {srt : Sorter} {st : LoadSt} (h : st.Good) : Mem LoadSt.Good (optimizeTop srt st) := by
  unfold optimizeTop
  split
  · refine Mem.bind (P := fun b : Bld => Inv b b.ctxRefs)
      ((BOp.run_ok (env := ⟨fun _ => none, id, 0, fun _ => [], fun _ => 0, fun _ => 0⟩) (srt := srt) h .optimize).mono fun x hx => hx.1) fun b hb => hb
  · exact h

theorem loadSamples_good {env : Env} {srt : Sorter} {fs : Bytes → Option Bytes} {T : Prop} {rank : Bytes → Nat} :
    ∀ (fuel : Nat) (st : LoadSt) (f : Bytes), st.Good →
    (T ∨ (FilesOK fs rank ∧ 65536 + rank f < fuel)) →
    MemT T (fun r : LoadSt × Bool => r.1.Good) (loadSamples env srt fs fuel st f)
  | 0, st, f, _, hT => by
    rcases hT with h | ⟨_, h⟩
    · exact h
    · omega
  | fuel + 1, st, f, hg, hT => by
    unfold loadSamples
    refine MemT.bind (P := fun r : LoadSt × Bool => r.1.Good) ?_ fun r hr => hr
    unfold sampLoad
    split
    · exact hg
    · exact hg
    · rename_i c hc hfs
      dsimp only
      have main : MemT T (fun r : LoadSt × Bool => r.1.Good)
        ((readAll env (loadSamples env srt fs fuel) fuel Src.file ((List.drop (List.length versionLine) c).length + 1)
              { b := st.b, annots := st.annots, rulePrefix := st.rulePrefix, file := some f, line := 0 + 1,
                level := st.level + 1, version := 2, errs := st.errs }
              (List.drop (List.length versionLine) c)).bind
          fun x =>
          if (!x.snd) = true then R.ok (x.fst, false) else (optimizeTop srt x.fst).bind fun st => R.ok (st, true)) := by
        refine MemT.bind (P := fun r : LoadSt × Bool => r.1.Good) (readAll_good _ _ _ hg (Nat.lt_succ_self _) ?_ ?_) ?_
        · intro st' g l h1 h2 h3
          refine loadSamples_good (rank := rank) fuel st' g h1 ?_
          rcases hT with h | ⟨h4, h5⟩
          · exact .inl h
          · have := (h4 f c l hfs h2).2 g h3
            exact .inr ⟨h4, by omega⟩
        · rcases hT with h | ⟨h4, h5⟩
          · exact .inl h
          · exact .inr ⟨by omega, fun l hl => (h4 f c l hfs hl).1⟩
        · rintro ⟨st1, ok⟩ h1
          dsimp only
          split
          · exact h1
          · exact MemT.bind (MemT.of (optimizeTop_good h1)) fun x hx => hx
      generalize (if versionLine.isPrefixOf c = true then 2 else 1 : Nat) = v
      split
      · exact hg
      · split
        · exact hg
        · exact main

theorem loadFromString_good {env : Env} {srt : Sorter} {fs : Bytes → Option Bytes} {T : Prop} {rank : Bytes → Nat}
    (fuel : Nat) (st : LoadSt) (s : Bytes) (hg : st.Good)
    (hT : T ∨ (FilesOK fs rank ∧ 65536 ≤ fuel ∧
      ∀ l, IsLine .string s l → AnnotOK l ∧ ∀ g, includes l g → 65536 + rank g < fuel)) :
    MemT T (fun r : LoadSt × Bool => r.1.Good) (loadSamplesFromString env srt fs fuel st s) := by
  unfold loadSamplesFromString
  refine MemT.bind (P := fun r : LoadSt × Bool => r.1.Good) ?_ fun r hr => hr
  unfold sampLoadFromString
  refine MemT.bind (P := fun r : LoadSt × Bool => r.1.Good) (readAll_good _ _ _ hg (Nat.lt_succ_self _) ?_ ?_) ?_
  · intro st' g l h1 h2 h3
    refine loadSamples_good (rank := rank) fuel st' g h1 ?_
    rcases hT with h | ⟨h4, h5, h6⟩
    · exact .inl h
    · exact .inr ⟨h4, (h6 l h2).2 g h3⟩
  · rcases hT with h | ⟨h4, h5, h6⟩
    · exact .inl h
    · exact .inr ⟨h5, fun l hl => (h6 l hl).1⟩
  · rintro ⟨st1, ok⟩ h1
    dsimp only
    split
    · exact h1
    · exact MemT.bind (MemT.of (optimizeTop_good h1)) fun x hx => hx

end LN
