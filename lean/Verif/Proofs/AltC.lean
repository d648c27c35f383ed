import Verif.Proofs.AltB
import Verif.Proofs.DocD
import Verif.Spec.DocA
/- Rule bases with alternatives, from text to graph. -/
set_option autoImplicit false
namespace LN
open Spec

section
variable {env : Env} {srt : Sorter}

/-- a literal character as it reaches the graph -/
def litItem (c : UInt8) : AItem := ⟨tokConf (RuleD.litTok c), [tokConf (RuleD.litTok c)]⟩

/-- a rule as it reaches the graph -/
def RuleA.toA (env : Env) (r : RuleA) : ARule :=
  { items := (litMeaning env r.lit).map litItem ++
      r.parts.flatMap fun p => ⟨.obj p.1.conf, p.1.choices.map tokConf⟩ :: (litMeaning env p.2).map litItem
    tags := tagBucket r.tags, file := r.file, line := r.line, complete := r.breaks.isNone }

theorem toA_offers (r : RuleA) : (r.toA env).offers = (r.offers env).map (·.map tokConf) := by
  have hl : ∀ l : Bytes, (l.map litItem).map (·.choices) = (l.map fun c => [RuleD.litTok c]).map (·.map tokConf) := by
    intro l; simp [litItem]
  unfold ARule.offers RuleA.toA RuleA.offers
  dsimp only
  rw [List.map_append, List.map_append, hl]
  congr 1
  generalize r.parts = ps
  induction ps with
  | nil => rfl
  | cons p ps ih =>
    rw [List.flatMap_cons, List.flatMap_cons, List.map_append, List.map_append, ih, List.map_cons, List.map_cons, hl]

theorem toA_confs (r : RuleA) : (r.toA env).items.map (·.conf) = ruleConfs env r.lit (r.parts.map fun p => (.obj p.1.conf, p.2)) := by
  have hl : ∀ l : Bytes, (l.map litItem).map (·.conf) = litParsers l := by
    intro l
    unfold litParsers
    rw [List.map_map]; rfl
  unfold RuleA.toA ruleConfs
  dsimp only
  rw [List.map_append, hl]
  congr 1
  generalize r.parts = ps
  induction ps with
  | nil => rfl
  | cons p ps ih =>
    rw [List.flatMap_cons, List.map_append, ih, List.map_cons, hl]; rfl

theorem RuleA.lexW {r : RuleA} (hr : ∀ p ∈ r.parts, p.1.OK env) :
    (lexRule env (ruleText r.lit (r.parts.map fun p => (p.1.written, p.2)))).confs = (r.toA env).items.map (·.conf) ∧
      (lexRule env (ruleText r.lit (r.parts.map fun p => (p.1.written, p.2)))).fin = .complete ∧
      (lexRule env (ruleText r.lit (r.parts.map fun p => (p.1.written, p.2)))).errs = [] := by
  have := C49_rule_text (env := env) r.lit (r.parts.map fun p => (p.1.written, Json.obj p.1.conf, p.2)) (by
    intro p hp
    obtain ⟨x, hx, rfl⟩ := List.mem_map.1 hp
    exact (hr x hx).decl)
  simp only [List.map_map, Function.comp_def] at this
  rw [toA_confs]
  exact this

theorem RuleA.lex {r : RuleA} (hr : r.OK env) :
    (∀ (b : Bld) (dag : NodeId) (tags : Option (List Bytes)) (file : Bytes) (line : Nat),
      addSamp env b dag (lexRule env r.text).confs (decide ((lexRule env r.text).fin = .complete)) tags file line =
        addSamp env b dag ((r.toA env).items.map (·.conf)) r.breaks.isNone tags file line) ∧
      (∀ k, (lexRule env r.text).fin ≠ .ub k) ∧ (lexRule env r.text).errs = r.msgs := by
  cases hb : r.breaks with
  | none =>
    have ht : r.text = ruleText r.lit (r.parts.map fun p => (p.1.written, p.2)) := by unfold RuleA.text; rw [hb]; simp
    have hm : r.msgs = [] := by unfold RuleA.msgs; rw [hb]; rfl
    rw [ht, hm]
    obtain ⟨h1, h2, h3⟩ := RuleA.lexW hr.parts
    exact ⟨fun b dag tags file line => by rw [h1, h2]; rfl, (fun k hc => by rw [h2] at hc; cases hc), h3⟩
  | some x =>
    obtain ⟨bt, es⟩ := x
    have ht : r.text = ruleText r.lit (r.parts.map fun p => (p.1.written, p.2)) ++ bt := by unfold RuleA.text; rw [hb]; rfl
    have hm : r.msgs = es := by unfold RuleA.msgs; rw [hb]; rfl
    have hdecl : ∀ p ∈ r.parts.map fun p => (p.1.written, Json.obj p.1.conf, p.2), Declares env p.1 p.2.1 := by
      intro p hp
      obtain ⟨y, hy, rfl⟩ := List.mem_map.1 hp
      exact (hr.parts y hy).decl
    rw [ht, hm]
    have hbr := hr.broken _ hb
    dsimp only at hbr
    cases hbr with
    | malformed h =>
      have := lexRule_malformed h (r.parts.map fun p => (p.1.written, Json.obj p.1.conf, p.2)) r.lit hdecl
      simp only [List.map_map, Function.comp_def] at this
      rw [this]
      exact ⟨fun b dag tags file line => by rw [toA_confs]; rfl, (fun k hc => by cases hc), rfl⟩
    | @unknown f o ty lit parts hf hty hn hp =>
      have := C49_rule_text (env := env) r.lit ((r.parts.map fun p => (p.1.written, Json.obj p.1.conf, p.2)) ++ (f, Json.obj o, lit) :: parts) (by
        intro p hp'
        rcases List.mem_append.1 hp' with h | h
        · exact hdecl p h
        · rcases List.mem_cons.1 h with rfl | h
          · exact hf
          · exact hp p h)
      have e : ruleText r.lit (((r.parts.map fun p => (p.1.written, Json.obj p.1.conf, p.2)) ++ (f, Json.obj o, lit) :: parts).map fun p => (p.1, p.2.2)) =
          ruleText r.lit (r.parts.map fun p => (p.1.written, p.2)) ++ (f.text ++ ruleText lit (parts.map fun p => (p.1, p.2.2))) := by
        simp [ruleText, List.map_map, Function.comp_def]
      rw [e] at this
      obtain ⟨h1, h2, h3⟩ := this
      refine ⟨fun b dag tags file line => ?_, (fun k hc => by rw [h2] at hc; cases hc), h3⟩
      have e2 : ruleConfs env r.lit (((r.parts.map fun p => (p.1.written, Json.obj p.1.conf, p.2)) ++ (f, Json.obj o, lit) :: parts).map fun p => (p.2.1, p.2.2)) =
          (r.toA env).items.map (·.conf) ++ Json.obj o :: (litParsers (litMeaning env lit) ++ (parts.map fun p => (p.2.1, p.2.2)).flatMap fun p => p.1 :: litParsers (litMeaning env p.2)) := by
        rw [toA_confs]
        simp [ruleConfs, List.map_map, Function.comp_def]
      rw [h1, e2, addSamp_stops fun b dag => addParser_noType hty hn b dag]
      rfl

theorem doc_opsA : ∀ (ls : List Loc) (pfx : Option Bytes) (rules : List RuleA),
    (∀ l ∈ ls, ∀ nm t, l.what ≠ .type nm t) → ExtendOK pfx (ls.map (·.what)) →
    docRules pfx ls = rules.map (fun r => (r.tags, r.text, r.file, r.line)) →
    (∀ r ∈ rules, r.OK env) →
    (∀ (srt : Sorter) (b : Bld), (locOps env pfx ls).foldlM (BOp.run env srt) b =
        (((rules.map (RuleA.toA env)).map ARule.toDef).map Def.toOp).foldlM (BOp.run env srt) b) ∧ DocSafe env pfx (ls.map (·.what)) ∧
      defErrs env pfx (ls.map (·.what)) = rules.map RuleA.msgs
  | [], pfx, rules, _, _, h, _ => by
    cases rules with
    | nil => exact ⟨fun _ _ => rfl, trivial, rfl⟩
    | cons r rs => cases h
  | ⟨fl, n, l⟩ :: ls, pfx, rules, hty, hext, h, hf => by
    have hty' := fun x hx => hty x (List.mem_cons_of_mem _ hx)
    cases l with
    | rule tags t =>
      change (tags, pfx.getD [] ++ t, fl, n) :: docRules (RLine.nextPrefix pfx (.rule tags t)) ls = _ at h
      cases rules with
      | nil => cases h
      | cons r rs =>
        simp only [List.map_cons, List.cons.injEq, Prod.mk.injEq] at h
        obtain ⟨⟨h1, h2, h4, h3⟩, h⟩ := h
        obtain ⟨i1, i2, i3⟩ := doc_opsA ls _ rs hty' hext.2 h fun x hx => hf x (List.mem_cons_of_mem _ hx)
        obtain ⟨l1, l2, l3⟩ := RuleA.lex (hf r (List.mem_cons_self ..))
        rw [← h2] at l1 l2 l3
        refine ⟨?_, ⟨?_, i2⟩, ?_⟩
        · intro srt b
          have e : BOp.run env srt b (.rule (lexRule env (pfx.getD [] ++ t)).confs (decide ((lexRule env (pfx.getD [] ++ t)).fin = .complete)) (tagBucket tags) fl n) =
              BOp.run env srt b (ARule.toDef (RuleA.toA env r)).toOp := by
            rw [h1, h3, h4]
            exact l1 b b.root _ _ _
          show (BOp.run env srt b _).bind (fun b => (locOps env _ ls).foldlM (BOp.run env srt) b) = (BOp.run env srt b _).bind _
          rw [e]
          exact R_bind_congr _ fun b => i1 srt b
        · exact l2
        · rw [List.map_cons, List.map_cons]
          unfold defErrs
          rw [i3]
          simp only [RLine.errs, l3, RLine.isDef, if_true]
          rfl
    | type nm t => exact absurd rfl (hty _ (List.mem_cons_self ..) nm t)
    | extend t =>
      obtain ⟨i1, i2, i3⟩ := doc_opsA ls _ rules hty' hext.2 h hf
      exact ⟨i1, ⟨hext.1 t rfl, i2⟩, i3⟩
    | skip t =>
      obtain ⟨i1, i2, i3⟩ := doc_opsA ls _ rules hty' hext.2 h hf
      exact ⟨i1, ⟨trivial, i2⟩, i3⟩
    | prefix_ t =>
      obtain ⟨i1, i2, i3⟩ := doc_opsA ls _ rules hty' hext.2 h hf
      exact ⟨i1, ⟨trivial, i2⟩, i3⟩
    | annotate tag ops =>
      obtain ⟨i1, i2, i3⟩ := doc_opsA ls _ rules hty' hext.2 h hf
      exact ⟨i1, ⟨trivial, i2⟩, i3⟩
    | unknown k t =>
      obtain ⟨i1, i2, i3⟩ := doc_opsA ls _ rules hty' hext.2 h hf
      exact ⟨i1, ⟨trivial, i2⟩, i3⟩

/-! ### what rules offer and what is taken -/

/-- a choice from what is offered -/
abbrev Picks (offs : List (List (FType × Obj))) (ts : List (FType × Obj)) : Prop := List.Forall₂ (fun I t => t ∈ I) offs ts

theorem forall2_append_left {α β : Type} {R : α → β → Prop} : ∀ {a a' : List α} {ts : List β}, List.Forall₂ R (a ++ a') ts →
    ∃ x y, ts = x ++ y ∧ List.Forall₂ R a x ∧ List.Forall₂ R a' y
  | [], a', ts, h => ⟨[], ts, rfl, .nil, h⟩
  | c :: a, a', _, h => by
    cases h with
    | cons h1 h2 =>
      obtain ⟨x, y, rfl, h3, h4⟩ := forall2_append_left h2
      exact ⟨_ :: x, y, rfl, .cons h1 h3, h4⟩

theorem forall2_append {α β : Type} {R : α → β → Prop} {a a' : List α} {x y : List β} (h : List.Forall₂ R a x) (h' : List.Forall₂ R a' y) :
    List.Forall₂ R (a ++ a') (x ++ y) := by
  induction h with
  | nil => exact h'
  | cons h1 _ ih => exact .cons h1 ih

theorem picks_lits : ∀ (l : Bytes), Picks (l.map fun c => [RuleD.litTok c]) (l.map RuleD.litTok)
  | [] => .nil
  | c :: l => .cons (List.mem_singleton.2 rfl) (picks_lits l)

theorem picks_lits_inv : ∀ {l : Bytes} {ts : List (FType × Obj)}, Picks (l.map fun c => [RuleD.litTok c]) ts → ts = l.map RuleD.litTok
  | [], _, h => by cases h; rfl
  | c :: l, _, h => by
    cases h with
    | cons h1 h2 => rw [List.mem_singleton.1 h1, picks_lits_inv h2]; rfl

theorem RuleA.Takes.picks {r : RuleA} {d : RuleD} (h : r.Takes d) : Picks (r.offers env) (d.toks env) := by
  unfold RuleA.offers RuleD.toks
  rw [h.lit]
  refine forall2_append (picks_lits _) ?_
  have hp := h.parts
  generalize r.parts = ps at hp
  generalize d.parts = qs at hp
  induction hp with
  | nil => exact .nil
  | @cons p q ps qs h1 _ ih =>
    rw [List.flatMap_cons, List.flatMap_cons, h1.2.2]
    exact .cons h1.2.1 (forall2_append (picks_lits _) ih)

theorem RuleA.takes {r : RuleA} {ts : List (FType × Obj)} (h : Picks (r.offers env) ts) : ∃ d, r.Takes d ∧ d.toks env = ts := by
  obtain ⟨x, y, rfl, h1, h2⟩ := forall2_append_left h
  cases picks_lits_inv h1
  have key : ∀ (ps : List (PartA × Bytes)) (y : List (FType × Obj)),
      Picks (ps.flatMap fun p => p.1.choices :: (litMeaning env p.2).map fun c => [RuleD.litTok c]) y →
      ∃ qs : List (FieldD × Bytes), List.Forall₂ (fun p q => q.1.written = p.1.written ∧ (q.1.type, q.1.conf) ∈ p.1.choices ∧ q.2 = p.2) ps qs ∧
        qs.flatMap (fun p => (p.1.type, p.1.conf) :: (litMeaning env p.2).map RuleD.litTok) = y := by
    intro ps
    induction ps with
    | nil => intro y h; cases h; exact ⟨[], .nil, rfl⟩
    | cons p ps ih =>
      intro y h
      rw [List.flatMap_cons] at h
      cases h with
      | @cons _ t _ y h3 h4 =>
        obtain ⟨z, w, rfl, h5, h6⟩ := forall2_append_left h4
        cases picks_lits_inv h5
        obtain ⟨qs, h7, rfl⟩ := ih w h6
        exact ⟨(⟨p.1.written, t.1, t.2⟩, p.2) :: qs, .cons ⟨rfl, h3, rfl⟩ h7, rfl⟩
  obtain ⟨qs, h3, rfl⟩ := key r.parts y h2
  exact ⟨⟨r.tags, r.lit, qs, r.file, r.line, r.breaks⟩, ⟨rfl, rfl, rfl, rfl, rfl, h3⟩, rfl⟩

theorem picks_chosen : ∀ {offs : List (List (FType × Obj))} {ts : List (FType × Obj)}, Picks offs ts → Chosen (offs.map (·.map tokConf)) (ts.map tokConf)
  | [], _, h => by cases h; exact .nil
  | I :: offs, _, h => by
    cases h with
    | cons h1 h2 => exact .cons (List.mem_map.2 ⟨_, h1, rfl⟩) (picks_chosen h2)

theorem chosen_picks : ∀ {offs : List (List (FType × Obj))} {cs : List Json}, Chosen (offs.map (·.map tokConf)) cs → ∃ ts, cs = ts.map tokConf ∧ Picks offs ts
  | [], _, h => by cases h; exact ⟨[], rfl, .nil⟩
  | I :: offs, _, h => by
    cases h with
    | cons h1 h2 =>
      obtain ⟨t, ht, rfl⟩ := List.mem_map.1 h1
      obtain ⟨ts, rfl, h3⟩ := chosen_picks h2
      exact ⟨t :: ts, rfl, .cons ht h3⟩

/-- everything offered describes a field -/
theorem offers_desc {r : RuleA} (hr : ∀ p ∈ r.parts, p.1.OK env) : ∀ I ∈ r.offers env, I ≠ [] ∧ ∀ t ∈ I, Describes t.1 t.2 := by
  have hlit : ∀ (l : Bytes), ∀ I ∈ (litMeaning env l).map (fun c => [RuleD.litTok c]), I ≠ [] ∧ ∀ t ∈ I, Describes t.1 t.2 := by
    intro l I hI
    obtain ⟨c, hc, rfl⟩ := List.mem_map.1 hI
    refine ⟨by simp, fun t ht => ?_⟩
    rw [List.mem_singleton.1 ht]
    exact litTok_desc (litMeaning_ne l c hc)
  intro I hI
  rcases List.mem_append.1 hI with h | h
  · exact hlit _ I h
  · obtain ⟨p, hp, h⟩ := List.mem_flatMap.1 h
    rcases List.mem_cons.1 h with rfl | h
    · rcases (hr p hp).desc with ⟨f, h1, h2⟩ | h1
      · rw [h1]
        refine ⟨by simp, fun t ht => ?_⟩
        rw [List.mem_singleton.1 ht]; exact h2
      · exact ⟨h1.some_, h1.each⟩
    · exact hlit _ I h

theorem picks_mem : ∀ {offs : List (List (FType × Obj))} {ts : List (FType × Obj)}, Picks offs ts → ∀ t ∈ ts, ∃ I ∈ offs, t ∈ I
  | [], _, h, t, ht => by cases h; cases ht
  | I :: offs, _, h, t, ht => by
    cases h with
    | cons h1 h2 =>
      rcases List.mem_cons.1 ht with rfl | h3
      · exact ⟨I, List.mem_cons_self .., h1⟩
      · obtain ⟨J, h4, h5⟩ := picks_mem h2 t h3
        exact ⟨J, List.mem_cons_of_mem _ h4, h5⟩

theorem RuleA.Takes.desc {r : RuleA} {d : RuleD} (h : r.Takes d) (hr : ∀ p ∈ r.parts, p.1.OK env) : ∀ p ∈ d.parts, Describes p.1.type p.1.conf := by
  have hp := h.parts
  generalize r.parts = ps at hp hr
  generalize d.parts = qs at hp
  induction hp with
  | nil => intro p hp; cases hp
  | @cons p q ps qs h1 _ ih =>
    intro x hx
    rcases List.mem_cons.1 hx with rfl | hx
    · rcases (hr p (List.mem_cons_self ..)).desc with ⟨f, h2, h3⟩ | h2
      · have := h1.2.1
        rw [h2, List.mem_singleton, Prod.mk.injEq] at this
        rw [this.1, this.2]
        exact h3
      · exact h2.each _ h1.2.1
    · exact ih (fun y hy => hr y (List.mem_cons_of_mem _ hy)) x hx

theorem RuleA.Takes.part {r : RuleA} {d : RuleD} (h : r.Takes d) : ∀ q ∈ d.parts, ∃ p ∈ r.parts, (q.1.type, q.1.conf) ∈ p.1.choices := by
  have hp := h.parts
  generalize r.parts = ps at hp
  generalize d.parts = qs at hp
  induction hp with
  | nil => intro p hp; cases hp
  | @cons p q ps qs h1 _ ih =>
    intro x hx
    rcases List.mem_cons.1 hx with rfl | hx
    · exact ⟨p, List.mem_cons_self .., h1.2.1⟩
    · obtain ⟨y, h2, h3⟩ := ih x hx
      exact ⟨y, List.mem_cons_of_mem _ h2, h3⟩

theorem exists_picks : ∀ (offs : List (List (FType × Obj))), (∀ I ∈ offs, I ≠ []) → ∃ ts, Picks offs ts
  | [], _ => ⟨[], .nil⟩
  | I :: offs, h => by
    obtain ⟨ts, hts⟩ := exists_picks offs fun x hx => h x (List.mem_cons_of_mem _ hx)
    cases I with
    | nil => exact absurd rfl (h [] (List.mem_cons_self ..))
    | cons c I => exact ⟨c :: ts, .cons (List.mem_cons_self ..) hts⟩

theorem offs_inj : ∀ {a c : List (List (FType × Obj))}, (∀ I ∈ a, ∀ t ∈ I, Describes t.1 t.2) → (∀ I ∈ c, ∀ t ∈ I, Describes t.1 t.2) →
    a.map (·.map tokConf) = c.map (·.map tokConf) → a = c
  | [], [], _, _, _ => rfl
  | [], _ :: _, _, _, h => by cases h
  | _ :: _, [], _, _, h => by cases h
  | x :: a, y :: c, ha, hc, h => by
    simp only [List.map_cons, List.cons.injEq] at h
    rw [toks_inj (ha x (List.mem_cons_self ..)) (hc y (List.mem_cons_self ..)) h.1,
      offs_inj (fun I hI => ha I (List.mem_cons_of_mem _ hI)) (fun I hI => hc I (List.mem_cons_of_mem _ hI)) h.2]

/-- where the same can be taken the same is offered -/
theorem offers_eq {rules : List RuleA} (happ : KeepApart env rules) {r r' : RuleA} (hr : r ∈ rules) (hr' : r' ∈ rules) :
    ∀ (a c : List (List (FType × Obj))) (ts : List (FType × Obj)) (pre : List (List (FType × Obj))), pre ++ a = r.offers env → pre ++ c = r'.offers env →
      Picks a ts → Picks c ts → a = c
  | [], _, ts, pre, _, _, h1, h2 => by cases h1; cases h2; rfl
  | I :: a, _, ts, pre, h, h', h1, h2 => by
    cases h1 with
    | @cons _ t _ ts h3 h4 =>
      cases h2 with
      | @cons J _ c _ h5 h6 =>
        have hIJ : I = J := happ r hr r' hr' pre I J ⟨a, by rw [← h]; simp⟩ ⟨c, by rw [← h']; simp⟩ ⟨t, h3, h5⟩
        subst hIJ
        rw [offers_eq happ hr hr' a c ts (pre ++ [I]) (by rw [← h]; simp) (by rw [← h']; simp) h4 h6]

/-- what the rules offer, as it reaches the graph -/
def Offered (env : Env) (rules : List RuleA) (L : List (List Json)) : Prop := ∃ r ∈ rules, L <+: (r.offers env).map (·.map tokConf)

theorem offered_split {rules : List RuleA} {L : List (List Json)} {I : List Json} (h : Offered env rules (L ++ [I])) :
    ∃ r ∈ rules, ∃ a J z, r.offers env = a ++ J :: z ∧ L = a.map (·.map tokConf) ∧ I = J.map tokConf := by
  obtain ⟨r, hr, u, hu⟩ := h
  obtain ⟨x, z, h1, h2, h3⟩ := List.map_eq_append_iff.1 hu.symm
  obtain ⟨a, y, h4, h5, h6⟩ := List.map_eq_append_iff.1 h2
  match y, h6 with
  | [J], h6 =>
    injection h6 with h6 _
    exact ⟨r, hr, a, J, z, by rw [h1, h4]; simp, h5.symm, h6.symm⟩

theorem offered_apart {rules : List RuleA} (hf : ∀ r ∈ rules, ∀ p ∈ r.parts, p.1.OK env) (happ : KeepApart env rules) :
    ∀ L I J, Offered env rules (L ++ [I]) → Offered env rules (L ++ [J]) → (∃ c, c ∈ I ∧ c ∈ J) → I = J := by
  rintro L I J h h' ⟨c, hc, hc'⟩
  obtain ⟨r, hr, a, X, z, h1, rfl, rfl⟩ := offered_split h
  obtain ⟨r', hr', a', Y, z', h1', h2, rfl⟩ := offered_split h'
  have hd : ∀ I ∈ a ++ X :: z, ∀ t ∈ I, Describes t.1 t.2 := by rw [← h1]; exact fun I hI => (offers_desc (hf r hr) I hI).2
  have hd' : ∀ I ∈ a' ++ Y :: z', ∀ t ∈ I, Describes t.1 t.2 := by rw [← h1']; exact fun I hI => (offers_desc (hf r' hr') I hI).2
  have ha : a = a' := offs_inj (fun I hI => hd I (List.mem_append_left _ hI)) (fun I hI => hd' I (List.mem_append_left _ hI)) h2
  subst ha
  obtain ⟨t, ht, rfl⟩ := List.mem_map.1 hc
  obtain ⟨t', ht', he⟩ := List.mem_map.1 hc'
  have : t' = t := tokConf_inj (hd' Y (by simp) t' ht') (hd X (by simp) t ht) he
  subst this
  rw [happ r hr r' hr' a X Y ⟨z, by rw [h1]; simp⟩ ⟨z', by rw [h1']; simp⟩ ⟨t', ht, ht'⟩]

theorem offered_narrow {rules : List RuleA} (hf : ∀ r ∈ rules, ∀ p ∈ r.parts, p.1.OK env) (hn : NarrowA env rules) : NarrowP (Offered env rules) := by
  intro L ts hnd hts
  have split : ∀ t ∈ ts, ∃ r ∈ rules, ∃ a J z u, r.offers env = a ++ J :: z ∧ L = a.map (·.map tokConf) ∧ u ∈ J ∧ tokConf u = t := by
    intro t ht
    obtain ⟨I, hI, hP⟩ := hts t ht
    obtain ⟨r, hr, a, J, z, h1, h2, rfl⟩ := offered_split hP
    obtain ⟨u, hu, rfl⟩ := List.mem_map.1 hI
    exact ⟨r, hr, a, J, z, u, h1, h2, hu, rfl⟩
  cases ts with
  | nil => exact Nat.zero_le _
  | cons t0 ts0 =>
    obtain ⟨r0, hr0, a0, J0, z0, _, h0, hL0, _, _⟩ := split t0 List.mem_cons_self
    obtain ⟨us, hus, hall⟩ := exists_map (f := tokConf) (P := fun u => ∃ r ∈ rules, ∃ I, u ∈ I ∧ a0 ++ [I] <+: r.offers env) (ts' := t0 :: ts0) (by
      intro t ht
      obtain ⟨r, hr, a, J, z, u, h1, h2, h3, h4⟩ := split t ht
      refine ⟨u, h4, r, hr, J, h3, ?_⟩
      have : a0 = a := offs_inj (fun I hI => (offers_desc (hf r0 hr0) I (by rw [h0]; exact List.mem_append_left _ hI)).2)
        (fun I hI => (offers_desc (hf r hr) I (by rw [h1]; exact List.mem_append_left _ hI)).2) (hL0.symm.trans h2)
      rw [this, h1]
      exact ⟨z, by simp⟩)
    have := hn a0 us (by rw [← hus] at hnd; exact List.Nodup.of_map _ hnd) hall
    rw [← hus, List.length_map]
    exact this

/-- few different fields -/
theorem narrowA_of {rules : List RuleA} (h : (rules.flatMap fun r => (r.offers env).flatten).length ≤ 255) : NarrowA env rules := by
  intro pre ts hnd hts
  refine Nat.le_trans (List.subperm_of_subset hnd fun t ht => ?_).length_le h
  obtain ⟨r, hr, I, h1, h2⟩ := hts t ht
  exact List.mem_flatMap.2 ⟨r, hr, List.mem_flatten.2 ⟨I, h2.subset (by simp), h1⟩⟩

theorem toA_ok {r : RuleA} (hr : ∀ p ∈ r.parts, p.1.OK env) : ∀ it ∈ (r.toA env).items, it.OK env := by
  have hlit : ∀ (l : Bytes), ∀ it ∈ (litMeaning env l).map litItem, it.OK env := by
    intro l it hit
    obtain ⟨c, hc, rfl⟩ := List.mem_map.1 hit
    refine ⟨by simp [litItem], fun x hx => ?_, .inl rfl⟩
    obtain ⟨p, hp, _⟩ := confField_ok (env := env) (litTok_desc (litMeaning_ne l c hc))
    rw [show x = tokConf (RuleD.litTok c) from List.mem_singleton.1 hx]
    exact ⟨p, hp⟩
  intro it hit
  rcases List.mem_append.1 hit with h | h
  · exact hlit _ it h
  · obtain ⟨p, hp, h⟩ := List.mem_flatMap.1 h
    rcases List.mem_cons.1 h with rfl | h
    · refine ⟨?_, ?_, ?_⟩
      · rcases (hr p hp).desc with ⟨f, h1, h2⟩ | h1
        · rw [h1]; simp
        · simpa using h1.some_
      · intro c hc
        obtain ⟨t, ht, rfl⟩ := List.mem_map.1 hc
        have hd : Describes t.1 t.2 := by
          rcases (hr p hp).desc with ⟨f, h1, h2⟩ | h1
          · rw [h1] at ht; rw [List.mem_singleton.1 ht]; exact h2
          · exact h1.each t ht
        obtain ⟨q, hq, _⟩ := confField_ok (env := env) hd
        exact ⟨q, hq⟩
      · rcases (hr p hp).desc with ⟨f, h1, h2⟩ | h1
        · left; rw [h1]; rfl
        · right
          refine ⟨p.1.conf, rfl, ?_, ?_⟩
          · unfold Json.ptr Json.member
            simp only [h1.type]
            exact strOf_text env (by decide)
          · unfold Json.ptr Json.member
            simp only [h1.parser]
            rfl
    · exact hlit _ it h

end
end LN
