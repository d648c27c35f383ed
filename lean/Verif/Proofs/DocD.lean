import Verif.Proofs.DocC
import Verif.Proofs.DocFar
import Verif.Props.Malformed
/- Rule bases in the graph and messages. -/
set_option autoImplicit false
namespace LN
open Spec

section
variable {env : Env} {srt : Sorter} {fs : Bytes → Option Bytes}

/-- a rule as it reaches the graph -/
def RuleD.toDef (env : Env) (r : RuleD) : Def :=
  { rule := { confs := (r.toks env).map tokConf, complete := r.breaks.isNone, tags := tagBucket r.tags, file := r.file, line := r.line } }

theorem RuleD.lexW {r : RuleD} (hr : ∀ p ∈ r.parts, p.1.OK env) :
    (lexRule env (ruleText r.lit (r.parts.map fun p => (p.1.written, p.2)))).confs = (r.toks env).map tokConf ∧
      (lexRule env (ruleText r.lit (r.parts.map fun p => (p.1.written, p.2)))).fin = .complete ∧
      (lexRule env (ruleText r.lit (r.parts.map fun p => (p.1.written, p.2)))).errs = [] := by
  have := C49_rule_text (env := env) r.lit (r.parts.map fun p => (p.1.written, Json.obj p.1.conf, p.2)) (by
    intro p hp
    obtain ⟨x, hx, rfl⟩ := List.mem_map.1 hp
    exact (hr x hx).decl)
  simp only [List.map_map, Function.comp_def] at this
  rw [toks_confs]
  exact this

theorem addParser_noType {o : Obj} {ty : Bytes} (ht : Obj.get o (bs! "type") = some (.str ty)) (hn : NoType ty) (b : Bld) (dag : NodeId) :
    addParser env b dag (.obj o) = .ok (b, none) := by
  have hty : ((Json.obj o).ptr (bs! "type")).bind (strOf env) = some ty := by
    unfold Json.ptr Json.member
    simp only [ht, Option.bind_some, strOf]
    rw [cstr_noNul fun c hc h0 => hn.noNul (h0 ▸ hc)]
  have hpp : parserPrio ty = none := by
    unfold parserPrio
    rw [Option.map_eq_none_iff, List.find?_eq_none]
    intro e he h
    have h : e.1 = ty := by simpa using h
    simp only [parserTable, List.mem_cons, List.not_mem_nil, or_false] at he
    have h1 := fun f => hn.plain f
    have h2 := hn.repeat_
    rcases he with rfl | rfl | rfl | rfl | rfl | rfl | rfl | rfl | rfl | rfl | rfl | rfl | rfl | rfl | rfl | rfl | rfl | rfl | rfl | rfl | rfl | rfl | rfl |
      rfl | rfl | rfl | rfl | rfl | rfl | rfl | rfl | rfl
    · exact h1 .literal h
    · exact h2 h.symm
    · exact h1 .dateRfc3164 h
    · exact h1 .dateRfc5424 h
    · exact h1 .number h
    · exact h1 .float h
    · exact h1 .hexnumber h
    · exact h1 .kernelTs h
    · exact h1 .whitespace h
    · exact h1 .ipv4 h
    · exact h1 .ipv6 h
    · exact h1 .word h
    · exact h1 .alpha h
    · exact h1 .rest h
    · exact h1 .opQuoted h
    · exact h1 .quoted h
    · exact h1 .dateIso h
    · exact h1 .time24 h
    · exact h1 .time12 h
    · exact h1 .duration h
    · exact h1 .cisco h
    · exact h1 .json h
    · exact h1 .cee h
    · exact h1 .mac48 h
    · exact h1 .cef h
    · exact h1 .iptables h
    · exact h1 .nameValue h
    · exact h1 .lea h
    · exact h1 .stringTo h
    · exact h1 .charTo h
    · exact h1 .charSep h
    · exact h1 .string h
  have hnp : ∀ rec, newParser env rec b (.obj o) = .ok (b, none) := by
    intro rec
    unfold newParser
    rw [hty]
    dsimp only
    rw [if_neg hn.user, hpp]
  unfold addParser
  rw [Json.depth]
  show R.bind (addStep env (addF env _) b dag false (.obj o) 0) _ = _
  unfold addStep
  dsimp only
  rw [hty]
  dsimp only
  rw [if_neg hn.alternative]
  unfold addInstance
  rw [hnp]
  rfl

theorem addSeq_stops {c : Json} (hc : ∀ b dag, addParser env b dag c = .ok (b, none)) (more : List Json) : ∀ (cs : List Json) (b : Bld) (dag : NodeId),
    addSeq env (cs ++ c :: more) b dag = (addSeq env cs b dag).bind fun x => .ok (x.1, none)
  | [], b, dag => by
    show (addParser env b dag c).bind _ = _
    rw [hc]; rfl
  | d :: cs, b, dag => by
    show (addParser env b dag d).bind _ = ((addParser env b dag d).bind _).bind _
    cases addParser env b dag d with
    | ok x =>
      obtain ⟨b1, r⟩ := x
      cases r with
      | none => rfl
      | some n => exact addSeq_stops hc more cs b1 n
    | fail => rfl
    | ub k => rfl
    | oof => rfl

/-- a rule which does not get to its end -/
theorem addSamp_stops {c : Json} (hc : ∀ b dag, addParser env b dag c = .ok (b, none)) (cs more : List Json) (b : Bld) (dag : NodeId) (complete : Bool)
    (tags : Option (List Bytes)) (file : Bytes) (line : Nat) :
    addSamp env b dag (cs ++ c :: more) complete tags file line = addSamp env b dag cs false tags file line := by
  unfold addSamp
  rw [addSeq_stops hc]
  cases addSeq env cs b dag with
  | ok x => obtain ⟨b1, r⟩ := x; cases r <;> rfl
  | fail => rfl
  | ub k => rfl
  | oof => rfl

theorem RuleD.lex {r : RuleD} (hr : r.OK env) :
    (∀ (b : Bld) (dag : NodeId) (tags : Option (List Bytes)) (file : Bytes) (line : Nat),
      addSamp env b dag (lexRule env r.text).confs (decide ((lexRule env r.text).fin = .complete)) tags file line =
        addSamp env b dag ((r.toks env).map tokConf) r.breaks.isNone tags file line) ∧
      (∀ k, (lexRule env r.text).fin ≠ .ub k) ∧ (lexRule env r.text).errs = r.msgs := by
  cases hb : r.breaks with
  | none =>
    have ht : r.text = ruleText r.lit (r.parts.map fun p => (p.1.written, p.2)) := by unfold RuleD.text; rw [hb]; simp
    have hm : r.msgs = [] := by unfold RuleD.msgs; rw [hb]; rfl
    rw [ht, hm]
    obtain ⟨h1, h2, h3⟩ := RuleD.lexW hr.fields
    exact ⟨fun b dag tags file line => by rw [h1, h2]; rfl, (fun k hc => by rw [h2] at hc; cases hc), h3⟩
  | some x =>
    obtain ⟨bt, es⟩ := x
    have ht : r.text = ruleText r.lit (r.parts.map fun p => (p.1.written, p.2)) ++ bt := by unfold RuleD.text; rw [hb]; rfl
    have hm : r.msgs = es := by unfold RuleD.msgs; rw [hb]; rfl
    have hdecl : ∀ p ∈ r.parts.map fun p => (p.1.written, Json.obj p.1.conf, p.2), Declares env p.1 p.2.1 := by
      intro p hp
      obtain ⟨y, hy, rfl⟩ := List.mem_map.1 hp
      exact (hr.fields y hy).decl
    rw [ht, hm]
    have hbr := hr.broken _ hb
    dsimp only at hbr
    cases hbr with
    | malformed h =>
      have := lexRule_malformed h (r.parts.map fun p => (p.1.written, Json.obj p.1.conf, p.2)) r.lit hdecl
      simp only [List.map_map, Function.comp_def] at this
      rw [this]
      exact ⟨fun b dag tags file line => by rw [toks_confs]; rfl, (fun k hc => by cases hc), rfl⟩
    | @unknown f o ty lit parts hf hty hn hp =>
      have := C49_rule_text (env := env) r.lit ((r.parts.map fun p => (p.1.written, Json.obj p.1.conf, p.2)) ++ (f, Json.obj o, lit) :: parts) (by
        intro p hp'
        rcases List.mem_append.1 hp' with h | h
        · exact hdecl p h
        · rcases List.mem_cons.1 h with rfl | h
          · exact hf
          · exact hp p h)
      have e : ruleText r.lit (((r.parts.map fun p => (p.1.written, Json.obj p.1.conf, p.2)) ++ (f, Json.obj o, lit) :: parts).map fun p => (p.1, p.2.2)) =
          ruleText r.lit (r.parts.map fun p => (p.1.written, p.2)) ++ (f.text ++ ruleText lit (parts.map fun p => (p.1, p.2.2))) := by
        simp [ruleText, List.map_map, Function.comp_def]
      rw [e] at this
      obtain ⟨h1, h2, h3⟩ := this
      refine ⟨fun b dag tags file line => ?_, (fun k hc => by rw [h2] at hc; cases hc), h3⟩
      have e2 : ruleConfs env r.lit (((r.parts.map fun p => (p.1.written, Json.obj p.1.conf, p.2)) ++ (f, Json.obj o, lit) :: parts).map fun p => (p.2.1, p.2.2)) =
          (r.toks env).map tokConf ++ Json.obj o :: (litParsers (litMeaning env lit) ++ (parts.map fun p => (p.2.1, p.2.2)).flatMap fun p => p.1 :: litParsers (litMeaning env p.2)) := by
        rw [toks_confs]
        simp [ruleConfs, List.map_map, Function.comp_def]
      rw [h1, e2, addSamp_stops fun b dag => addParser_noType hty hn b dag]
      rfl

/-- the messages about each rule and definition -/
def defErrs (env : Env) : Option Bytes → List RLine → List (List LoadErr)
  | _, [] => []
  | pfx, l :: ls => (if l.isDef then [l.errs env pfx] else []) ++ defErrs env (l.nextPrefix pfx) ls

theorem docErrs_defErrs : ∀ (ls : List RLine) (pfx : Option Bytes), docErrs env pfx ls = docMsgs ls (defErrs env pfx ls)
  | [], _ => rfl
  | l :: ls, pfx => by
    unfold docErrs
    rw [docErrs_defErrs ls]
    cases l <;> rfl

theorem doc_ops : ∀ (ls : List Loc) (pfx : Option Bytes) (rules : List RuleD),
    (∀ l ∈ ls, ∀ nm t, l.what ≠ .type nm t) → ExtendOK pfx (ls.map (·.what)) →
    docRules pfx ls = rules.map (fun r => (r.tags, r.text, r.file, r.line)) →
    (∀ r ∈ rules, r.OK env) →
    (∀ (srt : Sorter) (b : Bld), (locOps env pfx ls).foldlM (BOp.run env srt) b = ((rules.map (RuleD.toDef env)).map Def.toOp).foldlM (BOp.run env srt) b) ∧
      DocSafe env pfx (ls.map (·.what)) ∧
      defErrs env pfx (ls.map (·.what)) = rules.map RuleD.msgs
  | [], pfx, rules, _, _, h, _ => by
    cases rules with
    | nil => exact ⟨fun _ _ => rfl, trivial, rfl⟩
    | cons r rs => cases h
  | ⟨fl, n, l⟩ :: ls, pfx, rules, hty, hext, h, hf => by
    have hty' := fun x hx => hty x (List.mem_cons_of_mem _ hx)
    cases l with
    | rule tags t =>
      change (tags, pfx.getD [] ++ t, fl, n) :: docRules (RLine.nextPrefix pfx (.rule tags t)) ls = _ at h
      cases rules with
      | nil => cases h
      | cons r rs =>
        simp only [List.map_cons, List.cons.injEq, Prod.mk.injEq] at h
        obtain ⟨⟨h1, h2, h4, h3⟩, h⟩ := h
        obtain ⟨i1, i2, i3⟩ := doc_ops ls _ rs hty' hext.2 h fun x hx => hf x (List.mem_cons_of_mem _ hx)
        obtain ⟨l1, l2, l3⟩ := RuleD.lex (hf r (List.mem_cons_self ..))
        rw [← h2] at l1 l2 l3
        refine ⟨?_, ⟨?_, i2⟩, ?_⟩
        · intro srt b
          have e : BOp.run env srt b (.rule (lexRule env (pfx.getD [] ++ t)).confs (decide ((lexRule env (pfx.getD [] ++ t)).fin = .complete)) (tagBucket tags) fl n) =
              BOp.run env srt b (RuleD.toDef env r).toOp := by
            rw [h1, h3, h4]
            exact l1 b b.root _ _ _
          show (BOp.run env srt b _).bind (fun b => (locOps env _ ls).foldlM (BOp.run env srt) b) = (BOp.run env srt b _).bind _
          rw [e]
          exact R_bind_congr _ fun b => i1 srt b
        · exact l2
        · rw [List.map_cons, List.map_cons]
          unfold defErrs
          rw [i3]
          simp only [RLine.errs, l3, RLine.isDef, if_true]
          rfl
    | type nm t => exact absurd rfl (hty _ (List.mem_cons_self ..) nm t)
    | extend t =>
      obtain ⟨i1, i2, i3⟩ := doc_ops ls _ rules hty' hext.2 h hf
      exact ⟨i1, ⟨hext.1 t rfl, i2⟩, i3⟩
    | skip t =>
      obtain ⟨i1, i2, i3⟩ := doc_ops ls _ rules hty' hext.2 h hf
      exact ⟨i1, ⟨trivial, i2⟩, i3⟩
    | prefix_ t =>
      obtain ⟨i1, i2, i3⟩ := doc_ops ls _ rules hty' hext.2 h hf
      exact ⟨i1, ⟨trivial, i2⟩, i3⟩
    | annotate tag ops =>
      obtain ⟨i1, i2, i3⟩ := doc_ops ls _ rules hty' hext.2 h hf
      exact ⟨i1, ⟨trivial, i2⟩, i3⟩
    | unknown k t =>
      obtain ⟨i1, i2, i3⟩ := doc_ops ls _ rules hty' hext.2 h hf
      exact ⟨i1, ⟨trivial, i2⟩, i3⟩

theorem fwalk_lab {b : Bld} {lab : NodeId → List Json} (ht : Trie env [] b lab) {n : NodeId} {cs : List Json} {m : NodeId} (h : FWalk b n cs m) :
    lab m = lab n ++ cs := by
  induction h with
  | nil n => simp
  | @cons n nd c q cs m hn hq _ ih =>
    have hqc : q.conf = c := by simpa using List.find?_some hq
    rw [ih, (ht.edge n nd hn q (List.mem_of_find?_eq_some hq)).1, hqc, List.append_assoc]; rfl

theorem Acc.reads {s : Bytes} {ts : List (FType × Obj)} {i j : Nat} {vs : List (Option Bytes × Option Json)} (h : Acc env s ts i vs j) : ReadsToks env s ts i j := by
  induction h with
  | nil i => exact .nil i
  | cons h1 _ ih => exact .cons h1 ih

theorem ReadsToks.acc {s : Bytes} {ts : List (FType × Obj)} {i j : Nat} (h : ReadsToks env s ts i j) : ∃ vs, Acc env s ts i vs j := by
  induction h with
  | nil i => exact ⟨_, .nil i⟩
  | cons h1 _ ih => obtain ⟨vs, h2⟩ := ih; exact ⟨_, .cons h1 h2⟩

/-- walks in the graph are beginnings of rules -/
theorem begin_of_walk {b : Bld} {lab : NodeId → List Json} {rules : List RuleD} {ds : List Def} (h : IsTrie env [] b lab ds)
    (hds : rules.map (RuleD.toDef env) = ds) {cs : List Json} {m : NodeId} (hw : FWalk b b.root cs m) :
    ∃ pre, (pre = [] ∨ ∃ r ∈ rules, pre <+: r.toks env) ∧ cs = pre.map tokConf := by
  rcases List.eq_nil_or_concat cs with rfl | ⟨cs', c, rfl⟩
  · exact ⟨[], .inl rfl, rfl⟩
  · rw [List.concat_eq_append] at hw ⊢
    obtain ⟨x, g1, g2⟩ := hw.split
    cases g2 with
    | @cons _ xd _ q _ _ hx hq _ =>
      have hqc : q.conf = c := by simpa using List.find?_some hq
      obtain ⟨d, hd, y, e, hp⟩ := h.used x xd hx q (List.mem_of_find?_eq_some hq)
      rw [g1.label h.trie, h.start none _ rfl] at e
      injection e with _ e
      have e : cs' = y := e
      subst e
      rw [hqc] at hp
      rw [← hds] at hd
      obtain ⟨r, hr, rfl⟩ := List.mem_map.1 hd
      have hp : cs' ++ [c] <+: (r.toks env).map tokConf := hp
      obtain ⟨u, hu⟩ := hp
      obtain ⟨a, z, h1, h2, h3⟩ := List.map_eq_append_iff.1 hu.symm
      exact ⟨a, .inr ⟨r, hr, z, h1.symm⟩, h2.symm⟩

theorem litConf_iff {t : FType × Obj} (h : Describes t.1 t.2) : LitConf env [] (tokConf t) ↔ IsText t := by
  obtain ⟨p, h1, h2, h3, _⟩ := confField_ok (env := env) h
  constructor
  · rintro ⟨q, hq, hl⟩
    have hq : confField env [] (.obj t.2) = some q := hq
    rw [h1] at hq
    cases hq
    obtain ⟨⟨d, hd⟩, hn⟩ := hl
    refine ⟨?_, h3.symm.trans hn⟩
    rcases h2.literal_iff with ⟨_, hf, _⟩ | ⟨_, hx⟩
    · exact hf
    · exact absurd hd (hx d)
  · rintro ⟨hf, hn⟩
    refine ⟨p, h1, ?_, h3.trans hn⟩
    rcases h2.literal_iff with ⟨w, _, _, hk⟩ | ⟨hx, _⟩
    · exact ⟨_, hk⟩
    · exact absurd hf hx

theorem midText_iff {rules : List RuleD} {ds : List Def} (hf : ∀ r ∈ rules, ∀ p ∈ r.parts, p.1.OK env) (hds : rules.map (RuleD.toDef env) = ds)
    {pre : List (FType × Obj)} (hpre : pre = [] ∨ ∃ r ∈ rules, pre <+: r.toks env) :
    MidText env rules pre ↔ InTextC env [] ds none (pre.map tokConf) := by
  have hdesc : ∀ t ∈ pre, Describes t.1 t.2 := by
    rcases hpre with rfl | ⟨r, hr, hp⟩
    · exact fun t ht => absurd ht (List.not_mem_nil)
    · exact fun t ht => toks_desc (hf r hr) t (hp.subset ht)
  have hmem : ∀ d ∈ ds, ∃ r ∈ rules, d = r.toDef env := by
    intro d hd
    rw [← hds] at hd
    obtain ⟨r, h1, h2⟩ := List.mem_map.1 hd
    exact ⟨r, h1, h2.symm⟩
  have hmem' : ∀ r ∈ rules, r.toDef env ∈ ds := fun r hr => by rw [← hds]; exact List.mem_map.2 ⟨r, hr, rfl⟩
  have hgo : ∀ r ∈ rules, ∀ c, pre.map tokConf ++ [c] <+: (r.toks env).map tokConf → ∃ t ∈ r.toks env, tokConf t = c ∧ pre ++ [t] <+: r.toks env := by
    intro r hr c hp
    obtain ⟨u, hu⟩ := hp
    obtain ⟨a, z, h1, h2, h3⟩ := List.map_eq_append_iff.1 hu.symm
    obtain ⟨a1, a2, h4, h5, h6⟩ := List.map_eq_append_iff.1 h2
    obtain ⟨t, rfl, h7⟩ : ∃ t, a2 = [t] ∧ tokConf t = c := by
      match a2, h6 with
      | [t], h6 => injection h6 with h6 _; exact ⟨t, rfl, h6⟩
    have hin : ∀ t ∈ a1, Describes t.1 t.2 := fun t ht => toks_desc (hf r hr) t (by rw [h1, h4]; simp [ht])
    have := toks_inj hdesc hin h5.symm
    subst this
    exact ⟨t, by rw [h1, h4]; simp, h7, z, by rw [h1, h4]⟩
  constructor
  · rintro ⟨⟨t, ht, htt⟩, hin, a, hat, ⟨r, hr, hra⟩, hnext⟩
    refine ⟨⟨tokConf t, by rw [List.getLast?_map, ht]; rfl, (litConf_iff (hdesc t (List.mem_of_getLast? ht))).2 htt⟩, ?_, tokConf a, ?_, ⟨_, hmem' r hr, rfl, ?_⟩, ?_⟩
    · intro d hd _ hcm he
      obtain ⟨r', hr', rfl⟩ := hmem d hd
      exact hin r' hr' (Option.isNone_iff_eq_none.1 hcm) (toks_inj (toks_desc (hf r' hr')) hdesc he)
    · exact (litConf_iff (toks_desc (hf r hr) a (hra.subset (by simp)))).2 hat
    · obtain ⟨u, hu⟩ := hra
      exact ⟨u.map tokConf, by rw [show (r.toDef env).rule.confs = (r.toks env).map tokConf from rfl, ← hu]; simp⟩
    · intro d hd _ c hp
      obtain ⟨r', hr', rfl⟩ := hmem d hd
      obtain ⟨t', _, rfl, hp'⟩ := hgo r' hr' c hp
      rw [hnext r' hr' t' hp']
  · rintro ⟨⟨c, hc, hcl⟩, hin, a, hal, ⟨d, hd, _, hda⟩, hnext⟩
    obtain ⟨r, hr, rfl⟩ := hmem d hd
    obtain ⟨ta, hta, hca, hpa⟩ := hgo r hr a hda
    rw [List.getLast?_map] at hc
    obtain ⟨t, ht, htc⟩ := Option.map_eq_some_iff.1 hc
    have hdt := hdesc t (List.mem_of_getLast? ht)
    refine ⟨⟨t, ht, (litConf_iff hdt).1 (htc ▸ hcl)⟩, ?_, ta, ?_, ⟨r, hr, hpa⟩, ?_⟩
    · intro r' hr' hbn he
      exact hin _ (hmem' r' hr') rfl (Option.isNone_iff_eq_none.2 hbn) (congrArg (List.map tokConf) he)
    · exact (litConf_iff (toks_desc (hf r hr) ta hta)).1 (hca ▸ hal)
    · intro r' hr' t' hp'
      have : tokConf t' = a := by
        refine hnext _ (hmem' r' hr') rfl _ ?_
        obtain ⟨u, hu⟩ := hp'
        exact ⟨u.map tokConf, by rw [show (r'.toDef env).rule.confs = (r'.toks env).map tokConf from rfl, ← hu]; simp⟩
      have h1 : [t'].map tokConf = [ta].map tokConf := by simp only [List.map_cons, List.map_nil]; rw [this, hca]
      have h2 := toks_inj (a := [t']) (c := [ta]) (fun x hx => by rw [List.mem_singleton.1 hx]; exact toks_desc (hf r' hr') t' (hp'.subset (by simp)))
        (fun x hx => by rw [List.mem_singleton.1 hx]; exact toks_desc (hf r hr) ta hta) h1
      injection h2

/-- a rule base in the graph, optimised: what it does to messages -/
theorem doc_core (he : env.TokOK) (locs : List Loc) (ls : List RLine) (hls : locs.map (·.what) = ls) (hok : ∀ l ∈ ls, l.OK)
    (hline : ∀ l ∈ ls, ∀ c ∈ l.text, c ≠ 0) (hext : ExtendOK none ls) (hty : ∀ l ∈ ls, ∀ nm t, l ≠ .type nm t)
    (rules : List RuleD) (hrules : docRules none locs = rules.map fun r => (r.tags, r.text, r.file, r.line))
    (hrok : ∀ r ∈ rules, r.OK env) (hfile0 : ∀ r ∈ rules, ∀ c ∈ r.file, c ≠ 0) (hlen : Narrow (rules.map (·.toks env))) :
    ∃ b, runOps env srt (locOps env none locs ++ [.optimize]) = .ok b ∧ DocSafe env none ls ∧
      defErrs env none ls = rules.map RuleD.msgs ∧
      ∀ (opts : Nat) (s : Bytes), Tame s →
        (∀ r ∈ rules, ∀ p ∈ r.parts, ∀ off, off ≤ s.length → p.1.type.InScope env p.1.conf s off (fieldName p.1.conf).isSome) →
        (opts.testBit 3 = true → ∀ r ∈ rules, r.Shows env) →
        ∀ (stats : NodeId → Stats) (json0 : Obj), ∃ N, ∀ fuel, N ≤ fuel → ∃ res,
          normalize env fuel (b.toCtx opts (annotSet (ls.flatMap RLine.annots))) stats s json0 = .ok res ∧
            DocOutcome env ls rules opts s json0 res.ok res.json := by
  obtain ⟨hops, hsafe, herrs⟩ := doc_ops locs none rules (fun l hl => hty l.what (by rw [← hls]; exact List.mem_map.2 ⟨l, hl, rfl⟩))
    (by rw [hls]; exact hext) hrules hrok
  have hf : ∀ r ∈ rules, ∀ p ∈ r.parts, p.1.OK env := fun r hr => (hrok r hr).fields
  rw [hls] at hsafe herrs
  generalize hds : rules.map (RuleD.toDef env) = ds at hops
  have hmemds : ∀ d ∈ ds, ∃ r ∈ rules, d = r.toDef env := by
    intro d hd
    rw [← hds] at hd
    obtain ⟨r, h1, h2⟩ := List.mem_map.1 hd
    exact ⟨r, h1, h2.symm⟩
  have hplain : ∀ d ∈ ds, d.rule.Plain env := by
    intro d hd c hc
    obtain ⟨r, hr, rfl⟩ := hmemds d hd
    obtain ⟨t, ht, rfl⟩ := List.mem_map.1 hc
    obtain ⟨p, hp, _⟩ := confField_ok (env := env) (toks_desc (hf r hr) t ht)
    exact ⟨p, hp⟩
  have hdlen : NarrowDefs ds := by
    intro t
    refine (hlen.map (f := tokConf) (P := fun t => Describes t.1 t.2) ?_ ?_).mono ?_
    · intro x hx t ht
      obtain ⟨r, hr, rfl⟩ := List.mem_map.1 hx
      exact toks_desc (hf r hr) t ht
    · intro x y hx hy hxy
      have := toks_inj (a := [x]) (c := [y]) (fun t ht => by rw [List.mem_singleton.1 ht]; exact hx)
        (fun t ht => by rw [List.mem_singleton.1 ht]; exact hy) (by simp only [List.map_cons, List.map_nil]; rw [hxy])
      injection this
    · intro x hx
      obtain ⟨d, hd, _, rfl⟩ := mem_ofType.1 hx
      obtain ⟨r, hr, rfl⟩ := hmemds d hd
      exact List.mem_map.2 ⟨_, List.mem_map.2 ⟨r, hr, rfl⟩, rfl⟩
  obtain ⟨b, lab, hb, htr⟩ := isTrie_defs (srt := srt) ds (isTrie_init env) hplain
  rw [List.nil_append] at htr
  have hfrom : b.From fun c => ∃ r ∈ rules, ∃ t ∈ r.toks env, c = tokConf t := by
    refine isTrie_rules_from ds (isTrie_init env) hplain ?_ ?_ ?_ hb
    · intro d hd
      obtain ⟨r, _, rfl⟩ := hmemds d hd
      rfl
    · intro d hd c hc
      obtain ⟨r, hr, rfl⟩ := hmemds d hd
      obtain ⟨t, ht, rfl⟩ := List.mem_map.1 hc
      exact ⟨r, hr, t, ht, rfl⟩
    · intro n nd hn q hq
      change (if n = 1 then some ({} : Node) else none) = some nd at hn
      split at hn
      · cases hn; cases hq
      · cases hn
  have hwr := htr.wr hdlen
  -- every field of the graph
  have hfield : ∀ n nd, b.heap n = some nd → ∀ q ∈ nd.parsers, ∃ r ∈ rules, ∃ t ∈ r.toks env, Describes t.1 t.2 ∧ KindFor t.2 t.1 q.kind ∧
      q.name = fieldName t.2 ∧ q.prio = fieldPrio t.2 * 256 + t.1.prio := by
    intro n nd hn q hq
    obtain ⟨r, hr, t, ht, hc⟩ := hfrom n nd hn q hq
    have hd := toks_desc (hf r hr) t ht
    obtain ⟨p, h1, h2, h3, h4, _⟩ := confField_ok (env := env) hd
    have he := (htr.trie.edge n nd hn q hq).2
    rw [hc] at he
    change confField env [] (.obj t.2) = _ at he
    rw [h1] at he
    cases he
    exact ⟨r, hr, t, ht, hd, h2, h3, h4⟩
  have hnn : b.NoNull := by
    intro n nd hn q hq
    obtain ⟨r, _, t, _, _, h2, _⟩ := hfield n nd hn q hq
    refine ⟨fun hk => ?_, h2.notRepeat none⟩
    rcases h2.literal_iff with ⟨w, _, _, h3⟩ | ⟨_, h3⟩
    · rw [hk] at h3; cases h3
    · exact h3 _ hk
  have hroot : b.root ∈ b.ctxRefs := List.mem_cons_self ..
  have htypes : ∀ t ∈ b.types, t.2 ∈ b.ctxRefs := fun t ht => List.mem_cons_of_mem _ (List.mem_map.2 ⟨t, ht, rfl⟩)
  obtain ⟨b', hopt⟩ := pdagOptimize_total (srt := srt) htr.inv hroot htypes hnn
  have hrunall : runOps env srt (locOps env none locs ++ [.optimize]) = .ok b' := by
    unfold runOps
    rw [foldlM_append_R, hops, hb, R.ok_bind', List.foldlM_cons]
    change (pdagOptimize srt b).bind _ = _
    rw [hopt]; rfl
  refine ⟨_, hrunall, hsafe, herrs, ?_⟩
  intro opts s hs hin hshow stats json0
  have hann : AnnotsOK (annotSet (ls.flatMap RLine.annots)) := docAnnots_ok ls
  have hrun : runOps env srt (ds.map Def.toOp) = .ok b := hb
  obtain ⟨hsteps, hi, _⟩ := optimize_facts hrun hopt
  obtain ⟨hi', _, _, hr', _, _⟩ := hsteps.frame hi
  have htoksok : ∀ r ∈ rules, ToksOK env s (r.toks env) := fun r hr => toks_ok (hf r hr) (hin r hr)
  have hpar0 : ∀ n nd, b.heap n = some nd → ∀ q ∈ nd.parsers, q.kind.flat ∧ (q.kind = .cee → CeeFirst s) ∧ Parser.Configured q.kind q.name.isSome ∧
      (opts.testBit 3 = true → q.kind ≠ .literal (some [])) := by
    intro n nd hn q hq
    obtain ⟨r, hr, t, ht, hd, h2, h3, _⟩ := hfield n nd hn q hq
    have hsc := (htoksok r hr t ht).2 0 (Nat.zero_le _)
    refine ⟨?_, Describes.cee_first (htoksok r hr t ht).2 h2, ?_, ?_⟩
    · have := htr.trie.flat 0 [] n q
      refine this ?_
      show q ∈ ((b.heap n).getD {}).parsers
      rw [hn]; exact hq
    · obtain ⟨f, o⟩ := t
      rw [h3]
      dsimp only at h2 hsc ⊢
      cases f <;> simp only [KindFor] at h2
      case opQuoted => rw [h2]; exact hsc
      all_goals first
        | (rw [h2]; trivial)
        | (obtain ⟨w, h4, h5⟩ := h2; rw [h5]; rfl)
        | (obtain ⟨w, h4, h5⟩ := h2; rw [h4]; rfl)
        | (rw [h2]; rfl)
    · intro h8 hk
      have hsh := hshow h8 r hr
      rcases h2.literal_iff with ⟨w, h5, h6, h7⟩ | ⟨_, h3⟩
      · rw [hk] at h7
        cases h7
        rcases List.mem_append.1 ht with h | h
        · obtain ⟨c, _, rfl⟩ := List.mem_map.1 h
          have := h6.1
          cases this
        · obtain ⟨p, hp, h⟩ := List.mem_flatMap.1 h
          rcases List.mem_cons.1 h with rfl | h
          · exact hsh.2 p hp h5 h6
          · obtain ⟨c, _, rfl⟩ := List.mem_map.1 h
            have := h6.1
            cases this
      · exact h3 _ hk
  have hnodes := hsteps.nodes hi (Q := fun k nm => k.flat ∧ (k = .cee → CeeFirst s) ∧ Parser.Configured k nm.isSome ∧
      (opts.testBit 3 = true → k ≠ .literal (some []))) (by
    intro l l' h
    refine ⟨trivial, (by intro hc; cases hc), rfl, fun h8 hc => h.2.2.2 h8 ?_⟩
    have : l ++ l' = [] := by injection hc with h1; exact Option.some.inj h1
    rw [(List.append_eq_nil_iff.1 this).1]) hpar0
  obtain ⟨N, hN⟩ := normalize_total (opts := opts) (annots := annotSet (ls.flatMap RLine.annots)) he hs hi'
    (fun n nd hn => (hnodes n nd hn).1) (by
      intro h8 nd hnd
      obtain ⟨_, nd0, g1, g2, _⟩ := hnodes _ nd hnd
      rw [g2]
      cases hter : nd0.isTerminal with
      | false => rfl
      | true =>
        rw [hr'] at g1
        obtain ⟨d, hd, hcm, hl⟩ := htr.term _ nd0 g1 hter
        rw [htr.start none b.root rfl] at hl
        injection hl with _ hl
        obtain ⟨r, hr, rfl⟩ := hmemds d hd
        have ht0 : r.toks env = [] := List.map_eq_nil_iff.1 hl
        have := (hshow h8 r hr).1
        rw [← toks_show, ht0] at this
        exact absurd rfl (this (Option.isNone_iff_eq_none.1 hcm))) (by
      intro n nd hn hter
      obtain ⟨_, nd0, g1, g2, g3⟩ := hnodes n nd hn
      rw [g2] at hter
      obtain ⟨_, d, _, _, _, _, _, hm, _⟩ := htr.tag hwr n nd0 g1 hter
      rw [← g3] at hm
      have : nd.rbFile = some d.rule.file := congrArg (·.2.1) hm
      rw [this]; rfl) hann stats json0
  refine ⟨N, fun fuel hfl => ?_⟩
  obtain ⟨res, hres⟩ := hN fuel hfl
  refine ⟨res, hres, ?_⟩
  have h0 : ∀ c ∈ s, c ≠ 0 := fun c hc => (hs.ascii c hc).1
  obtain ⟨c1, c2⟩ := C17_optimise_meaning_partial hrun hopt (htr.trie.flat opts (annotSet (ls.flatMap RLine.annots))) h0 hres
  -- rules and matches of the graph
  have hbwd : ∀ {tr : List Step} {m : NodeId}, Path env (b.toCtx opts (annotSet (ls.flatMap RLine.annots))) s b.root 0 tr m s.length →
      ((b.toCtx opts (annotSet (ls.flatMap RLine.annots))).node m).isTerminal = true →
      ∃ (j : Nat) (q : RuleD) (nd : Node), rules[j]? = some q ∧ q.breaks = none ∧ b.heap m = some nd ∧ tr.map (·.field.conf) = (q.toks env).map tokConf ∧
        nd.mark = (tagBucket q.tags, some q.file, q.line) ∧ ∀ k q', j < k → rules[k]? = some q' → q'.breaks = none → q'.toks env ≠ q.toks env := by
    intro tr m hp hter
    change ((b.heap m).getD {}).isTerminal = true at hter
    cases hm : b.heap m with
    | none => rw [hm] at hter; cases hter
    | some nd =>
      rw [hm] at hter
      obtain ⟨j, d, n0, a1, a2, a3, a4, a5, a6⟩ := htr.tag hwr m nd hm hter
      rw [← hds, List.getElem?_map, Option.map_eq_some_iff] at a1
      obtain ⟨q, hq, rfl⟩ := a1
      cases a3
      refine ⟨j, q, nd, hq, Option.isNone_iff_eq_none.1 a2, rfl, ?_, a5, ?_⟩
      · have e1 := fwalk_lab htr.trie (fwalk_of_path htr.trie.plain hp)
        have e2 := fwalk_lab htr.trie a4
        exact List.append_cancel_left (e1.symm.trans e2)
      · intro k q' hk hq' hbn heq
        have := a6 k (q'.toDef env) hk (by rw [← hds, List.getElem?_map, hq']; rfl) rfl (by
          show (q'.toks env).map tokConf = (q.toks env).map tokConf
          rw [heq])
        have this : q'.breaks.isNone = false := this
        rw [hbn] at this
        cases this
  have hfwd : ∀ {r : RuleD} {us : List (Option Bytes × Option Json)}, r ∈ rules → r.Matches env s us →
      ∃ tr m, Path env (b.toCtx opts (annotSet (ls.flatMap RLine.annots))) s b.root 0 tr m s.length ∧
        ((b.toCtx opts (annotSet (ls.flatMap RLine.annots))).node m).isTerminal = true ∧ tr.map (·.field.conf) = (r.toks env).map tokConf := by
    intro r us hr hm
    obtain ⟨n0, e, nd, a1, a2, a3, a4⟩ := htr.walk hwr (r.toDef env) (by rw [← hds]; exact List.mem_map.2 ⟨r, hr, rfl⟩) (Option.isNone_iff_eq_none.2 hm.1)
    cases a1
    obtain ⟨vs, hacc, _⟩ := acc_of_matches he hs r (htoksok r hr) hm
    obtain ⟨tr, g1, g2, _⟩ := path_of_acc (opts := opts) (annots := annotSet (ls.flatMap RLine.annots)) he htr.trie.plain hs a2 rfl (Nat.zero_le _) (htoksok r hr) hacc
    refine ⟨tr, e, g1, ?_, g2⟩
    show ((b.heap e).getD {}).isTerminal = true
    rw [a3]; exact a4
  refine ⟨?_, ?_, ?_⟩
  · rw [c1]
    constructor
    · rintro ⟨tr, m, off', hp, hter, hend⟩
      have : off' = s.length := by
        rcases hend with h | h
        · cases h
        · exact h
      subst this
      obtain ⟨j, q, nd, hq, hqb, _, hc, _⟩ := hbwd hp hter
      have hqm := List.mem_of_getElem? hq
      obtain ⟨vs, g1, _⟩ := acc_of_path he htr.trie.plain hs hp _ hc (Nat.zero_le _) (htoksok q hqm)
      obtain ⟨us, g2, _⟩ := matches_of_acc q hqb g1
      exact ⟨q, hqm, us, g2⟩
    · rintro ⟨r, hr, us, hm⟩
      obtain ⟨tr, m, g1, g2, _⟩ := hfwd hr hm
      exact ⟨tr, m, s.length, g1, g2, .inr rfl⟩
  · intro hokt
    obtain ⟨tr, e, ⟨m, off', hp, hter, hend⟩, hfe, hfin, hord⟩ := c2 hokt
    have : off' = s.length := by
      rcases hend with h | h
      · cases h
      · exact h
    subst this
    obtain ⟨i, r, ndm, hri, hrb, _, hrc, _, _⟩ := hbwd hp hter
    have hr := List.mem_of_getElem? hri
    obtain ⟨tr1, tr2, htr12, hp1, hmin⟩ := firstEnd_split hp hfe
    obtain ⟨j, q, nd, hqj, hqb, hnd, hqc, hmark, hlast⟩ := hbwd hp1 (firstEnd_isTerminal hfe)
    have hq := List.mem_of_getElem? hqj
    obtain ⟨vs, g1, g2, g3, _⟩ := acc_of_path he htr.trie.plain hs hp _ hrc (Nat.zero_le _) (htoksok r hr)
    obtain ⟨us, g4, g5⟩ := matches_of_acc r hrb g1
    obtain ⟨vs', k1, _⟩ := acc_of_path he htr.trie.plain hs hp1 _ hqc (Nat.zero_le _) (htoksok q hq)
    obtain ⟨us', k2, _⟩ := matches_of_acc q hqb k1
    refine ⟨r, q, j, us, hr, hqj, g4, ⟨us', k2⟩, ?_, ?_, hlast, ?_, ?_⟩
    · refine toks_prefix (toks_desc (hf q hq)) (toks_desc (hf r hr)) ?_
      rw [← hqc, ← hrc, htr12, List.map_append]
      exact List.prefix_append ..
    · rintro q' hq' ⟨ws, hm'⟩ hpre
      obtain ⟨tr0, m0, f1, f2, f3⟩ := hfwd hq' hm'
      have hpre' : tr0 <+: tr := by
        refine path_prefix htr.trie.plain hp f1 ?_
        rw [f3, hrc]
        obtain ⟨u, hu⟩ := hpre
        exact ⟨u.map tokConf, by rw [← hu, List.map_append]⟩
      obtain ⟨w, hw⟩ := hmin tr0 m0 hpre' f1 f2
      refine toks_prefix (toks_desc (hf q hq)) (toks_desc (hf q' hq')) ?_
      rw [← hqc, ← f3, ← hw, List.map_append]
      exact List.prefix_append ..
    · refine finishMatch_doc ls hok hline (fun p hp => (hf r hr p hp).desc) ?_ hnd hmark (hfile0 q hq) ((g2 json0).trans (g5 json0)) hfin
      rw [g3, toks_show]
    · rintro hsmall r' hr' ⟨ws, hm'⟩
      obtain ⟨tr0, m0, f1, f2, f3⟩ := hfwd hr' hm'
      have hpo : PrioOK b := by
        have hb1 : ∀ n nd, b.heap n = some nd → ∀ x ∈ nd.parsers, -1073741824 ≤ x.prio ∧ x.prio ≤ 1073741823 := by
          intro n nd hn x hx
          obtain ⟨r1, hr1, t, ht, _, _, _, h4⟩ := hfield n nd hn x hx
          have hp := FType.prio_lt t.1
          have : -4194304 ≤ fieldPrio t.2 ∧ fieldPrio t.2 ≤ 4194303 := by
            rcases List.mem_append.1 ht with h | h
            · obtain ⟨c, _, rfl⟩ := List.mem_map.1 h
              have : fieldPrio (RuleD.litTok c).2 = 30000 := rfl
              omega
            · obtain ⟨p, hpm, h⟩ := List.mem_flatMap.1 h
              rcases List.mem_cons.1 h with rfl | h
              · exact hsmall r1 hr1 p hpm
              · obtain ⟨c, _, rfl⟩ := List.mem_map.1 h
                have : fieldPrio (RuleD.litTok c).2 = 30000 := rfl
                omega
          omega
        intro n nd hn x hx y hy
        have h1 := hb1 n nd hn x hx
        have h2 := hb1 n nd hn y hy
        omega
      exact before_of_prio htr.trie.plain hp f1 hrc f3 (toks_desc (hf r hr)) (toks_desc (hf r' hr')) (hord hpo tr0 ⟨m0, s.length, f1, f2, .inr rfl⟩)
  · intro hno
    have hflat' := hsteps.flat hi opts (annotSet (ls.flatMap RLine.annots)) (htr.trie.flat opts _)
    rcases normalize_cases hflat' hres with ⟨h1, _⟩ | ⟨_, _, u, hu, hfar, hj⟩
    · rw [hno] at h1; cases h1
    · refine ⟨u, hu, ?_, ?_⟩
      · have hreach := pdagOptimize_reach (env := env) h0 htr.inv (htr.single hwr) hroot htypes hopt opts (annotSet (ls.flatMap RLine.annots))
        have key : ∀ j, (∃ tr m, Path env (b'.toCtx opts (annotSet (ls.flatMap RLine.annots))) s b.root 0 tr m j) ↔ ReadsTo env rules s j := by
          intro j
          have hty0 : ∀ d ∈ ds, d.type = none := by
            intro d hd
            obtain ⟨r, _, rfl⟩ := hmemds d hd
            rfl
          constructor
          · rintro ⟨tr, m, hp⟩
            obtain ⟨⟨tr0, hp0⟩, hmid⟩ := (hreach m j).1 ⟨tr, hp⟩
            have hw0 := fwalk_of_path htr.trie.plain hp0
            obtain ⟨pre, hpre, hconf⟩ := begin_of_walk htr hds hw0
            have hmid' : ¬ MidText env rules pre := fun hm => hmid ((htr.midLit hwr (t := none) rfl hw0).2 (by rw [hconf]; exact (midText_iff hf hds hpre).1 hm))
            obtain ⟨vs, g1, _⟩ := acc_of_path he htr.trie.plain hs hp0 pre hconf (Nat.zero_le _) (by
              rcases hpre with rfl | ⟨r, hr, hpr⟩
              · exact fun t ht => absurd ht (List.not_mem_nil)
              · exact fun t ht => htoksok r hr t (hpr.subset ht))
            exact ⟨pre, hpre, hmid', g1.reads⟩
          · rintro ⟨pre, hpre, hmid, hrd⟩
            obtain ⟨m, hw0⟩ : ∃ m, FWalk b b.root (pre.map tokConf) m := by
              rcases hpre with rfl | ⟨r, hr, u, hpr⟩
              · exact ⟨_, .nil _⟩
              · obtain ⟨n0, e, a1, a2⟩ := htr.goes hwr (r.toDef env) (by rw [← hds]; exact List.mem_map.2 ⟨r, hr, rfl⟩)
                cases a1
                have a2 : FWalk b b.root ((r.toks env).map tokConf) e := a2
                rw [← hpr, List.map_append] at a2
                obtain ⟨m, g, _⟩ := a2.split
                exact ⟨m, g⟩
            obtain ⟨vs, hacc⟩ := hrd.acc
            obtain ⟨tr, g1, _⟩ := path_of_acc (opts := opts) (annots := annotSet (ls.flatMap RLine.annots)) he htr.trie.plain hs hw0 rfl (Nat.zero_le _) (by
              rcases hpre with rfl | ⟨r, hr, hpr⟩
              · exact fun t ht => absurd ht (List.not_mem_nil)
              · exact fun t ht => htoksok r hr t (hpr.subset ht)) hacc
            obtain ⟨tr', h'⟩ := (hreach m j).2 ⟨⟨tr, g1⟩, fun hm => hmid ((midText_iff hf hds hpre).2 ((htr.midLit hwr (t := none) rfl hw0).1 hm))⟩
            exact ⟨tr', m, h'⟩
        obtain ⟨⟨tr, m, hp⟩, hmax⟩ := hfar
        have hrt : (b'.toCtx opts (annotSet (ls.flatMap RLine.annots))).root = b.root := hr'
        rw [hrt] at hp hmax
        refine ⟨(key u).1 ⟨tr, m, hp⟩, fun j hj => ?_⟩
        obtain ⟨tr1, m1, hp1⟩ := (key j).2 hj
        exact hmax tr1 m1 j hp1
      · rw [hj]
        unfold newString
        rw [cstr_noNul fun c hc => h0 c (List.mem_of_mem_drop hc)]

end
end LN
