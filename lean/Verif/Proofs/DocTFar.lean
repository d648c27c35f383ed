import Verif.Proofs.DocTB
import Verif.Proofs.DocFar
import Verif.Proofs.OptReachH
/- Rule bases with user-defined types: how far a message is understood when no rule matches. -/
set_option autoImplicit false
namespace LN
open Spec

section
variable {env : Env} {s : Bytes}

theorem derives_of_reads (he : env.TokOK) (hs : Tame s) {ds : List RuleT} (hds : ∀ d ∈ ds, PartsOK env s d.parts) {ts : List RTok} {i j : Nat}
    (h : ReadsToksT env ds s ts i j) : i ≤ s.length → (∀ k ∈ ts, TokOK env s k) →
      ∃ ws, Derives env (ds.map (RuleT.toDef env)) s False (ts.map tokConfT) i ws j := by
  induction h with
  | nil i => intro _ _; exact ⟨[], .nil i⟩
  | @plain f o ts i n j v hm _ ih =>
    intro hl hok
    obtain ⟨hde, hin⟩ := hok _ (List.mem_cons_self ..)
    obtain ⟨p, hp, _⟩ := confField_ok (env := env) hde
    obtain ⟨h1, h2, _, h4, _⟩ := field_does hs hde hl (hin f rfl i hl) hp
    have hrun := h4 n v hm
    have hle := runParser_le he hl (Describes.cee_first (hin f rfl) h2) hrun
    obtain ⟨ws, hws⟩ := ih hle fun x hx => hok x (List.mem_cons_of_mem _ hx)
    exact ⟨_, .plain hp hrun hws⟩
  | @user nm o ts i k j d t us hd hdt hdb ht hfit hk _ ih =>
    intro hl hok
    obtain ⟨hde, _⟩ := hok _ (List.mem_cons_self ..)
    obtain ⟨hd1, hl1⟩ := drop_prefix_length ht
    obtain ⟨ws1, off1, a1, a2, a3, _⟩ := derives_of_fits he hs hds hfit (hl1 hl) hd1 (hds d hd)
    have : off1 = k := by
      have := congrArg List.length a3
      rw [List.length_drop, List.length_drop] at this
      omega
    subst this
    obtain ⟨xs1, a5, _⟩ := derives_lits hs _ (litMeaning_ne d.lit) hl (by rw [ht]; exact List.prefix_append ..) a1
    obtain ⟨ws, hws⟩ := ih hk fun x hx => hok x (List.mem_cons_of_mem _ hx)
    refine ⟨_, .user (c := .obj o) (t := nm) (d := d.toDef env) (us := xs1) (DescribesUser.userType hde) (List.mem_map.2 ⟨d, hd, rfl⟩) hdt (Option.isNone_iff_eq_none.2 hdb) ?_ (.inr rfl) hws⟩
    show Derives env _ s False ((d.toks env).map tokConfT) i xs1 off1
    rw [toksT_confs]; exact a5

theorem reads_of_derives (he : env.TokOK) (hs : Tame s) {ds : List RuleT} (hds : ∀ d ∈ ds, PartsOK env s d.parts) :
    ∀ {ts : List RTok} {i j : Nat} {ws : List (Option Bytes × Option Json)}, Derives env (ds.map (RuleT.toDef env)) s False (ts.map tokConfT) i ws j →
      i ≤ s.length → (∀ k ∈ ts, TokOK env s k) → ReadsToksT env ds s ts i j
  | [], _, _, _, h, _, _ => by cases h; exact .nil _
  | (ty, o) :: ts, i, j, ws, h, hl, hok => by
    obtain ⟨hde, hin⟩ := hok _ (List.mem_cons_self ..)
    have hok' : ∀ k ∈ ts, TokOK env s k := fun x hx => hok x (List.mem_cons_of_mem _ hx)
    change Derives env _ s False (.obj o :: ts.map tokConfT) i ws j at h
    cases h with
    | plain hfield hrun htail =>
      cases ty with
      | user nm => rw [user_not_field hde] at hfield; cases hfield
      | plain f =>
        obtain ⟨h1, h2, _, _, h5⟩ := field_does hs hde hl (hin f rfl i hl) hfield
        obtain ⟨w, hm, _⟩ := h5 _ _ hrun
        have hle := runParser_le he hl (Describes.cee_first (hin f rfl) h2) hrun
        exact .plain hm (reads_of_derives he hs hds htail hle hok')
    | user hfield hd hdt hdc hdef hend htail =>
      cases ty with
      | plain f => rw [plain_not_user hde] at hfield; cases hfield
      | user nm =>
        rw [DescribesUser.userType hde] at hfield
        cases hfield
        obtain ⟨r, hr, rfl⟩ := List.mem_map.1 hd
        rcases hend with hend | rfl
        · exact hend.elim
        obtain ⟨⟨u1, hu1⟩, a2, us1, a3, _⟩ := fits_of_derives he hs hds hdef _ r.parts (toksT_confs r) (litMeaning_ne r.lit) (hds r hr) hl
        rw [(drop_prefix_length hu1.symm).1] at a3
        exact .user hr hdt (Option.isNone_iff_eq_none.1 hdc) hu1.symm a3 a2 (reads_of_derives he hs hds htail a2 hok')

theorem fwalk_of_holds {ts : List (Bytes × NodeId)} {b : Bld} {lab : NodeId → List Json} (ht : Trie env ts b lab) {slack : Prop} {opts : Nat} {annots : List Annot} :
    ∀ {tr : List NStep} {x m : NodeId} {o u : Nat}, Holds env (b.toCtx opts annots) s slack (.path x o tr m u) → FWalk b x (tr.map (·.field.conf)) m
  | [], _, _, _, _, h => by cases h; exact .nil _
  | _ :: _, _, _, _, _, h => by
    cases h with
    | cons hidx _ htl =>
      obtain ⟨nd, hn, hp⟩ := ctx_parser (List.mem_of_getElem? hidx)
      exact (ht.step hn hp).trans (fwalk_of_holds ht htl)

/-- walks in the graph are beginnings of rules -/
theorem begin_of_walkT {b : Bld} {lab : NodeId → List Json} {ds : List RuleT} (h : IsTrie env b.types b lab (ds.map (RuleT.toDef env)))
    {cs : List Json} {m : NodeId} (hw : FWalk b b.root cs m) :
    ∃ pre, (pre = [] ∨ ∃ r ∈ ds, r.type = none ∧ pre <+: r.toks env) ∧ cs = pre.map tokConfT := by
  rcases List.eq_nil_or_concat cs with rfl | ⟨cs', c, rfl⟩
  · exact ⟨[], .inl rfl, rfl⟩
  · rw [List.concat_eq_append] at hw ⊢
    obtain ⟨x, g1, g2⟩ := hw.split
    cases g2 with
    | @cons _ xd _ q _ _ hx hq _ =>
      have hqc : q.conf = c := by simpa using List.find?_some hq
      obtain ⟨d, hd, y, e, hp⟩ := h.used x xd hx q (List.mem_of_find?_eq_some hq)
      rw [g1.label h.trie, h.start none _ rfl] at e
      injection e with e0 e
      have e : cs' = y := e
      subst e
      rw [hqc] at hp
      obtain ⟨r, hr, rfl⟩ := List.mem_map.1 hd
      have hp : cs' ++ [c] <+: (r.toks env).map tokConfT := hp
      obtain ⟨u, hu⟩ := hp
      obtain ⟨a, z, h1, h2, h3⟩ := List.map_eq_append_iff.1 hu.symm
      exact ⟨a, .inr ⟨r, hr, (mark_inj e0).symm, z, h1.symm⟩, h2.symm⟩

theorem litConfT_iff {tys : List (Bytes × NodeId)} {t : RTok} (h : t.1.Described t.2) : LitConf env tys (tokConfT t) ↔ IsTextT t := by
  obtain ⟨ty, o⟩ := t
  cases ty with
  | user nm =>
    constructor
    · rintro ⟨q, hq, ⟨d, hd⟩, _⟩
      change confField env tys (.obj o) = some q at hq
      rw [confField_user (DescribesUser.userType h)] at hq
      obtain ⟨i, _, rfl⟩ := Option.map_eq_some_iff.1 hq
      cases hd
    · rintro ⟨h1, _⟩; cases h1
  | plain f =>
    have h : Describes f o := h
    obtain ⟨p, h1, h2, h3, _⟩ := confField_ok (env := env) h
    have h1' : confField env tys (.obj o) = some p := confField_append h1 tys
    constructor
    · rintro ⟨q, hq, hl⟩
      have hq : confField env tys (.obj o) = some q := hq
      rw [h1'] at hq
      cases hq
      obtain ⟨⟨d, hd⟩, hn⟩ := hl
      refine ⟨?_, h3.symm.trans hn⟩
      rcases h2.literal_iff with ⟨_, hf, _⟩ | ⟨_, hx⟩
      · exact congrArg TType.plain hf
      · exact absurd hd (hx d)
    · rintro ⟨hf, hn⟩
      injection hf with hf
      refine ⟨p, h1', ?_, h3.trans hn⟩
      rcases h2.literal_iff with ⟨w, _, _, hk⟩ | ⟨hx, _⟩
      · exact ⟨_, hk⟩
      · exact absurd hf hx

theorem midTextT_iff {tys : List (Bytes × NodeId)} {ds : List RuleT} (hf : ∀ r ∈ ds, ∀ p ∈ r.parts, p.1.OK env)
    {pre : List RTok} (hpre : pre = [] ∨ ∃ r ∈ ds, r.type = none ∧ pre <+: r.toks env) :
    MidTextT env ds pre ↔ InTextC env tys (ds.map (RuleT.toDef env)) none (pre.map tokConfT) := by
  have hdesc : ∀ t ∈ pre, t.1.Described t.2 := by
    rcases hpre with rfl | ⟨r, hr, _, hp⟩
    · exact fun t ht => absurd ht (List.not_mem_nil)
    · exact fun t ht => toksT_desc (hf r hr) t (hp.subset ht)
  have hmem : ∀ d ∈ ds.map (RuleT.toDef env), ∃ r ∈ ds, d = r.toDef env := by
    intro d hd
    obtain ⟨r, h1, h2⟩ := List.mem_map.1 hd
    exact ⟨r, h1, h2.symm⟩
  have hmem' : ∀ r ∈ ds, r.toDef env ∈ ds.map (RuleT.toDef env) := fun r hr => List.mem_map.2 ⟨r, hr, rfl⟩
  have hgo : ∀ r ∈ ds, ∀ c, pre.map tokConfT ++ [c] <+: (r.toks env).map tokConfT → ∃ t ∈ r.toks env, tokConfT t = c ∧ pre ++ [t] <+: r.toks env := by
    intro r hr c hp
    obtain ⟨u, hu⟩ := hp
    obtain ⟨a, z, h1, h2, h3⟩ := List.map_eq_append_iff.1 hu.symm
    obtain ⟨a1, a2, h4, h5, h6⟩ := List.map_eq_append_iff.1 h2
    obtain ⟨t, rfl, h7⟩ : ∃ t, a2 = [t] ∧ tokConfT t = c := by
      match a2, h6 with
      | [t], h6 => injection h6 with h6 _; exact ⟨t, rfl, h6⟩
    have hin : ∀ t ∈ a1, t.1.Described t.2 := fun t ht => toksT_desc (hf r hr) t (by rw [h1, h4]; simp [ht])
    have := toksT_inj hdesc hin h5.symm
    subst this
    exact ⟨t, by rw [h1, h4]; simp, h7, z, by rw [h1, h4]⟩
  constructor
  · rintro ⟨⟨t, ht, htt⟩, hin, a, hat, ⟨r, hr, hrt, hra⟩, hnext⟩
    refine ⟨⟨tokConfT t, by rw [List.getLast?_map, ht]; rfl, (litConfT_iff (hdesc t (List.mem_of_getLast? ht))).2 htt⟩, ?_, tokConfT a, ?_, ⟨_, hmem' r hr, hrt, ?_⟩, ?_⟩
    · intro d hd hdt hdc he
      obtain ⟨r', hr', rfl⟩ := hmem d hd
      exact hin r' hr' hdt (Option.isNone_iff_eq_none.1 hdc) (toksT_inj (toksT_desc (hf r' hr')) hdesc he)
    · exact (litConfT_iff (toksT_desc (hf r hr) a (hra.subset (by simp)))).2 hat
    · obtain ⟨u, hu⟩ := hra
      exact ⟨u.map tokConfT, by rw [show (r.toDef env).rule.confs = (r.toks env).map tokConfT from rfl, ← hu]; simp⟩
    · intro d hd hdt c hp
      obtain ⟨r', hr', rfl⟩ := hmem d hd
      obtain ⟨t', _, rfl, hp'⟩ := hgo r' hr' c hp
      rw [hnext r' hr' hdt t' hp']
  · rintro ⟨⟨c, hc, hcl⟩, hin, a, hal, ⟨d, hd, hdt0, hda⟩, hnext⟩
    obtain ⟨r, hr, rfl⟩ := hmem d hd
    obtain ⟨ta, hta, hca, hpa⟩ := hgo r hr a hda
    rw [List.getLast?_map] at hc
    obtain ⟨t, ht, htc⟩ := Option.map_eq_some_iff.1 hc
    have hdt := hdesc t (List.mem_of_getLast? ht)
    refine ⟨⟨t, ht, (litConfT_iff hdt).1 (htc ▸ hcl)⟩, ?_, ta, ?_, ⟨r, hr, hdt0, hpa⟩, ?_⟩
    · intro r' hr' hrt' hrb' he
      exact hin _ (hmem' r' hr') hrt' (Option.isNone_iff_eq_none.2 hrb') (congrArg (List.map tokConfT) he)
    · exact (litConfT_iff (toksT_desc (hf r hr) ta hta)).1 (hca ▸ hal)
    · intro r' hr' hrt' t' hp'
      have : tokConfT t' = a := by
        refine hnext _ (hmem' r' hr') hrt' _ ?_
        obtain ⟨u, hu⟩ := hp'
        exact ⟨u.map tokConfT, by rw [show (r'.toDef env).rule.confs = (r'.toks env).map tokConfT from rfl, ← hu]; simp⟩
      have h1 : [t'].map tokConfT = [ta].map tokConfT := by simp only [List.map_cons, List.map_nil]; rw [this, hca]
      have h2 := toksT_inj (a := [t']) (c := [ta]) (fun x hx => by rw [List.mem_singleton.1 hx]; exact toksT_desc (hf r' hr') t' (hp'.subset (by simp)))
        (fun x hx => by rw [List.mem_singleton.1 hx]; exact toksT_desc (hf r hr) ta hta) h1
      injection h2

end
end LN
