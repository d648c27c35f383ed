import Verif.Proofs.RepeatBuild
import Verif.Proofs.RepeatOpt
import Verif.Props.Rules
/- Rules with repeat fields: loading, optimising, normalising. -/
set_option autoImplicit false
namespace LN

section
variable {env : Env} {s : Bytes}

theorem OptStep.corr {srt : Sorter} {n0 : NodeId} {b b' : Bld} {E : List NodeId} (hi : Inv b E) (hroot : b.root ∈ E) (htypes : ∀ t ∈ b.types, t.2 ∈ E)
    (h : OptStep srt n0 b b') (opts : Nat) (annots : List Annot) : ∃ D Mg, Corr (b.toCtx opts annots) (b'.toCtx opts annots) D Mg := by
  cases h with
  | sort h0' hn => exact ⟨_, _, sort_corr hn opts annots⟩
  | compact h0' hc => exact ⟨_, _, compact_corr hi hc hroot htypes opts annots⟩

/-- the chain and its last node, with what is known of the fields kept -/
theorem OptSteps.chain {srt : Sorter} {n0 : NodeId} {b b' : Bld} {E : List NodeId} (P : List Fld → Prop) (hP : ∀ fs fs', Merged fs fs' → P fs → P fs')
    (hi : Inv b E) (hroot : b.root ∈ E) (htypes : ∀ t ∈ b.types, t.2 ∈ E) (h : OptSteps srt n0 b b') (opts : Nat) (annots : List Annot) {e : NodeId} :
    ∀ {fs : List Fld}, Chain (b.toCtx opts annots).node b.root fs → Leads (b.toCtx opts annots).node b.root e → P fs →
    ∃ fs', Chain (b'.toCtx opts annots).node b'.root fs' ∧ Leads (b'.toCtx opts annots).node b'.root e ∧ P fs' ∧
      ((b'.toCtx opts annots).node e).isTerminal = ((b.toCtx opts annots).node e).isTerminal ∧
      ((b'.toCtx opts annots).node e).tags = ((b.toCtx opts annots).node e).tags ∧
      ((b'.toCtx opts annots).node e).rbFile = ((b.toCtx opts annots).node e).rbFile ∧ ((b'.toCtx opts annots).node e).rbLine = ((b.toCtx opts annots).node e).rbLine := by
  induction h with
  | refl b => intro fs h1 h2 h3; exact ⟨fs, h1, h2, h3, rfl, rfl, rfl, rfl⟩
  | @head b b1 b2 st _ ih =>
    intro fs h1 h2 h3
    obtain ⟨hi', _, ht, hr, _⟩ := st.frame hi
    obtain ⟨D, Mg, cr⟩ := st.corr hi hroot htypes opts annots
    have hdr : D b.root := cr.droot
    obtain ⟨fs1, g1, g2⟩ := cr.chain hdr h1
    obtain ⟨g3, g4⟩ := (cr.leads h2).1 hdr
    obtain ⟨t1, t2, t3, t4⟩ := cr.node e g4
    rw [← hr] at g2 g3
    obtain ⟨fs', k1, k2, k3, k4, k5, k6, k7⟩ := ih hi' (by rw [hr]; exact hroot) (by rw [ht]; exact htypes) g2 g3 (hP _ _ g1 h3)
    exact ⟨fs', k1, k2, k3, k4.trans t1, k5.trans t2, k6.trans t3, k7.trans t4⟩

theorem initBld_fresh : initBld.Fresh initBld.root := ⟨by decide, {}, rfl, rfl, rfl⟩

theorem initBld_noNull : initBld.NoNull := by
  intro n nd h q hq
  have : nd = {} := by
    unfold initBld Bld.newPDAG at h
    dsimp only at h
    split at h
    · cases h; rfl
    · cases h
  subst this
  cases hq

/-- The graph of a rule base with a single rule: the chain of its fields, with literals merged. -/
theorem single_rule {srt : Sorter} {cs : List Json} {fs : List Fld} (h : FieldsOf env cs fs) (tags : Option (List Bytes)) (file : Bytes) (line : Nat) :
    ∃ b1 b2, addSamp env initBld initBld.root cs true tags file line = .ok b1 ∧ pdagOptimize srt b1 = .ok b2 ∧ b2.types = [] ∧
      ∀ (opts : Nat) (annots : List Annot) (P : List Fld → Prop), (∀ fs fs', Merged fs fs' → P fs → P fs') → P fs →
        ∃ fs' e, P fs' ∧ Chain (b2.toCtx opts annots).node b2.root fs' ∧ Leads (b2.toCtx opts annots).node b2.root e ∧
          ((b2.toCtx opts annots).node e).isTerminal = true ∧ ((b2.toCtx opts annots).node e).tags = tags ∧
          ((b2.toCtx opts annots).node e).rbFile = some file ∧ ((b2.toCtx opts annots).node e).rbLine = line := by
  obtain ⟨b1, e, h1, hr, ht, hnn, hch, hld, nd, hnd, m1, m2, m3, m4⟩ := addSamp_chain h tags file line initBld_fresh initBld_noNull
  have hm := addSamp_ok (env := env) (cs := cs) (complete := true) (tags := tags) (file := file) (line := line) initBld_inv (dag := initBld.root) (.inr rfl)
  have hi : Inv b1 [1] := ((hm.ok_of h1).1)
  have hroot : b1.root ∈ [1] := by rw [hr]; simp [initBld, Bld.newPDAG]
  have htypes : ∀ t ∈ b1.types, t.2 ∈ [1] := by rw [ht]; intro t ht; cases ht
  obtain ⟨b2, h2⟩ := pdagOptimize_total (srt := srt) hi hroot htypes hnn
  have hs := (pdagOptimize_ok (srt := srt) hi hroot htypes).ok_of h2
  refine ⟨b1, b2, h1, h2, ?_, ?_⟩
  · obtain ⟨_, _, ht', _⟩ := hs.frame hi
    rw [ht', ht]; rfl
  · intro opts annots P hP hfs
    rw [← hr] at hch hld
    obtain ⟨fs', k1, k2, k3, k4, k5, k6, k7⟩ := hs.chain P hP hi hroot htypes opts annots (e := e) hch hld hfs
    have hne : (b1.toCtx opts annots).node e = nd := by
      show (b1.heap e).getD {} = nd
      rw [hnd]; rfl
    rw [hne] at k4 k5 k6 k7
    exact ⟨fs', e, k3, k1, k2, k4.trans m1, k5.trans m2, k6.trans m3, k7.trans m4⟩

theorem SamePut.trans {a b c : List (Option Bytes × Option Json)} (h : SamePut a b) (h' : SamePut b c) : SamePut a c := fun o => (h' o).trans (h o)

/-- the message as a whole is read -/
theorem normalize_reads {ctx : Ctx} {fs : List Fld} {vs : List (Option Bytes × Option Json)} {e : NodeId} (hch : Chain ctx.node ctx.root fs) (hld : Leads ctx.node ctx.root e)
    (hterm : (ctx.node e).isTerminal = true) (h : Reads env s (.all fs 0 vs s.length)) :
    ∃ n0, ∀ n, n0 ≤ n → ∀ stats o, ∃ rule st, normalize env n ctx stats s o = (finishMatch ctx s rule e (vs.foldr (fun x o => place o x.1 x.2) o)).bind fun o => .ok ⟨true, o, st⟩ := by
  obtain ⟨_, hr⟩ := h.runs (ctx := ctx)
  obtain ⟨n0, hn0⟩ := hr ctx.root hch
  refine ⟨n0, fun n hn stats o => ?_⟩
  obtain ⟨r, h1, _, _, h4, h5, _, h7⟩ := hn0 n hn { stats := stats } false (some o) (Nat.le_refl _) (by intro h; cases h)
  have hm : r.matched = true := h4.2 (.inr rfl)
  refine ⟨r.st.rule, r.st.stats, ?_⟩
  unfold normalize
  rw [h1]
  simp only [bind, R.ok_bind', hm, h7 hm e hld, hterm, if_true, h5 hm]
  rfl

/-- it is not read, or not to its end -/
theorem normalize_stuck {ctx : Ctx} {fs : List Fld} {a : Nat} (hch : Chain ctx.node ctx.root fs)
    (h : Reads env s (.stuck fs 0 a) ∨ ∃ vs, Reads env s (.all fs 0 vs a) ∧ a ≠ s.length) (ha : a ≤ s.length) :
    ∃ n0, ∀ n, n0 ≤ n → ∀ stats o, ∃ st, normalize env n ctx stats s o =
      .ok ⟨false, Obj.add (Obj.add o (bs! "originalmsg") (.str s)) (bs! "unparsed-data") (newString (s.drop a)), st⟩ := by
  rcases h with h | ⟨vs, h, hne⟩
  · obtain ⟨_, hr⟩ := h.runs (ctx := ctx)
    obtain ⟨n0, hn0⟩ := hr ctx.root hch
    refine ⟨n0, fun n hn stats o => ?_⟩
    obtain ⟨r, h1, h2, h3, h4⟩ := hn0 n hn { stats := stats } false (some o) (Nat.le_refl _)
    refine ⟨r.st.stats, ?_⟩
    unfold normalize
    rw [h1]
    have : r.st.parsedTo = a := by omega
    simp only [bind, R.ok_bind', h3, h4, this, Option.getD_some, addUnparsedField, if_neg (Nat.not_lt.2 ha)]
    rfl
  · obtain ⟨_, hr⟩ := h.runs (ctx := ctx)
    obtain ⟨n0, hn0⟩ := hr ctx.root hch
    refine ⟨n0, fun n hn stats o => ?_⟩
    obtain ⟨r, h1, h2, _, h4, _, h6, _⟩ := hn0 n hn { stats := stats } false (some o) (Nat.le_refl _) (by intro h; cases h)
    have hm : r.matched = false := by
      cases hm : r.matched with
      | false => rfl
      | true => rcases h4.1 hm with h | h; cases h; exact absurd h hne
    refine ⟨r.st.stats, ?_⟩
    unfold normalize
    rw [h1]
    have : r.st.parsedTo = a := by omega
    simp only [bind, R.ok_bind', hm, h6 hm, this, Option.getD_some, addUnparsedField, if_neg (Nat.not_lt.2 ha)]
    rfl

end
end LN
