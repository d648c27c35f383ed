import Verif.Spec.ToolMain
import Verif.Props.Tool
import Mathlib.Data.List.Induction
/- Lemmas about the command line of the tool. -/
set_option autoImplicit false
namespace LN

/-! ### Spelling -/

theorem optArg_flag {c : UInt8} (h : isFlag c) : optArg c = some false := by
  unfold isFlag at h
  simp only [List.mem_cons, List.not_mem_nil, or_false] at h
  rcases h with rfl | rfl | rfl | rfl | rfl | rfl | rfl | rfl | rfl <;> rfl

theorem optArg_arg {c : UInt8} (h : takesArg c) : optArg c = some true := if_pos h

theorem optArg_some {c : UInt8} : (∀ b, optArg c = some b → if b then takesArg c else isFlag c) := by
  intro b h
  unfold optArg at h
  split at h
  · cases h; assumption
  · split at h
    · cases h; assumption
    · cases h

theorem scanArg_flags (fs s : Bytes) (h : ∀ f ∈ fs, isFlag f) :
    scanArg (fs ++ s) = (fs.map (fun f => (f, [])) ++ (scanArg s).1, (scanArg s).2) := by
  induction fs with
  | nil => rfl
  | cons f fs ih =>
    have := ih fun g hg => h g (List.mem_cons_of_mem _ hg)
    simp only [List.cons_append, scanArg, optArg_flag (h f List.mem_cons_self), this, List.map_cons]

theorem getopts_optsOf {argv : List Bytes} {os : List Opt} (h : OptsOf argv os) : getopts none argv = os := by
  induction h with
  | nil => rfl
  | stop rest => simp only [getopts, if_true]
  | @operand a rest os h hr ih =>
    have h1 : a ≠ bs! "--" := by
      rintro rfl; revert h; decide
    have h2 : ¬ (a.head? = some (ch! '-') ∧ a ≠ bs! "-") := by
      rintro ⟨h3, h4⟩; rcases h with h | h
      · exact h h3
      · exact h4 h
    simp only [getopts, if_neg h1, if_neg h2, ih]
  | @flags fs rest os hn h hr ih =>
    have h1 : ch! '-' :: fs ≠ bs! "--" := by
      intro e
      have := (List.cons.inj e).2
      subst this
      have := h _ List.mem_cons_self
      revert this; decide
    have h2 : (ch! '-' :: fs).head? = some (ch! '-') ∧ ch! '-' :: fs ≠ bs! "-" := ⟨rfl, fun e => hn (List.cons.inj e).2⟩
    have h3 := scanArg_flags fs [] h
    rw [List.append_nil] at h3
    simp only [getopts, if_neg h1, if_pos h2, List.tail_cons, h3, scanArg, List.append_nil, ih]
  | @attached fs c arg rest os h hc ha hr ih =>
    have h1 : ch! '-' :: fs ++ c :: arg ≠ bs! "--" := by
      intro e
      have e := (List.cons.inj e).2
      cases fs with
      | nil => exact ha (List.cons.inj e).2
      | cons f fs => exact absurd (congrArg List.length e) (by simp)
    have h2 : (ch! '-' :: fs ++ c :: arg).head? = some (ch! '-') ∧ ch! '-' :: fs ++ c :: arg ≠ bs! "-" :=
      ⟨rfl, fun e => absurd (congrArg List.length e) (by simp)⟩
    have h3 := scanArg_flags fs (c :: arg) h
    rw [List.cons_append] at h1 h2 ⊢
    simp only [getopts, if_neg h1, if_pos h2, List.tail_cons, h3, scanArg, optArg_arg hc, if_neg ha, ih]
    simp
  | @separate fs c arg rest os h hc hr ih =>
    have h1 : ch! '-' :: fs ++ [c] ≠ bs! "--" := by
      intro e
      have e := (List.cons.inj e).2
      cases fs with
      | nil =>
        have := (List.cons.inj e).1
        subst this
        revert hc; decide
      | cons f fs => exact absurd (congrArg List.length e) (by simp)
    have h2 : (ch! '-' :: fs ++ [c]).head? = some (ch! '-') ∧ ch! '-' :: fs ++ [c] ≠ bs! "-" :=
      ⟨rfl, fun e => absurd (congrArg List.length e) (by simp)⟩
    have h3 := scanArg_flags fs [c] h
    rw [List.cons_append] at h1 h2 ⊢
    simp only [getopts, if_neg h1, if_pos h2, List.tail_cons, h3, scanArg, optArg_arg hc, if_true, ih]
    simp

theorem scanArg_cases : ∀ (s : Bytes), (∀ o ∈ (scanArg s).1, o.1 ≠ ch! '?') → ∃ fs : Bytes, (∀ f ∈ fs, isFlag f) ∧
    (s = fs ∧ scanArg s = (fs.map (fun f => (f, [])), none) ∨
     (∃ (c : UInt8) (arg : Bytes), takesArg c ∧ arg ≠ [] ∧ s = fs ++ c :: arg ∧ scanArg s = (fs.map (fun f => (f, [])) ++ [(c, arg)], none)) ∨
     (∃ c : UInt8, takesArg c ∧ s = fs ++ [c] ∧ scanArg s = (fs.map (fun f => (f, [])), some c)))
  | [], _ => ⟨[], by simp, .inl ⟨rfl, rfl⟩⟩
  | c :: cs, h => by
    unfold scanArg at h
    cases ho : optArg c with
    | none => rw [ho] at h; exact absurd rfl (h _ List.mem_cons_self)
    | some b =>
      have hb := optArg_some b ho
      cases b with
      | true =>
        have hc : takesArg c := hb
        by_cases hcs : cs = []
        · exact ⟨[], by simp, .inr (.inr ⟨c, hc, by simp [hcs], by unfold scanArg; simp only [ho, hcs, if_true, List.map_nil]⟩)⟩
        · exact ⟨[], by simp, .inr (.inl ⟨c, cs, hc, hcs, rfl, by unfold scanArg; simp only [ho, hcs, if_false, List.map_nil, List.nil_append]⟩)⟩
      | false =>
        have hc : isFlag c := hb
        rw [ho] at h
        obtain ⟨fs, hf, hh⟩ := scanArg_cases cs fun o hm => h o (List.mem_cons_of_mem _ hm)
        have hf' : ∀ f ∈ c :: fs, isFlag f := by
          intro f hm
          rcases List.mem_cons.1 hm with rfl | hm
          · exact hc
          · exact hf f hm
        refine ⟨c :: fs, hf', ?_⟩
        rcases hh with ⟨e, h1⟩ | ⟨d, arg, hd, ha, e, h1⟩ | ⟨d, hd, e, h1⟩
        · exact .inl ⟨by rw [e], by simp only [scanArg, ho, h1, List.map_cons]⟩
        · exact .inr (.inl ⟨d, arg, hd, ha, by rw [e]; rfl, by simp only [scanArg, ho, h1, List.map_cons, List.cons_append]⟩)
        · exact .inr (.inr ⟨d, hd, by rw [e]; rfl, by simp only [scanArg, ho, h1, List.map_cons]⟩)

theorem optsOf_getopts : ∀ (argv : List Bytes), (∀ o ∈ getopts none argv, o.1 ≠ ch! '?') → OptsOf argv (getopts none argv)
  | [], _ => .nil
  | a :: as, h => by
    by_cases h1 : a = bs! "--"
    · subst h1; simp only [getopts, if_true]; exact .stop as
    by_cases h2 : a.head? = some (ch! '-') ∧ a ≠ bs! "-"
    · have hg : getopts none (a :: as) = (scanArg a.tail).1 ++ getopts (scanArg a.tail).2 as := by
        simp only [getopts, if_neg h1, if_pos h2]
      rw [hg] at h ⊢
      obtain ⟨fs, hf, hh⟩ := scanArg_cases a.tail fun o hm => h o (List.mem_append_left _ hm)
      have ha : a = ch! '-' :: a.tail := by
        cases a with
        | nil => simp at h2
        | cons x t => have := h2.1; simp at this; rw [this]; rfl
      rcases hh with ⟨e, hs⟩ | ⟨c, arg, hc, harg, e, hs⟩ | ⟨c, hc, e, hs⟩
      · rw [hs] at h ⊢
        rw [ha, e]
        exact .flags fs (fun e' => h2.2 (by rw [ha, e, e'])) hf (optsOf_getopts as fun o hm => h o (List.mem_append_right _ hm))
      · rw [hs] at h ⊢
        rw [ha, e, List.append_assoc]
        exact .attached fs c arg hf hc harg (optsOf_getopts as fun o hm => h o (List.mem_append_right _ hm))
      · rw [hs] at h ⊢
        rw [ha, e]
        cases as with
        | nil => exact absurd rfl (h (ch! '?', []) (List.mem_append_right _ List.mem_cons_self))
        | cons b bs =>
          exact .separate fs c b hf hc (optsOf_getopts bs fun o hm => h o (List.mem_append_right _ (List.mem_cons_of_mem _ hm)))
    · have hg : getopts none (a :: as) = getopts none as := by simp only [getopts, if_neg h1, if_neg h2]
      rw [hg] at h ⊢
      refine .operand a ?_ (optsOf_getopts as h)
      by_cases hd : a = bs! "-"
      · exact .inr hd
      · exact .inl fun e => h2 ⟨e, hd⟩

theorem optsOf_letters {argv : List Bytes} {os : List Opt} (h : OptsOf argv os) : ∀ o ∈ os, isFlag o.1 ∨ takesArg o.1 := by
  induction h with
  | nil => simp
  | stop rest => simp
  | operand a h hr ih => exact ih
  | flags fs hn h hr ih =>
    intro o ho
    rcases List.mem_append.1 ho with ho | ho
    · obtain ⟨f, hf, rfl⟩ := List.mem_map.1 ho; exact .inl (h f hf)
    · exact ih o ho
  | attached fs c arg h hc ha hr ih =>
    intro o ho
    rcases List.mem_append.1 ho with ho | ho
    · obtain ⟨f, hf, rfl⟩ := List.mem_map.1 ho; exact .inl (h f hf)
    · rcases List.mem_cons.1 ho with rfl | ho
      · exact .inr hc
      · exact ih o ho
  | separate fs c arg h hc hr ih =>
    intro o ho
    rcases List.mem_append.1 ho with ho | ho
    · obtain ⟨f, hf, rfl⟩ := List.mem_map.1 ho; exact .inl (h f hf)
    · rcases List.mem_cons.1 ho with rfl | ho
      · exact .inr hc
      · exact ih o ho

theorem question_letter : ¬ (isFlag (ch! '?') ∨ takesArg (ch! '?')) := by decide

/-- the results of `getopt` -/
theorem getopts_iff (argv : List Bytes) (os : List Opt) : OptsOf argv os ↔ getopts none argv = os ∧ ∀ o ∈ os, o.1 ≠ ch! '?' :=
  ⟨fun h => ⟨getopts_optsOf h, fun o ho e => question_letter (by rw [← e]; exact optsOf_letters h o ho)⟩,
   fun ⟨h1, h2⟩ => by rw [← h1] at h2 ⊢; exact optsOf_getopts argv h2⟩

/-! ### Settings -/

theorem given_snoc (c : UInt8) (os : List Opt) (o : Opt) : given c (os ++ [o]) = (given c os || decide (o.1 = c)) := by
  simp [given]

theorem lastArg_snoc (c : UInt8) (os : List Opt) (o : Opt) : lastArg c (os ++ [o]) = if o.1 = c then some o.2 else lastArg c os := by
  unfold lastArg
  by_cases h : o.1 = c <;> simp [List.filter_append, h]

theorem lastSelect_snoc (os : List Opt) (o : Opt) :
    lastSelect (os ++ [o]) = if o.1 = ch! 'p' ∨ o.1 = ch! 'P' then some o.1 else lastSelect os := by
  unfold lastSelect
  by_cases h : o.1 = ch! 'p' ∨ o.1 = ch! 'P' <;> simp [List.filter_append, h]

theorem destOf_snoc (std : Bytes) (ls : List UInt8) (os : List Opt) (o : Opt) :
    destOf std ls (os ++ [o]) = if o.1 ∈ ls then some (if o.2 = std then none else some o.2) else destOf std ls os := by
  unfold destOf
  by_cases h : o.1 ∈ ls <;> simp [List.filter_append, h]

theorem outFiles_snoc (os : List Opt) (o : Opt) :
    outFiles (os ++ [o]) = outFiles os ++
      if (o.1 = ch! 'd' ∨ o.1 = ch! 'x') ∧ o.2 ≠ [] ∨ (o.1 = ch! 's' ∨ o.1 = ch! 'S') ∧ o.2 ≠ bs! "-" then [o.2] else [] := by
  unfold outFiles
  rw [List.filterMap_append]
  congr 1
  by_cases h : (o.1 = ch! 'd' ∨ o.1 = ch! 'x') ∧ o.2 ≠ [] ∨ (o.1 = ch! 's' ∨ o.1 = ch! 'S') ∧ o.2 ≠ bs! "-"
  · rw [if_pos h]; simp only [List.filterMap_cons, if_pos h, List.filterMap_nil]
  · rw [if_neg h]; simp only [List.filterMap_cons, if_neg h, List.filterMap_nil]

theorem fmtOpt_named (name : Bytes) (f : OutFmt) : fmtOpt name f = (fmtNamed name).getD f := by
  unfold fmtOpt fmtNamed
  simp only [List.lookup]
  by_cases h1 : name = bs! "json"
  · subst h1; rfl
  by_cases h2 : name = bs! "xml"
  · subst h2; rfl
  by_cases h3 : name = bs! "csv"
  · subst h3; rfl
  by_cases h4 : name = bs! "cee-syslog"
  · subst h4; rfl
  by_cases h5 : name = bs! "raw"
  · subst h5; rfl
  rw [if_neg h1, if_neg h2, if_neg h4, if_neg h3, if_neg h5, beq_false_of_ne h1, beq_false_of_ne h2, beq_false_of_ne h3, beq_false_of_ne h4, beq_false_of_ne h5]
  rfl

theorem genericOpt_named (name : Bytes) : genericOpt name = bitNamed name := by
  unfold genericOpt bitNamed
  simp only [List.lookup]
  by_cases h1 : name = bs! "allowRegex"
  · subst h1; rfl
  by_cases h2 : name = bs! "addExecPath"
  · subst h2; rfl
  by_cases h3 : name = bs! "addOriginalMsg"
  · subst h3; rfl
  by_cases h4 : name = bs! "addRule"
  · subst h4; rfl
  by_cases h5 : name = bs! "addRuleLocation"
  · subst h5; rfl
  rw [if_neg h1, if_neg h2, if_neg h3, if_neg h4, if_neg h5, beq_false_of_ne h1, beq_false_of_ne h2, beq_false_of_ne h3, beq_false_of_ne h4, beq_false_of_ne h5]

/-- the format of the events -/
def fmtOf (os : List Opt) : OutFmt := (((os.filter fun o => o.1 = ch! 'e').filterMap fun o => fmtNamed o.2).getLast?).getD .json

theorem fmtOf_snoc (os : List Opt) (o : Opt) : fmtOf (os ++ [o]) = if o.1 = ch! 'e' then (fmtNamed o.2).getD (fmtOf os) else fmtOf os := by
  unfold fmtOf
  by_cases h : o.1 = ch! 'e'
  · cases hf : fmtNamed o.2 <;> simp [List.filter_append, h, hf]
  · simp [List.filter_append, h]

/-- the kind of rulebase, by the letters of the options -/
def usedStep (u : Int) (x : UInt8) : Int :=
  if x = ch! 'r' then (if u = 2 then -1 else 1) else if x = ch! 'R' then (if u = 1 then -1 else 2) else u

theorem used_snoc (os : List Opt) (o : Opt) : ((os ++ [o]).map (·.1)).foldl usedStep 0 = usedStep ((os.map (·.1)).foldl usedStep 0) o.1 := by
  simp

/-- the variables after the options have been read -/
structure CmdReads (os : List Opt) (c : Cmd) : Prop where
  tag : c.o.tag = lastArg (ch! 't') os
  outParsed : c.o.outParsed = decide (lastSelect os ≠ some (ch! 'P'))
  outUnparsed : c.o.outUnparsed = decide (lastSelect os ≠ some (ch! 'p'))
  lineNbr : c.o.lineNbr = given (ch! 'L') os
  flatTags : c.o.flatTags = given (ch! 'T') os
  fmt : c.o.fmt = fmtOf os
  encFmt : c.o.encFmt = lastArg (ch! 'E') os
  verbose : c.o.verbose = (os.filter fun o => o.1 = ch! 'v').length
  bits : HasBits os c.ctxOpts
  opened : c.opened = outFiles os
  dot : c.dot = destOf [] [ch! 'd'] os
  statsDot : c.statsDot = destOf [] [ch! 'x'] os
  stats : c.stats = destOf (bs! "-") [ch! 's', ch! 'S'] os
  ext : c.ext = given (ch! 'S') os
  summary : c.summary = given (ch! 'H') os
  nbrUnparsed : c.nbrUnparsed = given (ch! 'U') os
  usedIs : c.used = (os.map (·.1)).foldl usedStep 0
  noRules : given (ch! 'r') os = false → given (ch! 'R') os = false → c.used = 0 ∧ c.repository = none
  fromFile : given (ch! 'r') os = true → given (ch! 'R') os = false → c.used = 1 ∧ c.repository = lastArg (ch! 'r') os
  fromText : given (ch! 'r') os = false → given (ch! 'R') os = true → c.used = 2 ∧ c.repository = lastArg (ch! 'R') os

theorem CmdReads.settings {os : List Opt} {c : Cmd} (h : CmdReads os c) : c.o = settings os := by
  obtain ⟨⟨t, a, b, l, f, m, e, v⟩, _, _, _, _, _, _, _, _, _, _⟩ := c
  obtain ⟨h1, h2, h3, h4, h5, h6, h7, h8, _, _, _, _, _, _, _, _, _, _, _, _⟩ := h
  dsimp only at h1 h2 h3 h4 h5 h6 h7 h8
  subst h1; subst h2; subst h3; subst h4; subst h5; subst h6; subst h7; subst h8
  rfl

theorem Accepted.of_snoc {cw : Bytes → Bool} {os : List Opt} {o : Opt} (h : Accepted cw (os ++ [o])) : Accepted cw os where
  noVersion := by have := h.noVersion; rw [given_snoc, Bool.or_eq_false_iff] at this; exact this.1
  noHelp := by have := h.noHelp; rw [given_snoc, Bool.or_eq_false_iff] at this; exact this.1
  named := fun n hn => h.named n (List.mem_append_left _ hn)
  files := fun f hf => h.files f (by rw [outFiles_snoc]; exact List.mem_append_left _ hf)

theorem hasBits_skip {os : List Opt} {o : Opt} {b : UInt32} (h : HasBits os b) (ho : o.1 ≠ ch! 'o') : HasBits (os ++ [o]) b := by
  intro i
  rw [h i]
  constructor
  · rintro ⟨n, x, h1, h2⟩; exact ⟨n, x, List.mem_append_left _ h1, h2⟩
  · rintro ⟨n, x, h1, h2⟩
    rcases List.mem_append.1 h1 with h1 | h1
    · exact ⟨n, x, h1, h2⟩
    · rw [List.mem_singleton] at h1; subst h1; exact absurd rfl ho

theorem hasBits_add {os : List Opt} {name : Bytes} {b x : UInt32} (h : HasBits os b) (hx : bitNamed name = some x) :
    HasBits (os ++ [(ch! 'o', name)]) (b ||| x) := by
  intro i
  rw [UInt32.toNat_or, Nat.testBit_or, Bool.or_eq_true, h i]
  constructor
  · rintro (⟨n, y, h1, h2⟩ | h1)
    · exact ⟨n, y, List.mem_append_left _ h1, h2⟩
    · exact ⟨name, x, List.mem_append_right _ List.mem_cons_self, hx, h1⟩
  · rintro ⟨n, y, h1, h2, h3⟩
    rcases List.mem_append.1 h1 with h1 | h1
    · exact .inl ⟨n, y, h1, h2, h3⟩
    · rw [List.mem_singleton, Prod.mk.injEq] at h1
      rw [h1.2, hx, Option.some.injEq] at h2
      subst h2; exact .inr h3

theorem openDest_ok {cw : Bytes → Bool} {std arg : Bytes} {c : Cmd} (h : arg ≠ std → cw arg = true) :
    openDest cw std arg c = .ok ({ c with opened := c.opened ++ if arg = std then [] else [arg] }, if arg = std then none else some arg) := by
  unfold openDest
  by_cases h1 : arg = std
  · simp [h1]
  · rw [if_neg h1, if_pos (h h1), if_neg h1, if_neg h1]

theorem verbose_snoc (os : List Opt) (o : Opt) :
    ((os ++ [o]).filter fun o => o.1 = ch! 'v').length = (os.filter fun o => o.1 = ch! 'v').length + if o.1 = ch! 'v' then 1 else 0 := by
  by_cases h : o.1 = ch! 'v' <;> simp [List.filter_append, h]

theorem optStep_reads {cw : Bytes → Bool} {os : List Opt} {o : Opt} {c : Cmd} (hl : isFlag o.1 ∨ takesArg o.1) (ha : Accepted cw (os ++ [o]))
    (h : CmdReads os c) : ∃ c', optStep cw c o = .ok c' ∧ CmdReads (os ++ [o]) c' := by
  obtain ⟨x, arg⟩ := o
  obtain ⟨k1, k2, k3, k4, k5, k6, k7, k8, k9, k10, k11, k12, k13, k14, k15, k16, k20, k17, k18, k19⟩ := h
  have hf : ∀ f, f ∈ (if (x = ch! 'd' ∨ x = ch! 'x') ∧ arg ≠ [] ∨ (x = ch! 's' ∨ x = ch! 'S') ∧ arg ≠ bs! "-" then [arg] else []) → cw f = true :=
    fun f hm => ha.files f (by rw [outFiles_snoc]; exact List.mem_append_right _ hm)
  unfold isFlag takesArg at hl
  simp only [List.mem_cons, List.not_mem_nil, or_false] at hl
  rcases hl with (rfl | rfl | rfl | rfl | rfl | rfl | rfl | rfl | rfl) | (rfl | rfl | rfl | rfl | rfl | rfl | rfl | rfl | rfl | rfl)
  · refine ⟨_, rfl, ?_⟩
    constructor
    case bits => exact hasBits_skip k9 (by simp)
    case usedIs => rw [used_snoc, ← k20]; rfl
    all_goals clear k20
    all_goals simp [given_snoc, lastArg_snoc, lastSelect_snoc, destOf_snoc, outFiles_snoc, fmtOf_snoc, verbose_snoc, fmtOpt_named, *] <;> (try assumption)
  · have := ha.noVersion; rw [given_snoc] at this; simp at this
  · refine ⟨_, rfl, ?_⟩
    constructor
    case bits => exact hasBits_skip k9 (by simp)
    case usedIs => rw [used_snoc, ← k20]; rfl
    all_goals clear k20
    all_goals simp [given_snoc, lastArg_snoc, lastSelect_snoc, destOf_snoc, outFiles_snoc, fmtOf_snoc, verbose_snoc, fmtOpt_named, *] <;> (try assumption)
  · refine ⟨_, rfl, ?_⟩
    constructor
    case bits => exact hasBits_skip k9 (by simp)
    case usedIs => rw [used_snoc, ← k20]; rfl
    all_goals clear k20
    all_goals simp [given_snoc, lastArg_snoc, lastSelect_snoc, destOf_snoc, outFiles_snoc, fmtOf_snoc, verbose_snoc, fmtOpt_named, *] <;> (try assumption)
  · refine ⟨_, rfl, ?_⟩
    constructor
    case bits => exact hasBits_skip k9 (by simp)
    case usedIs => rw [used_snoc, ← k20]; rfl
    all_goals clear k20
    all_goals simp [given_snoc, lastArg_snoc, lastSelect_snoc, destOf_snoc, outFiles_snoc, fmtOf_snoc, verbose_snoc, fmtOpt_named, *] <;> (try assumption)
  · have := ha.noHelp; rw [given_snoc] at this; simp at this
  · refine ⟨_, rfl, ?_⟩
    constructor
    case bits => exact hasBits_skip k9 (by simp)
    case usedIs => rw [used_snoc, ← k20]; rfl
    all_goals clear k20
    all_goals simp [given_snoc, lastArg_snoc, lastSelect_snoc, destOf_snoc, outFiles_snoc, fmtOf_snoc, verbose_snoc, fmtOpt_named, *] <;> (try assumption)
  · refine ⟨_, rfl, ?_⟩
    constructor
    case bits => exact hasBits_skip k9 (by simp)
    case usedIs => rw [used_snoc, ← k20]; rfl
    all_goals clear k20
    all_goals simp [given_snoc, lastArg_snoc, lastSelect_snoc, destOf_snoc, outFiles_snoc, fmtOf_snoc, verbose_snoc, fmtOpt_named, *] <;> (try assumption)
  · refine ⟨_, rfl, ?_⟩
    constructor
    case bits => exact hasBits_skip k9 (by simp)
    case usedIs => rw [used_snoc, ← k20]; rfl
    all_goals clear k20
    all_goals simp [given_snoc, lastArg_snoc, lastSelect_snoc, destOf_snoc, outFiles_snoc, fmtOf_snoc, verbose_snoc, fmtOpt_named, *] <;> (try assumption)
  · have hw : arg ≠ [] → cw arg = true := fun e => hf arg (by simp [e])
    have hs := fun c0 => openDest_ok (c := c0) hw
    refine ⟨_, by simp (config := { decide := true }) only [optStep, hs, if_true, if_false, Except.bind]; rfl, ?_⟩
    constructor
    case bits => exact hasBits_skip k9 (by simp)
    case usedIs => rw [used_snoc, ← k20]; rfl
    all_goals clear k20
    case opened => by_cases e : arg = [] <;> simp [given_snoc, lastArg_snoc, lastSelect_snoc, destOf_snoc, outFiles_snoc, fmtOf_snoc, verbose_snoc, fmtOpt_named, *] <;> (try assumption)
    all_goals simp [given_snoc, lastArg_snoc, lastSelect_snoc, destOf_snoc, outFiles_snoc, fmtOf_snoc, verbose_snoc, fmtOpt_named, *] <;> (try assumption)
  · have hw : arg ≠ bs! "-" → cw arg = true := fun e => hf arg (by simp [e])
    have hs := fun c0 => openDest_ok (c := c0) hw
    refine ⟨_, by simp (config := { decide := true }) only [optStep, hs, if_true, if_false, Except.bind]; rfl, ?_⟩
    constructor
    case bits => exact hasBits_skip k9 (by simp)
    case usedIs => rw [used_snoc, ← k20]; rfl
    all_goals clear k20
    case opened => by_cases e : arg = bs! "-" <;> simp [given_snoc, lastArg_snoc, lastSelect_snoc, destOf_snoc, outFiles_snoc, fmtOf_snoc, verbose_snoc, fmtOpt_named, *] <;> (try assumption)
    all_goals simp [given_snoc, lastArg_snoc, lastSelect_snoc, destOf_snoc, outFiles_snoc, fmtOf_snoc, verbose_snoc, fmtOpt_named, *] <;> (try assumption)
  · have hw : arg ≠ bs! "-" → cw arg = true := fun e => hf arg (by simp [e])
    have hs := fun c0 => openDest_ok (c := c0) hw
    refine ⟨_, by simp (config := { decide := true }) only [optStep, hs, if_true, if_false, Except.bind]; rfl, ?_⟩
    constructor
    case bits => exact hasBits_skip k9 (by simp)
    case usedIs => rw [used_snoc, ← k20]; rfl
    all_goals clear k20
    case opened => by_cases e : arg = bs! "-" <;> simp [given_snoc, lastArg_snoc, lastSelect_snoc, destOf_snoc, outFiles_snoc, fmtOf_snoc, verbose_snoc, fmtOpt_named, *] <;> (try assumption)
    all_goals simp [given_snoc, lastArg_snoc, lastSelect_snoc, destOf_snoc, outFiles_snoc, fmtOf_snoc, verbose_snoc, fmtOpt_named, *] <;> (try assumption)
  · refine ⟨_, rfl, ?_⟩
    constructor
    case bits => exact hasBits_skip k9 (by simp)
    case usedIs => rw [used_snoc, ← k20]; rfl
    all_goals clear k20
    all_goals simp [given_snoc, lastArg_snoc, lastSelect_snoc, destOf_snoc, outFiles_snoc, fmtOf_snoc, verbose_snoc, fmtOpt_named, *] <;> (try assumption)
  · by_cases hu : c.used = 2
    · refine ⟨_, by simp (config := { decide := true }) only [optStep, hu, if_true, if_false]; rfl, ?_⟩
      constructor
      case bits => exact hasBits_skip k9 (by simp)
      case usedIs => rw [used_snoc, ← k20]; simp [usedStep, hu]
      all_goals clear k20
      case fromFile =>
        intro h1 h2
        simp [given_snoc] at h1 h2
        cases hg : given (ch! 'r') os with
        | true => have := (k18 hg h2).1; rw [hu] at this; exact absurd this (by decide)
        | false => have := (k17 hg h2).1; rw [hu] at this; exact absurd this (by decide)
      all_goals simp [given_snoc, lastArg_snoc, lastSelect_snoc, destOf_snoc, outFiles_snoc, fmtOf_snoc, verbose_snoc, fmtOpt_named, *] <;> (try assumption)
    · refine ⟨_, by simp (config := { decide := true }) only [optStep, hu, if_true, if_false]; rfl, ?_⟩
      constructor
      case bits => exact hasBits_skip k9 (by simp)
      case usedIs => rw [used_snoc, ← k20]; simp [usedStep, hu]
      all_goals clear k20
      all_goals simp [given_snoc, lastArg_snoc, lastSelect_snoc, destOf_snoc, outFiles_snoc, fmtOf_snoc, verbose_snoc, fmtOpt_named, *] <;> (try assumption)
  · by_cases hu : c.used = 1
    · refine ⟨_, by simp (config := { decide := true }) only [optStep, hu, if_true, if_false]; rfl, ?_⟩
      constructor
      case bits => exact hasBits_skip k9 (by simp)
      case usedIs => rw [used_snoc, ← k20]; simp [usedStep, hu]
      all_goals clear k20
      case fromText =>
        intro h1 h2
        simp [given_snoc] at h1 h2
        cases hg : given (ch! 'R') os with
        | true => have := (k19 h1 hg).1; rw [hu] at this; exact absurd this (by decide)
        | false => have := (k17 h1 hg).1; rw [hu] at this; exact absurd this (by decide)
      all_goals simp [given_snoc, lastArg_snoc, lastSelect_snoc, destOf_snoc, outFiles_snoc, fmtOf_snoc, verbose_snoc, fmtOpt_named, *] <;> (try assumption)
    · refine ⟨_, by simp (config := { decide := true }) only [optStep, hu, if_true, if_false]; rfl, ?_⟩
      constructor
      case bits => exact hasBits_skip k9 (by simp)
      case usedIs => rw [used_snoc, ← k20]; simp [usedStep, hu]
      all_goals clear k20
      all_goals simp [given_snoc, lastArg_snoc, lastSelect_snoc, destOf_snoc, outFiles_snoc, fmtOf_snoc, verbose_snoc, fmtOpt_named, *] <;> (try assumption)
  · refine ⟨_, rfl, ?_⟩
    constructor
    case bits => exact hasBits_skip k9 (by simp)
    case usedIs => rw [used_snoc, ← k20]; rfl
    all_goals clear k20
    all_goals simp [given_snoc, lastArg_snoc, lastSelect_snoc, destOf_snoc, outFiles_snoc, fmtOf_snoc, verbose_snoc, fmtOpt_named, *] <;> (try assumption)
  · refine ⟨_, rfl, ?_⟩
    constructor
    case bits => exact hasBits_skip k9 (by simp)
    case usedIs => rw [used_snoc, ← k20]; rfl
    all_goals clear k20
    all_goals simp [given_snoc, lastArg_snoc, lastSelect_snoc, destOf_snoc, outFiles_snoc, fmtOf_snoc, verbose_snoc, fmtOpt_named, *] <;> (try assumption)
  · obtain ⟨b, hb⟩ := Option.isSome_iff_exists.1 (ha.named arg (List.mem_append_right _ List.mem_cons_self))
    refine ⟨_, by simp (config := { decide := true }) only [optStep, genericOpt_named, hb, if_true, if_false]; rfl, ?_⟩
    constructor
    case bits => exact hasBits_add k9 hb
    case usedIs => rw [used_snoc, ← k20]; rfl
    all_goals clear k20
    all_goals simp [given_snoc, lastArg_snoc, lastSelect_snoc, destOf_snoc, outFiles_snoc, fmtOf_snoc, verbose_snoc, fmtOpt_named, *] <;> (try assumption)
  · have hw : arg ≠ [] → cw arg = true := fun e => hf arg (by simp [e])
    have hs := fun c0 => openDest_ok (c := c0) hw
    refine ⟨_, by simp (config := { decide := true }) only [optStep, hs, if_true, if_false, Except.bind]; rfl, ?_⟩
    constructor
    case bits => exact hasBits_skip k9 (by simp)
    case usedIs => rw [used_snoc, ← k20]; rfl
    all_goals clear k20
    case opened => by_cases e : arg = [] <;> simp [given_snoc, lastArg_snoc, lastSelect_snoc, destOf_snoc, outFiles_snoc, fmtOf_snoc, verbose_snoc, fmtOpt_named, *] <;> (try assumption)
    all_goals simp [given_snoc, lastArg_snoc, lastSelect_snoc, destOf_snoc, outFiles_snoc, fmtOf_snoc, verbose_snoc, fmtOpt_named, *] <;> (try assumption)

theorem reads_nil : CmdReads [] {} := by
  constructor
  case bits => intro i; simp
  case noRules => exact fun _ _ => ⟨rfl, rfl⟩
  case fromFile => exact fun h => absurd h (by decide)
  case fromText => exact fun _ h => absurd h (by decide)
  all_goals rfl

theorem cmdLine_reads {cw : Bytes → Bool} {os : List Opt} (hl : ∀ o ∈ os, isFlag o.1 ∨ takesArg o.1) (ha : Accepted cw os) :
    ∃ c, os.foldlM (optStep cw) {} = .ok c ∧ CmdReads os c := by
  induction os using List.reverseRecOn with
  | nil => exact ⟨{}, rfl, reads_nil⟩
  | append_singleton os o ih =>
    obtain ⟨c, h1, h2⟩ := ih (fun x hx => hl x (List.mem_append_left _ hx)) ha.of_snoc
    obtain ⟨c', h3, h4⟩ := optStep_reads (hl o (List.mem_append_right _ List.mem_cons_self)) ha h2
    refine ⟨c', ?_, h4⟩
    rw [List.foldlM_append, h1]
    show (List.foldlM (optStep cw) c [o]) = _
    simp only [List.foldlM_cons, List.foldlM_nil, h3]
    rfl

theorem foldlM_ok_mem {cw : Bytes → Bool} : ∀ (os : List Opt) (c c' : Cmd), os.foldlM (optStep cw) c = .ok c' →
    ∀ o ∈ os, ∃ d d', optStep cw d o = .ok d'
  | [], _, _, _, o, ho => absurd ho List.not_mem_nil
  | x :: xs, c, c', h, o, ho => by
    rw [List.foldlM_cons] at h
    cases hx : optStep cw c x with
    | error e => rw [hx] at h; cases h
    | ok c1 =>
      rw [hx] at h
      rcases List.mem_cons.1 ho with rfl | ho
      · exact ⟨c, c1, hx⟩
      · exact foldlM_ok_mem xs c1 c' h o ho

theorem openDest_inv {cw : Bytes → Bool} {std arg : Bytes} {c : Cmd} {f : Cmd × Dest → Except Cmd Cmd} {c' : Cmd}
    (h : (openDest cw std arg c).bind f = .ok c') : arg ≠ std → cw arg = true := by
  intro hne
  unfold openDest at h
  rw [if_neg hne] at h
  cases hc : cw arg with
  | true => rfl
  | false => rw [hc] at h; cases h

theorem optStep_inv {cw : Bytes → Bool} {o : Opt} {c c' : Cmd} (h : optStep cw c o = .ok c') :
    o.1 ≠ ch! '?' ∧ o.1 ≠ ch! 'V' ∧ o.1 ≠ ch! 'h' ∧ (o.1 = ch! 'o' → (bitNamed o.2).isSome) ∧
    ((o.1 = ch! 'd' ∨ o.1 = ch! 'x') ∧ o.2 ≠ [] ∨ (o.1 = ch! 's' ∨ o.1 = ch! 'S') ∧ o.2 ≠ bs! "-" → cw o.2 = true) := by
  obtain ⟨x, arg⟩ := o
  refine ⟨?_, ?_, ?_, ?_, ?_⟩
  · rintro rfl; cases h
  · rintro rfl; cases h
  · rintro rfl; cases h
  · rintro rfl
    cases hb : bitNamed arg with
    | some b => rfl
    | none => simp (config := { decide := true }) only [optStep, genericOpt_named, hb, if_true, if_false] at h; cases h
  · rintro (⟨rfl | rfl, hn⟩ | ⟨rfl | rfl, hn⟩)
    all_goals exact openDest_inv h hn

theorem accepted_of_ok {cw : Bytes → Bool} {os : List Opt} {c : Cmd} (h : os.foldlM (optStep cw) {} = .ok c) :
    (∀ o ∈ os, o.1 ≠ ch! '?') ∧ Accepted cw os := by
  have h1 := fun (o : Opt) (ho : o ∈ os) => optStep_inv (foldlM_ok_mem os _ _ h o ho).choose_spec.choose_spec
  refine ⟨fun o ho => (h1 o ho).1, ?_, ?_, ?_, ?_⟩
  · rw [given, List.any_eq_false]; intro o ho; simpa using (h1 o ho).2.1
  · rw [given, List.any_eq_false]; intro o ho; simpa using (h1 o ho).2.2.1
  · intro n hn; exact (h1 _ hn).2.2.2.1 rfl
  · intro f hf
    obtain ⟨o, ho, he⟩ := List.mem_filterMap.1 hf
    split at he
    · rename_i hc; cases he; exact (h1 o ho).2.2.2.2 hc
    · cases he

/-- the options, if they are accepted -/
theorem cmdLine_ok {cw : Bytes → Bool} {argv : List Bytes} {os : List Opt} (h : OptsOf argv os) (ha : Accepted cw os) :
    ∃ c, cmdLine cw argv = .ok c ∧ CmdReads os c := by
  obtain ⟨c, h1, h2⟩ := cmdLine_reads (optsOf_letters h) ha
  exact ⟨c, by unfold cmdLine; rw [getopts_optsOf h]; exact h1, h2⟩

/-- otherwise the tool stops -/
theorem cmdLine_error {cw : Bytes → Bool} {argv : List Bytes} (h : ¬ ∃ os, OptsOf argv os ∧ Accepted cw os) :
    ∃ c, cmdLine cw argv = .error c := by
  cases hc : cmdLine cw argv with
  | error c => exact ⟨c, rfl⟩
  | ok c =>
    obtain ⟨h1, h2⟩ := accepted_of_ok hc
    exact absurd ⟨_, optsOf_getopts argv h1, h2⟩ h

theorem given_of_lastArg {c : UInt8} {os : List Opt} {a : Bytes} (h : lastArg c os = some a) : given c os = true := by
  cases hg : given c os with
  | true => rfl
  | false =>
    have : os.filter (fun o => decide (o.1 = c)) = [] := by
      rw [List.filter_eq_nil_iff]
      intro o ho
      rw [given, List.any_eq_false] at hg
      exact hg o ho
    unfold lastArg at h
    rw [this] at h; cases h

/-- where the rules come from -/
theorem CmdReads.source {os : List Opt} {c : Cmd} (h : CmdReads os c) {src : RuleSrc} (hr : RulesFrom os src) :
    c.used ≠ -1 ∧ ∃ rb, c.repository = some rb ∧ ∀ w : World, c.load w rb = loadFrom (w.emptied (outFiles os)) src := by
  cases src with
  | file f =>
    obtain ⟨h1, h2⟩ := h.fromFile (given_of_lastArg hr.1) hr.2
    refine ⟨by rw [h1]; decide, f, by rw [h2, hr.1], fun w => ?_⟩
    unfold Cmd.load loadFrom
    rw [h1, h.opened]; rfl
  | text t =>
    obtain ⟨h1, h2⟩ := h.fromText hr.2 (given_of_lastArg hr.1)
    refine ⟨by rw [h1]; decide, t, by rw [h2, hr.1], fun w => ?_⟩
    unfold Cmd.load loadFrom
    rw [h1, h.opened]; rfl

theorem CmdReads.tail {os : List Opt} {c : Cmd} (h : CmdReads os c) (t : ToolRes) : tailText c t = endLines os t := by
  unfold tailText endLines
  simp only [natText, h.nbrUnparsed, h.summary, Nat.repr, Nat.pos_iff_ne_zero, gt_iff_lt, String.toList_ofList]

/-! ### Events of rulebases -/

section
open Spec
variable {env : Env} {fuel : Nat} {ctx : Ctx}

theorem Obj.get_snoc_ne (o : Obj) {k nm : Bytes} (v : Json) (h : nm ≠ k) : Obj.get (o ++ [(nm, v)]) k = Obj.get o k := by
  induction o with
  | nil => simp [Obj.get, h]
  | cons m o ih => simp only [List.cons_append, Obj.get, ih]

theorem get_place {o : Obj} {nm : Option Bytes} {v : Option Json} {k : Bytes} (h1 : nm ≠ some (bs! ".")) (h2 : nm ≠ some k) :
    Obj.get (place o nm v) k = Obj.get o k := by
  unfold place
  cases nm with
  | none => rfl
  | some n =>
    dsimp only
    rw [if_neg fun e => h1 (by rw [e])]
    exact Obj.get_snoc_ne _ _ fun e => h2 (by rw [e])

theorem get_placeValues {k : Bytes} : ∀ (vs : List (Option Bytes × Option Json)) (o : Obj), (∀ x ∈ vs, x.1 ≠ some (bs! ".") ∧ x.1 ≠ some k) →
    Obj.get (placeValues o vs) k = Obj.get o k
  | [], _, _ => rfl
  | x :: vs, o, h => by
    have ih := get_placeValues vs o fun y hy => h y (List.mem_cons_of_mem _ hy)
    have := h x List.mem_cons_self
    show Obj.get (place (placeValues o vs) x.1 x.2) k = _
    rw [get_place this.1 this.2, ih]

theorem fits_names {t : Bytes} {ps : List (FieldD × Bytes)} {vs : List (Option Bytes × Option Json)} (h : RuleD.Fits env t ps vs) :
    ∀ x ∈ vs, ∃ p ∈ ps, x.1 = fieldName p.1.conf := by
  induction h with
  | nil => intro x hx; cases hx
  | cons h1 h2 h3 ih =>
    intro x hx
    rcases List.mem_cons.1 hx with rfl | hx
    · exact ⟨_, List.mem_cons_self, rfl⟩
    · obtain ⟨p, hp, e⟩ := ih x hx
      exact ⟨p, List.mem_cons_of_mem _ hp, e⟩

theorem tagOps_names {ls : List RLine} {k : Bytes} (h : ∀ l ∈ ls, ∀ tag ops, l = .annotate tag ops → ∀ o ∈ ops, o.2.1 ≠ k) (tag : Bytes) :
    ∀ nv ∈ tagOps ls tag, nv.1 ≠ k := by
  unfold tagOps
  have key : ∀ (ls : List RLine) (acc : Option (List (Bytes × Bytes))), (∀ l ∈ ls, ∀ tag ops, l = .annotate tag ops → ∀ o ∈ ops, o.2.1 ≠ k) →
      (∀ nv ∈ acc.getD [], nv.1 ≠ k) → ∀ nv ∈ (ls.foldl (fun acc l => match l with
        | .annotate t ops =>
          if t = tag then some (match acc with | none => (ops.map (·.2)).reverse | some prev => ops.map (·.2) ++ prev) else acc
        | _ => acc) acc).getD [], nv.1 ≠ k := by
    intro ls
    induction ls with
    | nil => intro acc _ h; exact h
    | cons l ls ih =>
      intro acc h ha
      rw [List.foldl_cons]
      refine ih _ (fun l hl => h l (List.mem_cons_of_mem _ hl)) ?_
      have hl := h l List.mem_cons_self
      split
      · rename_i t ops
        split
        · cases acc with
          | none =>
            intro nv hnv
            simp only [Option.getD_some, List.mem_reverse] at hnv
            obtain ⟨o, ho, rfl⟩ := List.mem_map.1 hnv
            exact hl _ _ rfl o ho
          | some prev =>
            intro nv hnv
            simp only [Option.getD_some, List.mem_append] at hnv
            rcases hnv with hnv | hnv
            · obtain ⟨o, ho, rfl⟩ := List.mem_map.1 hnv
              exact hl _ _ rfl o ho
            · exact ha nv hnv
        · exact ha
      · exact ha
  exact key ls none h (fun nv hnv => absurd hnv List.not_mem_nil)

theorem get_annotated {ls : List RLine} {k : Bytes} (h : ∀ l ∈ ls, ∀ tag ops, l = .annotate tag ops → ∀ o ∈ ops, o.2.1 ≠ k) (tags : List Bytes) (o : Obj) :
    Obj.get (annotated ls tags o) k = Obj.get o k := by
  unfold annotated
  have h1 : ∀ (ops : List (Bytes × Bytes)) (o : Obj), (∀ nv ∈ ops, nv.1 ≠ k) →
      Obj.get (ops.foldl (fun o nv => Obj.add o nv.1 (.str nv.2)) o) k = Obj.get o k := by
    intro ops
    induction ops with
    | nil => intro o _; rfl
    | cons x ops ih =>
      intro o hx
      rw [List.foldl_cons, ih _ fun nv hnv => hx nv (List.mem_cons_of_mem _ hnv)]
      exact Obj.get_add_ne _ _ fun e => hx x List.mem_cons_self e.symm
  have h2 : ∀ (ts : List Bytes) (o : Obj), Obj.get (ts.foldl (fun o t => (tagOps ls t).foldl (fun o nv => Obj.add o nv.1 (.str nv.2)) o) o) k = Obj.get o k := by
    intro ts
    induction ts with
    | nil => intro o; rfl
    | cons t ts ih =>
      intro o
      rw [List.foldl_cons, ih, h1 _ _ (tagOps_names h t)]
  exact h2 _ o

/-- the event of a message which no rule matches -/
theorem quiet_none (s t : Bytes) : TagList (Obj.add (Obj.add [] (bs! "originalmsg") (.str s)) (bs! "unparsed-data") (.str t)) := by
  intro l hl
  rw [Obj.get_add_ne _ _ (by decide), Obj.get_add_ne _ _ (by decide)] at hl
  cases hl

/-- events with quiet names -/
theorem quiet_core {ls : List RLine} {opts : Nat} {s : Bytes} {tags : List Bytes} {vs : List (Option Bytes × Option Json)} {m json : Obj}
    (hnames : ∀ x ∈ vs, QuietName x.1) (ha : QuietAnnots ls) (ht : ∀ t ∈ tags, ∀ c ∈ t, c ≠ 0)
    (hj : json = let o := placeValues [] vs
      let o := if tags = [] then o else annotated ls tags (Obj.add o (bs! "event.tags") (.arr (tags.map Json.str)))
      let o := if opts.testBit 2 then Obj.add o (bs! "originalmsg") (.str s) else o
      if m = [] then o else Obj.add o (bs! "metadata") (.obj [(bs! "rule", .obj m)])) :
    TagList json ∧ Obj.get json (bs! "unparsed-data") = none := by
  have ha1 := fun l hl tag ops e o ho => (ha l hl tag ops e o ho).1
  have ha2 := fun l hl tag ops e o ho => (ha l hl tag ops e o ho).2
  dsimp only at hj
  -- the members added at the end
  have hlast : ∀ (k : Bytes), k ≠ bs! "originalmsg" → k ≠ bs! "metadata" → ∀ (o : Obj) (m : Obj),
      Obj.get (if m = [] then (if opts.testBit 2 then Obj.add o (bs! "originalmsg") (.str s) else o)
        else Obj.add (if opts.testBit 2 then Obj.add o (bs! "originalmsg") (.str s) else o) (bs! "metadata") (.obj [(bs! "rule", .obj m)])) k = Obj.get o k := by
    intro k hk1 hk2 o m
    have h1 : Obj.get (if opts.testBit 2 then Obj.add o (bs! "originalmsg") (.str s) else o) k = Obj.get o k := by
      split
      · exact Obj.get_add_ne _ _ hk1
      · rfl
    split
    · exact h1
    · rw [Obj.get_add_ne _ _ hk2, h1]
  have htags : Obj.get json (bs! "event.tags") = if tags = [] then none else some (.arr (tags.map Json.str)) := by
    rw [hj]
    refine (hlast _ (by decide) (by decide) _ _).trans ?_
    split
    · rw [get_placeValues vs [] fun x hx => ⟨(hnames x hx).1, (hnames x hx).2.1⟩]; rfl
    · rw [get_annotated ha1, Obj.get_add_self]
  have hun : Obj.get json (bs! "unparsed-data") = none := by
    rw [hj]
    refine (hlast _ (by decide) (by decide) _ _).trans ?_
    split
    · rw [get_placeValues vs [] fun x hx => ⟨(hnames x hx).1, (hnames x hx).2.2⟩]; rfl
    · rw [get_annotated ha2, Obj.get_add_ne _ _ (by decide), get_placeValues vs [] fun x hx => ⟨(hnames x hx).1, (hnames x hx).2.2⟩]; rfl
  refine ⟨?_, hun⟩
  intro l hl
  rw [htags] at hl
  split at hl
  · cases hl
  · cases hl
    refine ⟨_, rfl, fun j hj => ?_⟩
    obtain ⟨x, hx, rfl⟩ := List.mem_map.1 hj
    exact ⟨x, rfl, ht x hx⟩

/-- the event of a rulebase with quiet names -/
theorem quiet_event {ls : List RLine} {rules : List RuleD} {opts : Nat} {s : Bytes} {ok : Bool} {json : Obj} (hq : QuietNames ls rules)
    (ht : ∀ r ∈ rules, ∀ t ∈ r.tags, ∀ c ∈ t, c ≠ 0) (h : DocOutcome env ls rules opts s [] ok json) :
    TagList json ∧ (ok = true → Obj.get json (bs! "unparsed-data") = none) := by
  cases ok with
  | false =>
    obtain ⟨i, _, _, rfl⟩ := h.nomatch_ rfl
    exact ⟨quiet_none _ _, fun e => by cases e⟩
  | true =>
    obtain ⟨r, q, j, vs, hr, hqr, ⟨_, t, _, hfit⟩, _, _, _, _, hj, _⟩ := h.match_ rfl
    obtain ⟨h1, h2⟩ := quiet_core (tags := q.tags) (fun x hx => by
      obtain ⟨p, hp, e⟩ := fits_names hfit x hx
      rw [e]; exact hq.fields r hr p hp) hq.annots (ht q (List.mem_of_getElem? hqr)) hj
    exact ⟨h1, fun _ => h2⟩

theorem tagList_plain {o : Obj} (h : TagList o) : PlainTags o := by
  intro l hl
  obtain ⟨l', e, h'⟩ := h _ hl
  cases e
  exact h'

theorem tagList_add {o : Obj} (h : TagList o) {k : Bytes} (hk : bs! "event.tags" ≠ k) (v : Json) : TagList (Obj.add o k v) := by
  intro j hj
  rw [Obj.get_add_ne _ _ hk] at hj
  exact h j hj

theorem outputEvent_total {o : ToolOpts} (ho : Printable o) {ev : Obj} (hev : TagList ev) (msg : Bytes) : ∃ t, outputEvent env o ev msg = .ok t := by
  unfold outputEvent
  cases hf : o.fmt with
  | raw => exact ⟨_, rfl⟩
  | json => exact ⟨_, rfl⟩
  | syslog =>
    dsimp only
    unfold fmtRFC5424
    cases hg : Obj.get ev (bs! "event.tags") with
    | none => exact ⟨_, rfl⟩
    | some j =>
      obtain ⟨l, rfl, _⟩ := hev j hg
      dsimp only
      split
      · exact ⟨_, rfl⟩
      · exact ⟨_, rfl⟩
  | xml =>
    dsimp only
    unfold fmtXML
    cases hg : Obj.get ev (bs! "event.tags") with
    | none => exact ⟨_, rfl⟩
    | some j =>
      obtain ⟨l, rfl, _⟩ := hev j hg
      dsimp only
      split
      · exact ⟨_, rfl⟩
      · exact ⟨_, rfl⟩
  | csv =>
    cases he : o.encFmt with
    | none => exact absurd he (ho hf)
    | some f => exact ⟨_, rfl⟩

/-- a message for which there is an event, whatever the statistics -/
theorem normV2_total {s : Bytes} {res : Res} {st0 : NodeId → Stats} (h : normalize env fuel ctx st0 s [] = .ok res) (st : NodeId → Stats) :
    ∃ st', normV2 env fuel ctx st s = .ok (res.json, st') := by
  have h1 := C08_stats_do_not_matter (env := env) (fuel := fuel) (ctx := ctx) (s := s) (json0 := []) st0 st
  rw [h] at h1
  unfold normV2
  cases hx : normalize env fuel ctx st s [] with
  | ok r' => rw [hx] at h1; simp [observe] at h1; exact ⟨r'.stats, by rw [R.ok_bind', h1.2]⟩
  | fail => rw [hx] at h1; simp [observe] at h1
  | ub u => rw [hx] at h1; simp [observe] at h1
  | oof => rw [hx] at h1; simp [observe] at h1

theorem toolLoop_ends {o : ToolOpts} (ho : Printable o) : ∀ (ls : List Bytes) (st : NodeId → Stats) (n : Nat) (acc : ToolRes),
    (∀ l ∈ ls, ∃ res, normalize env fuel ctx (fun _ => {}) (cstr l) [] = .ok res ∧ TagList res.json) →
    ∃ x, toolLoop env o (normV2 env fuel ctx) st n acc ls = .ok x
  | [], _, _, _, _ => ⟨_, rfl⟩
  | l :: ls, st, n, acc, h => by
    obtain ⟨res, h1, h2⟩ := h l List.mem_cons_self
    obtain ⟨st', h3⟩ := normV2_total h1 st
    have hr : ∃ r, toolRecord env o (normV2 env fuel ctx) st (n + 1) l = .ok r := by
      obtain ⟨b, hb⟩ : ∃ b, eventHasTag env res.json o.tag = .ok b := ⟨_, eventHasTag_plain (tagList_plain h2) _⟩
      unfold toolRecord
      dsimp only
      rw [h3, R.ok_bind', hb, R.ok_bind']
      split
      · split
        · split
          · obtain ⟨t, ht⟩ := outputEvent_total (env := env) ho h2 (cstr l)
            exact ⟨_, by rw [ht, R.ok_bind']⟩
          · exact ⟨_, rfl⟩
        · split
          · obtain ⟨t, ht⟩ := outputEvent_total (env := env) ho (ev := amendLineNbr o res.json (n + 1)) (by
              unfold amendLineNbr; split
              · exact tagList_add h2 (by decide) _
              · exact h2) (cstr l)
            exact ⟨_, by rw [ht, R.ok_bind']⟩
          · exact ⟨_, rfl⟩
      · exact ⟨_, rfl⟩
    obtain ⟨r, hr⟩ := hr
    obtain ⟨x, hx⟩ := toolLoop_ends ho ls r.st (n + 1) _ fun l hl => h l (List.mem_cons_of_mem _ hl)
    exact ⟨x, by simp only [toolLoop]; rw [hr, R.ok_bind']; exact hx⟩

theorem filter_flatMap' {α β : Type} (p : α → Bool) (f : α → List β) (l : List α) :
    (l.filter p).flatMap f = l.flatMap fun x => if p x then f x else [] := by
  induction l with
  | nil => rfl
  | cons x l ih => cases h : p x <;> simp [List.filter_cons, h, ih]

/-- what is printed for the messages -/
theorem toolLoop_lines {o : ToolOpts} (ho : Printable o) {inp : Bytes}
    (h : ∀ m ∈ (toolLines inp).map cstr, ∃ res, normalize env fuel ctx (fun _ => {}) m [] = .ok res ∧ TagList res.json ∧
      (res.ok = true → Obj.get res.json (bs! "unparsed-data") = none)) :
    ∃ (t : ToolRes) (used : NodeId → Stats), toolLoop env o (normV2 env fuel ctx) (fun _ => {}) 0 {} (toolLines inp) = .ok (t, used) ∧
      t.out = (((toolLines inp).map cstr).zipIdx 1).flatMap (fun p => lineOutput env o p.2 p.1 (isMatched env fuel ctx p.1) (eventOf env fuel ctx p.1)) ∧
      t.numParsed = (((toolLines inp).map cstr).filter fun m => tagOk o.tag (eventOf env fuel ctx m) && isMatched env fuel ctx m).length ∧
      t.numUnparsed = (((toolLines inp).map cstr).filter fun m => tagOk o.tag (eventOf env fuel ctx m) && !isMatched env fuel ctx m).length ∧
      t.numWrongTag = (((toolLines inp).map cstr).filter fun m => !tagOk o.tag (eventOf env fuel ctx m)).length := by
  obtain ⟨⟨t, used⟩, hx⟩ := toolLoop_ends (o := o) ho (toolLines inp) (fun _ => {}) 0 {} fun l hl => by
    obtain ⟨res, h1, h2, _⟩ := h (cstr l) (List.mem_map_of_mem hl)
    exact ⟨res, h1, h2⟩
  have hord : ∀ m ∈ (toolLines inp).map cstr, Ordinary env fuel ctx m := by
    intro m hm
    obtain ⟨res, h1, h2, h3⟩ := h m hm
    obtain ⟨h4, h5⟩ := observe_ok h1
    unfold Ordinary
    rw [h4, h5]; exact ⟨tagList_plain h2, h3⟩
  have ht : tool env o fuel ctx inp = .ok t := by unfold tool; rw [hx]; rfl
  have htag : ∀ m, tagWanted env o fuel ctx m = tagOk o.tag (eventOf env fuel ctx m) := fun m => by
    unfold tagWanted tagOk; cases o.tag <;> rfl
  refine ⟨t, used, hx, ?_, ?_⟩
  · rw [C69_output_partial ht hord]
    refine congrArg (fun f => List.flatMap f _) (funext fun p => ?_)
    unfold lineOutput lineShown wanted shownEvent
    rw [htag]
    cases tagOk o.tag (eventOf env fuel ctx p.1) <;> simp
  · obtain ⟨h1, h2, h3⟩ := C69_counts_partial ht hord
    simp only [htag] at h1 h2 h3
    exact ⟨h1, h2, h3⟩

end

end LN
