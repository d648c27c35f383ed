import Verif.Spec.Tool
import Verif.Props.Nested
import Verif.Props.Engine
/- C61 and C69: the command line tool. -/
set_option autoImplicit false
namespace LN
variable {env : Env} {ctx : Ctx} {fuel : Nat}

/-! ### C61: lines -/

theorem readChunk_line (l rest : Bytes) (h : ch! '\n' ∉ l) : readChunk (l ++ ch! '\n' :: rest) = (l ++ [ch! '\n'], rest) := by
  induction l with
  | nil => simp [readChunk]
  | cons c l ih =>
    have hc : c ≠ ch! '\n' := fun e => h (by rw [e]; exact List.mem_cons_self)
    have hl : ch! '\n' ∉ l := fun e => h (List.mem_cons_of_mem _ e)
    simp [readChunk, hc, ih hl]

theorem readChunk_last (l : Bytes) (h : ch! '\n' ∉ l) : readChunk l = (l, []) := by
  induction l with
  | nil => rfl
  | cons c l ih =>
    have hc : c ≠ ch! '\n' := fun e => h (by rw [e]; exact List.mem_cons_self)
    have hl : ch! '\n' ∉ l := fun e => h (List.mem_cons_of_mem _ e)
    simp [readChunk, hc, ih hl]

theorem readChunk_rest (l : Bytes) (h : l ≠ []) : (readChunk l).2.length < l.length := by
  induction l with
  | nil => exact (h rfl).elim
  | cons c l ih =>
    simp only [readChunk]
    split
    · simp
    · cases l with
      | nil => simp [readChunk]
      | cons d l =>
        have := ih (by simp)
        simp only [List.length_cons] at this ⊢
        omega

/-- any number of calls which is large enough gives the same lines -/
theorem toolLinesN_mono : ∀ (n m : Nat) (s : Bytes), s.length ≤ n → s.length ≤ m → toolLinesN n s = toolLinesN m s
  | 0, 0, s, _, _ => rfl
  | 0, m + 1, s, h, _ => by
    have : s = [] := List.length_eq_zero_iff.1 (by omega)
    rw [this]; rfl
  | n + 1, 0, s, _, h => by
    have : s = [] := List.length_eq_zero_iff.1 (by omega)
    rw [this]; rfl
  | n + 1, m + 1, s, h1, h2 => by
    simp only [toolLinesN, toolReadLine]
    cases s with
    | nil => rfl
    | cons c s =>
      dsimp only
      have := readChunk_rest (c :: s) (by simp)
      rw [toolLinesN_mono n m _ (by omega) (by omega)]

theorem toolLines_cons (s : Bytes) (h : s ≠ []) : toolLines s = chomp (readChunk s).1 :: toolLines (readChunk s).2 := by
  have := readChunk_rest s h
  cases s with
  | nil => exact (h rfl).elim
  | cons c s =>
    unfold toolLines
    simp only [List.length_cons, toolLinesN, toolReadLine]
    rw [toolLinesN_mono s.length (readChunk (c :: s)).2.length _ (by simp only [List.length_cons] at this; omega) (Nat.le_refl _)]

theorem chomp_eol {l e : Bytes} (he : IsEol e) (hcr : l.getLast? ≠ some (ch! '\r')) : chomp (l ++ e) = l := by
  rcases he with rfl | rfl
  · show chomp (l ++ [ch! '\n']) = l
    unfold chomp
    simp only [List.dropLast_concat]
    rw [if_neg hcr]
  · have : l ++ bs! "\r\n" = (l ++ [ch! '\r']) ++ [ch! '\n'] := by simp
    rw [this]
    unfold chomp
    simp

theorem toolLines_join : ∀ (ls : List (Bytes × Bytes)) (t : Bytes),
    (∀ p ∈ ls, ch! '\n' ∉ p.1 ∧ IsEol p.2 ∧ p.1.getLast? ≠ some (ch! '\r')) →
    toolLines (joinLines ls ++ t) = ls.map Prod.fst ++ toolLines t
  | [], t, _ => rfl
  | (l, e) :: ls, t, h => by
    obtain ⟨h1, h2, h3⟩ := h (l, e) List.mem_cons_self
    have ih := toolLines_join ls t fun p hp => h p (List.mem_cons_of_mem _ hp)
    have hj : joinLines ((l, e) :: ls) ++ t = (l ++ e) ++ (joinLines ls ++ t) := by simp [joinLines]
    have hr : readChunk ((l ++ e) ++ (joinLines ls ++ t)) = (l ++ e, joinLines ls ++ t) := by
      rcases h2 with rfl | rfl
      · have := readChunk_line l (joinLines ls ++ t) h1
        simpa using this
      · have := readChunk_line (l ++ [ch! '\r']) (joinLines ls ++ t) (by simp [h1])
        simpa using this
    have hne : (l ++ e) ++ (joinLines ls ++ t) ≠ [] := by
      rcases h2 with rfl | rfl <;> simp
    rw [hj, toolLines_cons _ hne, hr]
    dsimp only
    rw [chomp_eol h2 h3, ih]
    rfl

/-- **C61, partial** A stream in which every line is ended by a newline, or carriage return and newline: the tool hands exactly these
lines to `ln_normalize`, in this order. Missing: a last line without terminator (`C61_last_line`); lines with NUL bytes, which are
cut there; lines ending in further carriage returns. -/
theorem C61_terminated_lines_partial (ls : List (Bytes × Bytes))
    (h : ∀ p ∈ ls, ch! '\n' ∉ p.1 ∧ (0 : UInt8) ∉ p.1 ∧ p.1.getLast? ≠ some (ch! '\r') ∧ IsEol p.2) :
    (toolLines (joinLines ls)).map cstr = ls.map Prod.fst := by
  have h1 := toolLines_join ls [] fun p hp => ⟨(h p hp).1, (h p hp).2.2.2, (h p hp).2.2.1⟩
  rw [List.append_nil] at h1
  rw [h1]
  have : toolLines [] = [] := rfl
  rw [this, List.append_nil, List.map_map]
  apply List.map_congr_left
  intro p hp
  exact cstr_noNul fun c hc e => (h p hp).2.1 (by rw [← e]; exact hc)

/-- lines with both kinds of terminators, one of them empty -/
example : (toolLines (joinLines [(bs! "ab", bs! "\n"), ([], bs! "\n"), (bs! "c d", bs! "\r\n")])).map cstr = [bs! "ab", [], bs! "c d"] := by
  decide +kernel

/-- What becomes of a last line without terminator, in general: its last byte is lost (and a carriage return before it). -/
theorem C61_last_line (ls : List (Bytes × Bytes)) (t : Bytes)
    (h : ∀ p ∈ ls, ch! '\n' ∉ p.1 ∧ p.1.getLast? ≠ some (ch! '\r') ∧ IsEol p.2) (ht : t ≠ []) (hn : ch! '\n' ∉ t)
    (hcr : t.dropLast.getLast? ≠ some (ch! '\r')) :
    toolLines (joinLines ls ++ t) = ls.map Prod.fst ++ [t.dropLast] := by
  rw [toolLines_join ls t fun p hp => ⟨(h p hp).1, (h p hp).2.2, (h p hp).2.1⟩, toolLines_cons t ht, readChunk_last t hn]
  have hc : chomp t = t.dropLast := by unfold chomp; exact if_neg hcr
  dsimp only
  rw [hc]
  rfl

/-- **C61 violated**: a last line without newline loses its last byte; a line is cut at a NUL byte -/
theorem C61_violated :
    (toolLines (bs! "a 12\na 34")).map cstr = [bs! "a 12", bs! "a 3"] ∧ (toolLines [97, 0, 98, 10]).map cstr = [[97]] := by
  decide +kernel

/-! ### C69: classification, selection and counting of records -/

theorem observe_ok {st : NodeId → Stats} {s : Bytes} {r : Res}
    (h : normalize env fuel ctx st s [] = .ok r) :
    isMatched env fuel ctx s = r.ok ∧ eventOf env fuel ctx s = r.json := by
  have h1 := C08_stats_do_not_matter (env := env) (fuel := fuel) (ctx := ctx) (s := s) (json0 := []) st (fun _ => {})
  rw [h] at h1
  unfold isMatched eventOf
  cases hx : normalize env fuel ctx (fun _ => {}) s [] with
  | ok r' => rw [hx] at h1; simp [observe] at h1; exact ⟨h1.1.symm, h1.2.symm⟩
  | fail => rw [hx] at h1; simp [observe] at h1
  | ub k => rw [hx] at h1; simp [observe] at h1
  | oof => rw [hx] at h1; simp [observe] at h1

theorem hasTagLoop_plain (t : Bytes) : ∀ (l : List Json), (∀ j ∈ l, ∃ s, j = Json.str s ∧ ∀ c ∈ s, c ≠ 0) →
    hasTagLoop env t l = .ok (decide (.str t ∈ l))
  | [], _ => by simp [hasTagLoop]
  | j :: l, h => by
    obtain ⟨s, rfl, hs⟩ := h j List.mem_cons_self
    have ih := hasTagLoop_plain t l fun j hj => h j (List.mem_cons_of_mem _ hj)
    simp only [hasTagLoop, cstr_noNul hs]
    by_cases hts : t = s
    · simp [hts]
    · rw [if_neg hts, ih]
      congr 1
      simp [hts]

theorem eventHasTag_plain {o : Obj} (h : PlainTags o) (tag : Option Bytes) :
    eventHasTag env o tag = .ok (match tag with | none => true | some t => hasTag o t) := by
  cases tag with
  | none => rfl
  | some t =>
    unfold eventHasTag hasTag
    dsimp only
    cases hl : Obj.get o (bs! "event.tags") with
    | none => rfl
    | some v =>
      cases v with
      | arr l =>
        dsimp only
        rw [hasTagLoop_plain t _ fun j hj => h l hl j (List.mem_reverse.1 hj)]
        simp
      | _ => rfl

theorem unparsed_present {st : NodeId → Stats} {s : Bytes} {r : Res}
    (h : normalize env fuel ctx st s [] = .ok r) (hf : r.ok = false) : ∃ v, Obj.get r.json (bs! "unparsed-data") = some v := by
  rcases normalize_general (slack := True) (by simp) h with ⟨h1, _⟩ | ⟨_, u, hu, h2⟩
  · rw [hf] at h1; cases h1
  · exact ⟨_, by rw [h2]; exact Obj.get_add_self _ _ _⟩

theorem toolRecord_spec {o : ToolOpts} {st : NodeId → Stats} {n : Nat} {l : Bytes} {r : ToolRec (NodeId → Stats)}
    (ho : Ordinary env fuel ctx (cstr l)) (h : toolRecord env o (normV2 env fuel ctx) st n l = .ok r) :
    r.kind = (if tagWanted env o fuel ctx (cstr l) then (if isMatched env fuel ctx (cstr l) then RecKind.parsed else .unparsed) else .wrongTag) ∧
    (o.fmt = .raw → o.verbose ≤ 1 → r.out.getD [] = if wanted env o fuel ctx (cstr l) then cstr l ++ bs! "\n" else []) := by
  unfold toolRecord at h
  dsimp only at h
  obtain ⟨rs, hrs, h⟩ := R.bind_eq_ok.1 h
  obtain ⟨res, hres, hx⟩ := R.bind_eq_ok.1 hrs
  cases hx
  obtain ⟨hm, he⟩ := observe_ok hres
  obtain ⟨hp, hu⟩ := ho
  rw [he] at hp hu
  rw [eventHasTag_plain hp, R.ok_bind'] at h
  have htw : (match o.tag with | none => true | some t => hasTag res.json t) = tagWanted env o fuel ctx (cstr l) := by
    unfold tagWanted
    rw [he]
    cases o.tag <;> rfl
  rw [htw] at h
  unfold wanted
  cases hw : tagWanted env o fuel ctx (cstr l) with
  | false =>
    rw [hw] at h
    simp only [Bool.false_eq_true, if_false, R.ok.injEq] at h
    rw [← h]
    exact ⟨by simp, fun _ hv => by simp [missingTag, Nat.not_lt.2 hv]⟩
  | true =>
    rw [hw] at h
    simp only [if_true] at h
    cases hmm : isMatched env fuel ctx (cstr l) with
    | true =>
      rw [hu hmm] at h
      dsimp only at h
      split at h
      · rename_i hop
        obtain ⟨t, ht, h⟩ := R.bind_eq_ok.1 h
        cases h
        refine ⟨by simp, fun hf _ => ?_⟩
        simp only [outputEvent, hf, R.ok.injEq] at ht
        simp [hop, ← ht]
      · rename_i hop
        cases h
        exact ⟨by simp, fun _ _ => by simp [hop]⟩
    | false =>
      obtain ⟨v, hv⟩ := unparsed_present hres (by rw [← hm, hmm])
      rw [hv] at h
      dsimp only at h
      split at h
      · rename_i hop
        obtain ⟨t, ht, h⟩ := R.bind_eq_ok.1 h
        cases h
        refine ⟨by simp, fun hf _ => ?_⟩
        simp only [outputEvent, hf, R.ok.injEq] at ht
        simp [hop, ← ht]
      · rename_i hop
        cases h
        exact ⟨by simp, fun _ _ => by simp [hop]⟩

theorem toolLoop_spec {o : ToolOpts} : ∀ (ls : List Bytes) (st : NodeId → Stats) (n : Nat) (acc : ToolRes) (res : ToolRes × (NodeId → Stats)),
    (∀ l ∈ ls, Ordinary env fuel ctx (cstr l)) → toolLoop env o (normV2 env fuel ctx) st n acc ls = .ok res →
    res.1.numParsed = acc.numParsed + ((ls.map cstr).filter fun m => tagWanted env o fuel ctx m && isMatched env fuel ctx m).length ∧
    res.1.numUnparsed = acc.numUnparsed + ((ls.map cstr).filter fun m => tagWanted env o fuel ctx m && !isMatched env fuel ctx m).length ∧
    res.1.numWrongTag = acc.numWrongTag + ((ls.map cstr).filter fun m => !tagWanted env o fuel ctx m).length ∧
    (o.fmt = .raw → o.verbose ≤ 1 → res.1.out = acc.out ++ ((ls.map cstr).filter (wanted env o fuel ctx)).flatMap (· ++ bs! "\n"))
  | [], st, n, acc, res, _, h => by
    simp only [toolLoop, R.ok.injEq] at h
    rw [← h]; simp
  | l :: ls, st, n, acc, res, ho, h => by
    simp only [toolLoop] at h
    obtain ⟨r, hr, h⟩ := R.bind_eq_ok.1 h
    obtain ⟨h1, h3⟩ := toolRecord_spec (ho l List.mem_cons_self) hr
    obtain ⟨i1, i2, i3, i4⟩ := toolLoop_spec ls _ _ _ _ (fun x hx => ho x (List.mem_cons_of_mem _ hx)) h
    refine ⟨?_, ?_, ?_, fun hf hv => ?_⟩
    · rw [i1, h1, List.map_cons, List.filter_cons]
      cases tagWanted env o fuel ctx (cstr l) <;> cases isMatched env fuel ctx (cstr l) <;> simp <;> omega
    · rw [i2, h1, List.map_cons, List.filter_cons]
      cases tagWanted env o fuel ctx (cstr l) <;> cases isMatched env fuel ctx (cstr l) <;> simp <;> omega
    · rw [i3, h1, List.map_cons, List.filter_cons]
      cases tagWanted env o fuel ctx (cstr l) <;> cases isMatched env fuel ctx (cstr l) <;> simp <;> omega
    · rw [i4 hf hv]
      dsimp only
      rw [h3 hf hv, List.map_cons, List.filter_cons]
      cases wanted env o fuel ctx (cstr l) <;> simp

/-- **C69 (1), partial** The numbers the tool reports: with `-t` all messages whose event lacks the tag count as wrong; of the others, those
matched by a rule are the parsed ones. Provided that no field of a matching rule is called `unparsed-data`, and `event.tags` is not a field of another
kind (`C69_violated`). -/
theorem C69_counts_partial {o : ToolOpts} {inp : Bytes} {res : ToolRes} (h : tool env o fuel ctx inp = .ok res)
    (ho : ∀ m ∈ (toolLines inp).map cstr, Ordinary env fuel ctx m) :
    res.numParsed = (((toolLines inp).map cstr).filter fun m => tagWanted env o fuel ctx m && isMatched env fuel ctx m).length ∧
    res.numUnparsed = (((toolLines inp).map cstr).filter fun m => tagWanted env o fuel ctx m && !isMatched env fuel ctx m).length ∧
    res.numWrongTag = (((toolLines inp).map cstr).filter fun m => !tagWanted env o fuel ctx m).length := by
  obtain ⟨rs, hloop, hx⟩ := R.bind_eq_ok.1 h
  cases hx
  have := toolLoop_spec (toolLines inp) _ _ {} rs (fun l hl => ho _ (List.mem_map_of_mem hl)) hloop
  refine ⟨?_, ?_, ?_⟩
  · rw [this.1]; exact Nat.zero_add _
  · rw [this.2.1]; exact Nat.zero_add _
  · rw [this.2.2.1]; exact Nat.zero_add _

/-- **C69 (2), partial** With `-e raw`, the output consists of exactly the input messages selected by `-p`, `-P` and `-t`, each on a
line of its own, in their order. (Under the same provision, and with at most one `-v`.) -/
theorem C69_raw_output_partial {o : ToolOpts} {inp : Bytes} {res : ToolRes} (h : tool env o fuel ctx inp = .ok res)
    (hf : o.fmt = .raw) (hv : o.verbose ≤ 1) (ho : ∀ m ∈ (toolLines inp).map cstr, Ordinary env fuel ctx m) :
    res.out = (((toolLines inp).map cstr).filter (wanted env o fuel ctx)).flatMap (· ++ bs! "\n") := by
  obtain ⟨rs, hloop, hx⟩ := R.bind_eq_ok.1 h
  cases hx
  have := (toolLoop_spec (toolLines inp) _ _ {} rs (fun l hl => ho _ (List.mem_map_of_mem hl)) hloop).2.2.2 hf hv
  simpa using this

theorem outputEvent_printed {o : ToolOpts} {ev : Obj} {msg t : Bytes} (h : outputEvent env o ev msg = .ok t) : t = printed env o ev msg := by
  unfold outputEvent at h
  unfold printed
  split at h
  · rename_i hf; rw [hf]; cases h; rfl
  · rename_i hf; rw [hf]; cases h
    dsimp only
    unfold Obj.del
    congr 5
    funext m
    by_cases hm : m.1 = bs! "event.tags" <;> simp [hm]
  · rename_i hf; rw [hf]
    obtain ⟨r, hr, h⟩ := R.bind_eq_ok.1 h
    cases h
    dsimp only
    rw [hr]
  · rename_i hf; rw [hf]
    obtain ⟨r, hr, h⟩ := R.bind_eq_ok.1 h
    cases h
    dsimp only
    rw [hr]
  · rename_i hf; rw [hf]
    split at h
    · cases h
    · cases h; rfl

theorem toolRecord_out {o : ToolOpts} {st : NodeId → Stats} {n : Nat} {l : Bytes} {r : ToolRec (NodeId → Stats)}
    (ho : Ordinary env fuel ctx (cstr l)) (h : toolRecord env o (normV2 env fuel ctx) st n l = .ok r) :
    r.out.getD [] = lineShown env o fuel ctx n (cstr l) := by
  unfold toolRecord at h
  dsimp only at h
  obtain ⟨rs, hrs, h⟩ := R.bind_eq_ok.1 h
  obtain ⟨res, hres, hx⟩ := R.bind_eq_ok.1 hrs
  cases hx
  obtain ⟨hm, he⟩ := observe_ok hres
  obtain ⟨hp, hu⟩ := ho
  rw [he] at hp hu
  rw [eventHasTag_plain hp, R.ok_bind'] at h
  have htw : (match o.tag with | none => true | some t => hasTag res.json t) = tagWanted env o fuel ctx (cstr l) := by
    unfold tagWanted
    rw [he]
    cases o.tag <;> rfl
  rw [htw] at h
  unfold lineShown wanted shownEvent
  rw [he]
  cases hw : tagWanted env o fuel ctx (cstr l) with
  | false =>
    rw [hw] at h
    simp only [Bool.false_eq_true, if_false, R.ok.injEq] at h
    rw [← h]
    simp only [missingTag, tagComplaint, Bool.false_eq_true, if_false]
    by_cases hv : o.verbose > 1
    · rw [if_pos hv, if_pos (show o.verbose ≥ 2 from hv)]; rfl
    · rw [if_neg hv, if_neg (show ¬ o.verbose ≥ 2 from hv)]; rfl
  | true =>
    rw [hw] at h
    simp only [if_true] at h
    cases hmm : isMatched env fuel ctx (cstr l) with
    | true =>
      rw [hu hmm] at h
      dsimp only at h
      split at h
      · rename_i hop
        obtain ⟨t, ht, h⟩ := R.bind_eq_ok.1 h
        cases h
        simp [hop, outputEvent_printed ht]
      · rename_i hop
        cases h
        simp [hop]
    | false =>
      obtain ⟨v, hv⟩ := unparsed_present hres (by rw [← hm, hmm])
      rw [hv] at h
      dsimp only at h
      split at h
      · rename_i hop
        obtain ⟨t, ht, h⟩ := R.bind_eq_ok.1 h
        cases h
        simp only [outputEvent_printed ht, amendLineNbr, hop]
        simp
      · rename_i hop
        cases h
        simp [hop]

theorem toolLoop_out {o : ToolOpts} : ∀ (ls : List Bytes) (st : NodeId → Stats) (n : Nat) (acc : ToolRes) (res : ToolRes × (NodeId → Stats)),
    (∀ l ∈ ls, Ordinary env fuel ctx (cstr l)) → toolLoop env o (normV2 env fuel ctx) st n acc ls = .ok res →
    res.1.out = acc.out ++ ((ls.map cstr).zipIdx (n + 1)).flatMap fun p => lineShown env o fuel ctx p.2 p.1
  | [], st, n, acc, res, _, h => by
    simp only [toolLoop, R.ok.injEq] at h
    rw [← h]; simp
  | l :: ls, st, n, acc, res, ho, h => by
    simp only [toolLoop] at h
    obtain ⟨r, hr, h⟩ := R.bind_eq_ok.1 h
    have h1 := toolRecord_out (ho l List.mem_cons_self) hr
    rw [toolLoop_out ls _ _ _ _ (fun x hx => ho x (List.mem_cons_of_mem _ hx)) h]
    dsimp only
    rw [h1, List.map_cons, List.zipIdx_cons, List.flatMap_cons]
    simp

/-- **C69 (4), partial** In every format, the output consists of what is to be printed for the messages selected by `-p`, `-P` and `-t`, in their order,
with their line numbers if `-L` is given; if `-v` is given at least twice, each message which lacks the tag of `-t` is reported on stdout, too. (Under the same
provision.) -/
theorem C69_output_partial {o : ToolOpts} {inp : Bytes} {res : ToolRes} (h : tool env o fuel ctx inp = .ok res)
    (ho : ∀ m ∈ (toolLines inp).map cstr, Ordinary env fuel ctx m) :
    res.out = (((toolLines inp).map cstr).zipIdx 1).flatMap fun p => lineShown env o fuel ctx p.2 p.1 := by
  obtain ⟨rs, hloop, hx⟩ := R.bind_eq_ok.1 h
  cases hx
  have := toolLoop_out (toolLines inp) _ _ {} rs (fun l hl => ho _ (List.mem_map_of_mem hl)) hloop
  simpa using this

theorem toolLoop_total {o : ToolOpts} : ∀ (ls : List Bytes) (st : NodeId → Stats) (n : Nat) (acc : ToolRes) (res : ToolRes × (NodeId → Stats)),
    toolLoop env o (normV2 env fuel ctx) st n acc ls = .ok res →
    res.1.numParsed + res.1.numUnparsed + res.1.numWrongTag = acc.numParsed + acc.numUnparsed + acc.numWrongTag + ls.length
  | [], st, n, acc, res, h => by
    simp only [toolLoop, R.ok.injEq] at h
    rw [← h]; simp
  | l :: ls, st, n, acc, res, h => by
    simp only [toolLoop] at h
    obtain ⟨r, hr, h⟩ := R.bind_eq_ok.1 h
    rw [toolLoop_total ls _ _ _ _ h]
    cases r.kind <;> simp <;> omega

/-- **C69 (3)** Whatever the rules, each line is counted exactly once. -/
theorem C69_every_line_counted {o : ToolOpts} {inp : Bytes} {res : ToolRes} (h : tool env o fuel ctx inp = .ok res) :
    res.numParsed + res.numUnparsed + res.numWrongTag = (toolLines inp).length := by
  obtain ⟨rs, hloop, hx⟩ := R.bind_eq_ok.1 h
  cases hx
  have := toolLoop_total _ _ _ _ _ hloop
  simpa using this

namespace Ex
/-- what the tool reports and prints -/
def toolObs (o : ToolOpts) (c : Ctx) (inp : Bytes) : R (Nat × Nat × Nat × Bytes) :=
  (tool Ex.env o 5 c inp).bind fun r => .ok (r.numParsed, r.numUnparsed, r.numWrongTag, r.out)

/-- a rule with a field of this name, matching any word -/
def ctxNamed (name : Bytes) : Ctx where
  node n := if n = 0 then { parsers := [{ kind := .word, node := 1, prio := 4, name := some name, conf := .null }] } else { isTerminal := true }
  root := 0
  types := []
  opts := 0
  annots := []
end Ex

/-- `-p -e raw` prints the lines with a match; the tag `num` is that of the rule -/
example : Ex.toolObs { fmt := .raw, outUnparsed := false } Ex.ctx1 (bs! "a 12\nb\na 7\n") = .ok (2, 1, 0, bs! "a 12\na 7\n") ∧
    Ex.toolObs { fmt := .raw, tag := some (bs! "num") } Ex.ctx1 (bs! "a 12\nb\na 7\n") = .ok (2, 0, 1, bs! "a 12\na 7\n") ∧
    (∀ m ∈ (toolLines (bs! "a 12\nb\na 7\n")).map cstr, Ordinary Ex.env 5 Ex.ctx1 m) := by
  refine ⟨by decide +kernel, by decide +kernel, ?_⟩
  have : (toolLines (bs! "a 12\nb\na 7\n")).map cstr = [bs! "a 12", bs! "b", bs! "a 7"] := by decide +kernel
  rw [this]
  intro m hm
  rcases List.mem_cons.1 hm with rfl | hm
  · have h1 : Obj.get (eventOf Ex.env 5 Ex.ctx1 (bs! "a 12")) (bs! "event.tags") = some (.arr [.str (bs! "num")]) := by decide +kernel
    refine ⟨fun l hl j hj => ?_, fun _ => by decide +kernel⟩
    rw [h1] at hl; cases hl
    rw [List.mem_singleton.1 hj]; exact ⟨_, rfl, by decide⟩
  rcases List.mem_cons.1 hm with rfl | hm
  · have h1 : Obj.get (eventOf Ex.env 5 Ex.ctx1 (bs! "b")) (bs! "event.tags") = none := by decide +kernel
    refine ⟨fun l hl j hj => ?_, fun h => ?_⟩
    · rw [h1] at hl; cases hl
    · have : isMatched Ex.env 5 Ex.ctx1 (bs! "b") = false := by decide +kernel
      rw [this] at h; cases h
  rcases List.mem_cons.1 hm with rfl | hm
  · have h1 : Obj.get (eventOf Ex.env 5 Ex.ctx1 (bs! "a 7")) (bs! "event.tags") = some (.arr [.str (bs! "num")]) := by decide +kernel
    refine ⟨fun l hl j hj => ?_, fun _ => by decide +kernel⟩
    rw [h1] at hl; cases hl
    rw [List.mem_singleton.1 hj]; exact ⟨_, rfl, by decide⟩
  · cases hm

/-- `-v -v -t num`: the line without the tag is reported -/
example : Ex.toolObs { fmt := .raw, tag := some (bs! "num"), verbose := 2 } Ex.ctx1 (bs! "a 12\nb\na 7\n") =
    .ok (2, 0, 1, bs! "a 12\nMandatory tag 'num' has not been found\na 7\n") := by decide +kernel

/-- **C69 violated** in general: a message matched by a rule which has a field called `unparsed-data` counts as not parsed, and with `-p` it is
not printed -/
theorem C69_violated :
    isMatched Ex.env 5 (Ex.ctxNamed (bs! "unparsed-data")) (bs! "x") = true ∧
    Ex.toolObs { fmt := .raw, outUnparsed := false } (Ex.ctxNamed (bs! "unparsed-data")) (bs! "x\n") = .ok (0, 1, 0, []) := by
  decide +kernel

end LN
