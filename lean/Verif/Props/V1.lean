import Verif.Proofs.V1Norm
import Verif.Proofs.Fields
/- Version 1 rulebases: C64, C65, C70. -/
set_option autoImplicit false
namespace LN

/-! ### examples -/

namespace Ex
/-- `word`: a nonempty word; `char-sep`: a possibly empty word -/
def v1run : V1Run := fun f s off =>
  match f.prs with
  | .fn .word =>
    let w := (s.drop off).takeWhile (· != ch! ' ')
    if w = [] then .fail else .ok (w.length, none)
  | .fn .charSep => .ok (((s.drop off).takeWhile (· != ch! ' ')).length, none)
  | _ => .fail

def fw : V1Field := ⟨bs! "w", .fn .word, none, none⟩
def fe : V1Field := ⟨bs! "e", .fn .charSep, none, none⟩
def fr : V1Field := ⟨bs! "r", .rest, none, none⟩
def fi : V1Field := ⟨bs! "i", .iptables, none, none⟩
/-- all fields without parser data -/
def v1pd : V1Pd := ⟨fun _ _ => none, fun _ => True⟩
/-- two different parser data -/
def pd1 : Option V1Data := some (.recursive .root (bs! "a"))
def pd2 : Option V1Data := some (.recursive .root (bs! "b"))
def v1 (xs : List V1Sample) (m : Bytes) : R V1Res := v1Normalize v1run [] 100 (loadV1 xs) m []

/-- `rule=login:user %w:word% in`, `rule=:user %w:word% out`, `rule=other:us%r:rest%` -/
def v1xs : List V1Sample :=
  [⟨bs! "user ", [(fw, bs! " in")], some [bs! "login"], true⟩, ⟨bs! "user ", [(fw, bs! " out")], none, true⟩,
   ⟨bs! "us", [(fr, [])], some [bs! "other"], true⟩]

theorem v1run_ok (s : Bytes) (hs : s.length < 2 ^ 64) : V1RunOK v1pd.ok v1run s := by
  have key : ∀ f off, off ≤ s.length → v1run f s off = .fail ∨ ∃ len v, v1run f s off = .ok (len, v) ∧ off + len ≤ s.length := by
   intro f off ho
   have h : ((s.drop off).takeWhile (· != ch! ' ')).length ≤ s.length - off := by
     rw [← List.length_drop]; exact (List.takeWhile_prefix _).length_le
   unfold v1run
   split
   · dsimp only
     split
     · exact .inl rfl
     · exact .inr ⟨_, _, rfl, by omega⟩
   · exact .inr ⟨_, _, rfl, by omega⟩
   · exact .inl rfl
  refine ⟨⟨hs, fun f off len v _ ho h => ?_⟩, fun f off _ ho => ?_⟩
  · rcases key f off ho with h1 | ⟨l, w, h1, h2⟩
    · rw [h1] at h; cases h
    · rw [h1] at h; cases h; exact h2
  · rcases key f off ho with h1 | ⟨l, w, h1, h2⟩
    · exact .inl h1
    · exact .inr ⟨l, w, h1⟩

theorem v1ok_of {x : V1Sample} (h1 : x.complete = true) (h2 : x.lit.length < 65536) {q : V1Field × Bytes} (h3 : x.rest = [q])
    (h4 : q.2.length < 65536) (h5 : q.1.pdata = none) (h6 : q.1.prs ≠ .iptables) (h7 : q.1.prs = .rest → q.2 = []) : x.OK v1pd where
  complete := h1
  lit := h2
  lits p hp := by rw [h3, List.mem_singleton] at hp; rw [hp]; exact h4
  data p hp := by rw [h3, List.mem_singleton] at hp; rw [hp]; exact ⟨h5, trivial⟩
  noIpt p hp := by rw [h3, List.mem_singleton] at hp; rw [hp]; exact h6
  restLast a b p e hr := by
    rw [h3] at e
    cases a with
    | nil => simp only [List.nil_append, List.cons.injEq] at e; obtain ⟨e, e2⟩ := e; rw [← e] at hr ⊢; exact ⟨h7 hr, e2.symm⟩
    | cons y a => simp at e

theorem v1xs_ok : ∀ x ∈ v1xs, x.OK v1pd := by
  intro x hx
  simp only [v1xs, List.mem_cons, List.not_mem_nil, or_false] at hx
  rcases hx with rfl | rfl | rfl
  · exact v1ok_of rfl (by decide) rfl (by decide) rfl (by decide) (by decide)
  · exact v1ok_of rfl (by decide) rfl (by decide) rfl (by decide) (by decide)
  · exact v1ok_of rfl (by decide) rfl (by decide) rfl (by decide) (by decide)
end Ex

/-! ### C65: the tree stands for the samples -/

section
variable {pd : V1Pd}

/-- C65: adding a well formed sample to a tree made of well formed samples adds exactly this sample: it can be found, with its
tags, and nothing else is changed, however its text overlaps with what is there. -/
theorem C65_sample_added_partial {xs : List V1Sample} {x : V1Sample} (hxs : ∀ y ∈ xs, y.OK pd) (hx : x.OK pd) (toks : List VTok) :
    look (loadV1 (xs ++ [x])) toks = if toks = x.toks then some x.tags else look (loadV1 xs) toks := by
  obtain ⟨h1, h2, _⟩ := loadV1_spec hxs
  have : loadV1 (xs ++ [x]) = addSample (loadV1 xs) x := by simp [loadV1]
  rw [this]
  exact (addSample_spec hx h1 h2).2.2 toks

/-- C65: the tree stands for exactly the samples loaded, with the tags of the last one of equal samples. -/
theorem C65_tree_is_samples_partial {xs : List V1Sample} (hxs : ∀ y ∈ xs, y.OK pd) (toks : List VTok) :
    look (loadV1 xs) toks = (lastOf xs toks).map V1Sample.tags := (loadV1_spec hxs).2.2 toks

/-- C65: the order of different samples is of no importance for what the tree stands for -/
theorem C65_order_irrelevant_partial {xs ys : List V1Sample} (h : xs.Perm ys) (hxs : ∀ y ∈ xs, y.OK pd)
    (hd : ∀ a ∈ xs, ∀ b ∈ xs, a.toks = b.toks → a.tags = b.tags) (toks : List VTok) : look (loadV1 xs) toks = look (loadV1 ys) toks := by
  rw [C65_tree_is_samples_partial hxs, C65_tree_is_samples_partial fun y hy => hxs y (h.mem_iff.2 hy)]
  unfold lastOf
  cases h1 : xs.reverse.find? (fun x => decide (x.toks = toks)) with
  | none =>
    cases h2 : ys.reverse.find? (fun x => decide (x.toks = toks)) with
    | none => rfl
    | some b =>
      have hb := List.mem_of_find?_eq_some h2
      rw [List.mem_reverse, ← h.mem_iff] at hb
      have := List.find?_eq_none.1 h1 b (List.mem_reverse.2 hb)
      have hb2 := List.find?_some (p := fun x : V1Sample => decide (x.toks = toks)) h2
      exact (this hb2).elim
  | some a =>
    have ha := List.mem_of_find?_eq_some h1
    have ha2 := List.find?_some (p := fun x : V1Sample => decide (x.toks = toks)) h1
    rw [List.mem_reverse] at ha
    cases h2 : ys.reverse.find? (fun x => decide (x.toks = toks)) with
    | none =>
      have := List.find?_eq_none.1 h2 a (List.mem_reverse.2 (h.mem_iff.1 ha))
      exact (this ha2).elim
    | some b =>
      have hb := List.mem_of_find?_eq_some h2
      have hb2 := List.find?_some (p := fun x : V1Sample => decide (x.toks = toks)) h2
      rw [List.mem_reverse, ← h.mem_iff] at hb
      simp only [decide_eq_true_eq] at ha2 hb2
      show some a.tags = some b.tags
      rw [hd a ha b hb (ha2.trans hb2.symm)]

example : look (loadV1 Ex.v1xs) (chars (bs! "user ") ++ .fld Ex.fw :: chars (bs! " in")) = some (some [bs! "login"]) ∧
    look (loadV1 Ex.v1xs) (chars (bs! "us") ++ [.fld Ex.fr]) = some (some [bs! "other"]) ∧
    look (loadV1 Ex.v1xs) (chars (bs! "user ") ++ [.fld Ex.fw]) = none := by decide +kernel

/-- What is missing in C65. Behind a malformed sample (`ax%`, say) an empty leaf remains, and the next sample through it gets a
wrong text: after `ay`, malformed `ax`, `axzz` the message `axzz` is not recognised, but `axax` is. Two fields which differ
only in what their constructor made of them are merged: with the samples `<a>x` and `<b>y`, where a and b have the same name and raw data,
`<a>y` is found, and `<b>y` is not. -/
theorem C65_violated :
    Ex.v1 [⟨bs! "ay", [], none, true⟩, ⟨bs! "ax", [], none, false⟩, ⟨bs! "axzz", [], none, true⟩] (bs! "axzz") =
      .ok ⟨false, [(bs! "originalmsg", .str (bs! "axzz")), (bs! "unparsed-data", .str (bs! "zz"))]⟩ ∧
    Ex.v1 [⟨bs! "ay", [], none, true⟩, ⟨bs! "ax", [], none, false⟩, ⟨bs! "axzz", [], none, true⟩] (bs! "axax") = .ok ⟨true, []⟩ ∧
    look (loadV1 [⟨[], [({ Ex.fw with pdata := Ex.pd1 }, bs! "x")], none, true⟩, ⟨[], [({ Ex.fw with pdata := Ex.pd2 }, bs! "y")], none, true⟩])
      (.fld { Ex.fw with pdata := Ex.pd1 } :: chars (bs! "y")) = some none ∧
    look (loadV1 [⟨[], [({ Ex.fw with pdata := Ex.pd1 }, bs! "x")], none, true⟩, ⟨[], [({ Ex.fw with pdata := Ex.pd2 }, bs! "y")], none, true⟩])
      (.fld { Ex.fw with pdata := Ex.pd2 } :: chars (bs! "y")) = none := by decide +kernel

/-- What is missing in C65: of a literal of 65536 bytes nothing is kept, and the rule matches the empty message. -/
theorem C65_long_literal_violated : ∃ x : V1Sample, x.lit.length = 65536 ∧ x.rest = [] ∧
    look (loadV1 [x]) [] = some none ∧ look (loadV1 [x]) x.toks = none := by
  obtain ⟨l, hl⟩ : ∃ l : Bytes, l.length = 65536 := ⟨List.replicate 65536 0, List.length_replicate⟩
  refine ⟨⟨l, [], none, true⟩, hl, rfl, ?_, ?_⟩
  all_goals
    have hne : l ≠ [] := by rintro rfl; simp at hl
    have h1 : commonLen l [] = 0 := by cases l <;> rfl
    have hz : (0 : Nat) ≠ l.length := by rw [hl]; decide
    have hs : storePfx l 0 = [] := by unfold storePfx; rw [hl]; rfl
    have hg : l[0]? ≠ none := by cases l <;> simp at hne ⊢
    obtain ⟨c, hc⟩ := Option.ne_none_iff_exists'.1 hg
    have ht : loadV1 [⟨l, [], none, true⟩] = .node [] true none [] [] := by
      show buildPTreeN l (markTerminal none) (l.length + 1) .empty 0 = _
      rw [buildPTreeN]
      have hp : PTree.empty.pfx = [] := rfl
      simp only [hp, List.drop_zero, h1, Nat.add_zero, List.length_nil, Nat.lt_irrefl, if_false]
      rw [if_neg hz, hc]
      have hsub : subGet PTree.empty.subs c = none := rfl
      simp only [hsub]
      unfold addPTree
      have hlf : PTree.empty.isTrueLeaf = true := rfl
      rw [hlf, if_pos rfl, hs]
      rfl
    rw [ht]
  · rfl
  · obtain ⟨a, l', rfl⟩ : ∃ a l', l = a :: l' := by
      cases l with
      | nil => exact (hne rfl).elim
      | cons a l' => exact ⟨a, l', rfl⟩
    rfl

/-! ### C64: the search -/

/-- the event delivered for a match: fields, then tags and annotations, if the sample has tags -/
def v1Delivered (annots : List Annot) (s : Bytes) (json0 : Obj) (tr : List V1Step) (tags : Option (List Bytes)) (json : Obj) : Prop :=
  match tags with
  | none => json = v1Event s json0 tr
  | some ts => annotate annots (Obj.add (v1Event s json0 tr) (bs! "event.tags") (.arr (ts.map Json.str))) ts = .ok json

variable {run : V1Run} {s : Bytes} {annots : List Annot} {fuel : Nat} {json0 : Obj} {xs : List V1Sample} {res : V1Res}

/-- C64, no false match: if `ln_normalize` reports a match, then one of the samples does match the whole message, and the event
consists of what its fields matched, the tags of (the last one of the samples equal to) this sample, and the annotations. -/
theorem C64_match_is_real_partial (hrun : V1RunIn pd.ok run s) (hxs : ∀ x ∈ xs, x.OK pd)
    (h : v1Normalize run annots fuel (loadV1 xs) s json0 = .ok res) (hm : res.matched = true) :
    ∃ x ∈ xs, ∃ tr, lastOf xs x.toks = some x ∧ V1Match run s 0 x.toks tr ∧ v1Delivered annots s json0 tr x.tags res.json := by
  unfold v1Normalize at h
  obtain ⟨⟨left, st⟩, h1, h2⟩ := bind_ok h
  dsimp only at h2
  obtain ⟨b, h3, h4⟩ := bind_ok h2
  have hg := loadV1_spec hxs
  have hs := v1Rec_sound hrun fuel (loadV1 xs) 0 _ left st hg.1 (Nat.zero_le _) h1
  have hb := v1Hit_ok h3
  cases b with
  | false =>
    rw [if_neg (by simp)] at h4
    obtain ⟨o, _, h6⟩ := bind_ok h4
    cases h6
    cases hm
  | true =>
    rw [if_pos rfl] at h4
    obtain ⟨toks, tr, tg, he, hlk, hmt, hj⟩ := hs.hit (hb.1 rfl)
    rw [hg.2.2] at hlk
    cases hl : lastOf xs toks with
    | none => rw [hl] at hlk; cases hlk
    | some x =>
      rw [hl] at hlk
      have hx : x.tags = tg := by simpa using hlk
      have htoks : x.toks = toks := by
        have := List.find?_some hl
        simpa using this
      refine ⟨x, ?_, tr, by rw [htoks]; exact hl, by rw [htoks]; exact hmt, ?_⟩
      · exact List.mem_reverse.1 (List.mem_of_find?_eq_some hl)
      · rw [he] at h4
        rw [hx]
        unfold v1Delivered
        cases tg with
        | none => dsimp only at h4; cases h4; exact hj
        | some ts =>
          dsimp only at h4 ⊢
          obtain ⟨o, h5, h6⟩ := bind_ok h4
          cases h6
          rw [← hj]; exact h5

/-- C64, no lost match: if one of the samples (without bytes from 128 on in its literals) matches the whole message, and no field of it
begins behind the last byte, then `ln_normalize` reports a match. -/
theorem C64_no_match_lost_partial (hrun : V1RunIn pd.ok run s) (hxs : ∀ x ∈ xs, x.OK pd) {x : V1Sample} (hx : x ∈ xs) (ha : x.Ascii)
    {tr : List V1Step} (hm : V1Match run s 0 x.toks tr) (ht : ∀ p ∈ tr, p.off < s.length)
    (h : v1Normalize run annots fuel (loadV1 xs) s json0 = .ok res) : res.matched = true := by
  unfold v1Normalize at h
  obtain ⟨⟨left, st⟩, h1, h2⟩ := bind_ok h
  dsimp only at h2
  obtain ⟨b, h3, h4⟩ := bind_ok h2
  have hg := loadV1_spec hxs
  have hl : ∃ y, lastOf xs x.toks = some y := by
    cases hl : lastOf xs x.toks with
    | some y => exact ⟨y, rfl⟩
    | none =>
      have := List.find?_eq_none.1 hl x (List.mem_reverse.2 hx)
      simp at this
  obtain ⟨y, hy⟩ := hl
  have hlk : look (loadV1 xs) x.toks = some y.tags := by rw [hg.2.2, hy]; rfl
  have hhit := v1Rec_complete hrun fuel (loadV1 xs) 0 _ left st x.toks tr y.tags hg.1 hm hlk ht ha h1
  have hb := (v1Hit_ok h3).2 hhit
  subst hb
  rw [if_pos rfl] at h4
  split at h4
  · obtain ⟨o, _, h6⟩ := bind_ok h4
    cases h6; rfl
  · cases h4; rfl

/-- C64: the search ends: it needs no more nested calls than the tree is large; and it has no undefined behaviour. -/
theorem C64_search_ends_partial (hrun : V1RunOK pd.ok run s) (hxs : ∀ x ∈ xs, x.OK pd) (hf : sizeOf (loadV1 xs) < fuel) :
    ∃ left st, v1Rec run s fuel (loadV1 xs) 0 { json := json0 } = .ok (left, st) ∧ ∃ b, v1Hit left st = .ok b := by
  have hg := loadV1_spec hxs
  obtain ⟨⟨left, st⟩, h⟩ := v1Rec_total hrun fuel (loadV1 xs) 0 { json := json0 } hg.1 (Nat.zero_le _) hf
  exact ⟨left, st, h, v1Hit_total (v1Rec_sound hrun.toV1RunIn fuel (loadV1 xs) 0 _ left st hg.1 (Nat.zero_le _) h).en⟩

/-- the hypotheses are met, and both outcomes occur -/
example : (∀ x ∈ Ex.v1xs, x.OK Ex.v1pd) ∧ V1RunOK Ex.v1pd.ok Ex.v1run (bs! "user joe in") ∧
    V1Match Ex.v1run (bs! "user joe in") 0 (chars (bs! "user ") ++ .fld Ex.fw :: chars (bs! " in")) [⟨Ex.fw, 5, 3, none⟩] ∧
    Ex.v1 Ex.v1xs (bs! "user joe in") = .ok ⟨true, [(bs! "w", .str (bs! "joe")), (bs! "event.tags", .arr [.str (bs! "login")])]⟩ ∧
    Ex.v1 Ex.v1xs (bs! "user joe off") = .ok ⟨true, [(bs! "r", .str (bs! "er joe off")), (bs! "event.tags", .arr [.str (bs! "other")])]⟩ ∧
    Ex.v1 Ex.v1xs (bs! "xser joe off") =
      .ok ⟨false, [(bs! "originalmsg", .str (bs! "xser joe off")), (bs! "unparsed-data", .str (bs! "xser joe off"))]⟩ := by
  refine ⟨Ex.v1xs_ok, Ex.v1run_ok _ (by decide), ?_, by decide +kernel, by decide +kernel, by decide +kernel⟩
  refine .chars (c := bs! "joe in") rfl (.fld rfl rfl ?_)
  have h : V1Match Ex.v1run (bs! "user joe in") 8 (chars (bs! " in") ++ []) [] := .chars (c := []) rfl .nil
  exact h

/-- What is missing in C64. A `rest` field followed by something matches without it: `%r:rest%b` matches "xyz" (no byte of which is a `b`).
With `%i:iptables%x` the sample `a` no longer matches the message "a", and the event contains what the iptables field found. A
sample of one byte from 128 on does not match this byte. A field which would match the empty text at the end is not tried
(`%w:word%%e:...%`), unless a literal is before it (`a%e:...%`). -/
theorem C64_violated :
    Ex.v1 [⟨[], [(Ex.fr, bs! "b")], none, true⟩] (bs! "xyz") = .ok ⟨true, [(bs! "r", .str (bs! "xyz"))]⟩ ∧
    Ex.v1 [⟨[], [(Ex.fi, bs! "x")], none, true⟩, ⟨bs! "a", [], none, true⟩] (bs! "a") =
      .ok ⟨false, [(bs! "a", .str (bs! "[*PRESENT*]")), (bs! "originalmsg", .str (bs! "a")), (bs! "unparsed-data", .str [])]⟩ ∧
    Ex.v1 [⟨[0xc3], [], none, true⟩] [0xc3] = .ok ⟨false, [(bs! "originalmsg", .str [0xc3]), (bs! "unparsed-data", .str [0xc3])]⟩ ∧
    Ex.v1 [⟨[], [(Ex.fw, []), (Ex.fe, [])], none, true⟩] (bs! "a") =
      .ok ⟨false, [(bs! "originalmsg", .str (bs! "a")), (bs! "unparsed-data", .str (bs! "a"))]⟩ ∧
    V1Match Ex.v1run (bs! "a") 0 [.fld Ex.fw, .fld Ex.fe] [⟨Ex.fw, 0, 1, none⟩, ⟨Ex.fe, 1, 0, none⟩] ∧
    Ex.v1 [⟨bs! "a", [(Ex.fe, [])], none, true⟩] (bs! "a") = .ok ⟨true, [(bs! "e", .str [])]⟩ := by
  refine ⟨by decide +kernel, by decide +kernel, by decide +kernel, by decide +kernel, ?_, by decide +kernel⟩
  exact .fld (n := .word) rfl rfl (.fld (n := .charSep) rfl rfl .nil)

/-! ### C70: what is delivered if there is no match -/

/-- C70: without a match the event is what the caller passed, plus the whole message as `originalmsg` and the end of it as
`unparsed-data` (messages without NUL bytes). -/
theorem C70_no_match_partial (hrun : V1RunIn pd.ok run s) (hxs : ∀ x ∈ xs, x.OK pd) (hz : (0 : UInt8) ∉ s)
    (h : v1Normalize run annots fuel (loadV1 xs) s json0 = .ok res) (hm : res.matched = false) :
    ∃ i ≤ s.length, res.json = Obj.add (Obj.add json0 (bs! "originalmsg") (.str s)) (bs! "unparsed-data") (.str (s.drop i)) := by
  unfold v1Normalize at h
  obtain ⟨⟨left, st⟩, h1, h2⟩ := bind_ok h
  dsimp only at h2
  obtain ⟨b, h3, h4⟩ := bind_ok h2
  have hg := loadV1_spec hxs
  have hs := v1Rec_sound hrun fuel (loadV1 xs) 0 _ left st hg.1 (Nat.zero_le _) h1
  have hb := v1Hit_ok h3
  cases b with
  | true =>
    rw [if_pos rfl] at h4
    split at h4
    · obtain ⟨o, _, h6⟩ := bind_ok h4
      cases h6; cases hm
    · cases h4; cases hm
  | false =>
    rw [if_neg (by simp)] at h4
    obtain ⟨o, h5, h6⟩ := bind_ok h4
    cases h6
    have hj := hs.miss (fun h => by have := hb.2 h; cases this)
    unfold v1Unparsed at h5
    dsimp only at h5
    rw [cstr_noNul (fun c hc h0 => hz (h0 ▸ hc))] at h5
    rw [hj] at h5
    generalize (if left < 0 then (s.length : Int) else s.length - left) = i at h5
    split at h5
    · cases h5
    · rename_i hle
      cases h5
      exact ⟨i.toNat, by omega, rfl⟩

/-- C70: on messages without NUL bytes, and if the annotations can be added, `ln_normalize` has no undefined behaviour, and ends. -/
theorem C70_total_partial (hrun : V1RunOK pd.ok run s) (hxs : ∀ x ∈ xs, x.OK pd) (hz : (0 : UInt8) ∉ s) (hf : sizeOf (loadV1 xs) < fuel)
    (ha : ∀ (o : Obj) ts, ∃ o', annotate annots o ts = .ok o') : ∃ res, v1Normalize run annots fuel (loadV1 xs) s json0 = .ok res := by
  obtain ⟨left, st, h1, b, h2⟩ := C64_search_ends_partial (json0 := json0) hrun hxs hf
  unfold v1Normalize
  rw [h1]
  show ∃ res, (v1Hit left st).bind _ = _
  rw [h2]
  cases b with
  | true =>
    show ∃ res, (match st.en with
      | some (_, some ts) =>
        (annotate annots (Obj.add st.json (bs! "event.tags") (.arr (ts.map Json.str))) ts).bind fun o => .ok (⟨true, o⟩ : V1Res)
      | _ => .ok ⟨true, st.json⟩) = .ok res
    split
    · obtain ⟨o', ho⟩ := ha (Obj.add st.json (bs! "event.tags") (.arr (List.map Json.str ‹_›))) ‹_›
      rw [ho]; exact ⟨_, rfl⟩
    · exact ⟨_, rfl⟩
  | false =>
    show ∃ res, (v1Unparsed s (if left < 0 then s.length else s.length - left) st.json).bind _ = .ok res
    unfold v1Unparsed
    dsimp only
    have hg := loadV1_spec hxs
    have hle := (v1Rec_sound hrun.toV1RunIn fuel (loadV1 xs) 0 _ left st hg.1 (Nat.zero_le _) h1).le
    rw [cstr_noNul (fun c hc h0 => hz (h0 ▸ hc)), if_neg (by split <;> omega)]
    exact ⟨_, rfl⟩

example : (0 : UInt8) ∉ bs! "user joe off" ∧ sizeOf (loadV1 []) < 100 ∧ (∀ (o : Obj) ts, ∃ o', annotate [] o ts = .ok o') :=
  ⟨by decide, by decide, fun o ts => ⟨o, by
    unfold annotate
    generalize ts.reverse = l
    induction l with
    | nil => rfl
    | cons t l ih => exact ih⟩⟩

/-- What is missing in C70: with a NUL byte in the message, the unparsed part is looked for behind the end of a copy of the message, which
ends at the first NUL (sample `%w:word% x`, message of the five bytes a NUL b space c). -/
theorem C70_violated : Ex.v1 [⟨[], [(Ex.fw, bs! " x")], none, true⟩] [97, 0, 98, 32, 99] = .ub .oobRead := by decide +kernel

end

end LN
