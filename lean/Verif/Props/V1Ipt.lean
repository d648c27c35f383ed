import Verif.Spec.V1Ipt
import Verif.Props.V1
import Verif.Proofs.FieldConf
/- C71: the `iptables` field of version-1 rulebases. -/
set_option autoImplicit false
namespace LN

theorem takeWhile_app {α : Type} {p : α → Bool} : ∀ (l t : List α), (∀ c ∈ l, p c = true) → (∀ c, t.head? = some c → p c = false) →
    (l ++ t).takeWhile p = l ∧ (l ++ t).dropWhile p = t
  | [], [], _, _ => ⟨rfl, rfl⟩
  | [], c :: t, _, h => by
    have := h c rfl
    simp [this]
  | a :: l, t, h1, h2 => by
    have ih := takeWhile_app l t (fun c hc => h1 c (List.mem_cons_of_mem _ hc)) h2
    have ha := h1 a List.mem_cons_self
    simp [ha, ih]

theorem mem_takeWhile_imp' {α : Type} {p : α → Bool} {l : List α} {c : α} (h : c ∈ l.takeWhile p) : p c = true :=
  List.all_eq_true.1 List.all_takeWhile c h

/-- how one pair is read -/
theorem iptPair_value {sp name v t : Bytes} (hsp : ∀ c ∈ sp, isSpace c = true) (hname : ∀ c ∈ name, isSpace c = false ∧ c ≠ ch! '=')
    (hv : ∀ c ∈ v, isSpace c = false) (ht : Cut t) : iptPair (sp ++ (name ++ ch! '=' :: (v ++ t))) = (name, v, t) := by
  have h1 := takeWhile_app (p := isSpace) sp (name ++ ch! '=' :: (v ++ t)) hsp (by
    intro c hc
    cases name with
    | nil => cases hc; decide
    | cons a l =>
      have : a = c := by simpa using hc
      exact this ▸ (hname a List.mem_cons_self).1)
  have h2 := takeWhile_app (p := fun c => !isSpace c && c != ch! '=') name (ch! '=' :: (v ++ t))
    (fun c hc => by simp [(hname c hc).1, (hname c hc).2]) (by intro c hc; cases hc; decide)
  have h3 := takeWhile_app (p := fun c => !isSpace c) v t (fun c hc => by simp [hv c hc]) (fun c hc => by simp [ht c hc])
  unfold iptPair
  simp only [h1.2, h2.1, List.drop_left, if_true, h3.1, h3.2]

theorem iptPair_flag {sp name t : Bytes} (hsp : ∀ c ∈ sp, isSpace c = true) (hname : ∀ c ∈ name, isSpace c = false ∧ c ≠ ch! '=')
    (ht : Cut t) (hlast : name = [] → t = []) : iptPair (sp ++ (name ++ t)) = (name, bs! "[*PRESENT*]", t) := by
  have hh : ∀ c, (name ++ t).head? = some c → isSpace c = false := by
    intro c hc
    cases name with
    | nil => rw [hlast rfl] at hc; cases hc
    | cons a l =>
      have : a = c := by simpa using hc
      exact this ▸ (hname a List.mem_cons_self).1
  have h1 := takeWhile_app (p := isSpace) sp (name ++ t) hsp hh
  have h2 := takeWhile_app (p := fun c => !isSpace c && c != ch! '=') name t
    (fun c hc => by simp [(hname c hc).1, (hname c hc).2]) (by intro c hc; simp [ht c hc])
  unfold iptPair
  simp only [h1.2, h2.1, List.drop_left]
  cases t with
  | nil => rfl
  | cons c t =>
    have : c ≠ ch! '=' := by
      rintro rfl
      have := ht _ rfl
      revert this; decide
    simp only [if_neg this]

/-- the pairs are stored one after the other -/
theorem iptLoop_pairs {t : Bytes} {ps : List (Bytes × Bytes)} (h : IptPairs t ps) : ∀ (n : Nat) (o : Obj), t.length ≤ n →
    iptLoop n t o = ps.foldl (fun o p => Obj.add o (cstr p.1) (.str (cstr p.2))) o := by
  induction h with
  | nil =>
    intro n o _
    cases n <;> simp [iptLoop]
  | @value sp name v t ps hsp hname hv ht h ih =>
    intro n o hn
    cases n with
    | zero => simp at hn
    | succ n =>
      rw [iptLoop, if_neg (by simp), iptPair_value hsp hname hv ht]
      exact ih n _ (by simp at hn; omega)
  | @flag sp name t ps hsp hname ht hne hlast h ih =>
    intro n o hn
    have hpos : 0 < (sp ++ name).length := List.length_pos_iff.2 hne
    cases n with
    | zero => simp only [List.length_append] at hn hpos; omega
    | succ n =>
      rw [iptLoop, if_neg (by
        intro e
        have := congrArg List.length e
        simp only [List.length_append, List.length_nil] at this hpos
        omega), iptPair_flag hsp hname ht hlast]
      exact ih n _ (by simp only [List.length_append] at hn hpos; omega)

/-- every text has such a reading -/
theorem iptPairs_total : ∀ (n : Nat) (t : Bytes), t.length ≤ n → ∃ ps, IptPairs t ps
  | 0, t, h => by
    have : t = [] := List.length_eq_zero_iff.1 (by omega)
    exact ⟨[], this ▸ .nil⟩
  | n + 1, t, h => by
    by_cases h0 : t = []
    · exact ⟨[], h0 ▸ .nil⟩
    obtain ⟨sp, r, rfl, hsp, hr⟩ : ∃ sp r, t = sp ++ r ∧ (∀ c ∈ sp, isSpace c = true) ∧ (∀ c, r.head? = some c → isSpace c = false) :=
      ⟨t.takeWhile isSpace, t.dropWhile isSpace, (List.takeWhile_append_dropWhile).symm, fun c hc => mem_takeWhile_imp' hc, by
        intro c hc
        have := List.head?_dropWhile_not isSpace t
        rw [hc] at this
        simpa using this⟩
    obtain ⟨name, r', rfl, hname, hr'⟩ : ∃ name r', r = name ++ r' ∧ (∀ c ∈ name, isSpace c = false ∧ c ≠ ch! '=') ∧
        (∀ c, r'.head? = some c → isSpace c = true ∨ c = ch! '=') :=
      ⟨r.takeWhile (fun c => !isSpace c && c != ch! '='), r.dropWhile (fun c => !isSpace c && c != ch! '='), (List.takeWhile_append_dropWhile).symm,
        fun c hc => by simpa using mem_takeWhile_imp' hc, by
        intro c hc
        have := List.head?_dropWhile_not (fun c => !isSpace c && c != ch! '=') r
        rw [hc] at this
        simp at this
        by_cases hs : isSpace c = true
        · exact .inl hs
        · exact .inr (this (by simpa using hs))⟩
    cases r' with
    | nil =>
      exact ⟨_, .flag hsp hname (fun c hc => by cases hc) (by intro e; exact h0 (by simpa using e)) (fun _ => rfl) .nil⟩
    | cons c r' =>
      rcases hr' c rfl with hc | rfl
      · obtain ⟨ps, hps⟩ := iptPairs_total n (c :: r') (by
          cases name with
          | nil => have := hr c rfl; rw [this] at hc; cases hc
          | cons a l => simp at h ⊢; omega)
        exact ⟨_, .flag hsp hname (fun d hd => by cases hd; exact hc) (by
          intro e
          obtain ⟨rfl, rfl⟩ := List.append_eq_nil_iff.1 e
          have := hr c rfl
          rw [this] at hc; cases hc) (by
          rintro rfl
          have := hr c rfl
          rw [this] at hc; cases hc) hps⟩
      · obtain ⟨v, t', rfl, hv, ht'⟩ : ∃ v t', r' = v ++ t' ∧ (∀ c ∈ v, isSpace c = false) ∧ Cut t' :=
          ⟨r'.takeWhile (fun c => !isSpace c), r'.dropWhile (fun c => !isSpace c), (List.takeWhile_append_dropWhile).symm,
            fun c hc => by simpa using mem_takeWhile_imp' hc, by
            intro c hc
            have := List.head?_dropWhile_not (fun c => !isSpace c) r'
            rw [hc] at this
            simpa using this⟩
        obtain ⟨ps, hps⟩ := iptPairs_total n t' (by simp at h ⊢; omega)
        exact ⟨_, .value hsp hname hv ht' hps⟩

theorem cmpLen_self : ∀ (p t : Bytes), (∀ c ∈ p, c < 128) → cmpLen (p ++ t) p = p.length
  | [], t, _ => by cases t <;> rfl
  | a :: p, t, h => by
    simp only [List.cons_append, cmpLen, List.length_cons]
    rw [if_pos ⟨trivial, h a List.mem_cons_self⟩, cmpLen_self p t fun c hc => h c (List.mem_cons_of_mem _ hc)]

theorem loadV1_one {lit : Bytes} {f : V1Field} {tags : Option (List Bytes)} (hlen : lit.length < 65536) :
    loadV1 [⟨lit, [(f, [])], tags, true⟩] = .node lit false none [(f, .node [] true tags [] [])] [] := by
  have hk : ∀ k : PTree → PTree, buildPTree .empty lit k = k (.node lit false none [] []) := by
    intro k
    unfold buildPTree
    rw [buildPTreeN]
    cases lit with
    | nil => rfl
    | cons a l =>
      have h0 : commonLen ((a :: l).drop 0) PTree.empty.pfx = 0 := rfl
      simp only [h0]
      rw [if_neg (by simp), if_neg (by exact Nat.not_lt_zero _)]
      show addPTree PTree.empty (a :: l) 0 k = _
      unfold addPTree
      rw [if_pos (show PTree.empty.isTrueLeaf = true from rfl)]
      have : storePfx (a :: l) 0 = a :: l := by
        unfold storePfx
        rw [Nat.sub_zero, Nat.mod_eq_of_lt hlen, List.take_length]
      rw [this]; rfl
  show addSegs (markTerminal tags) [(f, [])] lit PTree.empty = _
  rw [addSegs, hk]
  show PTree.node lit false none [(f, addSegs (markTerminal tags) [] [] PTree.empty)] [] = _
  rfl

/-- **C71, `iptables`, partial** With the rule `lit%f:iptables%` every message which consists of `lit` and a nonempty rest matches, and the event holds the name/value pairs of
that rest, later ones overwriting earlier ones of the same name; a name without `=` has the value `[*PRESENT*]`. (Partial: one rule, whose literal consists of ASCII
characters. With other rules the field spoils the search, see `C64_violated`.) -/
theorem C71_iptables_field_partial {run : V1Run} {lit t : Bytes} {f : V1Field} {ps : List (Bytes × Bytes)} {fuel : Nat} {o : Obj}
    (hf : f.prs = .iptables) (hlen : lit.length < 65536) (hascii : ∀ c ∈ lit, c < 128) (hz : (0 : UInt8) ∉ t) (hne : t ≠ []) (hps : IptPairs t ps) :
    v1Normalize run [] (fuel + 2) (loadV1 [⟨lit, [(f, [])], none, true⟩]) (lit ++ t) o =
      .ok ⟨true, ps.foldl (fun o p => Obj.add o p.1 (.str p.2)) o⟩ := by
  have hpos : 0 < t.length := List.length_pos_iff.2 hne
  have hfold : iptLoop (lit ++ t).length ((lit ++ t).drop lit.length) o = ps.foldl (fun o p => Obj.add o p.1 (.str p.2)) o := by
    rw [List.drop_left, iptLoop_pairs hps _ _ (by simp)]
    have hmem : ∀ p ∈ ps, (0 : UInt8) ∉ p.1 ∧ (0 : UInt8) ∉ p.2 := by
      clear hpos hne
      induction hps with
      | nil => simp
      | @value sp name v t ps hsp hname hv ht h ih =>
        simp only [List.mem_append, List.mem_cons, not_or] at hz
        intro p hp
        rcases List.mem_cons.1 hp with rfl | hp
        · exact ⟨hz.2.1, hz.2.2.2.1⟩
        · exact ih hz.2.2.2.2 p hp
      | @flag sp name t ps hsp hname ht hne hlast h ih =>
        simp only [List.mem_append, not_or] at hz
        intro p hp
        rcases List.mem_cons.1 hp with rfl | hp
        · exact ⟨hz.2.1, show (0 : UInt8) ∉ bs! "[*PRESENT*]" by decide⟩
        · exact ih hz.2.2 p hp
    clear hps
    induction ps generalizing o with
    | nil => rfl
    | cons p ps ih =>
      have := hmem p List.mem_cons_self
      simp only [List.foldl_cons]
      rw [cstr_noNul (fun c hc h0 => this.1 (h0 ▸ hc)), cstr_noNul (fun c hc h0 => this.2 (h0 ▸ hc))]
      exact ih fun q hq => hmem q (List.mem_cons_of_mem _ hq)
  rw [loadV1_one hlen]
  unfold v1Normalize
  have hrec : v1Rec run (lit ++ t) (fuel + 2) (.node lit false none [(f, .node [] true none [] [])] []) 0 { json := o } =
      .ok (0, { en := some (true, none), json := ps.foldl (fun o p => Obj.add o p.1 (.str p.2)) o }) := by
    rw [v1Rec, if_neg (by simp only [List.length_append]; omega)]
    have hm : cmpLen ((lit ++ t).drop 0) (PTree.node lit false none [(f, .node [] true none [] [])] []).pfx = lit.length := cmpLen_self lit t hascii
    simp only [hm]
    rw [if_neg (by exact Nat.lt_irrefl _)]
    simp only [PTree.fields, Nat.zero_add, v1Fields, hf]
    rw [if_neg (by simp only [List.length_append]; omega), hfold, v1Rec, if_pos (Nat.le_refl _)]
    rfl
  rw [hrec]
  rfl

/-- The rule `IPT: %i:iptables%`; the second `DF` has no value, the last `TTL` is the one that stays. -/
example : Ex.fi.prs = .iptables ∧ (∃ ps, IptPairs (bs! "IN=eth0 TTL=1 DF  TTL=64") ps) ∧
    v1Normalize Ex.v1run [] 2 (loadV1 [⟨bs! "IPT: ", [(Ex.fi, [])], none, true⟩]) (bs! "IPT: IN=eth0 TTL=1 DF  TTL=64") [] =
      .ok ⟨true, [(bs! "IN", .str (bs! "eth0")), (bs! "TTL", .str (bs! "64")), (bs! "DF", .str (bs! "[*PRESENT*]"))]⟩ :=
  ⟨rfl, iptPairs_total _ _ (Nat.le_refl _), by decide +kernel⟩

end LN
