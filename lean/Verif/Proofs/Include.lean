import Verif.Props.Samp
import Verif.Proofs.Fields
import Verif.Spec.Include
/- Rule bases made of several files, and lines in pieces. -/
set_option autoImplicit false
namespace LN

theorem count_flip (p : Bytes) (inP : Bool) (c : UInt8) :
    (if c = ch! '%' then !inP else inP).xor (p.count (ch! '%') % 2 == 1) = inP.xor ((c :: p).count (ch! '%') % 2 == 1) := by
  by_cases hx : c = ch! '%'
  · subst hx
    rw [if_pos rfl, List.count_cons_self]
    have : p.count (ch! '%') % 2 = 0 ∨ p.count (ch! '%') % 2 = 1 := by omega
    rcases this with h | h
    · have h2 : (p.count (ch! '%') + 1) % 2 = 1 := by omega
      rw [h, h2]; cases inP <;> rfl
    · have h2 : (p.count (ch! '%') + 1) % 2 = 0 := by omega
      rw [h, h2]; cases inP <;> rfl
  · rw [if_neg hx, List.count_cons_of_ne hx]

/-- reading up to the end of a piece -/
theorem readLine_seg (src : Src) : ∀ (p rest : Bytes) (line : Nat) (acc : Bytes) (inP : Bool) (errs : List LoadErr),
    (∀ c ∈ p, c ≠ ch! '\n' ∧ c ≠ 0 ∧ c ≠ 255) → (acc = [] → isComment p = false) → acc.length + p.length < 65536 →
    readLine src (p ++ ch! '\n' :: rest) line acc inP false errs =
      readLine src (ch! '\n' :: rest) line (acc ++ p) (inP.xor (p.count (ch! '%') % 2 == 1)) false errs
  | [], rest, line, acc, inP, errs, _, _, _ => by simp
  | c :: t, rest, line, acc, inP, errs, h, hcm, hlen => by
    have hc := h c (List.mem_cons_self ..)
    have hcm' : ¬(c = ch! '#' ∧ acc = []) := by
      rintro ⟨rfl, ha⟩
      exact absurd (hcm ha) (by simp [isComment])
    have ih := readLine_seg src t rest line (acc ++ [c]) (if c = ch! '%' then !inP else inP) errs
      (fun x hx => h x (List.mem_cons_of_mem _ hx)) (by simp) (by simp at hlen ⊢; omega)
    simp only [List.length_cons] at hlen
    rw [List.append_assoc, List.singleton_append, count_flip] at ih
    rw [List.cons_append]
    conv => lhs; unfold readLine
    rw [if_neg (by rw [src_not_eof src hc.2.1 hc.2.2]; simp), if_neg (by decide), if_neg hc.1, if_neg hcm']
    dsimp only
    rw [if_neg (by unfold maxLine; omega)]
    exact ih

/-- a continuation does not look like the start of a rule -/
theorem runaway_none {q : Bytes} (hch : ∀ c ∈ q, c ≠ ch! '\n' ∧ c ≠ 0 ∧ c ≠ 255) (h1 : q.head? ≠ some (ch! '#')) (h2 : ¬ bs! "rule=" <+: q)
    (h3 : 4 ≤ q.length) (rest : Bytes) : runaway false (q ++ ch! '\n' :: rest) = none := by
  cases q with
  | nil => simp at h3
  | cons c t =>
    have hc := hch c (List.mem_cons_self ..)
    rw [List.cons_append]
    unfold runaway
    rw [if_neg hc.1, if_neg (fun e => h1 (by rw [e]; rfl)), if_neg (by simp at h3 ⊢; omega), if_neg]
    intro he
    rw [← List.cons_append] at he
    apply h2
    by_cases hl : 5 ≤ (c :: t).length
    · rw [List.take_append_of_le_length hl] at he
      rw [← he]; exact List.take_prefix ..
    · have h4 : (c :: t).length = 4 := by omega
      have hk : ∀ (q : Bytes), q.length = 4 → ((q ++ ch! '\n' :: rest).take 5)[4]? = some (ch! '\n') := by
        intro q hq
        rw [List.getElem?_take_of_lt (by omega), List.getElem?_append_right (by omega), hq]; rfl
      have := hk _ h4
      rw [he] at this
      exact absurd this (by decide)

theorem readLine_pieces (src : Src) : ∀ (ps : List Bytes) (rest : Bytes) (line : Nat) (acc : Bytes) (errs : List LoadErr), ps ≠ [] →
    (∀ p ∈ ps, ∀ c ∈ p, c ≠ ch! '\n' ∧ c ≠ 0 ∧ c ≠ 255) → (acc = [] → isComment ps.flatten = false) →
    (acc ++ ps.flatten).length < 65536 → acc ++ ps.flatten ≠ [] →
    (∀ i, i + 1 < ps.length → (acc ++ (ps.take (i + 1)).flatten).count (ch! '%') % 2 = 1) →
    (acc ++ ps.flatten).count (ch! '%') % 2 = 0 →
    (src = .file → ∀ p ∈ ps.tail, p.head? ≠ some (ch! '#') ∧ ¬ bs! "rule=" <+: p ∧ 4 ≤ p.length) →
    readLine src (piecesText ps ++ rest) line acc (acc.count (ch! '%') % 2 == 1) false errs =
      ⟨some (acc ++ ps.flatten), rest, false, line + ps.length, errs⟩
  | [], _, _, _, _, h, _, _, _, _, _, _, _ => absurd rfl h
  | p :: ps, rest, line, acc, errs, _, hch, hcm, hlen, hne, hopen, hclosed, hfile => by
    have e1 : piecesText (p :: ps) ++ rest = p ++ ch! '\n' :: (piecesText ps ++ rest) := by simp [piecesText]
    have hpar : ∀ a b : Bytes, (a.count (ch! '%') % 2 == 1).xor (b.count (ch! '%') % 2 == 1) = ((a ++ b).count (ch! '%') % 2 == 1) := by
      intro a b
      rw [List.count_append]
      have h1 : a.count (ch! '%') % 2 = 0 ∨ a.count (ch! '%') % 2 = 1 := by omega
      have h2 : b.count (ch! '%') % 2 = 0 ∨ b.count (ch! '%') % 2 = 1 := by omega
      rw [Nat.add_mod]
      rcases h1 with h1 | h1 <;> rcases h2 with h2 | h2 <;> rw [h1, h2] <;> rfl
    have hcp : acc = [] → isComment p = false := by
      intro ha
      have := hcm ha
      rw [List.flatten_cons] at this
      cases p with
      | nil => rfl
      | cons c t => exact this
    have hlp : acc.length + p.length < 65536 := by
      simp only [List.flatten_cons, List.length_append] at hlen; omega
    rw [e1, readLine_seg src p _ line acc _ errs (hch p (List.mem_cons_self ..)) hcp hlp, hpar]
    cases ps with
    | nil =>
      simp only [List.flatten_cons, List.flatten_nil, List.append_nil] at hne hclosed ⊢
      rw [hclosed]
      conv => lhs; unfold readLine
      rw [if_neg (by cases src <;> decide), if_neg (by decide), if_pos rfl]
      simp [hne, piecesText]
    | cons q ps =>
      have ho := hopen 0 (by simp)
      simp only [Nat.zero_add, List.take_succ_cons, List.take_zero, List.flatten_cons, List.flatten_nil, List.append_nil] at ho
      have hap : acc ++ p ≠ [] := by
        intro h
        rw [h] at ho
        cases ho
      have e2 : piecesText (q :: ps) ++ rest = q ++ ch! '\n' :: (piecesText ps ++ rest) := by simp [piecesText]
      have ih := readLine_pieces src (q :: ps) rest (line + 1) (acc ++ p) errs (by simp) (fun x hx => hch x (List.mem_cons_of_mem _ hx))
        (fun h => absurd h hap) (by rw [List.append_assoc]; exact hlen) (fun h => hap (List.append_eq_nil_iff.1 h).1)
        (fun i hi => by
          have := hopen (i + 1) (by simp at hi ⊢; omega)
          rw [List.take_succ_cons, List.flatten_cons, ← List.append_assoc] at this
          exact this)
        (by rw [List.append_assoc]; exact hclosed) (fun h x hx => hfile h x (List.mem_of_mem_tail hx))
      rw [ho] at ih ⊢
      conv => lhs; unfold readLine
      rw [if_neg (by cases src <;> decide), if_neg (by decide), if_pos rfl]
      have hrun : (if ((1 == 1 : Bool) && decide (src = .file)) = true then runaway false (piecesText (q :: ps) ++ rest) else none) = none := by
        split
        · rename_i h
          have hs : src = .file := by simpa using h
          obtain ⟨f1, f2, f3⟩ := hfile hs q (List.mem_cons_self ..)
          rw [e2]
          exact runaway_none (hch q (by simp)) f1 f2 f3 _
        · rfl
      rw [hrun]
      dsimp only
      rw [if_neg (by simp)]
      change readLine src (piecesText (q :: ps) ++ rest) (line + 1) (acc ++ p) (1 == 1) false errs = _
      rw [ih]
      simp
      omega

theorem Pieces.lineOK {src : Src} {ps : List Bytes} {t : Bytes} (h : Pieces src ps t) (hl : ps.length = 1) : ps = [t] ∧ LineOK t := by
  match ps, hl with
  | [p], _ =>
    have hj := h.join
    simp only [List.flatten_cons, List.flatten_nil, List.append_nil] at hj
    subst hj
    refine ⟨rfl, h.chars p (by simp), ?_⟩
    cases hc : isComment p with
    | true => exact .inl rfl
    | false => exact .inr ⟨h.closed hc, h.short hc⟩

/-- the next line of a text -/
theorem readLine_item {src : Src} {ps : List Bytes} {t : Bytes} (h : Pieces src ps t) (rest : Bytes) (line : Nat) :
    readLine src (piecesText ps ++ rest) line [] false false [] =
      if skipped t then readLine src rest (line + ps.length) [] false false [] else ⟨some t, rest, false, line + ps.length, []⟩ := by
  by_cases hl : ps.length = 1
  · obtain ⟨rfl, hlo⟩ := h.lineOK hl
    have e1 : piecesText [t] ++ rest = t ++ ch! '\n' :: rest := by simp [piecesText]
    rw [e1, readLine_first src t rest hlo]
    rfl
  · have hc : isComment t = false := by
      cases hc : isComment t with
      | false => rfl
      | true => exact absurd (h.comment hc) hl
    have hlen : 1 < ps.length := by
      have := h.nonempty
      cases ps with
      | nil => exact absurd rfl this
      | cons a l => simp at hl ⊢; exact List.length_pos_iff.2 hl
    have hne : t ≠ [] := by
      intro ht
      have := h.opened 0 (by omega)
      have hz : ∀ p ∈ ps, p = [] := by
        intro p hp
        have hj := h.join
        rw [ht] at hj
        exact List.flatten_eq_nil_iff.1 hj p hp
      have : (ps.take (0 + 1)).flatten = [] := List.flatten_eq_nil_iff.2 fun p hp => hz p (List.mem_of_mem_take hp)
      rename_i h1
      rw [this] at h1
      cases h1
    have hsk : skipped t = false := by
      cases t with
      | nil => exact absurd rfl hne
      | cons a b => simp [skipped, hc]
    have hj := h.join
    have := readLine_pieces src ps rest line [] [] h.nonempty h.chars (fun _ => by rw [hj]; exact hc) (by simpa [hj] using h.short hc)
      (by simpa [hj] using hne) (by simpa using h.opened) (by simpa [hj] using h.closed hc) h.file
    rw [hsk, if_neg (by decide)]
    simpa [hj] using this

/-- the state behind the lines -/
def locAfter (st : LoadSt) (ls : List Loc) (n : Nat) (errs : List LoadErr) (b : Bld) : LoadSt :=
  { st with b := b, annots := ((ls.map (·.what)).flatMap RLine.annots).foldl addAnnotToSet st.annots
            rulePrefix := (ls.map (·.what)).foldl RLine.nextPrefix st.rulePrefix
            line := n, errs := st.errs ++ errs }

theorem readLine_errs (src : Src) (e : List LoadErr) : ∀ (inp : Bytes) (line : Nat) (acc : Bytes) (inP c : Bool) (errs : List LoadErr),
    readLine src inp line acc inP c (e ++ errs) = { readLine src inp line acc inP c errs with errs := e ++ (readLine src inp line acc inP c errs).errs }
  | [], line, acc, inP, c, errs => by
    unfold readLine
    split <;> rfl
  | x :: t, line, acc, inP, c, errs => by
    have ih := readLine_errs src e t
    unfold readLine
    split
    · split
      · split
        · rfl
        · exact ih ..
      · rfl
    · split
      · split <;> exact ih ..
      · split
        · split
          · rename_i r _
            rw [List.append_assoc]; exact ih ..
          · split
            · rfl
            · exact ih ..
        · split
          · exact ih ..
          · dsimp only
            split
            · rw [List.append_assoc]
            · exact ih ..

theorem afterLine_errs {env : Env} {inc : IncludeRec} {fuel : Nat} (st : LoadSt) (r : LineRes) (e : List LoadErr) :
    afterLine env inc fuel st { r with errs := e ++ r.errs } = afterLine env inc fuel { st with errs := st.errs ++ e } r := by
  unfold afterLine
  simp

theorem runaway_skip : ∀ (k : Bytes) (rest : Bytes), (∀ c ∈ k, c ≠ ch! '\n') → runaway true (k ++ ch! '\n' :: rest) = runaway false rest
  | [], rest, _ => by simp [runaway]
  | c :: k, rest, h => by
    have hc := h c (List.mem_cons_self ..)
    have : (c != ch! '\n') = true := by simpa using hc
    rw [List.cons_append]
    conv => lhs; unfold runaway
    rw [this]
    exact runaway_skip k rest fun x hx => h x (List.mem_cons_of_mem _ hx)

theorem runaway_next : ∀ (ks : List Bytes) (rest : Bytes), (∀ k ∈ ks, skipped k = true ∧ ∀ c ∈ k, c ≠ ch! '\n') →
    runaway false (piecesText ks ++ bs! "rule=" ++ rest) = some (some .runaway)
  | [], rest, _ => by simp [piecesText, runaway]
  | k :: ks, rest, h => by
    have e : piecesText (k :: ks) ++ bs! "rule=" ++ rest = k ++ ch! '\n' :: (piecesText ks ++ bs! "rule=" ++ rest) := by simp [piecesText]
    rw [e]
    have ih := runaway_next ks rest fun x hx => h x (List.mem_cons_of_mem _ hx)
    have hk := h k (List.mem_cons_self ..)
    cases k with
    | nil =>
      rw [List.nil_append]
      unfold runaway
      rw [if_pos rfl]; exact ih
    | cons c k =>
      have hc : c = ch! '#' := by simpa [skipped, isComment] using hk.1
      subst hc
      rw [List.cons_append]
      unfold runaway
      rw [if_neg (by decide), if_pos rfl, runaway_skip k _ fun x hx => hk.2 x (List.mem_cons_of_mem _ hx)]
      exact ih

theorem lines_what (i : Item) (f f' : Bytes) (n n' : Nat) : (i.lines f n).map (·.what) = (i.lines f' n').map (·.what) := by
  cases i with
  | line l ps => simp [Item.lines]
  | include_ name is => simp [Item.lines]
  | open_ t => simp [Item.lines]
  | last l => simp [Item.lines]

theorem itemsLines_what : ∀ (is : List Item) (f f' : Bytes) (n n' : Nat), (itemsLines f n is).map (·.what) = (itemsLines f' n' is).map (·.what)
  | [], _, _, _, _ => by simp [itemsLines]
  | i :: is, f, f', n, n' => by
    rw [itemsLines, itemsLines, List.map_append, List.map_append, lines_what i f f' n n', itemsLines_what is f f' _ (n' + i.height)]

def itemsHeight (is : List Item) : Nat := (is.map Item.height).sum

theorem docErrs_append (env : Env) : ∀ (a c : List RLine) (pfx : Option Bytes),
    docErrs env pfx (a ++ c) = docErrs env pfx a ++ docErrs env (a.foldl RLine.nextPrefix pfx) c
  | [], c, pfx => rfl
  | l :: a, c, pfx => by
    show l.errs env pfx ++ docErrs env (l.nextPrefix pfx) (a ++ c) = (l.errs env pfx ++ _) ++ _
    rw [docErrs_append env a c, List.append_assoc]; rfl

theorem locOps_append (env : Env) : ∀ (a c : List Loc) (pfx : Option Bytes),
    locOps env pfx (a ++ c) = locOps env pfx a ++ locOps env ((a.map (·.what)).foldl RLine.nextPrefix pfx) c
  | [], c, pfx => rfl
  | l :: a, c, pfx => by
    show _ ++ locOps env (l.what.nextPrefix pfx) (a ++ c) = (_ ++ _) ++ _
    rw [locOps_append env a c, List.append_assoc]; rfl

theorem docSafe_append (env : Env) : ∀ (a c : List RLine) (pfx : Option Bytes),
    DocSafe env pfx (a ++ c) ↔ DocSafe env pfx a ∧ DocSafe env (a.foldl RLine.nextPrefix pfx) c
  | [], c, pfx => ⟨fun h => ⟨trivial, h⟩, fun h => h.2⟩
  | l :: a, c, pfx => by
    show l.Safe env pfx ∧ DocSafe env (l.nextPrefix pfx) (a ++ c) ↔ (l.Safe env pfx ∧ DocSafe env (l.nextPrefix pfx) a) ∧ _
    rw [docSafe_append env a c]
    exact ⟨fun h => ⟨⟨h.1, h.2.1⟩, h.2.2⟩, fun h => ⟨h.1.1, h.1.2, h.2⟩⟩

theorem fileName_pieces {name : Bytes} (h : FileName name) (src : Src) : Pieces src [bs! "include=" ++ name] (bs! "include=" ++ name) where
  join := by simp
  nonempty := by simp
  chars := by
    intro p hp c hc
    rw [List.mem_singleton] at hp
    subst hp
    rcases List.mem_append.1 hc with hc | hc
    · have hall : ∀ x ∈ bs! "include=", x ≠ ch! '\n' ∧ x ≠ 0 ∧ x ≠ 255 := by decide
      exact hall c hc
    · have := h.chars c hc
      refine ⟨?_, this.2⟩
      rintro rfl
      exact absurd this.1 (by decide)
  comment := fun _ => rfl
  short := by
    intro _
    have := h.short
    rw [List.length_append]
    show 8 + _ < _
    omega
  opened := by intro i hi; simp at hi
  closed := by
    intro _
    rw [List.count_append]
    have := h.pct
    show (0 + _) % 2 = 0
    omega
  file := by intro _ p hp; cases hp

theorem include_name {name : Bytes} (h : FileName name) : ∃ c t, name = c :: t ∧ cstr name = c :: t ∧ c :: t.takeWhile (fun c => !isSpace c) = name := by
  cases name with
  | nil => exact absurd rfl h.nonempty
  | cons c t =>
    refine ⟨c, t, rfl, cstr_noNul fun x hx => (h.chars x hx).2.1, ?_⟩
    have htw : ∀ (l : Bytes), (∀ x ∈ l, isSpace x = false) → l.takeWhile (fun c => !isSpace c) = l := by
      intro l
      induction l with
      | nil => intro _; rfl
      | cons a l ih =>
        intro hl
        rw [List.takeWhile_cons, hl a (List.mem_cons_self ..), ih fun x hx => hl x (List.mem_cons_of_mem _ hx)]; rfl
    rw [htw t fun x hx => (h.chars x (List.mem_cons_of_mem _ hx)).1]

section
variable {env : Env} {srt : Sorter} {fs : Bytes → Option Bytes}

theorem items_length (src : Src) : ∀ (l : List Item), itemsOK fs src l → l.length ≤ (itemsText l).length
  | [], _ => by simp
  | j :: l, hj => by
    have hj' : j.OK fs src ∧ (∀ t, j = .open_ t → RuleNext l) ∧ (∀ x, j = .last x → l = []) ∧ itemsOK fs src l := hj
    have := items_length src l hj'.2.2.2
    have hj1 : 1 ≤ j.text.length := by
      cases j with
      | include_ n s => simp [Item.text]
      | open_ t => simp [Item.text]
      | last l =>
        have hp : l.OK ∧ skipped l.text = false ∧ LineOK l.text := by simpa [Item.OK] using hj'.1
        cases h : l.text with
        | nil => rw [h] at hp; cases hp.2.1
        | cons a t => simp [Item.text, h]
      | line l ps =>
        have hp : l.OK ∧ Pieces src ps l.text := by simpa [Item.OK] using hj'.1
        have hn := hp.2.nonempty
        cases ps with
        | nil => exact absurd rfl hn
        | cons p ps => simp [Item.text, piecesText]; omega
    have : itemsText (j :: l) = j.text ++ itemsText l := by simp [itemsText]
    rw [this, List.length_append, List.length_cons]
    omega

/-- reading a text made of items -/
theorem readAll_items : ∀ (fuel : Nat) (is : List Item) (src : Src) (rounds : Nat) (st : LoadSt), itemsOK fs src is →
    DocSafe env st.rulePrefix ((itemsLines (st.file.getD []) st.line is).map (·.what)) → itemsSize is ≤ fuel →
    is.length < rounds → st.version = 2 → 1 ≤ st.level →
    readAll env (loadSamples env srt fs fuel) fuel src rounds st (itemsText is) =
      ((locOps env st.rulePrefix (itemsLines (st.file.getD []) st.line is)).foldlM (BOp.run env srt) st.b).bind fun b =>
        .ok (locAfter st (itemsLines (st.file.getD []) st.line is) (st.line + itemsHeight is) (itemsErrs env st.rulePrefix is) b, true)
  | _, _, _, 0, _, _, _, _, h, _, _ => by omega
  | fuel, [], src, rounds + 1, st, _, _, _, _, _, _ => by
    rw [readAll_succ]
    have e1 : itemsText [] = [] := rfl
    have e2 : itemsLines (st.file.getD []) st.line [] = [] := by simp [itemsLines]
    rw [e1, e2]
    simp [readLine, afterLine, R.bind, locOps, pure, locAfter, itemsErrs, itemsHeight]
  | fuel, i :: is, src, rounds + 1, st, hok, hsafe, hsize, hr, hver, hlev => by
    have hok'' : i.OK fs src ∧ (∀ t, i = .open_ t → RuleNext is) ∧ (∀ x, i = .last x → is = []) ∧ itemsOK fs src is := hok
    have hok' : i.OK fs src ∧ itemsOK fs src is := ⟨hok''.1, hok''.2.2.2⟩
    have e8 : itemsErrs env st.rulePrefix (i :: is) = i.errs env st.rulePrefix ++
        itemsErrs env (((i.lines (st.file.getD []) st.line).map (·.what)).foldl RLine.nextPrefix st.rulePrefix) is := by
      rw [itemsErrs, lines_what i [] (st.file.getD []) 0 st.line]
    have e2 : itemsLines (st.file.getD []) st.line (i :: is) =
        i.lines (st.file.getD []) st.line ++ itemsLines (st.file.getD []) (st.line + i.height) is := by rw [itemsLines]
    have e3 : itemsHeight (i :: is) = i.height + itemsHeight is := by simp [itemsHeight]
    have e4 : itemsText (i :: is) = i.text ++ itemsText is := by simp [itemsText]
    have hs0 : i.size ≤ fuel ∧ itemsSize is ≤ fuel := by
      rw [itemsSize] at hsize
      omega
    rw [e2, List.map_append, docSafe_append] at hsafe
    rw [e4, e2, e3, e8, locOps_append]
    have hr' : is.length < rounds := by simp at hr; omega
    have ihA := fun rounds st hsafe hr hver hlev => readAll_items fuel is src rounds st hok'.2 hsafe hs0.2 hr hver hlev
    have ihB := fun k (hk : k < fuel) sub rounds st hok hsafe hsz hr hver hlev => readAll_items k sub .file rounds st hok hsafe hsz hr hver hlev
    cases i with
    | open_ t =>
      have hli : src = .file ∧ (∀ c ∈ t, c ≠ ch! '\n' ∧ c ≠ 0 ∧ c ≠ 255) ∧ isComment t = false ∧ t.length < 65536 ∧ t.count (ch! '%') % 2 = 1 := by
        simpa [Item.OK] using hok'.1
      obtain ⟨hsrc, g1, g2, g3, g4⟩ := hli
      obtain ⟨ks, rest, g5, g6⟩ := hok''.2.1 t rfl
      have e5 : (Item.open_ t).text ++ itemsText is = t ++ ch! '\n' :: itemsText is := by simp [Item.text]
      have e6 : (Item.open_ t).height = 1 := by rw [Item.height]
      have e7 : (Item.open_ t).lines (st.file.getD []) st.line = [⟨st.file.getD [], st.line + 1, .skip []⟩] := by rw [Item.lines]
      have e9 : (Item.open_ t).errs env st.rulePrefix = [.runaway] := by rw [Item.errs]
      rw [e5, e9]
      rw [e7, e6] at hsafe ⊢
      have hread : readLine src (t ++ ch! '\n' :: itemsText is) st.line [] false false [] =
          readLine src (itemsText is) (st.line + 1) [] false false ([.runaway] ++ []) := by
        rw [readLine_seg src t _ st.line [] false [] g1 (fun _ => g2) (by simpa using g3), g4]
        conv => lhs; unfold readLine
        rw [if_neg (by cases src <;> decide), if_neg (by decide), if_pos rfl]
        have hrun : (if ((false ^^ (1 == 1 : Bool)) && decide (src = .file)) = true then runaway false (itemsText is) else none) = some (some .runaway) := by
          rw [if_pos (by simp [hsrc]), g5]
          exact runaway_next ks rest g6
        rw [hrun]
        rfl
      have ih := ihA (rounds + 1) { st with line := st.line + 1, errs := st.errs ++ [.runaway] } hsafe.2 (by omega) hver hlev
      rw [readAll_succ, hread, readLine_errs, afterLine_errs]
      rw [readAll_succ] at ih
      refine Eq.trans ih ?_
      simp only [List.map_cons, List.map_nil, List.foldl_cons, List.foldl_nil, RLine.nextPrefix, locOps, RLine.ops, List.nil_append]
      refine R_bind_congr _ fun b => ?_
      simp [locAfter, RLine.annots, RLine.nextPrefix, Nat.add_assoc]
    | last l =>
      have hli : l.OK ∧ skipped l.text = false ∧ LineOK l.text := by simpa [Item.OK] using hok'.1
      have his : is = [] := hok''.2.2.1 l rfl
      subst his
      have e5 : (Item.last l).text ++ itemsText [] = l.text := by simp [Item.text, itemsText]
      have e6 : (Item.last l).height = 0 := by rw [Item.height]
      have e7 : (Item.last l).lines (st.file.getD []) st.line = [⟨st.file.getD [], st.line, l⟩] := by rw [Item.lines]
      have e9 : itemsLines (st.file.getD []) (st.line + 0) [] = [] := by rw [itemsLines]
      have hfl : l.text.length ≤ fuel := by have := hs0.1; rw [Item.size] at this; exact this
      have hcm : isComment l.text = false := by
        have := hli.2.1
        simp only [skipped, Bool.or_eq_false_iff] at this
        exact this.2
      rw [readAll_succ, e5, readLine_last src l.text hli.2.2, hli.2.1, hcm]
      rw [e7, e6, e9] at hsafe ⊢
      simp only [afterLine, Bool.false_eq_true, if_false, List.append_nil]
      change (processSamp env (loadSamples env srt fs fuel) fuel st l.text).bind _ = _
      rw [processSamp_line (srt := srt) hli.1 (st := st) hsafe.1.1 hli.2.1 hfl]
      simp only [locOps, List.append_nil]
      rw [R_bind_assoc]
      refine R_bind_congr _ fun b => ?_
      rw [R.ok_bind']
      simp [locAfter, RLine.after, Item.errs, itemsErrs, itemsHeight]
    | line l ps =>
      have hli : l.OK ∧ Pieces src ps l.text := by simpa [Item.OK] using hok'.1
      have e5 : (Item.line l ps).text = piecesText ps := rfl
      have e6 : (Item.line l ps).height = ps.length := by rw [Item.height]
      have e7 : (Item.line l ps).lines (st.file.getD []) st.line = [⟨st.file.getD [], st.line + ps.length, l⟩] := by rw [Item.lines]
      have hfl : l.text.length ≤ fuel := by have := hs0.1; rw [Item.size] at this; exact this
      rw [readAll_succ, e5, readLine_item hli.2]
      rw [e7, e6] at hsafe ⊢
      by_cases hs : skipped l.text
      · rw [if_pos hs]
        obtain ⟨t, rfl⟩ := (skipped_iff hli.1).1 hs
        have ih := ihA (rounds + 1) { st with line := st.line + ps.length } hsafe.2 (by omega) hver hlev
        rw [readAll_succ] at ih
        refine Eq.trans ih ?_
        simp only [List.map_cons, List.map_nil, List.foldl_cons, List.foldl_nil, RLine.nextPrefix, locOps, RLine.ops, List.nil_append]
        refine R_bind_congr _ fun b => ?_
        simp [locAfter, RLine.annots, RLine.nextPrefix, Item.errs, RLine.errs, Nat.add_assoc]
      · rw [if_neg hs]
        simp only [afterLine, List.append_nil]
        change (processSamp env (loadSamples env srt fs fuel) fuel { st with line := st.line + ps.length } l.text).bind _ = _
        rw [processSamp_line (srt := srt) hli.1 (st := { st with line := st.line + ps.length }) hsafe.1.1 (by simpa using hs) hfl]
        rw [foldlM_append_R, R_bind_assoc, R_bind_assoc]
        simp only [locOps, List.append_nil]
        refine R_bind_congr _ fun b => ?_
        rw [R.ok_bind']
        simp only [Bool.not_true, Bool.false_eq_true, if_false]
        have ih := ihA rounds (l.after env { st with line := st.line + ps.length } b) hsafe.2 hr' hver hlev
        refine Eq.trans ih ?_
        refine R_bind_congr _ fun b' => ?_
        simp [locAfter, RLine.after, Item.errs, Nat.add_assoc]
    | include_ name sub =>
      have hli : FileName name ∧ fs name = some (bs! "version=2\n" ++ itemsText sub) ∧ itemsOK fs .file sub := by
        have := hok'.1
        rw [Item.OK] at this
        exact this
      have e5 : (Item.include_ name sub).text = piecesText [bs! "include=" ++ name] := by simp [Item.text, piecesText]
      have e6 : (Item.include_ name sub).height = 1 := by rw [Item.height]
      have e7 : (Item.include_ name sub).lines (st.file.getD []) st.line = itemsLines name 1 sub := by rw [Item.lines]
      have hfl : itemsSize sub + 1 ≤ fuel := by have := hs0.1; rw [Item.size] at this; exact this
      obtain ⟨fuel, rfl⟩ : ∃ k, fuel = k + 1 := ⟨fuel - 1, by omega⟩
      have hsk : skipped (bs! "include=" ++ name) = false := by rfl
      rw [readAll_succ, e5, readLine_item (fileName_pieces hli.1 src), hsk, if_neg (by decide)]
      rw [e7, e6] at hsafe ⊢
      simp only [afterLine, List.append_nil]
      have hinc : ∀ st0 : LoadSt, st0.rulePrefix = st.rulePrefix → st0.version = 2 → 1 ≤ st0.level →
          loadSamples env srt fs (fuel + 1) st0 name =
          ((locOps env st0.rulePrefix (itemsLines name 1 sub)).foldlM (BOp.run env srt) st0.b).bind fun b =>
            .ok ({ locAfter st0 (itemsLines name 1 sub) (1 + itemsHeight sub) (itemsErrs env st0.rulePrefix sub) b with file := none }, true) := by
        intro st0 hp0 hv0 hl0
        have h1 : versionLine.isPrefixOf (versionLine ++ itemsText sub) = true := by
          rw [List.isPrefixOf_iff_prefix]; exact List.prefix_append ..
        have h2 : (versionLine ++ itemsText sub).drop versionLine.length = itemsText sub := by simp
        have hlen : sub.length ≤ (itemsText sub).length := items_length .file sub hli.2.2
        have ih := ihB fuel (by omega) sub ((itemsText sub).length + 1)
          { st0 with file := some name, line := 0 + 1, level := st0.level + 1, version := 2 } hli.2.2 (by
            rw [hp0.symm] at hsafe; exact hsafe.1) (by omega) (by omega) rfl (by show 1 ≤ st0.level + 1; omega)
        have hf : fs name = some (versionLine ++ itemsText sub) := hli.2.1
        unfold loadSamples sampLoad
        rw [hf]
        generalize hc : versionLine ++ itemsText sub = c at h1 h2 ⊢
        have hne : c ≠ [] := by rw [← hc]; simp [versionLine]
        cases c with
        | nil => exact absurd rfl hne
        | cons x c =>
          dsimp only
          rw [h1, if_pos rfl, if_neg (by simp [hv0]), if_neg (by decide), h2]
          rw [ih, R_bind_assoc, R_bind_assoc]
          refine R_bind_congr _ fun b => ?_
          simp only [R.ok_bind', Bool.not_true, Bool.false_eq_true, if_false]
          unfold optimizeTop
          rw [if_neg (by show ¬ (st0.level + 1 = 1); omega)]
          simp only [R.ok_bind']
          simp [locAfter, hv0]
      obtain ⟨c0, t0, hn1, hn2, hn3⟩ := include_name hli.1
      have hproc : processSamp env (loadSamples env srt fs (fuel + 1)) (fuel + 1) { st with line := st.line + [bs! "include=" ++ name].length } (bs! "include=" ++ name) =
          ((locOps env st.rulePrefix (itemsLines name 1 sub)).foldlM (BOp.run env srt) st.b).bind fun b =>
            .ok (locAfter st (itemsLines name 1 sub) (st.line + 1) (itemsErrs env st.rulePrefix sub) b, true) := by
        have e : bs! "include=" ++ name = bs! "include" ++ ch! '=' :: name := by simp
        unfold processSamp
        rw [e, lineType_kind (by decide)]
        dsimp only
        rw [if_neg (by decide), if_neg (by decide), if_neg (by decide), if_neg (by decide), if_neg (by decide), if_neg (by decide), if_pos rfl]
        unfold processInclude
        rw [hn2]
        dsimp only
        rw [hn3, hinc { st with line := st.line + [bs! "include" ++ ch! '=' :: name].length } rfl hver hlev, R_bind_assoc]
        rfl
      rw [hproc, foldlM_append_R, R_bind_assoc, R_bind_assoc]
      refine R_bind_congr _ fun b => ?_
      rw [R.ok_bind']
      simp only [Bool.not_true, Bool.false_eq_true, if_false]
      have ih := ihA rounds (locAfter st (itemsLines name 1 sub) (st.line + 1) (itemsErrs env st.rulePrefix sub) b) hsafe.2 hr' hver hlev
      refine Eq.trans ih ?_
      refine R_bind_congr _ fun b' => ?_
      simp [locAfter, Item.errs, Nat.add_assoc]
  termination_by fuel is => (fuel, is.length)

end
end LN
