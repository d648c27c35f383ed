import Verif.Proofs.StructA
import Verif.Props.Examples
/-
C38, C39, C41, C43: structured fields.  In every theorem `s` is the message, `offs` the
position of the field (at most the length), `s.drop offs` the remaining message, and
`want` = "the field has a name".
-/
set_option autoImplicit false
namespace LN
open Spec

variable {s : Bytes} {offs : Nat}

/-! ### C41 v2-iptables -/

/-- C41: the field matches iff the remaining message is a list of at least two fields; then it
covers all of it and the value holds exactly these fields, in order. -/
theorem C41_iptables (h : offs ≤ s.length) (want : Bool) :
    (∀ fs, iptables (s.drop offs) fs → parseIPTables s offs want
      = .ok (s.length - offs, ifNamed want (objOf (fs.map IptField.member)))) ∧
    ((∀ fs, ¬ iptables (s.drop offs) fs) → parseIPTables s offs want = .fail) := by
  constructor
  · rintro fs ⟨h2, hv, trail, htr, hd⟩
    have hne : fs ≠ [] := by intro h0; subst h0; simp at h2
    obtain ⟨h1, h3⟩ := ipt_fwd htr fs (s.length - offs + 1) offs 0 [] hv hne h (by omega) hd
    unfold parseIPTables
    rw [h1]
    cases want <;> simp [h3, h2, R.guard, ifNamed, objOf]
  · intro hno
    rcases (parseIPTables_within (U := True) h want).isDefined with ⟨⟨n, v⟩, hr⟩ | hr
    · exfalso
      unfold parseIPTables at hr
      rw [R.bind_eq_ok] at hr
      obtain ⟨⟨e, k⟩, h1, hr⟩ := hr
      rw [R.bind_eq_ok] at hr
      obtain ⟨_, hg, -⟩ := hr
      rw [R.guard_eq_ok] at hg
      simp at hg
      rcases ipt_bwd _ _ _ _ _ h h1 with ⟨_, hk⟩ | ⟨fs, trail, htr, hv, hne, hd, hk⟩
      · omega
      · exact hno fs ⟨by omega, hv, trail, htr, hd⟩
    · exact hr

example : iptables (bs! "IN=eth0 DF OUT= ")
    [⟨bs! "IN", some (bs! "eth0")⟩, ⟨bs! "DF", none⟩, ⟨bs! "OUT", some []⟩] :=
  ⟨by decide, by
    intro f hf
    simp at hf
    rcases hf with rfl | rfl | rfl
    · exact ⟨by decide, by decide, by intro v hv; cases hv; decide⟩
    · exact ⟨by decide, by decide, by intro v hv; cases hv⟩
    · exact ⟨by decide, by decide, by intro v hv; cases hv; decide⟩, bs! " ", .inr rfl, by decide⟩
example : parseIPTables (bs! "x IN=eth0 DF OUT= ") 2 true = .ok (16, some (.obj
    [(bs! "IN", .str (bs! "eth0")), (bs! "DF", .null), (bs! "OUT", .str [])])) := by rfl
example : parseIPTables (bs! "IN=eth0  DF") 0 true = .fail := by rfl
example : parseIPTables (bs! "IN=eth0") 0 true = .fail := by rfl

/-! ### C43 checkpoint-lea -/

/-- C43: the field matches iff the remaining message is a list of `name: value;` pairs up to the
end or the terminator; the value holds exactly these pairs, in order. -/
theorem C43_lea (h : offs ≤ s.length) (term : UInt8) (want : Bool) :
    (∀ ps n, lea term (s.drop offs) ps n →
      parseCheckpointLEA s offs term want = .ok (n, leaValue want ps)) ∧
    ((∀ ps n, ¬ lea term (s.drop offs) ps n) → parseCheckpointLEA s offs term want = .fail) := by
  constructor
  · rintro ps n ⟨hv, k, tl, hd, rfl, hc⟩
    have h1 := lea_fwd ps (s.length - offs + 1) offs 0 none k tl hv h (by omega) hd (by
      rcases hc with ⟨h1, h2⟩ | h1
      · exact .inl ⟨h1, fun h0 => .inl (h2 h0)⟩
      · exact .inr h1)
    have hl : tl.length ≤ s.length - offs := by
      have := congrArg List.length hd
      simp at this; omega
    unfold parseCheckpointLEA
    rw [h1]
    show R.ok _ = R.ok _
    refine congrArg R.ok (Prod.ext (by simp; omega) ?_)
    unfold leaValue objOf
    cases want <;> by_cases hp : ps = [] <;> simp [hp]
  · intro hno
    rcases (parseLEA_within (U := True) term h want).isDefined with ⟨⟨n, v⟩, hr⟩ | hr
    · exfalso
      unfold parseCheckpointLEA at hr
      rw [R.bind_eq_ok] at hr
      obtain ⟨⟨e, o⟩, h1, -⟩ := hr
      obtain ⟨ps, k, tl, hv, hd, hc⟩ := lea_bwd _ _ _ _ _ _ h h1
      refine hno ps _ ⟨hv, k, tl, hd, rfl, ?_⟩
      rcases hc with ⟨h1, h2⟩ | h1
      · exact .inl ⟨h1, fun h0 => by simpa using h2 h0⟩
      · exact .inr h1
    · exact hr

example : lea (ch! ']') (bs! "a: 1; b:2 ; ] x")
    [⟨0, bs! "a", 1, bs! "1"⟩, ⟨1, bs! "b", 0, bs! "2 "⟩] 12 :=
  ⟨by
    intro p hp
    simp at hp
    rcases hp with rfl | rfl
    · exact ⟨by decide, by decide, by decide, by decide, by decide⟩
    · exact ⟨by decide, by decide, by decide, by decide, by decide⟩,
   1, bs! "] x", by decide, by decide, .inr ⟨by decide, by decide⟩⟩
example : parseCheckpointLEA (bs! "a: 1; b:2 ; ] x") 0 (ch! ']') true = .ok (12, some (.obj
    [(bs! "a", .str (bs! "1")), (bs! "b", .str (bs! "2 "))])) := by rfl
example : parseCheckpointLEA (bs! "  ") 0 0 true = .fail := by rfl

/-! ### C38 json -/

/-- C38, without arrays: where the message does not begin with `[`, the field matches iff it begins
with a JSON object, consumes what the JSON library consumed, and yields its value.
(The JSON library is assumed not to accept a text beginning with `]`.) -/
theorem C38_json_partial (env : Env) (h : offs ≤ s.length) (want : Bool)
    (hno : (s.drop offs).head? ≠ some (ch! '['))
    (hlib : (s.drop offs).head? = some (ch! ']') → env.tok (s.drop offs) = none) :
    (∀ v n, json env.tok (s.drop offs) v n → parseJSON env s offs want = .ok (n, ifNamed want v)) ∧
    ((∀ v n, ¬ json env.tok (s.drop offs) v n) → parseJSON env s offs want = .fail) := by
  have hrd : ∀ c, (s.drop offs).head? = some c → rd s offs = .ok c := by
    intro c hc
    cases ht : s.drop offs with
    | nil => rw [ht] at hc; cases hc
    | cons x xs => rw [ht] at hc; simp at hc; subst hc; exact rd_of_cons ht
  constructor
  · rintro v n ⟨hc | hc, ht⟩
    · unfold parseJSON
      rw [hrd _ hc]
      simp [R.guard, ht, ifNamed]
    · exact absurd hc hno
  · intro hn
    unfold parseJSON
    cases ht : s.drop offs with
    | nil =>
      have : offs = s.length := drop_eq_nil_len ht h
      subst this
      rw [rd_end]; rfl
    | cons c cs =>
      rw [rd_of_cons ht]
      by_cases h1 : c = ch! '{'
      · subst h1
        have : env.tok (s.drop offs) = none := by
          cases hk : env.tok (s.drop offs) with
          | none => rfl
          | some r => exact absurd ⟨.inl (by rw [ht]; rfl), hk⟩ (hn r.1 r.2)
        rw [ht] at this
        simp [R.guard, this]
      · by_cases h2 : c = ch! ']'
        · subst h2
          have := hlib (by rw [ht]; rfl)
          rw [ht] at this
          simp [R.guard, this]
        · simp [R.guard, h1, h2]

/-- C38 is violated: a JSON array never matches, whatever the JSON library does with it. -/
theorem C38_array_violated :
    ∀ (env : Env) (s : Bytes) (offs : Nat) (want : Bool), (s.drop offs).head? = some (ch! '[') →
      parseJSON env s offs want = .fail := by
  intro env s offs want h
  unfold parseJSON
  cases ht : s.drop offs with
  | nil => rw [ht] at h; cases h
  | cons c cs =>
    rw [ht] at h; simp at h; subst h
    rw [rd_of_cons ht]; rfl

/-- a library which accepts `[]` and `{}` (with the whitespace after it) -/
def Ex.envJ : Env :=
  { Ex.env with tok := fun b => if b = bs! "{} " then some (.obj [], 3)
                                else if b = bs! "{}" then some (.obj [], 2)
                                else if b = bs! "[]" then some (.arr [], 2) else none }
example : json Ex.envJ.tok (bs! "{} ") (.obj []) 3 := by
  exact ⟨.inl rfl, by decide⟩
example : parseJSON Ex.envJ (bs! "a {} ") 2 true = .ok (3, some (.obj [])) := by decide
/-- there is an array the library accepts and the field does not -/
example : json Ex.envJ.tok (bs! "[]") (.arr []) 2 ∧ parseJSON Ex.envJ (bs! "[]") 0 true = .fail :=
  ⟨⟨.inr rfl, by decide⟩, by decide⟩

/-! ### C39 cee-syslog -/

/-- C39 for a field at the beginning of the message: it matches iff the message is `@cee:`,
optional whitespace and a JSON object up to its end. -/
theorem C39_cee_partial (env : Env) (want : Bool) (hlib : env.tok (bs! "{") = none) (s : Bytes) :
    (∀ v n, cee env.tok s v n → parseCEESyslog env s 0 want = .ok (n, ifNamed want v)) ∧
    ((∀ v n, ¬ cee env.tok s v n) → parseCEESyslog env s 0 want = .fail) := by
  have key : ∀ t, s = bs! "@cee:" ++ t → 2 ≤ t.length →
      parseCEESyslog env s 0 want = (do
        let i := scan isSpace s 5
        R.guard (i ≠ s.length)
        guardChar s i (ch! '{')
        match env.tok (s.drop i) with
        | none => .fail
        | some (v, n) => do
          R.guard (i + n = s.length)
          pure (s.length, if want then some v else none)) := by
    intro t ht hl
    unfold parseCEESyslog
    subst ht
    have : 0 + 7 ≤ (bs! "@cee:" ++ t).length := by simp; omega
    simp [R.guard, guardChar, rd, this]
    split
    · rfl
    · exfalso; omega
  constructor
  · rintro v n ⟨ws, js, hs, hws, hj, htok, rfl⟩
    have hl : 2 ≤ (ws ++ js).length := by
      cases js with
      | nil => simp at hj
      | cons c js =>
        simp at hj; subst hj
        cases js with
        | nil => rw [hlib] at htok; cases htok
        | cons d js => simp; omega
    rw [key (ws ++ js) (by simpa using hs) hl]
    have hd5 : s.drop 5 = ws ++ js := by rw [hs]; simp
    have hsc : scan isSpace s 5 = 5 + ws.length := by
      refine scan_of_append hd5 hws ?_
      intro c hc; rw [hj] at hc; simp at hc; subst hc; decide
    have hd := drop_of_append hd5
    have hlen : s.length = 5 + ws.length + js.length := by rw [hs]; simp; omega
    cases js with
    | nil => simp at hj
    | cons c js =>
      simp at hj; subst hj
      have hne : 5 + ws.length ≠ s.length := by simp at hlen; omega
      have hlen2 : 5 + ws.length + (js.length + 1) = s.length := by simp at hlen; omega
      simp only [hsc, guardChar, rd_of_cons hd, hd, htok]
      simp [R.guard, hne, hlen2, ifNamed]
  · intro hn
    by_cases hp : ∃ t, s = bs! "@cee:" ++ t
    · obtain ⟨t, ht⟩ := hp
      by_cases hl : 2 ≤ t.length
      · rw [key t ht hl]
        have hd5 : s.drop 5 = t := by rw [ht]; simp
        obtain ⟨ws, js, hj, hws, hjh, hsc⟩ := scan_split isSpace s 5
        have hd := drop_of_append hj
        have hlen : s.length = 5 + ws.length + js.length := by
          have := congrArg List.length (hd5.symm.trans hj)
          rw [ht]; simp at this ⊢; omega
        simp only [hsc]
        cases js with
        | nil => simp at hlen; simp [hlen, R.guard]
        | cons c js =>
          have hne : 5 + ws.length ≠ s.length := by simp at hlen; omega
          simp only [guardChar, rd_of_cons hd, hd]
          by_cases hc : c = ch! '{'
          · subst hc
            cases hk : env.tok (ch! '{' :: js) with
            | none => simp [R.guard, hne]
            | some r =>
              obtain ⟨v, m⟩ := r
              by_cases hm : 5 + ws.length + m = s.length
              · exfalso
                refine hn v s.length ⟨ws, ch! '{' :: js, ?_, hws, rfl, ?_, rfl⟩
                · rw [ht, ← hd5, hj]; simp
                · rw [hk]; simp at hlen ⊢; omega
              · simp [R.guard, hne, hm]
          · simp [R.guard, hne, hc]
      · unfold parseCEESyslog
        have : ¬ (0 + 7 ≤ s.length) := by rw [ht]; simp; omega
        simp only [this, decide_false]; rfl
    · unfold parseCEESyslog
      by_cases h7 : 0 + 7 ≤ s.length
      · have : ∃ a b c d e t, s = a :: b :: c :: d :: e :: t := by
          obtain ⟨a, b, c, d, e, t, h⟩ := len5 (t := s) (by omega)
          exact ⟨a, b, c, d, e, t, h⟩
        obtain ⟨a, b, c, d, e, t, rfl⟩ := this
        have hp' : ¬ (a = 64 ∧ b = 99 ∧ c = 101 ∧ d = 101 ∧ e = 58) := by
          rintro ⟨rfl, rfl, rfl, rfl, rfl⟩; exact hp ⟨t, rfl⟩
        simp only [guardChar, rd, R.guard, List.length_cons] at h7 ⊢
        simp only [h7]
        by_cases ha : a = 64 <;> by_cases hb : b = 99 <;> by_cases hc : c = 101 <;>
          by_cases hd : d = 101 <;> by_cases he : e = 58 <;> simp_all
      · simp only [h7, decide_false]; rfl

/-- C39 is violated elsewhere in the message: the number of bytes reported as consumed exceeds
what is left of the message. -/
theorem C39_offset_violated :
    ∃ env s offs v, cee env.tok (s.drop offs) v (s.length - offs) ∧
      parseCEESyslog env s offs true = .ok (s.length, some v) ∧ s.length - offs < s.length :=
  ⟨Ex.envJ, bs! "x @cee: {}", 2, .obj [], ⟨bs! " ", bs! "{}", by decide, by decide, by decide, by decide,
    by decide⟩, by decide, by decide⟩

example : cee Ex.envJ.tok (bs! "@cee: {}") (.obj []) 8 :=
  ⟨bs! " ", bs! "{}", by decide, by decide, by decide, by decide, by decide⟩
example : parseCEESyslog Ex.envJ (bs! "@cee: {}") 0 true = .ok (8, some (.obj [])) := by decide

end LN
