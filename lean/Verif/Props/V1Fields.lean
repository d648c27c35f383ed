import Verif.Proofs.V1Fields
import Verif.Proofs.V1Cef
import Verif.Props.FieldsE
import Verif.Model.V1Samp
import Verif.Props.Examples
import Verif.Props.FieldsJ
/-
C71, C72: the field types of version 1 rulebases. `s` is the message, `offs` the position of the field (at most the length), `s.drop offs` the
remaining message, `f` the field, `k` its type. What is delivered for a field is `V1Step.value` (C64).
-/
set_option autoImplicit false
namespace LN
open Spec
variable {s : Bytes} {offs : Nat}

namespace Ex
/-- version 1 environment for examples -/
def E1 : V1Env := { env := Ex.envJ }
/-- no contexts -/
def norm1 : V1Norm := fun _ _ _ => .fail
/-- a field -/
def fld1 (k : V1Fn) (raw : Bytes) : V1Field := ⟨bs! "f", .fn k, some raw, none⟩
end Ex

/-! ### C71 -/

private theorem noNul_slice {s : Bytes} (hz : ∀ c ∈ s, c ≠ 0) (i n : Nat) : newString (slice s i n) = .str (slice s i n) := by
  rw [newString, cstr_noNul]
  intro c hc
  exact hz c (List.mem_of_mem_drop (List.mem_of_mem_take hc))

/-- what C71 says about the outcome of a parser -/
def V1Does (x : PR) (f : V1Field) (s : Bytes) (offs : Nat) (spec : Nat → Prop) (txt : Nat → Bytes) : Prop :=
  (∀ n, spec n → ∃ v, x = .ok (n, v) ∧ V1Step.value s ⟨f, offs, n, v⟩ = .str (txt n)) ∧ ((∀ n, ¬ spec n) → x = .fail)

private theorem does_of_implements {x : PR} {f : V1Field} {spec : Nat → Prop} {val : Nat → Option Json} {txt : Nat → Bytes}
    (h : Implements x spec val) (hz : ∀ c ∈ s, c ≠ 0)
    (hv : ∀ n, spec n → val n = none ∧ txt n = (s.drop offs).take n ∨ val n = some (.str (txt n))) :
    V1Does x f s offs spec txt := by
  refine ⟨fun n hn => ⟨val n, h.1 n hn, ?_⟩, h.2⟩
  rcases hv n hn with ⟨h1, h2⟩ | h1
  · rw [h1, h2]; exact noNul_slice hz offs n
  · rw [h1]; rfl

/-- C71: a field of a simple type matches exactly the texts of its syntax, and delivers the text.

Missing for the full property: messages with NUL bytes; one-byte and empty extra data of `string-to` and extra data of `char-to`
and `char-sep` which do not begin with an ASCII character (see the `_violated` theorems below); dates in messages with runs of ten digits; the types
cisco-interface-spec, json, name-value-list and v2-iptables are dealt with below, the types with contexts of their own in C73. -/
theorem C71_simple_types_partial (E : V1Env) (norm : V1Norm) (fuel : Nat) (k : V1Fn) (f : V1Field) (hk : V1Simple k = true)
    (hc : V1Conf E.env k f.raw) (hd : V1Digits k s) (hz : ∀ c ∈ s, c ≠ 0) (h : offs ≤ s.length) :
    V1Does (v1Parser E norm fuel k f s offs) f s offs (v1Syntax (E.env.unescape (f.raw.getD [])) k (s.drop offs))
      (v1Text k (s.drop offs)) := by
  have plain : ∀ n, (text false (s.drop offs) n = none ∧ (s.drop offs).take n = (s.drop offs).take n) ∨
      text false (s.drop offs) n = some (.str ((s.drop offs).take n)) := fun n => .inl ⟨rfl, rfl⟩
  have few : k = .date3164 ∨ k = .date5424 → FewDigits (s.drop offs) := by
    intro h1 i; rw [List.drop_drop]; exact hd h1 _
  cases k <;> first | cases hk | skip
  case date3164 => exact does_of_implements (C45_rfc3164_partial E.env h (few (.inl rfl)) false) hz fun n _ => plain n
  case date5424 => exact does_of_implements (C45_rfc5424_partial h (few (.inr rfl)) false) hz fun n _ => plain n
  case number => exact does_of_implements (v1Number_implements s offs) hz fun n _ => .inl ⟨rfl, rfl⟩
  case float => exact does_of_implements (C21_float h .asString false hz) hz fun n _ => .inl ⟨rfl, rfl⟩
  case hexnumber => exact does_of_implements (C22_hexnumber_partial h ⟨0, .asString⟩ false (by simp)) hz fun n _ => .inl ⟨rfl, rfl⟩
  case kernelTs => exact does_of_implements (C23_kernel_timestamp h false) hz fun n _ => plain n
  case whitespace => exact does_of_implements (C24_whitespace h false) hz fun n _ => plain n
  case ipv4 => exact does_of_implements (C34_ipv4 h false) hz fun n _ => plain n
  case ipv6 => exact does_of_implements (C35_exact h false) hz fun n _ => plain n
  case word => exact does_of_implements (C25_word false) hz fun n _ => plain n
  case alpha => exact does_of_implements (C25_alpha false) hz fun n _ => plain n
  case opQuoted => exact does_of_implements (C30_op_quoted_string_partial h hz) hz fun n _ => .inr rfl
  case quoted =>
    have h1 := C30_quoted_string_partial h false
    refine ⟨fun n hn => ⟨some (newString (slice s (offs + 1) (n - 2))), ?_, ?_⟩, fun hno => ?_⟩
    · show v1Quoted s offs = _
      rw [v1Quoted, h1.1 n hn]; rfl
    · show newString _ = _
      rw [noNul_slice hz, slice, ← List.drop_drop]
      rfl
    · show v1Quoted s offs = _
      rw [v1Quoted, h1.2 hno]; rfl
  case dateIso => exact does_of_implements (C31_date_iso h false) hz fun n _ => plain n
  case time24 => exact does_of_implements (C32_time_24hr h false) hz fun n _ => plain n
  case time12 => exact does_of_implements (C32_time_12hr h false) hz fun n _ => plain n
  case duration => exact does_of_implements (C33_duration h false) hz fun n _ => plain n
  case mac48 => exact does_of_implements (C36_mac48 h true) hz fun n _ => .inr rfl
  case stringTo =>
    obtain ⟨r, h1, h2, h3⟩ := hc
    have e : v1Parser E norm fuel .stringTo f s offs = parseStringTo s offs (E.env.unescape r) false := by
      show v1StringTo E.env f.raw s offs = _
      rw [h1, v1StringTo]
      rw [if_neg h3, if_neg]
      rintro ⟨h4, _⟩
      rw [h4] at h2; simp at h2
    rw [e, h1]
    exact does_of_implements (C26_string_to_partial h h2 false) hz fun n _ => plain n
  case charTo =>
    obtain ⟨r, c, l, h1, h2, h3⟩ := hc
    have e : v1Parser E norm fuel .charTo f s offs = parseCharTo s offs [c] false := by
      show v1CharTo E.env f.raw s offs = _
      rw [h1, v1CharTo, v1Term]
      rw [h2]
      dsimp only
      rw [if_pos h3]
      rfl
    rw [e, h1, Option.getD_some, h2]
    exact does_of_implements (C27_char_to h [c] false) hz fun n _ => plain n
  case charSep =>
    obtain ⟨r, c, l, h1, h2, h3⟩ := hc
    have e : v1Parser E norm fuel .charSep f s offs = parseCharSep s offs [c] false := by
      show v1CharSep E.env f.raw s offs = _
      rw [h1, v1CharSep, v1Term]
      rw [h2]
      dsimp only
      rw [if_pos h3]
      rfl
    rw [e, h1, Option.getD_some, h2]
    exact does_of_implements (C27_char_sep [c] false) hz fun n _ => plain n

example : v1Syntax [] .number (bs! "123x") 3 := ⟨by decide, by decide, by decide, by decide⟩
example : V1Conf Ex.E1.env .charTo (some (bs! ",")) := ⟨bs! ",", ch! ',', [], by decide, by decide, by decide⟩
example : v1Parser Ex.E1 Ex.norm1 0 .charTo (Ex.fld1 .charTo (bs! ",")) (bs! "ab,c") 0 = .ok (2, none) := by decide
example : v1Parser Ex.E1 Ex.norm1 0 .quoted (Ex.fld1 .quoted []) (bs! "x \"a b\" y") 2 = .ok (5, some (.str (bs! "a b"))) := by decide
example : v1Parser Ex.E1 Ex.norm1 0 .hexnumber (Ex.fld1 .hexnumber []) (bs! "0x10000000000000005 ") 0 = .ok (19, none) := by decide

/-- C71, violated: a terminator from 128 on is never found by `char-to` and `char-sep`. -/
theorem C71_eight_bit_terminator_violated :
    charTo [200] (bs! "ab" ++ [200]) 2 ∧
    ∀ E : V1Env, E.env.unescape [200] = [200] → ∀ norm fuel,
      v1Parser E norm fuel .charTo (Ex.fld1 .charTo [200]) (bs! "ab" ++ [200]) 0 = .fail := by
  refine ⟨⟨by decide, by decide, by decide, by decide, by decide⟩, fun E h norm fuel => ?_⟩
  show v1CharTo E.env (some [200]) _ _ = _
  rw [v1CharTo, v1Term, h]
  decide

/-- C71, violated: `string-to` with one character never matches. -/
theorem C71_one_byte_string_to_violated (E : V1Env) (norm : V1Norm) (fuel : Nat) (x : UInt8) (f : V1Field) (r : Bytes) (hf : f.raw = some r)
    (hr : E.env.unescape r = [x]) (h : offs ≤ s.length) (hx : x ≠ 0) : v1Parser E norm fuel .stringTo f s offs = .fail := by
  show v1StringTo E.env f.raw s offs = _
  rw [hf, v1StringTo]
  rw [hr, if_neg (by simp [Ne.symm hx]), if_neg (by simp), C26_one_byte_violated s offs h x]

example : stringTo (bs! ",") (bs! "ab,") 2 := ⟨by decide, by decide, by decide, fun m h1 h2 => by
  obtain rfl : m = 1 := by omega
  decide⟩

/-- C71: ipv6 fields match addresses up to the next white space (see C35 for the quirks) -/
theorem C71_ipv6_partial (E : V1Env) (norm : V1Norm) (fuel : Nat) (f : V1Field) (w tl : Bytes) (h : offs ≤ s.length)
    (hs : s.drop offs = w ++ tl) (hw : V6Text w) (ht : ∀ c, tl.head? = some c → isSpace c = true) (hq : ¬ V6Quirk w tl) :
    v1Parser E norm fuel .ipv6 f s offs = .ok (w.length, none) := C35_accepts_partial w tl false h hs hw ht hq

example : v1Parser Ex.E1 Ex.norm1 0 .ipv6 (Ex.fld1 .ipv6 []) (bs! "a fe80::1 b") 2 = .ok (7, none) := by decide

/-- C71: v2-iptables fields match exactly the lists of at least two iptables fields, and deliver them. -/
theorem C71_iptables (E : V1Env) (norm : V1Norm) (fuel : Nat) (f : V1Field) (h : offs ≤ s.length) :
    (∀ fs, iptables (s.drop offs) fs → v1Parser E norm fuel .v2iptables f s offs
      = .ok (s.length - offs, some (objOf (fs.map IptField.member)))) ∧
    ((∀ fs, ¬ iptables (s.drop offs) fs) → v1Parser E norm fuel .v2iptables f s offs = .fail) := C41_iptables h true

example : v1Parser Ex.E1 Ex.norm1 0 .v2iptables (Ex.fld1 .v2iptables []) (bs! "IN=eth0 DF") 0 =
    .ok (10, some (.obj [(bs! "IN", .str (bs! "eth0")), (bs! "DF", .null)])) := by decide

/-- C71: json fields match what the JSON library accepts, if it begins with a brace.

Missing: arrays never match (C38). -/
theorem C71_json_partial (E : V1Env) (norm : V1Norm) (fuel : Nat) (f : V1Field) (h : offs ≤ s.length)
    (hno : (s.drop offs).head? ≠ some (ch! '[')) (hlib : (s.drop offs).head? = some (ch! ']') → E.env.tok (s.drop offs) = none) :
    (∀ v n, json E.env.tok (s.drop offs) v n → v1Parser E norm fuel .json f s offs = .ok (n, some v)) ∧
    ((∀ v n, ¬ json E.env.tok (s.drop offs) v n) → v1Parser E norm fuel .json f s offs = .fail) := C38_json_partial E.env h true hno hlib

example : v1Parser Ex.E1 Ex.norm1 0 .json (Ex.fld1 .json []) (bs! "x {}") 2 = .ok (2, some (.obj [])) := by decide

/-- C71: name-value-list fields match exactly if the rest of the message consists of `name=value` pairs separated by white space, and
deliver them. -/
theorem C71_name_value (E : V1Env) (norm : V1Norm) (fuel : Nat) (f : V1Field) (h : offs ≤ s.length) :
    (∀ l, V1Nv (s.drop offs) l → v1Parser E norm fuel .nameValue f s offs
      = .ok (s.length - offs, some (objOf (l.map fun p => (p.1, Json.str p.2))))) ∧
    ((∀ l, ¬ V1Nv (s.drop offs) l) → v1Parser E norm fuel .nameValue f s offs = .fail) := by
  refine ⟨fun l hl => ?_, fun hno => ?_⟩
  · show v1NameValue s offs = _
    rw [v1NameValue, v1NvLoop_fwd hl _ _ _ h rfl (by simp), objOf, List.foldl_map]
    rfl
  · show v1NameValue s offs = _
    rw [v1NameValue]
    have hp := v1NvLoop_post (s := s) (U := True) (s.length - offs + 1) offs [] h (by omega)
    rcases hr : v1NvLoop s (s.length - offs + 1) offs [] with r | _ | k | _
    · obtain ⟨l, hl⟩ := v1NvLoop_inv _ _ _ _ h hr
      exact absurd hl (hno l)
    · rfl
    · exact absurd hr (hp.2.2 trivial k)
    · exact absurd hr hp.2.1

example : V1Nv (bs! "a=1 b= ") [(bs! "a", bs! "1"), (bs! "b", [])] :=
  .cons (name := bs! "a") (val := bs! "1") (sp := bs! " ") (t := bs! "b= ") (by decide) (by decide) (by decide) (by decide) (by decide)
    (by simp; decide)
    (.cons (name := bs! "b") (val := []) (sp := bs! " ") (t := []) (by decide) (by decide) (by decide) (by decide) (by decide) (by decide) .nil)
example : v1Parser Ex.E1 Ex.norm1 0 .nameValue (Ex.fld1 .nameValue []) (bs! "a=1 b= ") 0 =
    .ok (7, some (.obj [(bs! "a", .str (bs! "1")), (bs! "b", .str [])])) := by decide

/-- C71: cisco-interface-spec fields match exactly the interface specifications (as C37); the parts are delivered unless the message ends with the first port.

Missing: as in C37, and the value at the end of the message (`C71_cisco_value_violated`). -/
theorem C71_cisco_partial (E : V1Env) (norm : V1Norm) (fuel : Nat) (f : V1Field) (h : offs ≤ s.length) (hf : Digits18 s)
    (hs : SlashUsed s) :
    (∀ v n, cisco (s.drop offs) v n →
      (¬ CiscoHead (s.drop offs) v.iface v.ip v.port [] → v1Parser E norm fuel .cisco f s offs = .ok (n, some v.value)) ∧
      (CiscoHead (s.drop offs) v.iface v.ip v.port [] → v1Parser E norm fuel .cisco f s offs = .ok (n, none))) ∧
    ((∀ v n, ¬ cisco (s.drop offs) v n) → v1Parser E norm fuel .cisco f s offs = .fail) := by
  refine ⟨fun v n hv => ?_, fun hno => ?_⟩
  · have h1 := (C37_cisco_partial true h hf hs).1 v n hv
    obtain ⟨r, r2, r3, hh, h2, hu, hn⟩ := hv
    have e : v1Parser E norm fuel .cisco f s offs = _ := v1Cisco_head h hf hh
    refine ⟨fun hne => ?_, fun hh' => ?_⟩
    · rw [e, if_neg (by rintro rfl; exact hne hh), h1]; rfl
    · have e' : v1Parser E norm fuel .cisco f s offs = _ := v1Cisco_head h hf hh'
      rw [if_pos rfl] at e'
      rw [e']
      rw [e'] at e
      have hr : r = [] := by
        by_cases hr : r = []
        · exact hr
        · rw [if_neg hr, h1] at e; cases e
      subst hr
      have hr2 : r2 = [] := by
        revert h2
        split
        · rintro ⟨t', h3, _⟩; simp at h3
        · exact fun h2 => h2.1
      subst hr2
      have hr3 : r3 = [] := by
        revert hu
        split
        · rintro ⟨h3 | h3, _⟩ <;> simp at h3
        · exact fun h2 => h2.1
      subst hr3
      rw [hn]
      simp
  · have h1 := (C37_cisco_partial true h hf hs).2 hno
    have hp := v1Cisco_within (U := True) h
    show v1Cisco s offs = _
    rcases hr : v1Cisco s offs with r | _ | k | _
    · exact absurd h1 (v1Cisco_ok_inv hf (n := r.1) (w := r.2) hr)
    · rfl
    · exact absurd hr (hp.2.2 trivial k)
    · exact absurd hr hp.2.1

/-- C71, violated: at the end of the message the parts are not delivered. -/
theorem C71_cisco_value_violated :
    v1Parser Ex.E1 Ex.norm1 0 .cisco (Ex.fld1 .cisco []) (bs! "outside:192.0.2.1/80 ") 0 =
      .ok (20, some (.obj [(bs! "interface", .str (bs! "outside")), (bs! "ip", .str (bs! "192.0.2.1")), (bs! "port", .str (bs! "80"))])) ∧
    v1Parser Ex.E1 Ex.norm1 0 .cisco (Ex.fld1 .cisco []) (bs! "outside:192.0.2.1/80") 0 = .ok (20, none) := by decide +kernel

/-- C71: checkpoint-lea fields match exactly if the rest of the message is a list of `name: value;` pairs, and deliver the pairs.

Missing: messages with NUL bytes; the length delivered is the wrong one (C72_lea_violated). -/
theorem C71_lea_partial (E : V1Env) (norm : V1Norm) (fuel : Nat) (f : V1Field) (h : offs ≤ s.length) (hz : (0 : UInt8) ∉ s) :
    (∀ ps n, lea 0 (s.drop offs) ps n → v1Parser E norm fuel .lea f s offs = .ok (sizeSub offs s.length, leaValue true ps)) ∧
    ((∀ ps n, ¬ lea 0 (s.drop offs) ps n) → v1Parser E norm fuel .lea f s offs = .fail) := by
  have key : ∀ fuel i found o, v1LeaLoop s fuel i found o = leaLoop s 0 fuel i found o := by
    intro fuel
    induction fuel with
    | zero => intro i found o; rfl
    | succ fuel ih =>
      intro i found o
      have hat : ∀ j, atP (· == 0) s j = false := by
        intro j; rw [atP_head]
        cases hd : s.drop j with
        | nil => rfl
        | cons c t =>
          have : c ≠ 0 := by rintro rfl; exact hz (List.mem_of_mem_drop (i := j) (by rw [hd]; simp))
          simp [this]
      simp only [v1LeaLoop, leaLoop, hat, ih, Bool.false_eq_true, if_false]
  have e : v1Parser E norm fuel .lea f s offs = (leaLoop s 0 (s.length - offs + 1) offs 0 none).bind fun (i, o) => .ok (sizeSub offs i, o.map Json.obj) := by
    show v1LEA s offs = _
    rw [v1LEA, key]
  refine ⟨fun ps n hl => ?_, fun hno => ?_⟩
  · obtain ⟨hv, k, tl, ht, hn, hc⟩ := hl
    have htl : tl = [] := by
      rcases hc with ⟨h, -⟩ | ⟨h, -⟩
      · exact h
      · cases tl with
        | nil => rfl
        | cons c tl =>
          simp only [List.head?_cons, Option.some.injEq] at h
          exact absurd (List.mem_of_mem_drop (i := offs) (by rw [ht, h]; simp)) hz
    subst htl
    have h1 := lea_fwd ps (s.length - offs + 1) offs 0 none k [] hv h (by omega) ht (by
      rcases hc with ⟨h1, h2⟩ | h1
      · exact .inl ⟨h1, fun h0 => .inl (h2 h0)⟩
      · exact .inr h1)
    rw [e, h1]
    show R.ok _ = R.ok _
    refine congrArg R.ok (Prod.ext (by simp) ?_)
    unfold leaValue objOf
    by_cases hp : ps = [] <;> simp [hp]
  · have h3 := (C43_lea h 0 true).2 hno
    rw [e]
    unfold parseCheckpointLEA at h3
    rcases hr : leaLoop s 0 (s.length - offs + 1) offs 0 none with r | _ | k | _ <;> rw [hr] at h3 <;> first | rfl | cases h3

example : v1Parser Ex.E1 Ex.norm1 0 .lea (Ex.fld1 .lea []) (bs! " ") 0 = .fail ∧
    lea 0 (bs! "a: b; ") [⟨0, bs! "a", 1, bs! "b"⟩] 6 := by
  refine ⟨by decide, by unfold LeaPair.Valid; decide, 1, [], by decide, by decide, .inl ⟨rfl, by decide⟩⟩

/-- C71: cef fields match CEF events with a byte between header and extensions (any byte: it is skipped) and deliver the event, escapes
removed. Every header and every list of extensions whose last value is not empty is covered.

Missing: a converse (as C42); without the additional byte the first byte of the first extension's name is lost, see the example; the
length delivered is the wrong one (C72_cef_violated). -/
theorem C71_cef_partial (E : V1Env) (norm : V1Norm) (fuel : Nat) (f : V1Field) (m : CefMsg) (hm : m.Valid) (x : UInt8)
    (hlast : ∀ e, m.exts.getLast? = some e → e.2 ≠ []) (h : offs ≤ s.length)
    (hs : s.drop offs = { m with exts := [] }.text ++ x :: sepBy (ch! ' ') (m.exts.map fun e => e.1 ++ ch! '=' :: cefEscVal false e.2))
    (hlen : 17 ≤ (s.drop offs).length) :
    v1Parser E norm fuel .cef f s offs = .ok (sizeSub offs (offs + { m with exts := [] }.text.length + 1), some m.value) := by
  obtain ⟨hh, he⟩ := hm
  rw [List.length_drop] at hlen
  have hs0 : s.drop offs = ch! 'C' :: ch! 'E' :: ch! 'F' :: ch! ':' :: ch! '0' :: ch! '|' ::
      (cefEscHdr m.vendor ++ ch! '|' :: (cefEscHdr m.product ++ ch! '|' :: (cefEscHdr m.version ++
      ch! '|' :: (cefEscHdr m.sigID ++ ch! '|' :: (cefEscHdr m.name ++ ch! '|' ::
      (cefEscHdr m.severity ++ ch! '|' :: (x :: sepBy (ch! ' ') (m.exts.map (extText false))))))))) := by
    rw [hs]; unfold CefMsg.text extText; simp [sepBy]
  have hsl : (CefMsg.text { m with exts := [] }).length = 6 + (cefEscHdr m.vendor).length + 1 + (cefEscHdr m.product).length + 1
    + (cefEscHdr m.version).length + 1 + (cefEscHdr m.sigID).length + 1
    + (cefEscHdr m.name).length + 1 + (cefEscHdr m.severity).length + 1 := by
    unfold CefMsg.text; simp [sepBy]; omega
  rw [hsl, show ∀ a b c d e g : Nat, offs + (6 + a + 1 + b + 1 + c + 1 + d + 1 + e + 1 + g + 1) + 1 =
    offs + 6 + a + 1 + b + 1 + c + 1 + d + 1 + e + 1 + g + 1 + 1 from by intros; omega]
  generalize hx : sepBy (ch! ' ') (m.exts.map (extText false)) = y at hs0
  have d1 := drop_of_cons hs0
  have d2 := drop_of_cons d1
  have d3 := drop_of_cons d2
  have d4 := drop_of_cons d3
  have d5 := drop_of_cons d4
  have d6 := drop_of_cons d5
  obtain ⟨g1, e1⟩ := cefHdr_fwd d6
  obtain ⟨g2, e2⟩ := cefHdr_fwd e1
  obtain ⟨g3, e3⟩ := cefHdr_fwd e2
  obtain ⟨g4, e4⟩ := cefHdr_fwd e3
  obtain ⟨g5, e5⟩ := cefHdr_fwd e4
  obtain ⟨g6, e6⟩ := cefHdr_fwd e5
  have hle := len_of_drop hs0 h
  simp at hle
  obtain ⟨i, hi⟩ : ∃ i, i = offs + 6 + (cefEscHdr m.vendor).length + 1 + (cefEscHdr m.product).length + 1
    + (cefEscHdr m.version).length + 1 + (cefEscHdr m.sigID).length + 1
    + (cefEscHdr m.name).length + 1 + (cefEscHdr m.severity).length + 1 := ⟨_, rfl⟩
  have hile : i + 1 ≤ s.length := by omega
  rw [← hi] at g6 e6
  rw [← hi]
  have e7 := drop_of_cons e6
  have hgc : ∀ {i c b}, s.drop i = c :: b → guardChar s i c = .ok () := by
    intro i c b hd; unfold guardChar; rw [rd_of_cons hd]; simp [R.guard]
  show v1CEF s offs = _
  unfold v1CEF
  have h17 : decide (offs + 17 ≤ s.length) = true := by simp; omega
  rw [h17]
  simp only [R.guard_true, R.ok_bind, hgc hs0, hgc d1, hgc d2, hgc d3, hgc d4, hgc d5]
  simp only [show offs + 1 + 1 + 1 + 1 + 1 + 1 = offs + 6 from rfl] at *
  rw [g1]; simp only [R.ok_bind]
  rw [g2]; simp only [R.ok_bind]
  rw [g3]; simp only [R.ok_bind]
  rw [g4]; simp only [R.ok_bind]
  rw [g5]; simp only [R.ok_bind]
  rw [g6]; simp only [R.ok_bind]
  rw [v1CefExts_fwd false m.exts _ _ _ he hlast hile (by omega) (by rw [e7, hx])]
  rw [v1CefExts_fwd true m.exts _ _ _ he hlast hile (by omega) (by rw [e7, hx])]
  simp only [R.ok_bind]
  have hns : ∀ b ∈ [m.vendor, m.product, m.version, m.sigID, m.name, m.severity],
      newString b = .str b := by
    intro b hb
    unfold newString; rw [cstr_noNul]
    intro c hc h0; subst h0; exact hh b hb hc
  rw [hns m.vendor (by simp), hns m.product (by simp), hns m.version (by simp), hns m.sigID (by simp),
    hns m.name (by simp), hns m.severity (by simp)]
  generalize sizeSub offs (i + 1) = z
  rfl

/-- a CEF event whose last extension has a value -/
def Ex.cefV1 : CefMsg where
  vendor := bs! "a|b"
  product := bs! "c"
  version := bs! "1"
  sigID := bs! "2"
  name := bs! "n n"
  severity := bs! "3"
  exts := [(bs! "src", bs! "x = y"), (bs! "msg", [ch! 'r', 13, 10])]
example : Ex.cefV1.Valid ∧ ∀ e, Ex.cefV1.exts.getLast? = some e → e.2 ≠ [] := by
  refine ⟨⟨by decide, by decide⟩, ?_⟩
  intro e h; cases h; decide
example : ∃ n o, v1Parser Ex.E1 Ex.norm1 0 .cef (Ex.fld1 .cef []) (bs! "CEF:0|a\\|b|c|1|2|n n|3| src=x \\= y msg=r\\r\\n") 0 = .ok (n, some o) ∧
    o = Ex.cefV1.value := ⟨_, _, rfl, by decide +kernel⟩
/-- without the additional byte -/
example : v1Parser Ex.E1 Ex.norm1 0 .cef (Ex.fld1 .cef []) (bs! "CEF:0|a|c|1|2|n|3|src=x") 0 = .ok (2 ^ 64 - 19, some (.obj
    [(bs! "DeviceVendor", .str (bs! "a")), (bs! "DeviceProduct", .str (bs! "c")), (bs! "DeviceVersion", .str (bs! "1")),
     (bs! "SignatureID", .str (bs! "2")), (bs! "Name", .str (bs! "n")), (bs! "Severity", .str (bs! "3")),
     (bs! "Extensions", .obj [(bs! "rc", .str (bs! "x"))])])) := by decide +kernel

/-- C71: the types have the names the documentation gives them. -/
theorem C71_type_names : ∀ p ∈ v1TypeNames, v1Type p.1 = some (.fn p.2, .none) := v1TypeNames_ok

example : (bs! "char-to", V1Fn.charTo) ∈ v1TypeNames := by decide

/-- C71: no other name is a type. -/
theorem C71_unknown_type (ty : Bytes) (h : ∀ p ∈ v1TypeNames, p.1 ≠ ty) (hs : ty ∉ [bs! "rest", bs! "iptables", bs! "tokenized", bs! "recursive",
    bs! "descent", bs! "interpret", bs! "suffixed", bs! "named_suffixed"]) : v1Type ty = none := by
  have hn : ∀ p ∈ v1Types, (∃ q ∈ v1TypeNames, q.1 = p.1) ∨ p.1 ∈ [bs! "rest", bs! "iptables", bs! "tokenized", bs! "recursive",
    bs! "descent", bs! "interpret", bs! "suffixed", bs! "named_suffixed"] := by decide
  simp only [v1Type, Option.map_eq_none_iff, List.find?_eq_none]
  intro p hp he
  rw [← eq_of_beq he] at h hs
  rcases hn p hp with ⟨q, hq, e⟩ | hm
  · exact h q hq e
  · exact hs hm

example : v1Type (bs! "wordy") = none := C71_unknown_type _ (by decide) (by decide)

/-! ### C72 -/

/-- C72: the parsers of version 1, except those which have a context of their own, cee-syslog, cef and checkpoint-lea, terminate, match nothing
outside the message, and do nothing undefined, if the extra data they need exist and, for dates, there are no ten digits in a row.

Missing for the full property: the excluded types, see the `_violated` theorems and C73. -/
theorem C72_parsers_contained_partial (E : V1Env) (norm : V1Norm) (fuel : Nat) (k : V1Fn) (f : V1Field) (he : E.env.TokOK) (hk : V1InMsg k = true)
    (h : offs ≤ s.length) : Contained s offs (V1Conf E.env k f.raw ∧ V1Digits k s) (v1Parser E norm fuel k f s offs) :=
  contained_iff.2 (v1Parser_within E norm fuel k f he hk h)

/-- fields whose parsers are well-behaved -/
def V1Plain (E : V1Env) (f : V1Field) : Prop := ∀ k, f.prs = .fn k → V1InMsg k = true ∧ V1Conf E.env k f.raw

/-- C72 for the engine: what C64, C65 and C70 assume about the parsers holds for these fields. -/
theorem C72_engine_assumptions (E : V1Env) (norm : V1Norm) (fuel : Nat) (he : E.env.TokOK) (hl : s.length < 2 ^ 64)
    (hd : ∀ i, ((s.drop i).takeWhile isDigit).length ≤ 9) : V1RunOK (V1Plain E) (v1RunOf E norm fuel) s := by
  have key : ∀ f off, V1Plain E f → off ≤ s.length →
      (v1RunOf E norm fuel f s off = .fail ∨ ∃ len v, v1RunOf E norm fuel f s off = .ok (len, v) ∧ off + len ≤ s.length) := by
    intro f off hf ho
    unfold v1RunOf
    split
    · rename_i k hk
      obtain ⟨h1, h2⟩ := hf k hk
      have hp := v1Parser_within E norm fuel k f he h1 ho
      rcases hr : v1Parser E norm fuel k f s off with r | _ | u | _
      · exact .inr ⟨r.1, r.2, rfl, hp.1 _ hr⟩
      · exact .inl rfl
      · exact absurd hr (hp.2.2 ⟨h2, fun _ => hd⟩ u)
      · exact absurd hr hp.2.1
    · exact .inl rfl
  refine ⟨⟨hl, fun f off len v hf ho hr => ?_⟩, fun f off hf ho => ?_⟩
  · rcases key f off hf ho with h1 | ⟨l, w, h1, h2⟩
    · rw [h1] at hr; cases hr
    · rw [h1] at hr; cases hr; exact h2
  · rcases key f off hf ho with h1 | ⟨l, w, h1, h2⟩
    · exact .inl h1
    · exact .inr ⟨l, w, h1⟩

example : V1Plain Ex.E1 (Ex.fld1 .charTo (bs! ",")) := fun k hk => by
  cases hk
  exact ⟨rfl, bs! ",", ch! ',', [], rfl, by decide, by decide⟩
example : ∀ i, (((bs! "on 2024-01-02").drop i).takeWhile isDigit).length ≤ 9 := by
  intro i
  by_cases hi : i < 13
  · have : i = 0 ∨ i = 1 ∨ i = 2 ∨ i = 3 ∨ i = 4 ∨ i = 5 ∨ i = 6 ∨ i = 7 ∨ i = 8 ∨ i = 9 ∨ i = 10 ∨ i = 11 ∨ i = 12 := by omega
    rcases this with h | h | h | h | h | h | h | h | h | h | h | h | h <;> subst h <;> decide
  · rw [List.drop_of_length_le (by simp; omega)]; decide

/-- C72, violated: `cee-syslog` not at the beginning of the message claims text behind its end. -/
theorem C72_cee_violated :
    v1Parser Ex.E1 Ex.norm1 0 .cee (Ex.fld1 .cee []) (bs! "x @cee: {}") 2 = .ok (10, some (.obj [])) ∧ (bs! "x @cee: {}").length < 2 + 10 := by
  decide

/-- C72, violated: `cef` always delivers a length which is wrong: the distance from the extensions back to the beginning of the field, taken as unsigned number. -/
theorem C72_cef_violated (E : V1Env) (norm : V1Norm) (fuel : Nat) (f : V1Field) {n : Nat} {v : Option Json} (hl : s.length + 1 < 2 ^ 63)
    (hok : v1Parser E norm fuel .cef f s offs = .ok (n, v)) : s.length < offs + n := by
  have hok : v1CEF s offs = .ok (n, v) := hok
  unfold v1CEF at hok
  obtain ⟨_, h0, hok⟩ := R.bind_eq_ok.1 hok
  have h0 : offs + 17 ≤ s.length := by
    by_cases h1 : offs + 17 ≤ s.length
    · exact h1
    · simp [R.guard, h1] at h0
  obtain ⟨_, _, hok⟩ := R.bind_eq_ok.1 hok
  obtain ⟨_, _, hok⟩ := R.bind_eq_ok.1 hok
  obtain ⟨_, _, hok⟩ := R.bind_eq_ok.1 hok
  obtain ⟨_, _, hok⟩ := R.bind_eq_ok.1 hok
  obtain ⟨_, _, hok⟩ := R.bind_eq_ok.1 hok
  obtain ⟨_, _, hok⟩ := R.bind_eq_ok.1 hok
  obtain ⟨⟨i1, _⟩, h1, hok⟩ := R.bind_eq_ok.1 hok
  dsimp only at hok
  obtain ⟨⟨i2, _⟩, h2, hok⟩ := R.bind_eq_ok.1 hok
  dsimp only at hok
  obtain ⟨⟨i3, _⟩, h3, hok⟩ := R.bind_eq_ok.1 hok
  dsimp only at hok
  obtain ⟨⟨i4, _⟩, h4, hok⟩ := R.bind_eq_ok.1 hok
  dsimp only at hok
  obtain ⟨⟨i5, _⟩, h5, hok⟩ := R.bind_eq_ok.1 hok
  dsimp only at hok
  obtain ⟨⟨i6, _⟩, h6, hok⟩ := R.bind_eq_ok.1 hok
  dsimp only at hok
  obtain ⟨_, _, hok⟩ := R.bind_eq_ok.1 hok
  obtain ⟨_, _, hok⟩ := R.bind_eq_ok.1 hok
  have b1 := (cefHdr_post (s := s) (U := True) (offs + 6) (by omega)).1 _ h1
  dsimp only at b1
  have b2 := (cefHdr_post (s := s) (U := True) i1 b1.2).1 _ h2
  dsimp only at b2
  have b3 := (cefHdr_post (s := s) (U := True) i2 b2.2).1 _ h3
  dsimp only at b3
  have b4 := (cefHdr_post (s := s) (U := True) i3 b3.2).1 _ h4
  dsimp only at b4
  have b5 := (cefHdr_post (s := s) (U := True) i4 b4.2).1 _ h5
  dsimp only at b5
  have b6 := (cefHdr_post (s := s) (U := True) i5 b5.2).1 _ h6
  dsimp only at b6
  have hn : sizeSub offs (i6 + 1) = n := congrArg Prod.fst (R.ok.inj hok)
  rw [← hn]
  unfold sizeSub sizeT
  omega

example : ∃ n v, v1Parser Ex.E1 Ex.norm1 0 .cef (Ex.fld1 .cef []) (bs! "CEF:0|a|b|c|d|e|f| k=v") 0 = .ok (n, v) ∧ n = 2 ^ 64 - 19 := by
  exact ⟨_, _, rfl, by decide⟩

/-- C72, violated: so does `checkpoint-lea`, if it matches anything. -/
theorem C72_lea_violated :
    ∃ v, v1Parser Ex.E1 Ex.norm1 0 .lea (Ex.fld1 .lea []) (bs! "a: b;") 0 = .ok (2 ^ 64 - 5, some v) := by
  exact ⟨_, rfl⟩

/-- C72, violated: without extra data `char-to`, `char-sep` and `string-to` dereference NULL. -/
theorem C72_no_extra_data_violated (E : V1Env) (norm : V1Norm) (fuel : Nat) (k : V1Fn) (f : V1Field) (hk : k = .charTo ∨ k = .charSep ∨ k = .stringTo)
    (hf : f.raw = none) : v1Parser E norm fuel k f s offs = .ub .nullDeref := by
  rcases hk with rfl | rfl | rfl
  · show v1CharTo E.env f.raw s offs = _; rw [hf]; rfl
  · show v1CharSep E.env f.raw s offs = _; rw [hf]; rfl
  · show v1StringTo E.env f.raw s offs = _; rw [hf]; rfl

/-- C72, violated: ten digits in a date overflow an `int`. -/
theorem C72_date_overflow_violated :
    v1Parser Ex.E1 Ex.norm1 0 .date5424 (Ex.fld1 .date5424 []) (bs! "9999999999-01-01T00:00:00Z") 0 = .ub .signedOverflow := by decide +kernel

end LN
