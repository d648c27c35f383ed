import Verif.Model.Samp
import Verif.Spec.Ops
/-
How rule bases are written: literal text, field descriptions, rule texts, tag lists, lines.
-/
set_option autoImplicit false
namespace LN

/-- literal text as it is written in a rule: percent signs are doubled -/
def escPct (t : Bytes) : Bytes := t.flatMap fun c => if c = ch! '%' then bs! "%%" else [c]

/-- a field description as it is written in a rule -/
inductive Field where
  /-- `%name:type%` or `%name:type:extra%`, with blanks in front of the name and behind the type -/
  | simple (lead name type trail : Bytes) (extra : Option Bytes)
  /-- `%name:type{json}%` -/
  | params (lead name type trail json : Bytes)
  /-- `%{json}%` -/
  | json (lead json : Bytes)

/-- the text of a field description -/
def Field.text : Field → Bytes
  | .simple lead name type trail extra =>
    bs! "%" ++ lead ++ name ++ bs! ":" ++ type ++ trail ++
      (match extra with
        | none => []
        | some e => bs! ":" ++ e) ++ bs! "%"
  | .params lead name type trail js => bs! "%" ++ lead ++ name ++ bs! ":" ++ type ++ trail ++ js ++ bs! "%"
  | .json lead js => bs! "%" ++ lead ++ js ++ bs! "%"

/-- `text` is a JSON text with value `j` for the JSON library, which finds its end -/
def ReadsAs (env : Env) (text : Bytes) (j : Json) : Prop :=
  ∀ rest, env.tok (text ++ ch! '%' :: rest) = some (j, text.length)

/-- names: not empty, below 1023 bytes, without colon and NUL, not starting with a blank, a percent sign
or an opening bracket -/
def NameOK (name : Bytes) : Prop :=
  (∀ c ∈ name, c ≠ ch! ':' ∧ c ≠ 0) ∧ name.length < 1023 ∧
  ∃ c t, name = c :: t ∧ isSpace c = false ∧ c ≠ ch! '%' ∧ c ≠ ch! '{' ∧ c ≠ ch! '['

/-- types: without colon, opening brace, percent sign and NUL, not ending in a blank -/
def TypeOK (type : Bytes) : Prop :=
  (∀ c ∈ type, c ≠ ch! ':' ∧ c ≠ ch! '{' ∧ c ≠ ch! '%' ∧ c ≠ 0) ∧
  ∀ c ∈ type.getLast?, isSpace c = false

/-- blanks -/
def Blanks (t : Bytes) : Prop := ∀ c ∈ t, isSpace c = true

/-- the text with a blank for each NUL byte -/
def blanked (s : Bytes) : Bytes := s.map fun c => if c = 0 then ch! ' ' else c

/-- The field description is well formed and declares a field with configuration `conf`: the name, the
type, the extra data with escapes resolved, the parameters. -/
inductive Declares (env : Env) : Field → Json → Prop where
  | plain {lead name type trail} (hl : Blanks lead) (hn : NameOK name) (ht : TypeOK type) (hb : Blanks trail) :
      Declares env (.simple lead name type trail none)
        (.obj [(bs! "name", .str name), (bs! "type", .str type)])
  | extra {lead name type trail e} (hl : Blanks lead) (hn : NameOK name) (ht : TypeOK type) (hb : Blanks trail)
      (he : ∀ c ∈ e, c ≠ ch! '%') :
      Declares env (.simple lead name type trail (some e))
        (.obj [(bs! "name", .str name), (bs! "type", .str type),
          (bs! "extradata", .str (blanked (env.unescape e)))])
  | params {lead name type trail json o} (hl : Blanks lead) (hn : NameOK name) (ht : TypeOK type) (hb : Blanks trail)
      (hj : json.head? = some (ch! '{')) (hr : ReadsAs env json (.obj o))
      (hk : (o.map (·.1)).Nodup) (hnn : bs! "name" ∉ o.map (·.1)) (hnt : bs! "type" ∉ o.map (·.1)) :
      Declares env (.params lead name type trail json)
        (.obj ([(bs! "name", .str name), (bs! "type", .str type)] ++ o))
  | json {lead json j} (hl : Blanks lead)
      (hj : json.head? = some (ch! '{') ∨ json.head? = some (ch! '[')) (hr : ReadsAs env json j) :
      Declares env (.json lead json) j

/-- the text of a rule: literal text, then fields each followed by (possibly empty) literal text -/
def ruleText (lit : Bytes) (parts : List (Field × Bytes)) : Bytes :=
  escPct lit ++ parts.flatMap fun p => p.1.text ++ escPct p.2

/-- What literal text in a rule denotes: escapes are resolved (libestr), then NUL bytes are left out. -/
def litMeaning (env : Env) (t : Bytes) : Bytes := (env.unescape t).filter (· != 0)

/-- one literal parser for each byte -/
def litParsers (t : Bytes) : List Json :=
  t.map fun c => .obj [(bs! "type", .str (bs! "literal")), (bs! "text", .str [c])]

/-- the parsers of a rule, given the configurations of its fields -/
def ruleConfs (env : Env) (lit : Bytes) (parts : List (Json × Bytes)) : List Json :=
  litParsers (litMeaning env lit) ++ parts.flatMap fun p => p.1 :: litParsers (litMeaning env p.2)

/-- a list of tags as it is written -/
def tagText : List Bytes → Bytes
  | [] => []
  | [t] => t
  | t :: ts => t ++ bs! "," ++ tagText ts

/-- tags can be written if they are not empty and contain no comma, colon and NUL -/
def TagOK (t : Bytes) : Prop := t ≠ [] ∧ ∀ c ∈ t, c ≠ ch! ',' ∧ c ≠ ch! ':' ∧ c ≠ 0

/-! ### Lines -/

/-- a text of lines each ended by a newline, and a last one (possibly empty) without -/
def textOf (ls : List Bytes) (last : Bytes) : Bytes := ls.flatMap (fun l => l ++ bs! "\n") ++ last

/-- a comment -/
def isComment (l : Bytes) : Bool := l.head? == some (ch! '#')

/-- a comment or an empty line -/
def skipped (l : Bytes) : Bool := l.isEmpty || isComment l

/-- A line which can stand on its own: no newline, NUL or byte 255, no open field description (unless it is a comment),
below 65536 bytes. -/
def LineOK (l : Bytes) : Prop :=
  (∀ c ∈ l, c ≠ ch! '\n' ∧ c ≠ 0 ∧ c ≠ 255) ∧
  (isComment l = true ∨ (l.count (ch! '%') % 2 = 0 ∧ l.length < 65536))

/-- Lines are processed one after the other, with the line counter counting all of them; comments and
empty lines have no other effect; processing ends early if a line makes the load fail. -/
def procLines (proc : LoadSt → Bytes → R (LoadSt × Bool)) : LoadSt → List Bytes → R (LoadSt × Bool)
  | st, [] => .ok (st, true)
  | st, l :: ls =>
    if skipped l then procLines proc { st with line := st.line + 1 } ls
    else (proc { st with line := st.line + 1 } l).bind fun r =>
      if r.2 then procLines proc r.1 ls else .ok (r.1, false)

/-- the text behind the last newline -/
def procLast (proc : LoadSt → Bytes → R (LoadSt × Bool)) (st : LoadSt) (l : Bytes) : R (LoadSt × Bool) :=
  if l = [] then .ok (st, true)
  else if isComment l then .ok ({ st with line := st.line + 1 }, true)
  else proc st l

/-- all lines of a text -/
def procText (proc : LoadSt → Bytes → R (LoadSt × Bool)) (st : LoadSt) (ls : List Bytes) (last : Bytes) :
    R (LoadSt × Bool) :=
  (procLines proc st ls).bind fun r => if r.2 then procLast proc r.1 last else .ok (r.1, false)

/-- the lines of a rule base, by kind -/
inductive RLine where
  /-- a comment or an empty line -/
  | skip (text : Bytes)
  | prefix_ (text : Bytes)
  | extend (text : Bytes)
  | rule (tags : List Bytes) (text : Bytes)
  | type (name text : Bytes)
  /-- `annotate=tag:+name="value"...`: blanks, name and value for each operation -/
  | annotate (tag : Bytes) (ops : List (Bytes × Bytes × Bytes))
  /-- something else -/
  | unknown (kind text : Bytes)

/-- operations of an annotation, as written -/
def annotText (ops : List (Bytes × Bytes × Bytes)) : Bytes :=
  ops.flatMap fun o => o.1 ++ bs! "+" ++ o.2.1 ++ bs! "=\"" ++ o.2.2 ++ bs! "\""

/-- the text of a line -/
def RLine.text : RLine → Bytes
  | .skip t => t
  | .prefix_ t => bs! "prefix=" ++ t
  | .extend t => bs! "extendprefix=" ++ t
  | .rule tags t => bs! "rule=" ++ tagText tags ++ bs! ":" ++ t
  | .type name t => bs! "type=" ++ name ++ bs! ":" ++ t
  | .annotate tag ops => bs! "annotate=" ++ tag ++ bs! ":" ++ annotText ops
  | .unknown kind t => kind ++ bs! "=" ++ t

/-- names in annotations -/
def Word (w : Bytes) : Prop := w ≠ [] ∧ ∀ c ∈ w, isAlnum c = true ∨ c = ch! '_' ∨ c = ch! '.'

/-- the kinds of lines there are -/
def knownKinds : List Bytes :=
  [bs! "prefix", bs! "extendprefix", bs! "rule", bs! "type", bs! "annotate", bs! "include"]

/-- The line is written according to the rules. -/
def RLine.OK : RLine → Prop
  | .skip t => skipped t = true
  | .prefix_ _ => True
  | .extend _ => True
  | .rule tags t => (∀ w ∈ tags, TagOK w) ∧ t ≠ []
  | .type name t => name.head? = some (ch! '@') ∧ name.length < 1024 ∧
      (∀ c ∈ name, c ≠ ch! ':' ∧ isSpace c = false ∧ c ≠ 0) ∧ t ≠ []
  | .annotate tag ops => Word tag ∧
      ∀ o ∈ ops, Blanks o.1 ∧ Word o.2.1 ∧ o.2.2 ≠ [] ∧ ∀ c ∈ o.2.2, c ≠ ch! '"'
  | .unknown kind _ => kind ≠ [] ∧ kind ∉ knownKinds ∧ ∀ c ∈ kind, c ≠ ch! '=' ∧ c ≠ 0 ∧ c ≠ ch! '#'

/-- the prefix in force after a line -/
def RLine.nextPrefix (pfx : Option Bytes) : RLine → Option Bytes
  | .prefix_ t => some t
  | .extend t => some (pfx.getD [] ++ t)
  | _ => pfx

/-- what a line does to the graph, with line number `n` and prefix `pfx` -/
def RLine.ops (env : Env) (file : Bytes) (pfx : Option Bytes) (n : Nat) : RLine → List BOp
  | .rule tags t =>
    let r := lexRule env (pfx.getD [] ++ t)
    [.rule r.confs (r.fin = .complete) (tagBucket tags) file n]
  | .type name t =>
    let r := lexRule env t
    [.typeDef name r.confs (r.fin = .complete) none file n]
  | _ => []

/-- the annotation of a line -/
def RLine.annots : RLine → List Annot
  | .annotate tag ops =>
    [(ops.map fun o => { add := true, name := some o.2.1, value := some o.2.2 : AnnotOp }).foldl addAnnotOp
      { tag := tag, ops := [] }]
  | _ => []

/-- the error messages of a line -/
def RLine.errs (env : Env) (pfx : Option Bytes) : RLine → List LoadErr
  | .rule _ t => (lexRule env (pfx.getD [] ++ t)).errs
  | .type _ t => (lexRule env t).errs
  | .unknown kind _ => [.invalidRecord kind]
  | _ => []

/-- The line cannot crash the loader: no text extends a missing prefix, no rule text runs out in a field
description. -/
def RLine.Safe (env : Env) (pfx : Option Bytes) : RLine → Prop
  | .extend _ => pfx ≠ none
  | .rule _ t => ∀ k, (lexRule env (pfx.getD [] ++ t)).fin ≠ .ub k
  | .type _ t => ∀ k, (lexRule env t).fin ≠ .ub k
  | _ => True

/-- what the lines do to the graph, starting behind line number `n` -/
def docOps (env : Env) (file : Bytes) : Option Bytes → Nat → List RLine → List BOp
  | _, _, [] => []
  | pfx, n, l :: ls => l.ops env file pfx (n + 1) ++ docOps env file (l.nextPrefix pfx) (n + 1) ls

/-- the error messages of the lines -/
def docErrs (env : Env) : Option Bytes → List RLine → List LoadErr
  | _, [] => []
  | pfx, l :: ls => l.errs env pfx ++ docErrs env (l.nextPrefix pfx) ls

/-- no line can crash the loader -/
def DocSafe (env : Env) : Option Bytes → List RLine → Prop
  | _, [] => True
  | pfx, l :: ls => l.Safe env pfx ∧ DocSafe env (l.nextPrefix pfx) ls

/-- Texts which start like a field description but are none: they have no colon, a name of 1023 bytes or more, no name, no end of the type, a JSON text which cannot be
read, or one which is not followed by a percent sign. (The end of the text, or what follows a JSON text, is not looked for elsewhere.) -/
inductive Malformed (env : Env) : Bytes → List LoadErr → Prop
  | noColon {lead b : Bytes} {c : UInt8} (hl : Blanks lead) (hc : isSpace c = false ∧ c ≠ ch! '%' ∧ c ≠ ch! '{' ∧ c ≠ ch! '[')
      (hb : ch! ':' ∉ c :: b) : Malformed env (bs! "%" ++ lead ++ c :: b) [.fieldDescr]
  | longName {lead b : Bytes} {c : UInt8} (hl : Blanks lead) (hc : isSpace c = false ∧ c ≠ ch! '%' ∧ c ≠ ch! '{' ∧ c ≠ ch! '[')
      (hb : ch! ':' ∉ c :: b) (hn : 1023 ≤ (c :: b).length) {rest : Bytes} : Malformed env (bs! "%" ++ lead ++ c :: b ++ bs! ":" ++ rest) [.fieldDescr]
  | noName {lead b : Bytes} (hl : Blanks lead) : Malformed env (bs! "%" ++ lead ++ bs! ":" ++ b) []
  | noEnd {lead name type : Bytes} (hl : Blanks lead) (hn : NameOK name) (ht : ∀ c ∈ type, c ≠ ch! ':' ∧ c ≠ ch! '{' ∧ c ≠ ch! '%') :
      Malformed env (bs! "%" ++ lead ++ name ++ bs! ":" ++ type) [.fieldDescr]
  | badJson {lead js : Bytes} (hl : Blanks lead) (hj : js.head? = some (ch! '{') ∨ js.head? = some (ch! '[')) (ht : env.tok js = none) :
      Malformed env (bs! "%" ++ lead ++ js) [.json]
  | badEnd {lead js : Bytes} {j : Json} {n : Nat} (hl : Blanks lead) (hj : js.head? = some (ch! '{') ∨ js.head? = some (ch! '['))
      (ht : env.tok js = some (j, n)) (hn : js[n]? ≠ some (ch! '%')) : Malformed env (bs! "%" ++ lead ++ js) [.json]

end LN
