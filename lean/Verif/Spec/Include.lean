import Verif.Spec.Rulebase
/-
Rule bases made of several files, and lines which are broken inside of field descriptions. Nothing here refers to how lines are
read.
-/
set_option autoImplicit false
namespace LN

/-- What stands in a rule base: a line, in one or more pieces (each ended by a newline); an `include=` line, with what stands
in the file of that name; (in files) a line with a field description which does not end before the next rule; or, at the end, a line
without newline. -/
inductive Item where
  | line (l : RLine) (pieces : List Bytes)
  | include_ (name : Bytes) (items : List Item)
  | open_ (text : Bytes)
  | last (l : RLine)

/-- pieces of a line, each ended by a newline -/
def piecesText (ps : List Bytes) : Bytes := ps.flatMap fun p => p ++ bs! "\n"

/-- the text of an item -/
def Item.text : Item → Bytes
  | .line _ ps => piecesText ps
  | .include_ name _ => bs! "include=" ++ name ++ bs! "\n"
  | .open_ t => t ++ bs! "\n"
  | .last l => l.text

/-- the text of a rule base -/
def itemsText (is : List Item) : Bytes := is.flatMap Item.text

/-- a line and where it stands: file and number of the line (of the last piece) -/
structure Loc where
  file : Bytes
  line : Nat
  what : RLine

mutual
/-- the lines of an item behind line number `n` of a file: included lines count in their own file, where `version=2` is line 1; a line
which does not end is as good as an empty one; a last line without newline is said to be the line before it (or line 0, if it is the first) -/
def Item.lines (file : Bytes) (n : Nat) : Item → List Loc
  | .line l ps => [⟨file, n + ps.length, l⟩]
  | .include_ name is => itemsLines name 1 is
  | .open_ _ => [⟨file, n + 1, .skip []⟩]
  | .last l => [⟨file, n, l⟩]
/-- all lines, those of included files standing in the place of the `include=` line -/
def itemsLines (file : Bytes) (n : Nat) : List Item → List Loc
  | [] => []
  | i :: is => i.lines file n ++ itemsLines file (n + i.height) is
/-- number of newlines of the text -/
def Item.height : Item → Nat
  | .line _ ps => ps.length
  | .include_ _ _ => 1
  | .open_ _ => 1
  | .last _ => 0
end

mutual
/-- error messages: those of the lines, and one for every field description which does not end -/
def Item.errs (env : Env) (pfx : Option Bytes) : Item → List LoadErr
  | .line l _ => l.errs env pfx
  | .last l => l.errs env pfx
  | .include_ _ is => itemsErrs env pfx is
  | .open_ _ => [.runaway]
def itemsErrs (env : Env) (pfx : Option Bytes) : List Item → List LoadErr
  | [] => []
  | i :: is => i.errs env pfx ++ itemsErrs env (((i.lines [] 0).map (·.what)).foldl RLine.nextPrefix pfx) is
end

mutual
/-- Error messages about lines of unknown kinds and field descriptions which do not end. -/
def Item.reports : Item → List LoadErr
  | .line (.unknown k _) _ => [.invalidRecord k]
  | .line _ _ => []
  | .last (.unknown k _) => [.invalidRecord k]
  | .last _ => []
  | .include_ _ is => itemsReports is
  | .open_ _ => [.runaway]
def itemsReports : List Item → List LoadErr
  | [] => []
  | i :: is => i.reports ++ itemsReports is
end

/-- But for comments and empty lines a rule comes next. -/
def RuleNext (is : List Item) : Prop :=
  ∃ (ks : List Bytes) (rest : Bytes), itemsText is = piecesText ks ++ bs! "rule=" ++ rest ∧ ∀ k ∈ ks, skipped k = true ∧ ∀ c ∈ k, c ≠ ch! '\n'

/-- The pieces make up the text of a line, which is broken inside of field descriptions (between two `%`) only. In files the pieces
behind the first must have four bytes at least and must not look like a comment or a rule. -/
structure Pieces (src : Src) (ps : List Bytes) (text : Bytes) : Prop where
  join : ps.flatten = text
  nonempty : ps ≠ []
  chars : ∀ p ∈ ps, ∀ c ∈ p, c ≠ ch! '\n' ∧ c ≠ 0 ∧ c ≠ 255
  comment : isComment text = true → ps.length = 1
  short : isComment text = false → text.length < 65536
  opened : ∀ i, i + 1 < ps.length → (ps.take (i + 1)).flatten.count (ch! '%') % 2 = 1
  closed : isComment text = false → text.count (ch! '%') % 2 = 0
  file : src = .file → ∀ p ∈ ps.tail, p.head? ≠ some (ch! '#') ∧ ¬ bs! "rule=" <+: p ∧ 4 ≤ p.length

/-- names of files: not empty, without white space, NUL, byte 255 and an odd number of percent signs -/
structure FileName (name : Bytes) : Prop where
  nonempty : name ≠ []
  chars : ∀ c ∈ name, isSpace c = false ∧ c ≠ 0 ∧ c ≠ 255
  pct : name.count (ch! '%') % 2 = 0
  short : name.length < 65500

mutual
/-- The item is written according to the rules, and the included files are there. -/
def Item.OK (fs : Bytes → Option Bytes) (src : Src) : Item → Prop
  | .line l ps => l.OK ∧ Pieces src ps l.text
  | .include_ name is => FileName name ∧ fs name = some (bs! "version=2\n" ++ itemsText is) ∧ itemsOK fs .file is
  | .open_ t => src = .file ∧ (∀ c ∈ t, c ≠ ch! '\n' ∧ c ≠ 0 ∧ c ≠ 255) ∧ isComment t = false ∧ t.length < 65536 ∧ t.count (ch! '%') % 2 = 1
  | .last l => l.OK ∧ skipped l.text = false ∧ LineOK l.text
def itemsOK (fs : Bytes → Option Bytes) (src : Src) : List Item → Prop
  | [] => True
  | i :: is => i.OK fs src ∧ (∀ t, i = .open_ t → RuleNext is) ∧ (∀ l, i = .last l → is = []) ∧ itemsOK fs src is
end

mutual
/-- how deep files are nested, and how long lines are -/
def Item.size : Item → Nat
  | .line l _ => l.text.length
  | .include_ _ is => itemsSize is + 1
  | .open_ _ => 0
  | .last l => l.text.length
def itemsSize : List Item → Nat
  | [] => 0
  | i :: is => max i.size (itemsSize is)
end

/-- lines, each in one piece, behind line number `n` of a file -/
def numbered (file : Bytes) : Nat → List RLine → List Loc
  | _, [] => []
  | n, l :: ls => ⟨file, n + 1, l⟩ :: numbered file (n + 1) ls

/-- what the lines do to the graph -/
def locOps (env : Env) : Option Bytes → List Loc → List BOp
  | _, [] => []
  | pfx, l :: ls => l.what.ops env l.file pfx l.line ++ locOps env (l.what.nextPrefix pfx) ls

end LN
