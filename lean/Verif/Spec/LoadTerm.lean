import Verif.Spec.Rulebase
/- Conditions under which loading terminates. -/
set_option autoImplicit false
namespace LN

/-- `l` is one of the lines found in the text -/
inductive IsLine (src : Src) : Bytes → Bytes → Prop where
  | here {inp l : Bytes} (n : Nat) (h : (readLine src inp n [] false false []).buf = some l) : IsLine src inp l
  | next {inp l : Bytes} (n : Nat) (heof : (readLine src inp n [] false false []).eof = false)
      (h : IsLine src (readLine src inp n [] false false []).rest l) : IsLine src inp l

/-- `annotate=` lines do not end with white space -/
def AnnotOK (l : Bytes) : Prop :=
  (lineType l).1 = bs! "annotate" → ∀ c ∈ l.getLast?, isSpace c = false

/-- the file an `include=` line names -/
def includes (l : Bytes) (f : Bytes) : Prop :=
  (lineType l).1 = bs! "include" ∧
    ∃ c t, cstr (lineType l).2 = c :: t ∧ f = c :: t.takeWhile fun c => !isSpace c

/-- The files include each other without cycles, as witnessed by `rank`, and their `annotate=` lines do not end with white
space. -/
def FilesOK (fs : Bytes → Option Bytes) (rank : Bytes → Nat) : Prop :=
  ∀ f c l, fs f = some c → IsLine .file (c.drop versionLine.length) l →
    AnnotOK l ∧ ∀ g, includes l g → rank g < rank f

end LN
