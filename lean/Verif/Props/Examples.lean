import Verif.Spec.Match
/-
Small concrete rulebases used to show that the hypotheses of the theorems can be met.
-/
namespace LN.Ex
open LN

/-- an environment: the JSON tokener knows only `{}` -/
def env : Env where
  tok := fun b => if b = bs! "{}" then some (.obj [], 2) else none
  unescape := id
  year := 2026
  ser := fun _ => []

def lit (t : Bytes) (n : NodeId) : Parser :=
  { kind := .literal (some t), node := n, prio := 4, name := none, conf := .null }

/-- rules `rule=num:a %n:number%` and `rule=wrd,x:a %w:word%` -/
def ctx1 : Ctx where
  node := fun n => match n with
    | 0 => { parsers := [lit (bs! "a ") 1] }
    | 1 => { parsers := [
        { kind := .number {}, node := 2, prio := 16, name := some (bs! "n"), conf := .null },
        { kind := .word, node := 3, prio := 32, name := some (bs! "w"), conf := .null }] }
    | 2 => { isTerminal := true, tags := some [bs! "num"], rbFile := some (bs! "rb"), rbLine := 1 }
    | 3 => { isTerminal := true, tags := some [bs! "wrd", bs! "x"], rbFile := some (bs! "rb"),
             rbLine := 2 }
    | _ => {}
  root := 0
  opts := 0x1c
  annots := [⟨bs! "num", [⟨true, some (bs! "kind"), some (bs! "numeric")⟩]⟩]

/-- observable part of a result -/
def obs (r : R Res) : R (Bool × Obj) := r.bind fun r => .ok (r.ok, r.json)

def stats0 : NodeId → Stats := fun _ => {}

example : obs (normalize env 5 ctx1 stats0 (bs! "a 12") []) = .ok (true,
    [(bs! "n", .str (bs! "12")), (bs! "event.tags", .arr [.str (bs! "num")]),
     (bs! "kind", .str (bs! "numeric")), (bs! "originalmsg", .str (bs! "a 12")),
     (bs! "metadata", .obj [(bs! "rule", .obj [(bs! "mockup", .str (bs! "a %n:number%")),
       (bs! "location", .obj [(bs! "file", .str (bs! "rb")), (bs! "line", .int 1)])])])]) := by
  rfl

example : obs (normalize env 5 ctx1 stats0 (bs! "a b c") []) = .ok (false,
    [(bs! "originalmsg", .str (bs! "a b c")), (bs! "unparsed-data", .str (bs! " c"))]) := by
  rfl

theorem flat1 : Flat ctx1 := by
  intro n p hp
  match n with
  | 0 => simp [ctx1, lit] at hp; subst hp; trivial
  | 1 => simp [ctx1] at hp; rcases hp with rfl | rfl <;> trivial
  | 2 => simp [ctx1] at hp
  | 3 => simp [ctx1] at hp
  | _ + 4 => simp [ctx1] at hp

end LN.Ex
