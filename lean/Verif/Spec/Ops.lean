import Verif.Model.Build
/-
Histories of what loading rule bases does to the graph of a context.
-/
set_option autoImplicit false
namespace LN

/-- one thing a rule base load does to a context -/
inductive BOp where
  /-- a `rule=` line: the parsers it denotes and the data for its last node -/
  | rule (confs : List Json) (complete : Bool) (tags : Option (List Bytes)) (file : Bytes) (line : Nat)
  /-- a `type=` line for the given type -/
  | typeDef (name : Bytes) (confs : List Json) (complete : Bool) (tags : Option (List Bytes))
      (file : Bytes) (line : Nat)
  /-- the end of a load: optimise everything -/
  | optimize

/-- samp.c:427-473 (processRule, processType) and 1196 (ln_pdagOptimize) as far as the graph is
concerned -/
def BOp.run (env : Env) (srt : Sorter) (b : Bld) : BOp → R Bld
  | .rule confs complete tags file line => addSamp env b b.root confs complete tags file line
  | .typeDef name confs complete tags file line =>
    let (b, n) := findTypeAdd b name
    addSamp env b n confs complete tags file line
  | .optimize => pdagOptimize srt b

/-- a history of loads, starting from a fresh context -/
def runOps (env : Env) (srt : Sorter) (ops : List BOp) : R Bld :=
  ops.foldlM (BOp.run env srt) initBld

end LN
