import Verif.Model.V1
/- What the `iptables` field of version-1 rulebases extracts from a text. -/
set_option autoImplicit false
namespace LN

/-- The text is empty or starts with white space. -/
def Cut (t : Bytes) : Prop := ∀ c, t.head? = some c → isSpace c = true

/-- The name/value pairs of a text, in their order: each is preceded by white space (possibly none), a name ends at `=` or white space, a value ends at white space;
a name without `=` has the value `[*PRESENT*]`. -/
inductive IptPairs : Bytes → List (Bytes × Bytes) → Prop where
  | nil : IptPairs [] []
  | value {sp name v t : Bytes} {ps : List (Bytes × Bytes)} (hsp : ∀ c ∈ sp, isSpace c = true)
      (hname : ∀ c ∈ name, isSpace c = false ∧ c ≠ ch! '=') (hv : ∀ c ∈ v, isSpace c = false) (ht : Cut t) (h : IptPairs t ps) :
      IptPairs (sp ++ (name ++ ch! '=' :: (v ++ t))) ((name, v) :: ps)
  | flag {sp name t : Bytes} {ps : List (Bytes × Bytes)} (hsp : ∀ c ∈ sp, isSpace c = true)
      (hname : ∀ c ∈ name, isSpace c = false ∧ c ≠ ch! '=') (ht : Cut t) (hne : sp ++ name ≠ []) (hlast : name = [] → t = []) (h : IptPairs t ps) :
      IptPairs (sp ++ (name ++ t)) ((name, bs! "[*PRESENT*]") :: ps)

end LN
