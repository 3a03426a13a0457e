import Verif.Model.Fmt
import Verif.Spec.Defaults
/-!
Texts that printing does not confuse (C63, C125).
-/
namespace Jsval

/-- Blanks, brackets and colons, with which fmt separates things. -/
def separators : List UInt8 := [32, 58, 91, 93]

/-- What is assumed of fmt's numbers: different finite numbers have different texts, without separators; and a nil inside
is `<nil>` or `%!s(<nil>)`. -/
structure FmtLib.Good (L : FmtLib) : Prop where
  inj : ∀ n m n' m', L.num (.fin n m) = L.num (.fin n' m') → F64.fin n m = .fin n' m'
  solid : ∀ n m, ∀ c ∈ L.num (.fin n m), c ∉ separators
  nilIn : L.nilIn = b! "<nil>" ∨ L.nilIn = b! "%!s(<nil>)"

/-- `fmt.Sprintf("%s", v)` prints decoded documents as described in `Model/Fmt`. -/
def PrintsJson (ext : Ext) (L : FmtLib) : Prop := ∀ v, IsJson v → ext.sprint v = fmtS L v

/-- A word: not empty, without blanks, colons, brackets, `%` and `<`. -/
def Word (s : GoStr) : Prop := s ≠ [] ∧ ∀ c ∈ s, c ∉ separators ∧ c ≠ 37 ∧ c ≠ 60

end Jsval
