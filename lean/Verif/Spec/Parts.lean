import Verif.Spec.Buildable
import Verif.Spec.JsonSchema
/-!
# What references in a part of a file stand for

README.md:104-113 has the command select parts of a file, "with JSON references within the file properly resolved": a reference, `#`
included, stands for what it points to in the file.
-/
namespace Jsval

/-- The part refers to the name, or what it refers to in the file does, transitively. -/
inductive FileReaches (resolve : Resolver) (s : Schema) : GoStr → Prop where
  | root {n} : s.Mentions n → FileReaches resolve s n
  | step {n k s1} : FileReaches resolve s n → (resolve n).target = .ok s1 → s1.Mentions k → FileReaches resolve s k

/-- `R` is a meaning of the references that agrees with what they point to in the file. -/
def FileMeaning (ext : Ext) (resolve : Resolver) (s : Schema) (R : GoStr → GoVal → Prop) : Prop :=
  ∀ n s1, FileReaches resolve s n → (resolve n).target = .ok s1 → ∀ v, R n v ↔ s1.Valid ext R v

/-- The references of the part lead somewhere and are finitely many, and `#` is used by the part itself or not at all. -/
structure PartResolves (formats : List GoStr) (resolve : Resolver) (s : Schema) : Prop where
  finite : ∃ F : List GoStr, ∀ n, Reaches resolve s n → n ∈ F
  known : s.TypesKnown
  resolved : ∀ n, Reaches resolve s n → n ≠ b! "#" → ∃ s1, (resolve n).target = .ok s1 ∧ s1.TypesKnown
  root : Reaches resolve s (b! "#") → s.UsesRef formats (b! "#")

end Jsval
