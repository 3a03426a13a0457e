import Verif.Spec.Pipeline
import Verif.Spec.SchemaDefaults
/-!
# From schemas with defaults to generated programs

The schemas with defaults for which the whole way (schema, built validator, generated code) is claimed to be faithful.
-/
namespace Jsval

/-- A default that the generator can write for a constraint of this type. Defaults of booleans that are not booleans, and those of the
types not listed, never get into the constraint. -/
def PrimType.Writes : PrimType → GoVal → Prop
  | .string, d => ∃ s, d = .str s ∧ Plain s
  | .number, d => ∃ f, d = .float .f64 f ∧ SixDec f
  | .integer, d => ∃ f, d = .float .f64 f
  | _, _ => True

/-- The default of this schema, if there is one, can be written for each of its types, named or suggested by its keywords. -/
def SchemaF.DefaultWritable {S : Type} (formats : List GoStr) (s : SchemaF S) : Prop :=
  s.dflt ≠ .nil → ∀ t : PrimType, t ∈ s.type ∨ (s.type = [] ∧ Suggests formats s t) → t.Writes s.dflt

/-- The schema and all that it refers to are conforming and expressible once their defaults are taken out, the defaults can be written,
and nothing looks at what is filled in. -/
structure FaithfulD (ext : Ext) (formats : List GoStr) (cls : DocClass) (resolve : Resolver) (s : Schema) : Prop where
  conforms : s.plain.Conforms ext formats cls
  expresses : s.plain.Expresses
  refConforms : ∀ n s1, Reaches resolve s n → RefersTo resolve s n s1 → s1.plain.Conforms ext formats cls
  refExpresses : ∀ n s1, Reaches resolve s n → RefersTo resolve s n s1 → s1.plain.Expresses
  discreet : s.Discreet formats resolve
  defaults : ∀ f, UsesSchema resolve s s (.mk f) → f.reference = [] → f.DefaultWritable formats

end Jsval
