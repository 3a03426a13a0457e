import Verif.Model.Schema
import Verif.Spec.Scalar
/-!
# Vocabulary for the builder properties
-/
namespace Jsval

/-- The second schema is the first with some `type` lists (at any depth) written in another order. -/
inductive Retyped : Schema → Schema → Prop where
  | nil : Retyped .nil .nil
  | mk (s : SchemaF (Schema × Schema)) (ty : List PrimType) : ty.Perm s.type → (∀ p, s.Child p → Retyped p.1 p.2) →
      Retyped (.mk (s.map (·.1))) (.mk { s.map (·.2) with type := ty })

/-- The keyword that decides whether a number or an integer is suggested. -/
def SchemaF.firstBound {S : Type} (s : SchemaF S) : Option F64 := (s.multipleOf.or s.minimum).or s.maximum

/-- The value is a map or a struct. -/
def ObjectLike : GoVal → Prop
  | .map _ _ | .mapOther _ _ | .struct _ | .maybe _ _ | .time _ => True
  | _ => False

/-- The value is a signed integer or a float. -/
def NumberLike (v : GoVal) : Prop := (∃ k n, v = .int k n) ∨ ∃ k f, v = .float k f

/-- The keywords of the schema suggest this type. `formats` are the format names of the schema package. -/
inductive Suggests {S : Type} (formats : List GoStr) (s : SchemaF S) : PrimType → Prop where
  | properties : s.properties ≠ [] → Suggests formats s .object
  | additionalProps : s.additionalProps ≠ .allow → Suggests formats s .object
  | minProps : s.minProps ≠ none → Suggests formats s .object
  | maxProps : s.maxProps ≠ none → Suggests formats s .object
  | required : s.required ≠ [] → Suggests formats s .object
  | patternProps : s.patternProps ≠ [] → Suggests formats s .object
  | objectEnum {v} : v ∈ s.enum → ObjectLike v → Suggests formats s .object
  | items : s.items ≠ .nil → Suggests formats s .array
  | additionalItems : s.additionalItems ≠ .allow → Suggests formats s .array
  | minItems : s.minItems ≠ none → Suggests formats s .array
  | maxItems : s.maxItems ≠ none → Suggests formats s .array
  | uniqueItems : s.uniqueItems ≠ none → Suggests formats s .array
  | arrayEnum {n xs} : .slice n xs ∈ s.enum → Suggests formats s .array
  | minLength : s.minLength ≠ none → Suggests formats s .string
  | maxLength : s.maxLength ≠ none → Suggests formats s .string
  | pattern : s.pattern ≠ none → Suggests formats s .string
  | format : s.format ∈ formats → Suggests formats s .string
  | stringEnum {t} : .str t ∈ s.enum → Suggests formats s .string
  | whole {f} : s.firstBound = some f → f.Whole → Suggests formats s .integer
  | fractional {f} : s.firstBound = some f → ¬ f.Whole → Suggests formats s .number
  | exclusive : s.firstBound = none → (s.exclMin ≠ none ∨ s.exclMax ≠ none) → Suggests formats s .number
  | intEnum {pre post k n} : s.firstBound = none → s.exclMin = none → s.exclMax = none →
      s.enum = pre ++ .int k n :: post → (∀ v ∈ pre, ¬ NumberLike v) → Suggests formats s .integer
  | floatEnum {pre post k f} : s.firstBound = none → s.exclMin = none → s.exclMax = none →
      s.enum = pre ++ .float k f :: post → (∀ v ∈ pre, ¬ NumberLike v) → Suggests formats s .number
  | boolEnum {b} : .bool b ∈ s.enum → Suggests formats s .boolean

/-- The name occurs as a reference in the schema (sub-schemas beside a reference are ignored). -/
inductive Schema.Mentions (n : GoStr) : Schema → Prop where
  | here {s : SchemaF Schema} : s.reference ≠ [] → s.reference = n → Mentions n (.mk s)
  | child {s : SchemaF Schema} {c : Schema} : s.reference = [] → s.Child c → Mentions n c → Mentions n (.mk s)

end Jsval
