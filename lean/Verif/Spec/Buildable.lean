import Verif.Spec.JsonSchema
import Verif.Model.Builder
/-!
# Schemas that can be built
-/
namespace Jsval

section
variable {S : Type}

/-- The builder treats the schema as one for values of this type: the type is listed, or none is and the keywords suggest
it. -/
def SchemaF.Treats (formats : List GoStr) (s : SchemaF S) (t : PrimType) : Prop :=
  t ∈ s.type ∨ s.type = [] ∧ Suggests formats s t

/-- The sub-schemas that take part: of the combinators the first one in the order not, allOf, anyOf, oneOf, and those that
go with the types. Of `items` in list mode it is the first. -/
inductive SchemaF.Uses (formats : List GoStr) (s : SchemaF S) : S → Prop where
  | not {c} : s.not = some c → Uses formats s c
  | allOf {c} : s.not = none → c ∈ s.allOf → Uses formats s c
  | anyOf {c} : s.not = none → s.allOf = [] → c ∈ s.anyOf → Uses formats s c
  | oneOf {c} : s.not = none → s.allOf = [] → s.anyOf = [] → c ∈ s.oneOf → Uses formats s c
  | items {c l} : s.Treats formats .array → s.items = .list (c :: l) → Uses formats s c
  | tuple {c l} : s.Treats formats .array → s.items = .tuple l → c ∈ l → Uses formats s c
  | additionalItems {c l} : s.Treats formats .array → s.items = .tuple l → s.additionalItems = .schema c → Uses formats s c
  | property {n c} : s.Treats formats .object → (n, c) ∈ s.properties → Uses formats s c
  | patternProp {i n c} : s.Treats formats .object → (i, n, c) ∈ s.patternProps → Uses formats s c
  | additionalProps {c} : s.Treats formats .object → s.additionalProps = .schema c → Uses formats s c
  | dependency {n c} : s.Treats formats .object → (n, c) ∈ s.depSchemas → Uses formats s c
end

/-- The seven types of JSON schemas. -/
def PrimType.Known (t : PrimType) : Prop := t ∈ [.null, .integer, .string, .object, .array, .boolean, .number]

/-- The schema and the sub-schemas that take part are there, have known types only, and no empty list of item schemas. -/
inductive Schema.Buildable (formats : List GoStr) : Schema → Prop where
  | ref (s : SchemaF Schema) : s.reference ≠ [] → Buildable formats (.mk s)
  | node (s : SchemaF Schema) : s.reference = [] → (∀ t, s.Treats formats t → t.Known) →
      (s.Treats formats .array → s.items ≠ .list []) → (∀ c, s.Uses formats c → Buildable formats c) → Buildable formats (.mk s)

/-- The name occurs as a reference in a sub-schema that takes part. -/
inductive Schema.UsesRef (formats : List GoStr) (n : GoStr) : Schema → Prop where
  | here {s : SchemaF Schema} : s.reference ≠ [] → s.reference = n → UsesRef formats n (.mk s)
  | child {s : SchemaF Schema} {c : Schema} : s.reference = [] → s.Uses formats c → UsesRef formats n c → UsesRef formats n (.mk s)

/-- The names that have to be resolved to build `s`: those it uses, and those used by what they resolve to. The name `#` is
not resolved if `s` itself uses it; it stands for `s` then. -/
inductive MustResolve (formats : List GoStr) (resolve : Resolver) (s : Schema) : GoStr → Prop where
  | root {n} : s.UsesRef formats n → n ≠ b! "#" → MustResolve formats resolve s n
  | step {n s1 k} : MustResolve formats resolve s n → (resolve n).target = .ok s1 → s1.UsesRef formats k →
      ¬ (k = b! "#" ∧ s.UsesRef formats (b! "#")) → MustResolve formats resolve s k

/-- All that it takes to build the schema is there. -/
structure CanBuild (formats : List GoStr) (resolve : Resolver) (s : Schema) : Prop where
  self : s.Buildable formats
  refs : ∀ n, MustResolve formats resolve s n → ∃ s1, (resolve n).target = .ok s1 ∧ s1.Buildable formats

/-- Only the seven types are used, in all schemas of the tree. -/
inductive Schema.TypesKnown : Schema → Prop where
  | ref (s : SchemaF Schema) : s.reference ≠ [] → TypesKnown (.mk s)
  | node (s : SchemaF Schema) : s.reference = [] → (∀ t ∈ s.type, t.Known) → (∀ c, s.Child c → TypesKnown c) → TypesKnown (.mk s)

/-- The references of the document lead somewhere and are finitely many. `#` stands for the document: the document itself
uses it, or resolving it leads back to the document. -/
structure Resolves (formats : List GoStr) (resolve : Resolver) (s : Schema) : Prop where
  finite : ∃ F : List GoStr, ∀ n, Reaches resolve s n → n ∈ F
  known : s.TypesKnown
  resolved : ∀ n, Reaches resolve s n → n ≠ b! "#" → ∃ s1, (resolve n).target = .ok s1 ∧ s1.TypesKnown
  root : Reaches resolve s (b! "#") → s.UsesRef formats (b! "#") ∨ ∃ s1, (resolve (b! "#")).target = .ok s1
  rootSame : ∀ s1, Reaches resolve s (b! "#") → (resolve (b! "#")).target = .ok s1 → s1 = s

end Jsval
