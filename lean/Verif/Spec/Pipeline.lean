import Verif.Spec.JsonSchema
import Verif.Spec.GenProg
/-!
# From schemas to generated programs

The schemas for which the whole way (schema, built validator, generated code) is claimed to be faithful. It lies inside
`Schema.Conforms`; what is left out here is what the generator does not carry over.
-/
namespace Jsval

section
variable {S : Type}

/-- The keywords of this one schema survive code generation. -/
structure SchemaF.Expressible (s : SchemaF S) : Prop where
  not : s.not = none
  enum : ∀ e ∈ s.enum, ∃ t, e = .str t ∧ Plain t
  enumTyped : s.enum ≠ [] → .integer ∉ s.type
  numberBounds : .number ∈ s.type → (∀ f, s.minimum = some f → SixDec f) ∧ ∀ f, s.maximum = some f → SixDec f
  integerBounds : .integer ∈ s.type → (∀ f, s.minimum = some f → IntBound f) ∧ ∀ f, s.maximum = some f → IntBound f
  multipleOf : s.multipleOf = none
  pattern : ∀ r, s.pattern = some r → Plain r
  format : Plain s.format
  tuple : ∀ l, s.items = .tuple l → s.additionalItems ≠ .nil
  required : ∀ n ∈ s.required, Plain n
  properties : ∀ p ∈ s.properties, Plain p.1
  patternProps : ∀ p ∈ s.patternProps, Plain p.2.1
  patternSources : (s.patternProps.map (·.2.1)).Nodup
  depNames : ∀ p ∈ s.depNames, Plain p.1 ∧ ∀ d ∈ p.2, Plain d
  depSchemas : s.depSchemas = []
  minProps : s.minProps = none
  maxProps : s.maxProps = none
end

/-- Every schema of the tree survives code generation. -/
inductive Schema.Expresses : Schema → Prop where
  | ref (s : SchemaF Schema) : s.reference ≠ [] → Plain s.reference → Expresses (.mk s)
  | node (s : SchemaF Schema) : s.reference = [] → s.Expressible → (∀ c, s.Child c → Expresses c) → Expresses (.mk s)

/-- A validator to be generated: its name, the schema it is built from, the number of its constraint map, the outcome of
building, and the answers to the identity test of the root with registered constraints. -/
structure Job where
  name : GoStr
  schema : Schema
  map : Nat
  built : Built
  same : GoStr → Bool

/-- The built validator, with its name, as the generator sees it. -/
def Job.val (j : Job) : GenVal := ⟨j.name, j.built.table, some j.built.root, j.same⟩

/-- Each validator was built from its schema, with references resolved by `resolve`. -/
def AllBuilt (lib : SchemaLib) (resolve : Resolver) (jobs : List Job) : Prop :=
  ∀ j ∈ jobs, ∃ fuel σ, BuildWithCtx lib j.map resolve fuel σ j.schema = .ok j.built

/-- The names can be used as variable names side by side. -/
structure GoodNames (vals : List GenVal) : Prop where
  idents : ∀ x ∈ valNames vals, GoIdent x
  distinct : (valNames vals).Nodup
  fresh : ∀ x ∈ valNames vals, x ∉ takenNames ∧ x ∉ ownNames vals

/-- The schema and all that it refers to, transitively, are conforming and expressible. -/
structure Faithful (ext : Ext) (formats : List GoStr) (cls : DocClass) (resolve : Resolver) (s : Schema) : Prop where
  conforms : s.Conforms ext formats cls
  expresses : s.Expresses
  refConforms : ∀ n s1, Reaches resolve s n → RefersTo resolve s n s1 → s1.Conforms ext formats cls
  refExpresses : ∀ n s1, Reaches resolve s n → RefersTo resolve s n s1 → s1.Expresses

/-- The reference `#` means the same thing to all: whoever reaches it is the same schema, and resolving it gives nothing
else. -/
structure OneRoot (resolve : Resolver) (ss : List Schema) : Prop where
  resolved : ∀ s ∈ ss, Reaches resolve s (b! "#") → ∀ s1, (resolve (b! "#")).target = .ok s1 → s1 = s
  same : ∀ s ∈ ss, ∀ s' ∈ ss, Reaches resolve s (b! "#") → Reaches resolve s' (b! "#") → s = s'

end Jsval
