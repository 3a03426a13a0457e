import Verif.Spec.Keep
import Verif.Spec.Pipeline
/-!
# What generated code enforces of a schema

`Schema.keep` is a schema again: the one whose validity the code generated from a schema decides (C114).
-/
namespace Jsval

/-- A bound in generated code: a whole number for integers, six decimals otherwise. -/
def keepBound (types : List PrimType) (f : F64) : F64 := if .integer ∈ types then F64.ofInt f.truncInt else f.reread

/-- Without the keywords that generated code ignores: `multipleOf`, `minProperties`, `maxProperties`, dependencies on schemas,
`additionalItems: false`, and `enum` next to type integer. -/
def SchemaF.keep {S : Type} (s : SchemaF S) : SchemaF S :=
  { s with
    enum := if .integer ∈ s.type then [] else s.enum
    multipleOf := none
    minimum := s.minimum.map (keepBound s.type), maximum := s.maximum.map (keepBound s.type)
    additionalItems := match s.additionalItems with | .nil => .allow | x => x
    minProps := none, maxProps := none, depSchemas := [] }

/-- … in all sub-schemas. -/
def Schema.keep : Schema → Schema := Schema.fold .nil (fun s => .mk s.keep)

/-- Resolving to such schemas. -/
def Resolved.keep : Resolved → Resolved
  | .fail => .fail
  | .schema s => .schema s.keep
  | .object none => .object none
  | .object (some s) => .object (some (s.map Schema.keep).keep)
  | .other => .other

/-- … for every reference. -/
def Resolver.keep (resolve : Resolver) : Resolver := fun n => (resolve n).keep

section
variable {S : Type}

/-- Code is generated for what this one schema says: no `not`, no percent signs, nothing infinite. Listed are strings, or
no strings next to type integer. With both types `number` and `integer`, bounds are the same for both. -/
structure SchemaF.Keepable (s : SchemaF S) : Prop where
  not : s.not = none
  enum : .string ∈ s.type ∨ s.type = [] → ∀ e ∈ s.enum, ∃ t, e = .str t ∧ Plain t
  enumTyped : .integer ∈ s.type → ∀ t, .str t ∉ s.enum
  finite : (∀ f, s.minimum = some f → f.IsFinite) ∧ ∀ f, s.maximum = some f → f.IsFinite
  mixed : .number ∈ s.type → .integer ∈ s.type →
    (∀ f, s.minimum = some f → F64.ofInt f.truncInt = f.reread) ∧ ∀ f, s.maximum = some f → F64.ofInt f.truncInt = f.reread
  pattern : ∀ r, s.pattern = some r → Plain r
  format : Plain s.format
  required : ∀ n ∈ s.required, Plain n
  properties : ∀ p ∈ s.properties, Plain p.1
  patternProps : ∀ p ∈ s.patternProps, Plain p.2.1
  patternSources : (s.patternProps.map (·.2.1)).Nodup
  depNames : ∀ p ∈ s.depNames, Plain p.1 ∧ ∀ d ∈ p.2, Plain d
end

/-- … for every schema of the tree. -/
inductive Schema.Keeps : Schema → Prop where
  | ref (s : SchemaF Schema) : s.reference ≠ [] → Plain s.reference → Keeps (.mk s)
  | node (s : SchemaF Schema) : s.reference = [] → s.Keepable → (∀ c, s.Child c → Keeps c) → Keeps (.mk s)

/-- The schema and all that it refers to, transitively, are conforming, and code is generated for them. -/
structure CodeFor (ext : Ext) (formats : List GoStr) (cls : DocClass) (resolve : Resolver) (s : Schema) : Prop where
  conforms : s.Conforms ext formats cls
  keeps : s.Keeps
  refConforms : ∀ n s1, Reaches resolve s n → RefersTo resolve s n s1 → s1.Conforms ext formats cls
  refKeeps : ∀ n s1, Reaches resolve s n → RefersTo resolve s n s1 → s1.Keeps

/-- What is kept of the schema asks no more than the schema: nothing is required of exactly one of several, and rounding does
not narrow bounds. -/
inductive Schema.Loosens : Schema → Prop where
  | ref (s : SchemaF Schema) : s.reference ≠ [] → Loosens (.mk s)
  | node (s : SchemaF Schema) : s.reference = [] → s.oneOf = [] →
      (∀ f, s.minimum = some f → F64.Le (keepBound s.type f) f) → (∀ f, s.maximum = some f → F64.Le f (keepBound s.type f)) →
      (∀ c, s.Child c → Loosens c) → Loosens (.mk s)

end Jsval
