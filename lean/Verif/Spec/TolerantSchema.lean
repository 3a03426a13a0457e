import Verif.Spec.Narrower
import Verif.Spec.Revised
import Verif.Spec.SchemaDefaults
/-!
# Schemas that do not ask about optional and unmentioned properties
-/
namespace Jsval

/-- A schema for values of one of the types string, number, integer, boolean, without combinators. -/
def Schema.Flat (s : Schema) : Prop :=
  ∃ p : SchemaF Schema, s = .mk p ∧ p.reference = [] ∧ p.NoCombos ∧ ∃ t ∈ [PrimType.string, .number, .integer, .boolean], p.type = [t]

/-- What the keywords of one schema say about such properties: those in `L` are not required, no other property brings them along, and properties are
not counted from below; those in `D` are neither declared nor matched by a pattern, further properties are allowed, and properties are not counted.
What may change is not compared: unique items and enumerated values are scalars. With names in `L`, what is negated or must hold of exactly one is
scalar too. -/
structure SchemaF.Tolerant (ext : Ext) (L D : GoStr → Prop) (s : SchemaF Schema) : Prop where
  optional : ∀ k, L k → k ∉ s.required ∧ (∀ q ns, (q, ns) ∈ s.depNames → k ∉ ns) ∧ ∀ n, s.minProps = some n → n ≤ 0
  undeclared : ∀ k, D k → (∀ x, (k, x) ∉ s.properties) ∧ ∀ id src x, (id, src, x) ∈ s.patternProps → ext.reMatch src k = false
  open_ : ∀ k, D k → s.additionalProps = .allow ∧ (∀ n, s.minProps = some n → n ≤ 0) ∧ ∀ n, s.maxProps = some n → n < 0
  unique : s.uniqueItems = some true → ∃ p l, s.items = .list (p :: l) ∧ p.Flat
  enum : ∀ x ∈ s.enum, IsScalar x
  oneOf : (∀ k, ¬ L k) ∨ ∀ p ∈ s.oneOf, p.Flat
  not : (∀ k, ¬ L k) ∨ ∀ p, s.not = some p → p.Flat

/-- All schemas of the tree are so; next to a `$ref` anything may stand. -/
inductive Schema.Tolerant (ext : Ext) (L D : GoStr → Prop) : Schema → Prop where
  | nil : Tolerant ext L D .nil
  | ref (s : SchemaF Schema) : s.reference ≠ [] → Tolerant ext L D (.mk s)
  | node (s : SchemaF Schema) : s.reference = [] → s.Tolerant ext L D → (∀ c, s.Child c → Tolerant ext L D c) → Tolerant ext L D (.mk s)

/-- The document and all its definitions are so. -/
def TolerantDocument (ext : Ext) (L D : GoStr → Prop) (resolve : Resolver) (s : Schema) : Prop :=
  s.Tolerant ext L D ∧ ∀ n t, Leads resolve s n t → t.Tolerant ext L D

end Jsval
