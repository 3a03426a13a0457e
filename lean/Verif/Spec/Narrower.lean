import Verif.Spec.BuildDet
import Verif.Spec.Builder
import Verif.Spec.Buildable
import Verif.Spec.Rewritten
import Verif.Spec.Scalar
/-!
# One schema asks at least as much as another

Two documents are compared keyword by keyword, the way a schema is narrowed by hand: tighter limits, more required names, fewer types, fewer values. The
relation `N` compares sub-schemas; a relation all of whose pairs compare in this way (`Narrows`) may be recursive, since references on either side are
followed. There are two documents, and below a `not` they change sides: `N true a b` compares `a` of the first document with `b` of the second,
`N false a b` the other way round. `L side n t` says that in that document the name `n` leads to `t`.
-/
namespace Jsval

/-- A lower limit: where `b` has one, `a` has one no lower. Limits up to 0 limit nothing. -/
def LowerLimit (a b : Option ℤ) : Prop := ∀ n, b = some n → 0 < n → ∃ n', a = some n' ∧ n ≤ n'

/-- An upper limit: where `b` has one, `a` has one no higher. Negative limits limit nothing. -/
def UpperLimit (a b : Option ℤ) : Prop := ∀ n, b = some n → 0 ≤ n → ∃ n', a = some n' ∧ 0 ≤ n' ∧ n' ≤ n

section
variable (ext : Ext) (N : Schema → Schema → Prop) (s t : SchemaF Schema)

/-- The keywords for strings. -/
structure StringNarrower : Prop where
  min : LowerLimit s.minLength t.minLength
  max : UpperLimit s.maxLength t.maxLength
  pattern : ∀ rx, t.pattern = some rx → s.pattern = some rx
  format : t.format = [] ∨ t.format = s.format
  enum : t.enum ≠ [] → s.enum ≠ [] ∧ ∀ x ∈ s.enum, x ∈ t.enum

/-- The keywords for numbers and integers, but for the enumeration. -/
structure BoundsNarrower : Prop where
  min : ∀ m, t.minimum = some m → ∃ m', s.minimum = some m' ∧ (F64.Lt m m' ∨ F64.Eq m m' ∧ (t.exclMin = some true → s.exclMin = some true))
  max : ∀ m, t.maximum = some m → ∃ m', s.maximum = some m' ∧ (F64.Lt m' m ∨ F64.Eq m' m ∧ (t.exclMax = some true → s.exclMax = some true))
  mult : ∀ m, t.multipleOf = some m → m.IsZero ∨ ∃ m', s.multipleOf = some m' ∧ ¬ m'.IsZero ∧ F64.MultOf m' m

/-- What is left over: forbidden where `b` forbids it, forbidden or held to no less where `b` has a schema. -/
def RestNarrower (a b : Extra Schema) : Prop := (b = .nil → a = .nil) ∧ ∀ y, b = .schema y → a = .nil ∨ ∃ x, a = .schema x ∧ N x y

/-- The keywords for arrays. -/
structure ArrayNarrower : Prop where
  min : LowerLimit s.minItems t.minItems
  max : UpperLimit s.maxItems t.maxItems
  unique : t.uniqueItems = some true → s.uniqueItems = some true
  items : ∀ y l, t.items = .list (y :: l) → ∃ x l', s.items = .list (x :: l') ∧ N x y
  tuple : ∀ ys, t.items = .tuple ys → ys ≠ [] → ∃ xs, s.items = .tuple xs ∧ xs.length = ys.length ∧
    (∀ (j : ℕ) (x y : Schema), xs[j]? = some x → ys[j]? = some y → N x y) ∧ RestNarrower N s.additionalItems t.additionalItems

/-- The keywords for objects. `s` may declare names that `t` says nothing about. -/
structure ObjectNarrower : Prop where
  min : LowerLimit s.minProps t.minProps
  max : UpperLimit s.maxProps t.maxProps
  properties : ∀ k y, (k, y) ∈ t.properties → ∃ x, (k, x) ∈ s.properties ∧ N x y
  fresh : ∀ k x, (k, x) ∈ s.properties → (∃ y, (k, y) ∈ t.properties) ∨
    t.additionalProps = .allow ∧ ∀ id src y, (id, src, y) ∈ t.patternProps → ext.reMatch src k = false
  required : ∀ k ∈ t.required, (∃ y, (k, y) ∈ t.properties) → k ∈ s.required
  sources : ∀ id src x, (id, src, x) ∈ s.patternProps → ∃ id' y, (id', src, y) ∈ t.patternProps
  patterns : ∀ id src y, (id, src, y) ∈ t.patternProps → ∃ id' x, (id', src, x) ∈ s.patternProps ∧ N x y
  additional : RestNarrower N s.additionalProps t.additionalProps
  depNames : ∀ k ns, (k, ns) ∈ t.depNames → ∀ d ∈ ns, (∃ ns', (k, ns') ∈ s.depNames ∧ d ∈ ns') ∧
    ((∃ x, (d, x) ∈ s.properties) → ∃ y, (d, y) ∈ t.properties)
  depSchemas : ∀ k y, (k, y) ∈ t.depSchemas → (∃ n ns, (k, n :: ns) ∈ t.depNames) ∨
    (∀ ns, (k, ns) ∈ s.depNames → ns = []) ∧ ∃ x, (k, x) ∈ s.depSchemas ∧ N x y

/-- The keywords that go with a type. The enumeration of a schema for numbers is compared as a whole. -/
def TypeNarrower : PrimType → Prop
  | .string => StringNarrower s t
  | .integer => BoundsNarrower s t ∧ (t.enum ≠ [] → s.enum ≠ [] ∧ ∀ x ∈ s.enum, x ∈ t.enum)
  | .number => BoundsNarrower s t ∧ (t.enum ≠ [] → s.enum = t.enum)
  | .array => ArrayNarrower N s t
  | .object => ObjectNarrower ext N s t
  | _ => True
end

/-- Nowhere a `$ref`. -/
inductive Schema.RefFree : Schema → Prop where
  | nil : RefFree .nil
  | node {s : SchemaF Schema} : s.reference = [] → (∀ c, s.Child c → RefFree c) → RefFree (.mk s)

section
variable (ext : Ext) (formats : List GoStr) (L : Bool → GoStr → Schema → Prop) (N : Bool → Schema → Schema → Prop) (side : Bool)

/-- What `t` says with `not`, `allOf`, `anyOf` or `oneOf` (the first of them that is there counts), `a` says too. -/
structure CombosNarrower (a : Schema) (t : SchemaF Schema) : Prop where
  not : ∀ y, t.not = some y → ∃ s x, a = .mk s ∧ s.reference = [] ∧ s.not = some x ∧ N (!side) y x
  allOf : t.not = none → ∀ y ∈ t.allOf, N side a y
  anyOf : t.not = none → t.allOf = [] → t.anyOf ≠ [] → (∃ y ∈ t.anyOf, N side a y) ∨
    ∃ s, a = .mk s ∧ s.reference = [] ∧ s.not = none ∧ s.allOf = [] ∧ s.anyOf ≠ [] ∧ ∀ x ∈ s.anyOf, ∃ y ∈ t.anyOf, N side x y
  oneOf : t.not = none → t.allOf = [] → t.anyOf = [] → t.oneOf ≠ [] →
    ∃ s, a = .mk s ∧ s.reference = [] ∧ s.not = none ∧ s.allOf = [] ∧ s.anyOf = [] ∧ s.oneOf.length = t.oneOf.length ∧
      ∀ (j : ℕ) (x y : Schema), s.oneOf[j]? = some x → t.oneOf[j]? = some y → N side x y ∧ N (!side) y x

/-- What `t` says about types and values, listed or suggested by its keywords, `s` says too. -/
structure TypesNarrower (s t : SchemaF Schema) : Prop where
  noRef : s.reference = []
  types : (∃ p, t.Treats formats p) → (∃ p, s.Treats formats p) ∧ ∀ p, s.Treats formats p → t.Treats formats p ∧ TypeNarrower ext (N side) s t p
  enum : (∀ p, ¬ t.Treats formats p) → t.enum ≠ [] → (∀ p, ¬ s.Treats formats p) ∧ s.enum ≠ [] ∧ ∀ x ∈ s.enum, x ∈ t.enum

/-- `a` asks at least as much as `b`. -/
inductive Narrows : Schema → Schema → Prop where
  | same {a} : a.RefFree → Narrows a a
  -- references on either side
  | follow {s : SchemaF Schema} {a b} : s.reference ≠ [] → L side s.reference a → N side a b → Narrows (.mk s) b
  | into {t : SchemaF Schema} {a b} : t.reference ≠ [] → L (!side) t.reference b → N side a b → Narrows a (.mk t)
  -- by one of its combinators alone
  | allOf {s : SchemaF Schema} {a b} : s.reference = [] → s.not = none → a ∈ s.allOf → N side a b → Narrows (.mk s) b
  | anyOf {s : SchemaF Schema} {b} : s.reference = [] → s.not = none → s.allOf = [] → s.anyOf ≠ [] → (∀ a ∈ s.anyOf, N side a b) → Narrows (.mk s) b
  | oneOf {s : SchemaF Schema} {b} : s.reference = [] → s.not = none → s.allOf = [] → s.anyOf = [] → s.oneOf ≠ [] → (∀ a ∈ s.oneOf, N side a b) →
      Narrows (.mk s) b
  -- keyword by keyword
  | combos {a} {t : SchemaF Schema} : t.reference = [] → CombosNarrower N side a t → (∀ p, ¬ t.Treats formats p) → t.enum = [] → Narrows a (.mk t)
  | keywords {s t : SchemaF Schema} : t.reference = [] → CombosNarrower N side (.mk s) t → TypesNarrower ext formats N side s t → Narrows (.mk s) (.mk t)
end

/-- The names of two documents. -/
def TwoDocuments (resolve resolve' : Resolver) (s s' : Schema) : Bool → GoStr → Schema → Prop
  | true => Leads resolve s
  | false => Leads resolve' s'

/-- No default, distinct keys, and no two patterns that match the same undeclared name, in all schemas of the tree; next to a `$ref` anything may stand. -/
inductive Schema.Bare (ext : Ext) : Schema → Prop where
  | nil : Bare ext .nil
  | ref (s : SchemaF Schema) : s.reference ≠ [] → Bare ext (.mk s)
  | node (s : SchemaF Schema) : s.reference = [] → s.Keyed → s.dflt = .nil →
      (∀ k, (∀ x, (k, x) ∉ s.properties) → ∀ p ∈ s.patternProps, ∀ q ∈ s.patternProps, ext.reMatch p.2.1 k = true → ext.reMatch q.2.1 k = true → p.2.1 = q.2.1) →
      (∀ c, s.Child c → Bare ext c) → Bare ext (.mk s)

/-- The document and all its definitions are so. -/
def BareDocument (ext : Ext) (resolve : Resolver) (s : Schema) : Prop := s.Bare ext ∧ ∀ n t, Leads resolve s n t → t.Bare ext

end Jsval
