import Verif.Model.Constraint
/-!
# JSON schemas as the builder sees them

The builder reads `*schema.Schema` values of the jsschema package. That package is not part of /repo; this file models
the fields the builder reads (builder/*.go), nothing else. Schemas are trees: a `*schema.Schema` that is reachable
from itself through these pointers is not modelled (references by name are, see `Model/Builder.lean`).
-/
namespace Jsval

/-- `schema.PrimitiveType`; `other` stands for any further value of the underlying integer type. -/
inductive PrimType where
  | unspecified | null | integer | string | object | array | boolean | number
  | other (n : Nat)
deriving DecidableEq, Repr

/-- The parts of the jsschema package whose values are not visible in /repo. -/
structure SchemaLib where
  /-- the integer behind a `PrimitiveType` constant, which `sort.Sort(sts)` compares (builder/builder.go:229) -/
  rank : PrimType → Nat
  /-- distinct constants are distinct integers -/
  rank_inj : Function.Injective rank
  /-- the values of `FormatDateTime`, `FormatEmail`, `FormatHostname`, `FormatIPv4`, `FormatIPv6`, `FormatURI` -/
  formats : List GoStr

/-- `schema.ItemSpec` behind a pointer: nil, a list of schemas in list mode (`TupleMode == false`, only the first one
is read: builder/array.go:23), or in tuple mode. -/
inductive ItemSpec (S : Type) where
  | nil
  | list (l : List S)
  | tuple (l : List S)

/-- `*schema.AdditionalItems`/`*schema.AdditionalProperties`: a nil pointer (decoded from `false`), a struct with a nil
schema (the default, and decoded from `true`), or one with a schema. -/
inductive Extra (S : Type) where
  | nil
  | allow
  | schema (s : S)

/-- The fields of `schema.Schema` read by the builder, over sub-schemas of type `S`. A `Number`/`Integer`/`Bool` field
with its `Initialized` flag is an `Option`; Go maps are association lists; `patternProperties` is keyed by
`*regexp.Regexp`, so an entry is (pointer id, source, schema); `dflt` is the `interface{}` field `Default`, with
`.nil` for a nil interface. -/
structure SchemaF (S : Type) where
  reference : GoStr := []
  not : Option S := none
  allOf : List S := []
  anyOf : List S := []
  oneOf : List S := []
  type : List PrimType := []
  enum : List GoVal := []
  dflt : GoVal := .nil
  multipleOf : Option F64 := none
  minimum : Option F64 := none
  maximum : Option F64 := none
  exclMin : Option Bool := none
  exclMax : Option Bool := none
  minLength : Option Int := none
  maxLength : Option Int := none
  pattern : Option GoStr := none
  format : GoStr := []
  items : ItemSpec S := .nil
  additionalItems : Extra S := .allow
  minItems : Option Int := none
  maxItems : Option Int := none
  uniqueItems : Option Bool := none
  required : List GoStr := []
  minProps : Option Int := none
  maxProps : Option Int := none
  properties : List (GoStr × S) := []
  patternProps : List (Nat × GoStr × S) := []
  additionalProps : Extra S := .allow
  depNames : List (GoStr × List GoStr) := []
  depSchemas : List (GoStr × S) := []

/-- `*schema.Schema`. -/
inductive Schema where
  | nil
  | mk (s : SchemaF Schema)

variable {α β : Type}

/-- Replace the sub-schemas. -/
def ItemSpec.map (g : α → β) : ItemSpec α → ItemSpec β
  | .nil => .nil
  | .list l => .list (l.map g)
  | .tuple l => .tuple (l.map g)

/-- Replace the sub-schema. -/
def Extra.map (g : α → β) : Extra α → Extra β
  | .nil => .nil
  | .allow => .allow
  | .schema s => .schema (g s)

/-- Replace the sub-schemas. -/
def SchemaF.map (g : α → β) (s : SchemaF α) : SchemaF β :=
  { s with
    not := s.not.map g, allOf := s.allOf.map g, anyOf := s.anyOf.map g, oneOf := s.oneOf.map g
    items := s.items.map g, additionalItems := s.additionalItems.map g
    properties := s.properties.map (fun p => (p.1, g p.2))
    patternProps := s.patternProps.map (fun p => (p.1, p.2.1, g p.2.2))
    additionalProps := s.additionalProps.map g
    depSchemas := s.depSchemas.map (fun p => (p.1, g p.2)) }

/-! `Schema.fold z f s` computes bottom-up: `z` at nil pointers, `f` at schemas whose children are already computed. -/
section
variable (z : α) (f : SchemaF α → α)

mutual
/-- Bottom-up computation over a schema. -/
def Schema.fold : Schema → α
  | .nil => z
  | .mk ⟨rf, n, al, an, on, ty, en, df, mo, mi, ma, emi, ema, mil, mal, pa, fo, it, ai, mii, mai, ui, rq, mip, map, pr,
      pp, ap, dn, ds⟩ =>
    f ⟨rf, foldOpt n, foldList al, foldList an, foldList on, ty, en, df, mo, mi, ma, emi, ema, mil, mal, pa, fo,
      foldItems it, foldExtra ai, mii, mai, ui, rq, mip, map, foldProps pr, foldPats pp, foldExtra ap, dn, foldProps ds⟩
/-- … an optional child -/
def foldOpt : Option Schema → Option α
  | none => none
  | some s => some (Schema.fold s)
/-- … a list of children -/
def foldList : List Schema → List α
  | [] => []
  | s :: l => Schema.fold s :: foldList l
/-- … the item schemas -/
def foldItems : ItemSpec Schema → ItemSpec α
  | .nil => .nil
  | .list l => .list (foldList l)
  | .tuple l => .tuple (foldList l)
/-- … an additional-items or -properties schema -/
def foldExtra : Extra Schema → Extra α
  | .nil => .nil
  | .allow => .allow
  | .schema s => .schema (Schema.fold s)
/-- … named children -/
def foldProps : List (GoStr × Schema) → List (GoStr × α)
  | [] => []
  | (n, s) :: l => (n, Schema.fold s) :: foldProps l
/-- … pattern children -/
def foldPats : List (Nat × GoStr × Schema) → List (Nat × GoStr × α)
  | [] => []
  | (i, n, s) :: l => (i, n, Schema.fold s) :: foldPats l
end

theorem foldOpt_eq : ∀ o, foldOpt z f o = o.map (Schema.fold z f)
  | none => rfl
  | some s => by rw [foldOpt]; rfl
theorem foldList_eq : ∀ l, foldList z f l = l.map (Schema.fold z f)
  | [] => rfl
  | s :: l => by rw [foldList, foldList_eq l]; rfl
theorem foldItems_eq : ∀ l, foldItems z f l = l.map (Schema.fold z f)
  | .nil => rfl
  | .list l => by rw [foldItems, foldList_eq]; rfl
  | .tuple l => by rw [foldItems, foldList_eq]; rfl
theorem foldExtra_eq : ∀ l, foldExtra z f l = l.map (Schema.fold z f)
  | .nil => rfl
  | .allow => rfl
  | .schema l => by rw [foldExtra]; rfl
theorem foldProps_eq : ∀ l, foldProps z f l = l.map (fun p => (p.1, Schema.fold z f p.2))
  | [] => rfl
  | (_, s) :: l => by rw [foldProps, foldProps_eq l]; rfl
theorem foldPats_eq : ∀ l, foldPats z f l = l.map (fun p => (p.1, p.2.1, Schema.fold z f p.2.2))
  | [] => rfl
  | (_, _, s) :: l => by rw [foldPats, foldPats_eq l]; rfl

theorem Schema.fold_mk (s : SchemaF Schema) : Schema.fold z f (.mk s) = f (s.map (Schema.fold z f)) := by
  obtain ⟨rf, n, al, an, on, ty, en, df, mo, mi, ma, emi, ema, mil, mal, pa, fo, it, ai, mii, mai, ui, rq, mip, map, pr,
      pp, ap, dn, ds⟩ := s
  rw [Schema.fold]
  simp only [foldOpt_eq, foldList_eq, foldItems_eq, foldExtra_eq, foldProps_eq, foldPats_eq]
  rfl

end

/-- One of the sub-schemas. -/
inductive SchemaF.Child (s : SchemaF α) : α → Prop where
  | not {c} : s.not = some c → Child s c
  | allOf {c} : c ∈ s.allOf → Child s c
  | anyOf {c} : c ∈ s.anyOf → Child s c
  | oneOf {c} : c ∈ s.oneOf → Child s c
  | list {c l} : s.items = .list l → c ∈ l → Child s c
  | tuple {c l} : s.items = .tuple l → c ∈ l → Child s c
  | additionalItems {c} : s.additionalItems = .schema c → Child s c
  | property {n c} : (n, c) ∈ s.properties → Child s c
  | patternProp {i n c} : (i, n, c) ∈ s.patternProps → Child s c
  | additionalProps {c} : s.additionalProps = .schema c → Child s c
  | dependency {n c} : (n, c) ∈ s.depSchemas → Child s c

end Jsval
