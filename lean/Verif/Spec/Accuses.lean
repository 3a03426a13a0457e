import Verif.Spec.Blames
import Verif.Spec.Buildable
import Verif.Spec.SchemaDefaults
/-!
# Which messages a schema can lead to

`Accuses ext formats resolve root s e`: reading the schema alone, `e` may be said about a value: some keyword asks for what the message says is
missing. One rule per keyword and message.
-/
namespace Jsval

section
variable {S : Type}

/-- The schema is treated as one for this type alone. -/
def SchemaF.Sole (formats : List GoStr) (s : SchemaF S) (t : PrimType) : Prop :=
  s.type = [t] ∨ s.type = [] ∧ ∀ u, Suggests formats s u ↔ u = t

/-- The schema is treated as one for several types. -/
def SchemaF.Several (formats : List GoStr) (s : SchemaF S) : Prop :=
  1 < s.type.length ∨ s.type = [] ∧ ∃ t u, t ≠ u ∧ Suggests formats s t ∧ Suggests formats s u

/-- Keywords for strings. -/
inductive SchemaF.StrAccuses (s : SchemaF S) : Err → Prop where
  | type : StrAccuses s .notString
  | maxLength {n} : s.maxLength = some n → 0 ≤ n → StrAccuses s (.tooLong n)
  | minLength {n} : s.minLength = some n → 0 < n → StrAccuses s (.tooShort n)
  | datetime : s.format = b! "datetime" → StrAccuses s .badDatetime
  | email : s.format = b! "email" → StrAccuses s .badEmail
  | hostname : s.format = b! "hostname" → StrAccuses s .badHostname
  | ipv4 : s.format = b! "ipv4" → StrAccuses s .badIPv4
  | ipv6 : s.format = b! "ipv6" → StrAccuses s .badIPv6
  | uri : s.format = b! "uri" → StrAccuses s .badURI
  | pattern {rx v} : s.pattern = some rx → StrAccuses s (.badRegexp v rx)
  | enum : s.enum ≠ [] → StrAccuses s .notInEnum

/-- Keywords for numbers. -/
inductive SchemaF.NumAccuses (s : SchemaF S) : Err → Prop where
  | minimum {m} : s.minimum = some m → s.exclMin ≠ some true → NumAccuses s .belowMin
  | exclusiveMinimum {m} : s.minimum = some m → s.exclMin = some true → NumAccuses s .belowMinExcl
  | maximum {m} : s.maximum = some m → s.exclMax ≠ some true → NumAccuses s .aboveMax
  | exclusiveMaximum {m} : s.maximum = some m → s.exclMax = some true → NumAccuses s .aboveMaxExcl
  | multipleOf {m} : s.multipleOf = some m → ¬ m.IsZero → NumAccuses s .notMultiple
  | enum : s.enum ≠ [] → NumAccuses s .notInEnum

/-- Keywords for arrays. -/
inductive SchemaF.ArrAccuses (s : SchemaF S) : Err → Prop where
  | type : ArrAccuses s .notSlice
  | minItems {n} : s.minItems = some n → 0 < n → ArrAccuses s .fewItems
  | maxItems {n} : s.maxItems = some n → 0 ≤ n → ArrAccuses s .manyItems
  | uniqueItems : s.uniqueItems = some true → ArrAccuses s .dupItem
  | additionalItems {l} : s.items = .tuple l → l ≠ [] → s.additionalItems = .nil → ArrAccuses s .addlItems

/-- Keywords for objects. -/
inductive SchemaF.ObjAccuses (s : SchemaF S) : Err → Prop where
  | type : ObjAccuses s .noPropNames
  | keys : ObjAccuses s .mapKeys
  | minProperties {n} : s.minProps = some n → 0 < n → ObjAccuses s .fewProps
  | maxProperties {n} : s.maxProps = some n → 0 ≤ n → ObjAccuses s .manyProps
  | required {p c} : p ∈ s.required → (p, c) ∈ s.properties → ObjAccuses s (.required p)
  | additionalProperties : s.additionalProps = .nil → ObjAccuses s .addlNotAllowed
  | dependencies {k l d} : (k, l) ∈ s.depNames → d ∈ l → ObjAccuses s (.depMissing d)
end

/-- `e` may be said about a value on account of the schema, in the document `root`. -/
inductive Accuses (ext : Ext) (formats : List GoStr) (resolve : Resolver) (root : Schema) : Schema → Err → Prop where
  | ref {s : SchemaF Schema} {t e} : s.reference ≠ [] → RefersTo resolve root s.reference t → Accuses ext formats resolve root t e →
      Accuses ext formats resolve root (.mk s) e
  -- combinations; of several keywords the first counts
  | not {s : SchemaF Schema} : s.reference = [] → s.not ≠ none → Accuses ext formats resolve root (.mk s) .notFailed
  | allOf {s : SchemaF Schema} {c e} : s.reference = [] → s.not = none → c ∈ s.allOf → Accuses ext formats resolve root c e →
      Accuses ext formats resolve root (.mk s) e
  | anyOf {s : SchemaF Schema} : s.reference = [] → s.not = none → s.allOf = [] → 1 < s.anyOf.length →
      Accuses ext formats resolve root (.mk s) .anyNone
  | oneAnyOf {s : SchemaF Schema} {c e} : s.reference = [] → s.not = none → s.allOf = [] → s.anyOf = [c] →
      Accuses ext formats resolve root c e → Accuses ext formats resolve root (.mk s) e
  | oneOfNone {s : SchemaF Schema} : s.reference = [] → s.not = none → s.allOf = [] → s.anyOf = [] → 1 < s.oneOf.length →
      Accuses ext formats resolve root (.mk s) .oneOfNone
  | oneOfMany {s : SchemaF Schema} : s.reference = [] → s.not = none → s.allOf = [] → s.anyOf = [] → 1 < s.oneOf.length →
      Accuses ext formats resolve root (.mk s) .oneOfMany
  | oneOneOf {s : SchemaF Schema} {c e} : s.reference = [] → s.not = none → s.allOf = [] → s.anyOf = [] → s.oneOf = [c] →
      Accuses ext formats resolve root c e → Accuses ext formats resolve root (.mk s) e
  -- types
  | types {s : SchemaF Schema} : s.reference = [] → s.Several formats → Accuses ext formats resolve root (.mk s) .anyNone
  | null {s : SchemaF Schema} : s.reference = [] → s.Sole formats .null → Accuses ext formats resolve root (.mk s) .notNull
  | boolean {s : SchemaF Schema} : s.reference = [] → s.Sole formats .boolean → Accuses ext formats resolve root (.mk s) .notBool
  | enum {s : SchemaF Schema} : s.reference = [] → (∀ t, ¬ s.Treats formats t) → s.enum ≠ [] → Accuses ext formats resolve root (.mk s) .notInEnum
  | string {s : SchemaF Schema} {e} : s.reference = [] → s.Sole formats .string → s.StrAccuses e → Accuses ext formats resolve root (.mk s) e
  | notFloat {s : SchemaF Schema} : s.reference = [] → s.Sole formats .number → Accuses ext formats resolve root (.mk s) .notFloat
  | number {s : SchemaF Schema} {e} : s.reference = [] → s.Sole formats .number → s.NumAccuses e → Accuses ext formats resolve root (.mk s) e
  | notNumeric {s : SchemaF Schema} : s.reference = [] → s.Sole formats .integer → Accuses ext formats resolve root (.mk s) .notNumeric
  | notIntegral {s : SchemaF Schema} : s.reference = [] → s.Sole formats .integer → Accuses ext formats resolve root (.mk s) .notIntegral
  | integer {s : SchemaF Schema} {e} : s.reference = [] → s.Sole formats .integer → s.NumAccuses e → Accuses ext formats resolve root (.mk s) e
  -- arrays
  | array {s : SchemaF Schema} {e} : s.reference = [] → s.Sole formats .array → s.ArrAccuses e → Accuses ext formats resolve root (.mk s) e
  | items {s : SchemaF Schema} {c l e} : s.reference = [] → s.Sole formats .array → s.items = .list (c :: l) → Accuses ext formats resolve root c e →
      Accuses ext formats resolve root (.mk s) e
  | tuple {s : SchemaF Schema} {c l e} : s.reference = [] → s.Sole formats .array → s.items = .tuple l → c ∈ l → Accuses ext formats resolve root c e →
      Accuses ext formats resolve root (.mk s) e
  | additionalItems {s : SchemaF Schema} {c l e} : s.reference = [] → s.Sole formats .array → s.items = .tuple l → l ≠ [] → s.additionalItems = .schema c →
      Accuses ext formats resolve root c e → Accuses ext formats resolve root (.mk s) e
  -- objects
  | object {s : SchemaF Schema} {e} : s.reference = [] → s.Sole formats .object → s.ObjAccuses e → Accuses ext formats resolve root (.mk s) e
  | property {s : SchemaF Schema} {p c e} : s.reference = [] → s.Sole formats .object → (p, c) ∈ s.properties → Accuses ext formats resolve root c e →
      Accuses ext formats resolve root (.mk s) (.prop p e)
  | default {s : SchemaF Schema} {p c e} : s.reference = [] → s.Sole formats .object → (p, c) ∈ s.properties → p ∉ s.required → HasDefault resolve root c →
      SetBlames p e → Accuses ext formats resolve root (.mk s) (.setDefault p e)
  | patternProperty {s : SchemaF Schema} {id src c q e} : s.reference = [] → s.Sole formats .object → (id, src, c) ∈ s.patternProps →
      ext.reMatch src q = true → Accuses ext formats resolve root c e → Accuses ext formats resolve root (.mk s) (.prop q e)
  | additionalProperty {s : SchemaF Schema} {q c e} : s.reference = [] → s.Sole formats .object → s.additionalProps = .schema c →
      Accuses ext formats resolve root c e → Accuses ext formats resolve root (.mk s) (.addlProp q e)
  | dependency {s : SchemaF Schema} {q c e} : s.reference = [] → s.Sole formats .object → (q, c) ∈ s.depSchemas →
      Accuses ext formats resolve root c e → Accuses ext formats resolve root (.mk s) e

end Jsval
