import Verif.Spec.JsonSchema
/-!
# Vocabulary: what counts as a draft-4 schema

The grammar of schemas, keyword by keyword, as the meta-schema of draft 4 describes it, except for two readings of the library: formats
other than `uri` are not checked, and members of `enum` count as different if `fmt` prints them differently.
-/
namespace Jsval

/-- The names of types. -/
def simpleTypeNames : List GoStr := [b! "array", b! "boolean", b! "integer", b! "null", b! "number", b! "object", b! "string"]

/-- The keywords whose values are restricted. -/
def schemaKeywords : List GoStr := [b! "id", b! "$schema", b! "title", b! "description", b! "pattern", b! "multipleOf", b! "maximum", b! "minimum",
  b! "exclusiveMaximum", b! "exclusiveMinimum", b! "uniqueItems", b! "maxLength", b! "minLength", b! "maxItems", b! "minItems", b! "maxProperties",
  b! "minProperties", b! "additionalItems", b! "additionalProperties", b! "items", b! "not", b! "allOf", b! "anyOf", b! "oneOf", b! "definitions",
  b! "properties", b! "patternProperties", b! "dependencies", b! "required", b! "enum", b! "type"]

mutual
/-- An object all of whose keywords have fitting values; `exclusiveMaximum` comes with `maximum`, `exclusiveMinimum` with `minimum`. -/
inductive IsSchema (ext : Ext) : GoVal → Prop where
  | mk {kvs : List (GoStr × GoVal)} : (∀ k x, (k, x) ∈ kvs → Keyword ext k x) →
      (Has kvs (b! "exclusiveMaximum") → Has kvs (b! "maximum")) → (Has kvs (b! "exclusiveMinimum") → Has kvs (b! "minimum")) →
      IsSchema ext (.map false kvs)
/-- The value fits the keyword. -/
inductive Keyword (ext : Ext) : GoStr → GoVal → Prop where
  | uri {k s} : k ∈ [b! "id", b! "$schema"] → ext.urlOk s = true → Keyword ext k (.str s)
  | text {k s} : k ∈ [b! "title", b! "description", b! "pattern"] → Keyword ext k (.str s)
  | multipleOf {f} : F64.Lt F64.zero f → Keyword ext (b! "multipleOf") (.float .f64 f)
  | limit {k f} : k ∈ [b! "maximum", b! "minimum"] → Keyword ext k (.float .f64 f)
  | flag {k b} : k ∈ [b! "exclusiveMaximum", b! "exclusiveMinimum", b! "uniqueItems", b! "additionalItems", b! "additionalProperties"] →
      Keyword ext k (.bool b)
  | count {k f} : k ∈ [b! "maxLength", b! "minLength", b! "maxItems", b! "minItems", b! "maxProperties", b! "minProperties"] →
      F64.Whole f → F64.Le F64.zero f → Keyword ext k (.float .f64 f)
  | schema {k v} : k ∈ [b! "additionalItems", b! "additionalProperties", b! "items", b! "not"] → IsSchema ext v → Keyword ext k v
  | schemas {k xs} : k ∈ [b! "items", b! "allOf", b! "anyOf", b! "oneOf"] → xs ≠ [] → (∀ x ∈ xs, IsSchema ext x) →
      Keyword ext k (.slice false xs)
  | named {k} {kvs : List (GoStr × GoVal)} : k ∈ [b! "definitions", b! "properties", b! "patternProperties"] →
      (∀ n x, (n, x) ∈ kvs → IsSchema ext x) → Keyword ext k (.map false kvs)
  | dependencies {kvs : List (GoStr × GoVal)} : (∀ n x, (n, x) ∈ kvs → Dependency ext x) → Keyword ext (b! "dependencies") (.map false kvs)
  | required {l : List GoStr} : l ≠ [] → l.Nodup → Keyword ext (b! "required") (.slice false (l.map .str))
  | enum {xs : List GoVal} : xs ≠ [] → (xs.map ext.sprint).Nodup → Keyword ext (b! "enum") (.slice false xs)
  | type {t} : t ∈ simpleTypeNames → Keyword ext (b! "type") (.str t)
  | types {l : List GoStr} : l ≠ [] → l.Nodup → (∀ t ∈ l, t ∈ simpleTypeNames) → Keyword ext (b! "type") (.slice false (l.map .str))
  | other {k v} : k ∉ schemaKeywords → Keyword ext k v
/-- What a property may bring along: a schema for the object, or further properties. -/
inductive Dependency (ext : Ext) : GoVal → Prop where
  | schema {v} : IsSchema ext v → Dependency ext v
  | names {l : List GoStr} : l ≠ [] → l.Nodup → Dependency ext (.slice false (l.map .str))
end

end Jsval
