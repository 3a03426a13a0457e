import Verif.Spec.Builder
import Verif.Spec.Object
import Verif.Spec.Defaults
import Verif.Spec.Words
import Verif.Model.Builder
/-!
# The draft-4 reading of a schema

What the keywords of a JSON Schema (draft 4) say about a decoded JSON document, written from the specification's side:
no builder, no constraint, no loop. Regular expressions, mail addresses, URIs, IP addresses and timestamps are read
through the same oracles as everywhere else (`Ext`).
-/
namespace Jsval

/-- Which documents are considered: with `ascii` all strings consist of ASCII characters; with `wordy` all strings and property names are
words, and there is no negative zero; with `utf8` no string begins inside a character, as no text in UTF-8 does. -/
structure DocClass where
  ascii : Prop
  wordy : Prop
  utf8 : Prop

/-- The text does not begin inside a character: its first byte is not a continuation byte (10xxxxxx) of UTF-8. -/
def StartsWhole (s : GoStr) : Prop := ∀ c, s.head? = some c → c < 128 ∨ 192 ≤ c

/-- All of them. -/
abbrev anyDoc : DocClass := ⟨False, False, False⟩

/-- A decoded JSON document: null, booleans, finite numbers, strings, arrays, objects with distinct names. -/
inductive Doc (cls : DocClass) : GoVal → Prop where
  | null : Doc cls .nil
  | bool (b) : Doc cls (.bool b)
  | num (neg m) : (cls.wordy → m = 0 → neg = false) → Doc cls (.float .f64 (.fin neg m))
  | str (s) : (cls.ascii → ∀ c ∈ s, c < 128) → (cls.wordy → Word s) → (cls.utf8 → StartsWhole s) → Doc cls (.str s)
  | arr (xs) : (∀ x, x ∈ xs → Doc cls x) → Doc cls (.slice false xs)
  | obj (kvs : List (GoStr × GoVal)) : (kvs.map (·.1)).Nodup → (∀ k x, (k, x) ∈ kvs → cls.wordy → Word k) →
      (∀ k x, (k, x) ∈ kvs → Doc cls x) → Doc cls (.map false kvs)

/-- Equality of JSON documents: numbers as numbers, arrays elementwise, objects as sets of properties. -/
inductive JsonEq : GoVal → GoVal → Prop where
  | null : JsonEq .nil .nil
  | bool (b) : JsonEq (.bool b) (.bool b)
  | num (a b) : F64.Eq a b → JsonEq (.float .f64 a) (.float .f64 b)
  | str (s) : JsonEq (.str s) (.str s)
  | arr (xs ys) : xs.length = ys.length → (∀ (i : Nat) x y, xs[i]? = some x → ys[i]? = some y → JsonEq x y) →
      JsonEq (.slice false xs) (.slice false ys)
  | obj (xs ys : List (GoStr × GoVal)) : (∀ k, Has xs k ↔ Has ys k) →
      (∀ k x y, (k, x) ∈ xs → (k, y) ∈ ys → JsonEq x y) → JsonEq (.map false xs) (.map false ys)

/-- The `type` keyword: `integer` is a number without fraction. -/
inductive HasType : PrimType → GoVal → Prop where
  | null : HasType .null .nil
  | boolean (b) : HasType .boolean (.bool b)
  | number (f) : HasType .number (.float .f64 f)
  | integer (f) : f.Whole → HasType .integer (.float .f64 f)
  | string (s) : HasType .string (.str s)
  | array (xs) : HasType .array (.slice false xs)
  | object (kvs) : HasType .object (.map false kvs)

/-- The number of characters of a UTF-8 string: the bytes that do not continue a character. -/
def runeCount (s : GoStr) : Nat := s.countP (fun c => c < 128 || 192 ≤ c)

/-- The formats of draft 4; other names mean nothing. -/
structure FormatMeaning (ext : Ext) (fmt s : GoStr) : Prop where
  dateTime : fmt = b! "date-time" → ∃ t, ext.timeParse s = some t
  email : fmt = b! "email" → ext.mailOk s = true
  hostname : fmt = b! "hostname" → HostOk s
  ipv4 : fmt = b! "ipv4" → ext.ipOk s = true ∧ ∀ c ∈ s, c = 46 ∨ (48 ≤ c ∧ c ≤ 57)
  ipv6 : fmt = b! "ipv6" → ext.ipOk s = true ∧ 58 ∈ s
  uri : fmt = b! "uri" → ext.urlOk s = true

namespace SchemaF
variable (ext : Ext) (s : SchemaF (GoVal → Prop)) (v : GoVal)

/-! In what follows the sub-schemas are given by what they mean: `p v` says that `v` is valid for sub-schema `p`. -/

/-- `not`, `allOf`, `anyOf`, `oneOf`. -/
structure ComboRules : Prop where
  not : ∀ p, s.not = some p → ¬ p v
  allOf : ∀ p ∈ s.allOf, p v
  anyOf : s.anyOf ≠ [] → ∃ p ∈ s.anyOf, p v
  oneOf : s.oneOf ≠ [] → ∃ i p, s.oneOf[i]? = some p ∧ p v ∧ ∀ (j : Nat) q, s.oneOf[j]? = some q → q v → j = i

/-- `multipleOf`, `minimum`, `maximum`, `exclusiveMinimum`, `exclusiveMaximum`. -/
structure NumberRules (f : F64) : Prop where
  minimum : ∀ m, s.minimum = some m → F64.Le m f
  exclMin : ∀ m, s.minimum = some m → s.exclMin = some true → F64.Lt m f
  maximum : ∀ m, s.maximum = some m → F64.Le f m
  exclMax : ∀ m, s.maximum = some m → s.exclMax = some true → F64.Lt f m
  multipleOf : ∀ m, s.multipleOf = some m → f.MultOf m

/-- `minLength`, `maxLength`, `pattern`, `format`. -/
structure StringRules (t : GoStr) : Prop where
  minLength : ∀ n, s.minLength = some n → n ≤ (runeCount t : Int)
  maxLength : ∀ n, s.maxLength = some n → (runeCount t : Int) ≤ n
  pattern : ∀ rx, s.pattern = some rx → ext.reMatch rx t = true
  format : FormatMeaning ext s.format t

/-- `items`, `additionalItems`, `minItems`, `maxItems`, `uniqueItems`. -/
structure ArrayRules (xs : List GoVal) : Prop where
  minItems : ∀ n, s.minItems = some n → n ≤ (xs.length : Int)
  maxItems : ∀ n, s.maxItems = some n → (xs.length : Int) ≤ n
  unique : s.uniqueItems = some true → ∀ (i j : Nat) x y, i < j → xs[i]? = some x → xs[j]? = some y → ¬ JsonEq x y
  items : ∀ p, s.items = .list [p] → ∀ x ∈ xs, p x
  tuple : ∀ l, s.items = .tuple l → ∀ (i : Nat) p x, l[i]? = some p → xs[i]? = some x → p x
  additionalNone : ∀ l, s.items = .tuple l → s.additionalItems = .nil → xs.length ≤ l.length
  additional : ∀ l p, s.items = .tuple l → s.additionalItems = .schema p →
    ∀ (i : Nat) x, l.length ≤ i → xs[i]? = some x → p x

/-- `required`, `minProperties`, `maxProperties`, `properties`, `patternProperties`, `additionalProperties`,
`dependencies`, for the object `v` with properties `kvs`. -/
structure ObjectRules (kvs : List (GoStr × GoVal)) : Prop where
  required : ∀ k ∈ s.required, Has kvs k
  minProps : ∀ n, s.minProps = some n → n ≤ (kvs.length : Int)
  maxProps : ∀ n, s.maxProps = some n → (kvs.length : Int) ≤ n
  properties : ∀ k p x, (k, p) ∈ s.properties → (k, x) ∈ kvs → p x
  patterns : ∀ id src p k x, (id, src, p) ∈ s.patternProps → (k, x) ∈ kvs → ext.reMatch src k = true → p x
  additionalNone : s.additionalProps = .nil → ∀ k, Has kvs k →
    (∃ p, (k, p) ∈ s.properties) ∨ ∃ id src p, (id, src, p) ∈ s.patternProps ∧ ext.reMatch src k = true
  additional : ∀ p, s.additionalProps = .schema p → ∀ k x, (k, x) ∈ kvs → (¬ ∃ p, (k, p) ∈ s.properties) →
    (¬ ∃ id src p, (id, src, p) ∈ s.patternProps ∧ ext.reMatch src k = true) → p x
  depNames : ∀ k l, (k, l) ∈ s.depNames → Has kvs k → ∀ d ∈ l, Has kvs d
  depSchemas : ∀ k p, (k, p) ∈ s.depSchemas → Has kvs k → p v

/-- All keywords except the combinators and `type`; each only speaks about values of its own type. -/
structure ValueRules : Prop where
  enum : s.enum ≠ [] → ∃ e ∈ s.enum, JsonEq e v
  number : ∀ f, v = .float .f64 f → s.NumberRules f
  string : ∀ t, v = .str t → s.StringRules ext t
  array : ∀ xs, v = .slice false xs → s.ArrayRules xs
  object : ∀ kvs, v = .map false kvs → s.ObjectRules ext v kvs

/-- Validity for a schema, given the meaning of its sub-schemas, and the meaning `R` of references. Next to a `$ref`
all other keywords are ignored. -/
structure Validates (R : GoStr → GoVal → Prop) : Prop where
  reference : s.reference ≠ [] → R s.reference v
  combos : s.reference = [] → s.ComboRules v
  type : s.reference = [] → s.type ≠ [] → ∃ t ∈ s.type, HasType t v
  value : s.reference = [] → s.ValueRules ext v
end SchemaF

/-- Validity for a schema when references mean `R`; a missing schema is valid for nothing. -/
def Schema.Valid (ext : Ext) (R : GoStr → GoVal → Prop) : Schema → GoVal → Prop :=
  Schema.fold (fun _ => False) (fun s v => s.Validates ext v R)

theorem Schema.valid_mk (ext : Ext) (R : GoStr → GoVal → Prop) (s : SchemaF Schema) :
    Schema.Valid ext R (.mk s) = fun v => (s.map (Schema.Valid ext R)).Validates ext v R := Schema.fold_mk _ _ s

/-! ## The conforming fragment -/

section
variable {S : Type}

/-- The property name is declared or matched by a pattern. -/
def SchemaF.Knows (ext : Ext) (s : SchemaF S) (k : GoStr) : Prop :=
  (∃ c, (k, c) ∈ s.properties) ∨ ∃ id src c, (id, src, c) ∈ s.patternProps ∧ ext.reMatch src k = true

/-- Only strings are valid: the type says so, or all listed values are strings. -/
def SchemaF.StringsOnly (s : SchemaF S) : Prop :=
  s.reference = [] ∧ ((s.type ≠ [] ∧ ∀ t ∈ s.type, t = .string) ∨ (s.enum ≠ [] ∧ ∀ e ∈ s.enum, ∃ t, e = .str t))

/-- All items are strings, and strings print as themselves (`fmt.Sprintf("%s", ...)`). The package compares
printed items, and the number 1 and the string `%!s(float64=1)` print alike. -/
def SchemaF.StringItems (ext : Ext) (s : SchemaF Schema) : Prop :=
  (∀ t, ext.sprint (.str t) = t) ∧ ∃ p : SchemaF Schema, s.items = .list [.mk p] ∧ p.StringsOnly

/-- The keywords of this one schema are used in a way the package implements as in draft 4. `formats` are the format
names of the schema package; `cls` says which documents are considered. -/
structure SchemaF.Conforming (ext : Ext) (formats : List GoStr) (cls : DocClass) (s : SchemaF Schema) : Prop where
  /-- at most one kind of combinator -/
  combos : (s.not = none ∨ (s.allOf = [] ∧ s.anyOf = [] ∧ s.oneOf = [])) ∧
    (s.allOf = [] ∨ (s.anyOf = [] ∧ s.oneOf = [])) ∧ (s.anyOf = [] ∨ s.oneOf = [])
  /-- types are explicit; without any, only keywords that do not suggest one may be used, or an enumeration of strings
  with keywords that suggest a string -/
  typed : s.type ≠ [] ∨ ((∀ t, ¬ Suggests formats s t) ∧ s.depNames = [] ∧ s.depSchemas = [] ∧
    s.format ∉ [b! "date-time", b! "email", b! "hostname", b! "ipv4", b! "ipv6", b! "uri"]) ∨
    (s.enum ≠ [] ∧ (∀ e ∈ s.enum, ∃ t, e = .str t) ∧ ∀ t, Suggests formats s t → t = .string)
  enumScalar : ∀ e ∈ s.enum, IsScalar e
  /-- with an enumeration, only strings and integers, or types whose values are all listed -/
  enumTyped : s.enum ≠ [] → ∀ t ∈ s.type, t = .string ∨ t = .integer ∨ (t = .null ∧ .nil ∈ s.enum) ∨
    (t = .boolean ∧ .bool true ∈ s.enum ∧ .bool false ∈ s.enum)
  dflt : s.dflt = .nil
  /-- lengths are counted in characters by the specification and in bytes by the code: the same for ASCII, and for "not empty" -/
  minLength : ∀ n, s.minLength = some n → 0 ≤ n ∧ (cls.ascii ∨ n = 0 ∨ (n = 1 ∧ cls.utf8))
  maxLength : ∀ n, s.maxLength = some n → 0 ≤ n ∧ (cls.ascii ∨ (n = 0 ∧ cls.utf8))
  minItems : ∀ n, s.minItems = some n → 0 ≤ n
  maxItems : ∀ n, s.maxItems = some n → 0 ≤ n
  minProps : ∀ n, s.minProps = some n → 0 ≤ n
  maxProps : ∀ n, s.maxProps = some n → 0 ≤ n
  minimum : ∀ m, s.minimum = some m → m ≠ .nan
  maximum : ∀ m, s.maximum = some m → m ≠ .nan
  multipleOf : ∀ m, s.multipleOf = some m → ¬ m.IsZero
  format : s.format ∉ [b! "datetime", b! "date-time", b! "ipv6"]
  items : ∀ l, s.items = .list l → l.length = 1
  tuple : ∀ l, s.items = .tuple l → (∀ x, s.additionalItems ≠ .schema x) ∧ (l = [] → s.additionalItems ≠ .nil)
  /-- unique items only in lists of strings, or where printing tells documents apart -/
  unique : s.uniqueItems = some true → s.StringItems ext ∨ (cls.wordy ∧ ∃ L : FmtLib, L.Good ∧ PrintsJson ext L)
  required : ∀ k ∈ s.required, ∃ c, (k, c) ∈ s.properties
  /-- Go maps -/
  propNames : (s.properties.map (·.1)).Nodup
  patternIds : (s.patternProps.map (·.1)).Nodup
  depNameKeys : (s.depNames.map (·.1)).Nodup
  depSchemaKeys : (s.depSchemas.map (·.1)).Nodup
  /-- no property name is matched by two patterns, no declared one by any -/
  patternsApart : ∀ k, ∀ p ∈ s.patternProps, ∀ q ∈ s.patternProps, ext.reMatch p.2.1 k = true →
    ext.reMatch q.2.1 k = true → p.1 = q.1
  patternsUndeclared : ∀ k c, (k, c) ∈ s.properties → ∀ p ∈ s.patternProps, ext.reMatch p.2.1 k = false
  /-- names in dependencies are declared or matched by a pattern, and have one kind of dependency -/
  depNamesKnown : ∀ k l, (k, l) ∈ s.depNames → s.Knows ext k ∧ ∀ d ∈ l, s.Knows ext d
  depSchemasKnown : ∀ k c, (k, c) ∈ s.depSchemas → s.Knows ext k ∧ ∀ l, (k, l) ∉ s.depNames
end

/-- Every schema of the tree is in the fragment; next to a `$ref` anything may stand. -/
inductive Schema.Conforms (ext : Ext) (formats : List GoStr) (cls : DocClass) : Schema → Prop where
  | ref (s : SchemaF Schema) : s.reference ≠ [] → Conforms ext formats cls (.mk s)
  | node (s : SchemaF Schema) : s.reference = [] → s.Conforming ext formats cls →
      (∀ c, s.Child c → Conforms ext formats cls c) → Conforms ext formats cls (.mk s)

/-! ## References -/

/-- What reference `n` stands for in the document `s`: `#` is the document itself, anything else is resolved. -/
inductive RefersTo (resolve : Resolver) (s : Schema) : GoStr → Schema → Prop where
  | root : RefersTo resolve s (b! "#") s
  | resolved {n s1} : n ≠ b! "#" → (resolve n).target = .ok s1 → RefersTo resolve s n s1

/-- The name is referred to by the schema or, transitively, by what it refers to. -/
inductive Reaches (resolve : Resolver) (s : Schema) : GoStr → Prop where
  | root {n} : s.Mentions n → Reaches resolve s n
  | step {n k s1} : Reaches resolve s n → RefersTo resolve s n s1 → s1.Mentions k → Reaches resolve s k

/-- `R` is a meaning of the references that agrees with the schemas they stand for. -/
def Meaning (ext : Ext) (resolve : Resolver) (s : Schema) (R : GoStr → GoVal → Prop) : Prop :=
  ∀ n s1, Reaches resolve s n → RefersTo resolve s n s1 → ∀ v, R n v ↔ s1.Valid ext R v

/-- The schema refers to `n` outside properties and items: the reference is applied to the very same value. -/
inductive Schema.MentionsHere (n : GoStr) : Schema → Prop where
  | here {s : SchemaF Schema} : s.reference ≠ [] → s.reference = n → MentionsHere n (.mk s)
  | not {s : SchemaF Schema} {c} : s.reference = [] → s.not = some c → MentionsHere n c → MentionsHere n (.mk s)
  | allOf {s : SchemaF Schema} {c} : s.reference = [] → c ∈ s.allOf → MentionsHere n c → MentionsHere n (.mk s)
  | anyOf {s : SchemaF Schema} {c} : s.reference = [] → c ∈ s.anyOf → MentionsHere n c → MentionsHere n (.mk s)
  | oneOf {s : SchemaF Schema} {c} : s.reference = [] → c ∈ s.oneOf → MentionsHere n c → MentionsHere n (.mk s)
  | dependency {s : SchemaF Schema} {k c} : s.reference = [] → (k, c) ∈ s.depSchemas → MentionsHere n c →
      MentionsHere n (.mk s)

/-- Following references from one schema to the next without descending into the document comes to an end. -/
def Grounded (resolve : Resolver) (s : Schema) : Prop :=
  WellFounded (fun k n => ∃ s1, RefersTo resolve s n s1 ∧ s1.MentionsHere k)

end Jsval
