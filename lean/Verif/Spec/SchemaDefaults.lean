import Verif.Spec.JsonSchema
/-!
# Vocabulary: schemas with defaults
-/
namespace Jsval

/-- The schema without its defaults. -/
def Schema.plain : Schema → Schema := Schema.fold .nil (fun s => .mk { s with dflt := .nil })

section
variable (resolve : Resolver) (root : Schema)

/-- `UsesSchema resolve root s t`: `t` is `s`, or a sub-schema, or what it refers to, and so on. Next to a `$ref` nothing is used. -/
inductive UsesSchema : Schema → Schema → Prop where
  | refl (s) : UsesSchema s s
  | child {s : SchemaF Schema} {c t} : s.reference = [] → s.Child c → UsesSchema c t → UsesSchema (.mk s) t
  | ref {s : SchemaF Schema} {s1 t} : s.reference ≠ [] → RefersTo resolve root s.reference s1 → UsesSchema s1 t → UsesSchema (.mk s) t

/-- Where the default of a property may be taken from: its schema, a branch of that schema, or what it refers to. -/
inductive TakesFrom : Schema → Schema → Prop where
  | refl (s) : TakesFrom s s
  | branch {s : SchemaF Schema} {c t} : s.reference = [] → (c ∈ s.allOf ∨ c ∈ s.anyOf ∨ c ∈ s.oneOf) → TakesFrom c t →
      TakesFrom (.mk s) t
  | ref {s : SchemaF Schema} {s1 t} : s.reference ≠ [] → RefersTo resolve root s.reference s1 → TakesFrom s1 t → TakesFrom (.mk s) t

/-- A property with this schema may be filled in. -/
def HasDefault (s : Schema) : Prop := ∃ f, TakesFrom resolve root s (.mk f) ∧ f.reference = [] ∧ f.dflt ≠ .nil

/-- No schema it uses has a property that may be filled in. -/
def Quiet (s : Schema) : Prop :=
  ∀ f, UsesSchema resolve root s (.mk f) → f.reference = [] → ∀ n p, (n, p) ∈ f.properties → ¬ HasDefault resolve root p

end

/-- No combinators. -/
def SchemaF.NoCombos {S : Type} (s : SchemaF S) : Prop := s.not = none ∧ s.allOf = [] ∧ s.anyOf = [] ∧ s.oneOf = []

/-- Schemas for different kinds of values, the first one objects or arrays, or references to such schemas. -/
inductive Schema.Alien (resolve : Resolver) (root : Schema) : Schema → Schema → Prop where
  | mk {s t : SchemaF Schema} {a b : PrimType} : s.reference = [] → t.reference = [] → s.NoCombos → t.NoCombos →
      s.type = [a] → t.type = [b] → a ≠ b → (a = .object ∨ a = .array) → Alien resolve root (.mk s) (.mk t)
  | left {s : SchemaF Schema} {s1 t : Schema} : s.reference ≠ [] → RefersTo resolve root s.reference s1 → Alien resolve root s1 t →
      Alien resolve root (.mk s) t
  | right {s t1 : Schema} {t : SchemaF Schema} : t.reference ≠ [] → RefersTo resolve root t.reference t1 → Alien resolve root s t1 →
      Alien resolve root s (.mk t)

/-- What this schema fills in is not looked at afterwards: of the branches of `allOf`, `anyOf` and `oneOf` only the last may fill in,
except that in `anyOf` and `oneOf` branches for different kinds of values may; no branch may if there are further keywords; tuple items
may not if there is a schema for additional items; and nothing may if there are schema dependencies. -/
structure SchemaF.Discreet (formats : List GoStr) (resolve : Resolver) (root : Schema) (s : SchemaF Schema) : Prop where
  allOf : s.allOf.Pairwise fun a _ => Quiet resolve root a
  anyOf : s.anyOf.Pairwise fun a b => Quiet resolve root a ∨ Schema.Alien resolve root a b
  oneOf : s.oneOf.Pairwise fun a b => Quiet resolve root a ∨ Schema.Alien resolve root a b
  beside : (s.type ≠ [] ∨ s.enum ≠ [] ∨ ∃ t, Suggests formats s t) →
    ∀ c, (s.not = some c ∨ c ∈ s.allOf ∨ c ∈ s.anyOf ∨ c ∈ s.oneOf) → Quiet resolve root c
  types : s.type.Nodup
  tuple : ∀ l x, s.items = .tuple l → s.additionalItems = .schema x → ∀ c ∈ l, Quiet resolve root c
  deps : s.depSchemas = [] ∨ Quiet resolve root (.mk s)

/-- Every schema of the document, also those it refers to, is discreet. -/
def Schema.Discreet (formats : List GoStr) (resolve : Resolver) (root : Schema) : Prop :=
  ∀ f, UsesSchema resolve root root (.mk f) → f.reference = [] → f.Discreet formats resolve root

/-- Resolving to schemas without defaults. -/
def Resolved.plain : Resolved → Resolved
  | .fail => .fail
  | .schema s => .schema s.plain
  | .object none => .object none
  | .object (some s) => .object (some { s.map Schema.plain with dflt := .nil })
  | .other => .other

/-- The same for all names. -/
def Resolver.plain (resolve : Resolver) : Resolver := fun n => (resolve n).plain

end Jsval
