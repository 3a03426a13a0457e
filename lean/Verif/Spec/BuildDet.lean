import Verif.Spec.Buildable
/-!
# Schemas as they come from JSON text
-/
namespace Jsval

/-- The maps of a schema have each name once, and different patterns have different texts. -/
structure SchemaF.Keyed {S : Type} (s : SchemaF S) : Prop where
  propNames : (s.properties.map (·.1)).Nodup
  patternIds : (s.patternProps.map (·.1)).Nodup
  patternTexts : (s.patternProps.map (·.2.1)).Nodup
  depNameKeys : (s.depNames.map (·.1)).Nodup
  depSchemaKeys : (s.depSchemas.map (·.1)).Nodup

/-- All schemas of the tree are like that; next to a `$ref` anything may stand. -/
inductive Schema.Keyed : Schema → Prop where
  | nil : Keyed .nil
  | ref (s : SchemaF Schema) : s.reference ≠ [] → Keyed (.mk s)
  | node (s : SchemaF Schema) : s.reference = [] → s.Keyed → (∀ c, s.Child c → Keyed c) → Keyed (.mk s)

/-- The schema and all that is resolved to build it have proper maps. -/
structure KeyedAll (formats : List GoStr) (resolve : Resolver) (s : Schema) : Prop where
  self : s.Keyed
  refs : ∀ n s1, MustResolve formats resolve s n → (resolve n).target = .ok s1 → s1.Keyed

/-- At most one of the registered constraints is the root itself. -/
def OneName (same : GoStr → Bool) : Prop := ∀ n n', same n = true → same n' = true → n = n'

end Jsval
