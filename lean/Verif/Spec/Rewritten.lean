import Verif.Model.Builder
/-!
# One schema written in two ways

A document with definitions can be written in many ways: a definition may be written out where it is used, a part may become a definition of its own,
definitions may be renamed, a recursive one may be unrolled.
-/
namespace Jsval

/-- In the document `s`, `n` is a name for `t`: `#` for the document, any other name for what it resolves to. -/
def Leads (resolve : Resolver) (s : Schema) (n : GoStr) (t : Schema) : Prop := n = b! "#" ∧ t = s ∨ n ≠ b! "#" ∧ (resolve n).target = .ok t

/-- Two schemas are the same keyword by keyword, except that one may have a `$ref` where the other has what the name leads to, and that the names of two
`$ref`s may differ as `N` allows. Next to a `$ref` anything may stand. `L` and `L'` say what names lead to on either side. -/
inductive Rewritten (L L' : GoStr → Schema → Prop) (N : GoStr → GoStr → Prop) : Schema → Schema → Prop where
  | nil : Rewritten L L' N .nil .nil
  | same {s : SchemaF (Schema × Schema)} : s.reference = [] → (∀ p, s.Child p → Rewritten L L' N p.1 p.2) →
      Rewritten L L' N (.mk (s.map Prod.fst)) (.mk (s.map Prod.snd))
  | names {s s' : SchemaF Schema} : s.reference ≠ [] → s'.reference ≠ [] → N s.reference s'.reference → Rewritten L L' N (.mk s) (.mk s')
  | left {s : SchemaF Schema} {t s' : Schema} : s.reference ≠ [] → L s.reference t → Rewritten L L' N t s' → Rewritten L L' N (.mk s) s'
  | right {s t' : Schema} {s' : SchemaF Schema} : s'.reference ≠ [] → L' s'.reference t' → Rewritten L L' N s t' → Rewritten L L' N s (.mk s')

/-- Two documents that say the same, written in two ways: names taken for each other lead to schemas that are so related again. That `#` is the document
holds for the resolvers as well. -/
structure SameDocument (resolve resolve' : Resolver) (N : GoStr → GoStr → Prop) (s s' : Schema) : Prop where
  whole : Rewritten (Leads resolve s) (Leads resolve' s') N s s'
  parts : ∀ {n n' t t'}, N n n' → Leads resolve s n t → Leads resolve' s' n' t' → Rewritten (Leads resolve s) (Leads resolve' s') N t t'
  root : ∀ t, (resolve (b! "#")).target = .ok t → t = s
  root' : ∀ t, (resolve' (b! "#")).target = .ok t → t = s'

end Jsval
