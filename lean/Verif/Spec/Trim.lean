import Verif.Model.Schema
/-!
# Keywords that do not apply

In draft 4 a keyword speaks about values of one kind (numbers, strings, arrays or objects), and next to a `$ref` all others are ignored.
-/
namespace Jsval

/-- Where the types are listed, the keywords for other types are left out; next to a reference all keywords are. -/
def SchemaF.trim {S : Type} (s : SchemaF S) : SchemaF S :=
  if s.reference ≠ [] then { reference := s.reference }
  else if s.type = [] then s
  else
    let s := if .number ∈ s.type ∨ .integer ∈ s.type then s
      else { s with multipleOf := none, minimum := none, maximum := none, exclMin := none, exclMax := none }
    let s := if .string ∈ s.type then s else { s with minLength := none, maxLength := none, pattern := none, format := [] }
    let s := if .array ∈ s.type then s
      else { s with items := .nil, additionalItems := .allow, minItems := none, maxItems := none, uniqueItems := none }
    if .object ∈ s.type then s
    else { s with required := [], minProps := none, maxProps := none, properties := [], patternProps := [], additionalProps := .allow,
                  depNames := [], depSchemas := [] }

/-- The same in all sub-schemas. -/
def Schema.trim : Schema → Schema := Schema.fold .nil (fun s => .mk s.trim)

end Jsval
