import Verif.Model.Gentest
/-!
# The checked-in validator of draft-4 schemas, and the schema it was made from

`generated_validator_test.go` is the output of `internal/cmd/gentest` for `schema.json`. Its text is given here byte by byte (after the
header, which the program writes itself); `schema.json` is given as the schema library reads it (`id`, `$schema` and `description` of the
schema itself are not kept in the fields modelled).
-/
namespace Jsval

/-- The lines of generated_validator_test.go from line 4 on (4-241). -/
def testValidatorLines : List GoStr := [
  b! "\n",
  b! "var V0 *jsval.JSVal\n",
  b! "var M *jsval.ConstraintMap\n",
  b! "var R0 jsval.Constraint\n",
  b! "var R1 jsval.Constraint\n",
  b! "var R2 jsval.Constraint\n",
  b! "var R3 jsval.Constraint\n",
  b! "var R4 jsval.Constraint\n",
  b! "var R5 jsval.Constraint\n",
  b! "\n",
  b! "func init() {\n",
  b! "\tM = &jsval.ConstraintMap{}\n",
  b! "\tR0 = jsval.Object().\n",
  b! "\t\tAdditionalProperties(\n",
  b! "\t\t\tjsval.EmptyConstraint,\n",
  b! "\t\t).\n",
  b! "\t\tAddProp(\n",
  b! "\t\t\t\"$schema\",\n",
  b! "\t\t\tjsval.String().Format(\"uri\"),\n",
  b! "\t\t).\n",
  b! "\t\tAddProp(\n",
  b! "\t\t\t\"additionalItems\",\n",
  b! "\t\t\tjsval.Any().\n",
  b! "\t\t\t\tAdd(\n",
  b! "\t\t\t\t\tjsval.Boolean(),\n",
  b! "\t\t\t\t).\n",
  b! "\t\t\t\tAdd(\n",
  b! "\t\t\t\t\tjsval.Reference(M).RefersTo(\"#\"),\n",
  b! "\t\t\t\t),\n",
  b! "\t\t).\n",
  b! "\t\tAddProp(\n",
  b! "\t\t\t\"additionalProperties\",\n",
  b! "\t\t\tjsval.Any().\n",
  b! "\t\t\t\tAdd(\n",
  b! "\t\t\t\t\tjsval.Boolean(),\n",
  b! "\t\t\t\t).\n",
  b! "\t\t\t\tAdd(\n",
  b! "\t\t\t\t\tjsval.Reference(M).RefersTo(\"#\"),\n",
  b! "\t\t\t\t),\n",
  b! "\t\t).\n",
  b! "\t\tAddProp(\n",
  b! "\t\t\t\"allOf\",\n",
  b! "\t\t\tjsval.Reference(M).RefersTo(\"#/definitions/schemaArray\"),\n",
  b! "\t\t).\n",
  b! "\t\tAddProp(\n",
  b! "\t\t\t\"anyOf\",\n",
  b! "\t\t\tjsval.Reference(M).RefersTo(\"#/definitions/schemaArray\"),\n",
  b! "\t\t).\n",
  b! "\t\tAddProp(\n",
  b! "\t\t\t\"default\",\n",
  b! "\t\t\tjsval.EmptyConstraint,\n",
  b! "\t\t).\n",
  b! "\t\tAddProp(\n",
  b! "\t\t\t\"definitions\",\n",
  b! "\t\t\tjsval.Object().\n",
  b! "\t\t\t\tAdditionalProperties(\n",
  b! "\t\t\t\t\tjsval.Reference(M).RefersTo(\"#\"),\n",
  b! "\t\t\t\t),\n",
  b! "\t\t).\n",
  b! "\t\tAddProp(\n",
  b! "\t\t\t\"dependencies\",\n",
  b! "\t\t\tjsval.Object().\n",
  b! "\t\t\t\tAdditionalProperties(\n",
  b! "\t\t\t\t\tjsval.Any().\n",
  b! "\t\t\t\t\t\tAdd(\n",
  b! "\t\t\t\t\t\t\tjsval.Reference(M).RefersTo(\"#\"),\n",
  b! "\t\t\t\t\t\t).\n",
  b! "\t\t\t\t\t\tAdd(\n",
  b! "\t\t\t\t\t\t\tjsval.Reference(M).RefersTo(\"#/definitions/stringArray\"),\n",
  b! "\t\t\t\t\t\t),\n",
  b! "\t\t\t\t),\n",
  b! "\t\t).\n",
  b! "\t\tAddProp(\n",
  b! "\t\t\t\"description\",\n",
  b! "\t\t\tjsval.String(),\n",
  b! "\t\t).\n",
  b! "\t\tAddProp(\n",
  b! "\t\t\t\"enum\",\n",
  b! "\t\t\tjsval.Array().\n",
  b! "\t\t\t\tAdditionalItems(\n",
  b! "\t\t\t\t\tjsval.EmptyConstraint,\n",
  b! "\t\t\t\t).\n",
  b! "\t\t\t\tMinItems(1).\n",
  b! "\t\t\t\tUniqueItems(true),\n",
  b! "\t\t).\n",
  b! "\t\tAddProp(\n",
  b! "\t\t\t\"exclusiveMaximum\",\n",
  b! "\t\t\tjsval.Boolean().Default(false),\n",
  b! "\t\t).\n",
  b! "\t\tAddProp(\n",
  b! "\t\t\t\"exclusiveMinimum\",\n",
  b! "\t\t\tjsval.Boolean().Default(false),\n",
  b! "\t\t).\n",
  b! "\t\tAddProp(\n",
  b! "\t\t\t\"id\",\n",
  b! "\t\t\tjsval.String().Format(\"uri\"),\n",
  b! "\t\t).\n",
  b! "\t\tAddProp(\n",
  b! "\t\t\t\"items\",\n",
  b! "\t\t\tjsval.Any().\n",
  b! "\t\t\t\tAdd(\n",
  b! "\t\t\t\t\tjsval.Reference(M).RefersTo(\"#\"),\n",
  b! "\t\t\t\t).\n",
  b! "\t\t\t\tAdd(\n",
  b! "\t\t\t\t\tjsval.Reference(M).RefersTo(\"#/definitions/schemaArray\"),\n",
  b! "\t\t\t\t),\n",
  b! "\t\t).\n",
  b! "\t\tAddProp(\n",
  b! "\t\t\t\"maxItems\",\n",
  b! "\t\t\tjsval.Reference(M).RefersTo(\"#/definitions/positiveInteger\"),\n",
  b! "\t\t).\n",
  b! "\t\tAddProp(\n",
  b! "\t\t\t\"maxLength\",\n",
  b! "\t\t\tjsval.Reference(M).RefersTo(\"#/definitions/positiveInteger\"),\n",
  b! "\t\t).\n",
  b! "\t\tAddProp(\n",
  b! "\t\t\t\"maxProperties\",\n",
  b! "\t\t\tjsval.Reference(M).RefersTo(\"#/definitions/positiveInteger\"),\n",
  b! "\t\t).\n",
  b! "\t\tAddProp(\n",
  b! "\t\t\t\"maximum\",\n",
  b! "\t\t\tjsval.Number(),\n",
  b! "\t\t).\n",
  b! "\t\tAddProp(\n",
  b! "\t\t\t\"minItems\",\n",
  b! "\t\t\tjsval.Reference(M).RefersTo(\"#/definitions/positiveIntegerDefault0\"),\n",
  b! "\t\t).\n",
  b! "\t\tAddProp(\n",
  b! "\t\t\t\"minLength\",\n",
  b! "\t\t\tjsval.Reference(M).RefersTo(\"#/definitions/positiveIntegerDefault0\"),\n",
  b! "\t\t).\n",
  b! "\t\tAddProp(\n",
  b! "\t\t\t\"minProperties\",\n",
  b! "\t\t\tjsval.Reference(M).RefersTo(\"#/definitions/positiveIntegerDefault0\"),\n",
  b! "\t\t).\n",
  b! "\t\tAddProp(\n",
  b! "\t\t\t\"minimum\",\n",
  b! "\t\t\tjsval.Number(),\n",
  b! "\t\t).\n",
  b! "\t\tAddProp(\n",
  b! "\t\t\t\"multipleOf\",\n",
  b! "\t\t\tjsval.Number().Minimum(0.000000).ExclusiveMinimum(true),\n",
  b! "\t\t).\n",
  b! "\t\tAddProp(\n",
  b! "\t\t\t\"not\",\n",
  b! "\t\t\tjsval.Reference(M).RefersTo(\"#\"),\n",
  b! "\t\t).\n",
  b! "\t\tAddProp(\n",
  b! "\t\t\t\"oneOf\",\n",
  b! "\t\t\tjsval.Reference(M).RefersTo(\"#/definitions/schemaArray\"),\n",
  b! "\t\t).\n",
  b! "\t\tAddProp(\n",
  b! "\t\t\t\"pattern\",\n",
  b! "\t\t\tjsval.String().Format(\"regex\"),\n",
  b! "\t\t).\n",
  b! "\t\tAddProp(\n",
  b! "\t\t\t\"patternProperties\",\n",
  b! "\t\t\tjsval.Object().\n",
  b! "\t\t\t\tAdditionalProperties(\n",
  b! "\t\t\t\t\tjsval.Reference(M).RefersTo(\"#\"),\n",
  b! "\t\t\t\t),\n",
  b! "\t\t).\n",
  b! "\t\tAddProp(\n",
  b! "\t\t\t\"properties\",\n",
  b! "\t\t\tjsval.Object().\n",
  b! "\t\t\t\tAdditionalProperties(\n",
  b! "\t\t\t\t\tjsval.Reference(M).RefersTo(\"#\"),\n",
  b! "\t\t\t\t),\n",
  b! "\t\t).\n",
  b! "\t\tAddProp(\n",
  b! "\t\t\t\"required\",\n",
  b! "\t\t\tjsval.Reference(M).RefersTo(\"#/definitions/stringArray\"),\n",
  b! "\t\t).\n",
  b! "\t\tAddProp(\n",
  b! "\t\t\t\"title\",\n",
  b! "\t\t\tjsval.String(),\n",
  b! "\t\t).\n",
  b! "\t\tAddProp(\n",
  b! "\t\t\t\"type\",\n",
  b! "\t\t\tjsval.Any().\n",
  b! "\t\t\t\tAdd(\n",
  b! "\t\t\t\t\tjsval.Reference(M).RefersTo(\"#/definitions/simpleTypes\"),\n",
  b! "\t\t\t\t).\n",
  b! "\t\t\t\tAdd(\n",
  b! "\t\t\t\t\tjsval.Array().\n",
  b! "\t\t\t\t\t\tItems(\n",
  b! "\t\t\t\t\t\t\tjsval.Reference(M).RefersTo(\"#/definitions/simpleTypes\"),\n",
  b! "\t\t\t\t\t\t).\n",
  b! "\t\t\t\t\t\tAdditionalItems(\n",
  b! "\t\t\t\t\t\t\tjsval.EmptyConstraint,\n",
  b! "\t\t\t\t\t\t).\n",
  b! "\t\t\t\t\t\tMinItems(1).\n",
  b! "\t\t\t\t\t\tUniqueItems(true),\n",
  b! "\t\t\t\t),\n",
  b! "\t\t).\n",
  b! "\t\tAddProp(\n",
  b! "\t\t\t\"uniqueItems\",\n",
  b! "\t\t\tjsval.Boolean().Default(false),\n",
  b! "\t\t).\n",
  b! "\t\tPropDependency(\"exclusiveMaximum\", \"maximum\").\n",
  b! "\t\tPropDependency(\"exclusiveMinimum\", \"minimum\")\n",
  b! "\tR1 = jsval.Integer().Minimum(0)\n",
  b! "\tR2 = jsval.All().\n",
  b! "\t\tAdd(\n",
  b! "\t\t\tjsval.Reference(M).RefersTo(\"#/definitions/positiveInteger\"),\n",
  b! "\t\t).\n",
  b! "\t\tAdd(\n",
  b! "\t\t\tjsval.EmptyConstraint,\n",
  b! "\t\t)\n",
  b! "\tR3 = jsval.Array().\n",
  b! "\t\tItems(\n",
  b! "\t\t\tjsval.Reference(M).RefersTo(\"#\"),\n",
  b! "\t\t).\n",
  b! "\t\tAdditionalItems(\n",
  b! "\t\t\tjsval.EmptyConstraint,\n",
  b! "\t\t).\n",
  b! "\t\tMinItems(1)\n",
  b! "\tR4 = jsval.String().Enum(\"array\", \"boolean\", \"integer\", \"null\", \"number\", \"object\", \"string\")\n",
  b! "\tR5 = jsval.Array().\n",
  b! "\t\tItems(\n",
  b! "\t\t\tjsval.String(),\n",
  b! "\t\t).\n",
  b! "\t\tAdditionalItems(\n",
  b! "\t\t\tjsval.EmptyConstraint,\n",
  b! "\t\t).\n",
  b! "\t\tMinItems(1).\n",
  b! "\t\tUniqueItems(true)\n",
  b! "\tM.SetReference(\"#\", R0)\n",
  b! "\tM.SetReference(\"#/definitions/positiveInteger\", R1)\n",
  b! "\tM.SetReference(\"#/definitions/positiveIntegerDefault0\", R2)\n",
  b! "\tM.SetReference(\"#/definitions/schemaArray\", R3)\n",
  b! "\tM.SetReference(\"#/definitions/simpleTypes\", R4)\n",
  b! "\tM.SetReference(\"#/definitions/stringArray\", R5)\n",
  b! "\tV0 = jsval.New().\n",
  b! "\t\tSetName(\"V0\").\n",
  b! "\t\tSetConstraintMap(M).\n",
  b! "\t\tSetRoot(R0)\n",
  b! "}"]

/-- generated_validator_test.go without its first three lines. -/
def testValidatorBody : GoStr := testValidatorLines.flatten

/-- generated_validator_test.go. -/
def testValidatorFile : GoStr := testHeader ++ testValidatorBody

/-- `{"$ref": n}`. -/
def refTo (n : GoStr) : Schema := .mk { reference := n }

/-- `{"type": t}`. -/
def typed (t : PrimType) : Schema := .mk { type := [t] }

/-- schema.json:28-149. -/
def draft4F : SchemaF Schema where
  type := [.object]
  properties := [
    (b! "id", .mk { type := [.string], format := b! "uri" }),
    (b! "$schema", .mk { type := [.string], format := b! "uri" }),
    (b! "title", typed .string),
    (b! "description", typed .string),
    (b! "default", .mk {}),
    (b! "multipleOf", .mk { type := [.number], minimum := some F64.zero, exclMin := some true }),
    (b! "maximum", typed .number),
    (b! "exclusiveMaximum", .mk { type := [.boolean], dflt := .bool false }),
    (b! "minimum", typed .number),
    (b! "exclusiveMinimum", .mk { type := [.boolean], dflt := .bool false }),
    (b! "maxLength", refTo (b! "#/definitions/positiveInteger")),
    (b! "minLength", refTo (b! "#/definitions/positiveIntegerDefault0")),
    (b! "pattern", .mk { type := [.string], format := b! "regex" }),
    (b! "additionalItems", .mk { anyOf := [typed .boolean, refTo (b! "#")], dflt := .map false [] }),
    (b! "items", .mk { anyOf := [refTo (b! "#"), refTo (b! "#/definitions/schemaArray")], dflt := .map false [] }),
    (b! "maxItems", refTo (b! "#/definitions/positiveInteger")),
    (b! "minItems", refTo (b! "#/definitions/positiveIntegerDefault0")),
    (b! "uniqueItems", .mk { type := [.boolean], dflt := .bool false }),
    (b! "maxProperties", refTo (b! "#/definitions/positiveInteger")),
    (b! "minProperties", refTo (b! "#/definitions/positiveIntegerDefault0")),
    (b! "required", refTo (b! "#/definitions/stringArray")),
    (b! "additionalProperties", .mk { anyOf := [typed .boolean, refTo (b! "#")], dflt := .map false [] }),
    (b! "definitions", .mk { type := [.object], additionalProps := .schema (refTo (b! "#")), dflt := .map false [] }),
    (b! "properties", .mk { type := [.object], additionalProps := .schema (refTo (b! "#")), dflt := .map false [] }),
    (b! "patternProperties", .mk { type := [.object], additionalProps := .schema (refTo (b! "#")), dflt := .map false [] }),
    (b! "dependencies", .mk { type := [.object], additionalProps := .schema (.mk { anyOf := [refTo (b! "#"), refTo (b! "#/definitions/stringArray")] }) }),
    (b! "enum", .mk { type := [.array], minItems := some 1, uniqueItems := some true }),
    (b! "type", .mk { anyOf := [refTo (b! "#/definitions/simpleTypes"), .mk { type := [.array], items := .list [refTo (b! "#/definitions/simpleTypes")], minItems := some 1, uniqueItems := some true }] }),
    (b! "allOf", refTo (b! "#/definitions/schemaArray")),
    (b! "anyOf", refTo (b! "#/definitions/schemaArray")),
    (b! "oneOf", refTo (b! "#/definitions/schemaArray")),
    (b! "not", refTo (b! "#"))]
  depNames := [(b! "exclusiveMaximum", [b! "maximum"]), (b! "exclusiveMinimum", [b! "minimum"])]
  dflt := .map false []

/-- schema.json. -/
def draft4 : Schema := .mk draft4F

/-- What the references of schema.json lead to (schema.json:5-27). -/
def draft4Resolve : Resolver := fun n =>
  if n = b! "#" then .schema draft4
  else if n = b! "#/definitions/schemaArray" then
    .object (some { type := [.array], minItems := some 1, items := .list [refTo (b! "#")] })
  else if n = b! "#/definitions/positiveInteger" then .object (some { type := [.integer], minimum := some F64.zero })
  else if n = b! "#/definitions/positiveIntegerDefault0" then
    .object (some { allOf := [refTo (b! "#/definitions/positiveInteger"), .mk { dflt := .float .f64 F64.zero }] })
  else if n = b! "#/definitions/simpleTypes" then
    .object (some { enum := [b! "array", b! "boolean", b! "integer", b! "null", b! "number", b! "object", b! "string"].map .str })
  else if n = b! "#/definitions/stringArray" then
    .object (some { type := [.array], items := .list [typed .string], minItems := some 1, uniqueItems := some true })
  else .fail

end Jsval
