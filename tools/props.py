#!/usr/bin/env python3
"""Source of properties.jsonl (run: python3 tools/props.py > properties.jsonl)."""
import json
P = []
def p(title, statement, quantifier, why, anchors):
    P.append(dict(id="C%02d" % (len(P)+1), title=title, statement=statement,
                  quantifier=quantifier, why_tests_cant=why, anchors=anchors))

INF = "The claim ranges over every constraint tree and every Go value, an infinite space; a test samples single pairs."
# ---- combinators
p("Any accepts exactly when some child accepts",
  "Any().Add(c1)...Add(cn).Validate(v) returns nil iff at least one ci.Validate(v) returns nil; children after the first accepting one are not run; Any() with no children rejects every value.",
  "every list of child constraints (any length, any nesting), every value, every map-iteration schedule", INF,
  ["combinations.go: AnyConstraint.Validate"])
p("All accepts exactly when every child accepts, and reports the first failure",
  "All() returns nil iff every child returns nil; otherwise it returns, unchanged, the error of the first failing child in Add order; All() with no children accepts every value.",
  "every list of child constraints, every value, every schedule", INF, ["combinations.go: AllConstraint.Validate"])
p("OneOf accepts exactly when one child accepts",
  "OneOf() returns nil iff exactly one of its children returns nil; with zero accepting it reports 'none', with two or more it reports 'more than 1'.",
  "every list of child constraints, every value, every schedule", INF, ["combinations.go: OneOfConstraint.Validate"])
p("Not negates",
  "Not(c).Validate(v) returns nil iff c.Validate(v) returns an error; Not(nil) rejects every value; Not(Not(c)) has the verdict of c.",
  "every child constraint, every value, every schedule", INF, ["basic.go: NotConstraint.Validate"])
p("Reduce preserves validation",
  "For Any, All and OneOf, the constraint returned by Reduce() gives the same verdict on every value as the unreduced combination.",
  "every combination constraint with any number of children, every value", INF, ["combinations.go: reduceCombined, AnyConstraint.Reduce, AllConstraint.Reduce, OneOfConstraint.Reduce"])
p("Combinations never expose a default",
  "HasDefault() is false for Any, All, OneOf, Not, Enum, EmptyConstraint, NullConstraint, arrays and objects whatever their children are, so an object property guarded by one of them is never filled in.",
  "every combination constraint and children", INF, ["basic.go: emptyConstraint.HasDefault, NotConstraint.HasDefault", "interface.go: comboconstraint, EnumConstraint"])
# ---- simple
p("EmptyConstraint accepts everything; NullConstraint accepts exactly nil",
  "EmptyConstraint.Validate(v) is nil for every v. NullConstraint.Validate(v) is nil iff v is nil or a nil chan, func, map, pointer or slice.",
  "every Go value", INF, ["basic.go: emptyConstraint.Validate, nullConstraint.Validate"])
p("Boolean accepts exactly booleans",
  "Boolean().Validate(v) is nil iff v is a bool (no pointer dereference, no coercion from strings or numbers).",
  "every Go value", INF, ["bool.go: BooleanConstraint.Validate"])
p("Enum accepts exactly the listed values",
  "Enum(e1..en).Validate(v) is nil iff v == ei for some i under Go interface equality (same dynamic type and equal value); it never panics unless both v and some ei are uncomparable values of the same type (two maps or two slices).",
  "every list of enumerated values, every Go value", INF, ["enum.go: EnumConstraint.Validate"])
# ---- strings
p("String constraint: exact acceptance",
  "String()...Validate(v) is nil iff v is a string (or non-nil pointer to one), its byte length lies within MinLength/MaxLength when those are non-negative, the Format check passes, the Regexp matches and the value is in Enum, each only when configured.",
  "every configuration of a string constraint, every Go value, every behaviour of the regexp/time/mail/net/url libraries", INF,
  ["string.go: StringConstraint.Validate"])
p("String length limits count characters (JSON Schema)",
  "MinLength/MaxLength bound the number of characters of the string.",
  "every string, including non-ASCII ones", "needs all strings; the property is in fact false for non-ASCII strings because bytes are counted.", ["string.go: StringConstraint.Validate (len(str))"])
p("hostname format accepts exactly well-formed domain names",
  "With Format(\"hostname\") a string passes the format check iff it is 1..255 bytes long, consists of dot-separated labels (one optional trailing dot), each label 1..63 bytes of letters, digits, '_' or '-', not starting or ending with '-', and it contains at least one letter or underscore.",
  "every byte string of any length", "A byte-level automaton over unbounded strings.", ["string.go: isDomainName"])
p("ipv4/ipv6 formats only pass strings the address parser accepts",
  "A string passing Format(\"ipv4\") consists only of digits and dots, and one passing Format(\"ipv6\") only of digits and colons, and net.ParseIP accepts it; conversely such strings pass.",
  "every string, every behaviour of net.ParseIP", INF, ["string.go: StringConstraint.Validate cases ipv4, ipv6"])
p("ipv6 format accepts every IPv6 address (expectation)",
  "Every textual IPv6 address that net.ParseIP accepts passes Format(\"ipv6\").",
  "every IPv6 address literal", "Ranges over all addresses; false of the code because hexadecimal letters are rejected.", ["string.go: StringConstraint.Validate case ipv6"])
p("Unknown formats are ignored",
  "A Format name other than datetime, email, hostname, ipv4, ipv6, uri (in particular JSON Schema's \"date-time\") never affects the verdict.",
  "every format string, every value", INF, ["string.go: StringConstraint.Validate switch sc.format"])
# ---- numbers
p("Number constraint: exact acceptance",
  "Number()...Validate(v) is nil iff v is a float32/float64 (or non-nil pointer to one) and, for each configured rule, it does not violate it: not below Minimum (not equal when exclusive), not above Maximum (not equal when exclusive), an exact multiple of MultipleOf unless that is 0, and a member of Enum as a float64.",
  "every configuration, every Go value including NaN, infinities and signed zero", INF, ["number.go: NumberConstraint.Validate"])
p("A number accepted by Minimum/Maximum lies in the interval (expectation)",
  "If Number().Minimum(a).Maximum(b).Validate(f) is nil then a <= f <= b.",
  "every float64 bounds and value", "Ranges over all floats; false for NaN, which passes every bound check.", ["number.go: NumberConstraint.Validate"])
p("Integer accepts exactly whole numbers",
  "Integer().Validate(v) with no further rule is nil iff v (after one pointer dereference) is of integer or unsigned kind, or a float with Floor(f)==f (so infinities pass and NaN fails); integers of any Go kind and the float of the same value get the same verdict from every integer constraint.",
  "every integer constraint, every Go numeric value", INF, ["number.go: IntegerConstraint.Validate"])
p("Integer bounds are exact",
  "Integer().Minimum(a).Maximum(b) accepts an int n iff a <= n <= b.",
  "every int64/uint64 n and float64 bounds", "Conversion of n to float64 rounds beyond 2^53, so only an all-n argument separates the exact range from the inexact one.", ["number.go: IntegerConstraint.Validate (float64(rv.Int()))"])
p("MultipleOf means exact divisibility",
  "A finite float passes MultipleOf(m), m finite and non-zero, iff it equals k*m for some integer k exactly; MultipleOf(0) never rejects; NaN and infinities always fail a non-zero MultipleOf.",
  "every float64 value and divisor", INF, ["number.go: NumberConstraint.Validate (math.Mod)"])
p("Numeric enumerations compare as float64",
  "An Enum on a Number/Integer constraint can only be matched by float64 entries: entries of any other Go type (int, string, nested list) never match any value.",
  "every enumeration list, every value", INF, ["number.go: NumberConstraint.Validate (enum.Validate(f))"])
# ---- arrays
p("Array: only slices are considered, and length bounds are exact",
  "Array()...Validate(v) fails for every non-slice value (including pointers to slices and Go arrays); for a slice it fails if the length is below a non-negative MinItems or above a non-negative MaxItems; unset bounds are not checked.",
  "every array constraint and value", INF, ["array.go: ArrayConstraint.Validate"])
p("Items applies to every element and overrides positional rules",
  "With Items(c) set, a slice within its length and uniqueness limits passes iff c accepts every element, whatever PositionalItems/AdditionalItems say.",
  "every element constraint, every slice", INF, ["array.go: ArrayConstraint.Validate"])
p("Positional items: exact acceptance",
  "With PositionalItems([c0..ck-1]) and no Items, a slice passes iff each existing element i<k is accepted by ci and, when the slice is longer than k, an additional constraint is set and accepts every element from index k-1 on.",
  "every list of positional constraints, every slice length", INF, ["array.go: ArrayConstraint.Validate lines 83-113"])
p("AdditionalItems applies only to the extra elements (documented)",
  "Only elements beyond the positional ones are validated against AdditionalItems.",
  "every array constraint and slice", "All lengths; false of the code because the loop starts at the last positional element.", ["array.go: lines 106-111, AdditionalItems doc"])
p("Unspecified AdditionalItems forbids extra elements (documented)",
  "If AdditionalItems is never called, a slice longer than PositionalItems is rejected.",
  "every positional list, every longer slice", "All lengths; false of the code because Array() starts with EmptyConstraint.", ["array.go: Array(), AdditionalItems doc"])
p("UniqueItems rejects every repeated element",
  "With UniqueItems(true), a slice is rejected iff two elements at different positions have the same fmt %s rendering; in particular it is rejected whenever two elements are equal. With UniqueItems(false) duplicates never matter.",
  "every slice of any length, every stringification", INF, ["array.go: lines 56-69"])
p("UniqueItems accepts pairwise different elements (expectation)",
  "A slice whose elements are pairwise different passes the UniqueItems check.",
  "every slice", "All slices; false because distinct elements can have the same %s rendering.", ["array.go: UniqueItems caveat"])
# ---- objects
p("MinProperties/MaxProperties bound the number of properties",
  "An object with fewer properties than a non-negative MinProperties or more than a non-negative MaxProperties is rejected before any property is looked at; unset bounds are never checked.",
  "every object constraint, every map or struct", INF, ["object.go: ObjectConstraint.Validate lines 347-353"])
p("A required, declared property must be present",
  "If p was both declared with AddProp and listed in Required, every object lacking p is rejected, even if p's constraint has a default.",
  "every object constraint, every object, every iteration order", INF, ["object.go: lines 400-407"])
p("Every required property must be present (documented)",
  "If p is listed in Required, every object lacking p is rejected.",
  "every object constraint and object", "All property sets; false of the code for required names never declared with AddProp.", ["object.go: Required, Validate"])
p("Undeclared properties are rejected unless allowed",
  "If AdditionalProperties is not set, any object having a property that is neither declared nor matched by a pattern is rejected; if it is set to c, the object is accepted only if c accepts the value of every such property.",
  "every object constraint, every object, every iteration order", INF, ["object.go: lines 463-475"])
p("Pattern properties, over all iteration orders",
  "An object is accepted under every map iteration order iff (other rules aside) for each undeclared property and each pattern matching its name, the pattern's constraint accepts its value.",
  "every set of patterns, every object, every iteration order of Go maps", "Go randomises map order; a test run sees one order.", ["object.go: lines 437-461"])
p("Acceptance of a map object: complete characterisation",
  "For an object constraint whose children do not inject defaults, and whose patterns do not overlap on the object's undeclared names, Validate(map) is nil iff: counts are within bounds; each declared present property is accepted and each declared absent property is not required; each undeclared property is accepted by its pattern, or else by AdditionalProperties which must be set; each property dependency of a declared-or-pattern-matched property is met; each applicable schema dependency accepts the object.",
  "every such object constraint, every map, every iteration order", INF, ["object.go: ObjectConstraint.Validate"])
p("Verdicts do not depend on map iteration order",
  "For a fixed constraint and value the verdict (nil or error) of Validate is the same for every map-iteration order.",
  "every constraint, value and pair of iteration orders", "Go randomises map order; a single run shows one order. False in general (overlapping patterns; schema dependencies that inject defaults), true otherwise.", ["object.go: ObjectConstraint.Validate range loops"])
p("Property dependencies",
  "When a declared or pattern-matched property with property dependencies is present, the object is accepted only if every dependency is itself a present declared or pattern-matched property.",
  "every dependency map, every object, every iteration order", INF, ["object.go: lines 477-491"])
p("Property dependencies hold for every present property (documented)",
  "PropDependency(from, to): whenever `from` is present, the object is accepted iff `to` is present (other rules aside).",
  "every object", "All property names; false for names only covered by AdditionalProperties, in both directions.", ["object.go: PropDependency doc, lines 477-491"])
p("Schema dependencies",
  "When a declared or pattern-matched property with a schema dependency and no property dependency is present, the object is accepted only if the dependency accepts the whole object.",
  "every dependency, every object, every iteration order", INF, ["object.go: lines 493-497"])
p("Defaults fill exactly the absent properties",
  "After an accepting validation of a map, every declared property that was absent and whose constraint has a non-nil default is present with that default, every property that was present at the top level is still present, and no other key has been added by this object's own rules.",
  "every object constraint without schema dependencies, every map, every iteration order", INF, ["object.go: lines 411-425, setProp"])
p("Validation never removes or replaces scalar data",
  "Whatever the constraint and verdict, after Validate the value passed is an extension of the value before: scalars, slice lengths and existing keys are unchanged; the only changes are keys added to maps (and Maybe fields set).",
  "every constraint, every value, every schedule, accepted or rejected", INF, ["object.go: setProp, Validate; array.go: Validate"])
p("Default-free validation is read-only",
  "If no constraint in the tree (through references) has a default, Validate leaves the value exactly as it was, whatever the verdict.",
  "every default-free constraint, every value, every schedule", INF, ["object.go: setProp call"])
p("Validation is repeatable (expectation)",
  "If Validate(v) accepts, a second Validate(v) accepts too.",
  "every constraint and value", "All constraints; false when a default violates its own constraint, since defaults are injected unvalidated.", ["object.go: lines 411-424"])
p("A nil map is rejected or accepted without a panic (expectation)",
  "Validating an object never panics on maps with string keys.",
  "every object constraint, every map including nil maps", "False: injecting a default into a nil map panics; true for non-nil maps without uncomparable enumerations.", ["object.go: setProp (SetMapIndex)"])
p("JSON input never panics the validator",
  "For every value produced by encoding/json into interface{} and every constraint whose enumerations hold only scalars, Validate does not panic.",
  "every constraint (references included), every decoded JSON value, every schedule", INF, ["all Validate methods"])
# ---- references
p("A reference behaves as its target",
  "Reference(m).RefersTo(n) has, in every context, the verdict, default and effects of the constraint registered under n in m; if none is registered, Validate fails and HasDefault is false.",
  "every reference, map, value", INF, ["reference.go: ReferenceConstraint.Validate, Resolved, HasDefault, DefaultValue"])
p("ConstraintMap is a last-writer-wins map",
  "After any sequence of SetReference calls, GetReference(n) returns the constraint of the last SetReference(n, _) or an error if there was none, and Len() is the number of distinct names.",
  "every sequence of operations", "Unbounded histories.", ["reference.go: ConstraintMap"])
p("Resolution is sticky",
  "Under every interleaving of concurrent Resolved() and SetReference calls, once some Resolved() call on a reference has returned a constraint, every later successful Resolved() on it returns that same constraint, and that constraint had been registered under the reference's name at some earlier moment; failed resolutions are not remembered.",
  "every number of goroutines, every interleaving of lock-protected steps", "Schedules cannot be enumerated by tests.", ["reference.go: ReferenceConstraint.Resolved, ConstraintMap.GetReference"])
p("No deadlock between reference and map locks",
  "In every reachable state of concurrent Resolved/SetReference/GetReference calls in which some call is unfinished, some call can take a step.",
  "every number of goroutines, every interleaving", "Schedules cannot be enumerated by tests.", ["reference.go: lock, Resolved, GetReference"])
p("Validation without references terminates; guarded recursion terminates",
  "Validate returns for every constraint without references; with references it returns if every cycle of references passes through an array element or object property and no default is a container.",
  "every constraint environment, every finite value", "Termination is a claim about all runs.", ["all Validate methods; reference.go"])
p("An unguarded reference cycle never returns",
  "A reference whose target is itself (for example the validator built from {\"$ref\":\"#\"}) never returns from Validate or HasDefault on any value.",
  "every value, every number of steps", "Non-termination cannot be observed by a finite run.", ["reference.go: Validate, HasDefault"])
p("JSVal.Validate adds context without changing the verdict",
  "v.Validate(x) is nil iff the root constraint accepts x; otherwise the error is the root's error wrapped with the validator's name.",
  "every validator, name and value", INF, ["jsval.go: JSVal.Validate"])
# ---- Maybe
p("Maybe.Set then Value round-trips, and failed Set changes nothing",
  "For each Maybe type, Set(x) with an accepted dynamic type succeeds, makes Valid() true and Value() the (converted) x; with any other type it returns an error and leaves the Maybe unchanged.",
  "every Maybe type, state and argument", INF, ["maybe.go: MaybeBool/Float/Int/String/Time/Uint.Set, Value"])
p("Maybe.Reset makes the value absent",
  "After Reset(), Valid() is false and object validation treats the property as missing, whatever was set before; a later successful Set makes it valid again.",
  "every history of Set/Reset/UnmarshalJSON calls", "Unbounded histories.", ["maybe.go: ValidFlag.Reset, Valid; object.go: lines 384-394"])
p("Reset clears the value (documented)",
  "After Reset(), the Maybe value equals a freshly declared one.",
  "every Maybe value", "All histories; false of the code because only the flag is cleared.", ["maybe.go: Maybe.Reset doc, ValidFlag.Reset"])
p("Successful UnmarshalJSON makes a Maybe valid",
  "After a successful UnmarshalJSON, Valid() is true and Value() is the decoded value.",
  "every Maybe type and JSON input", "All inputs; false for MaybeTime, whose UnmarshalJSON never sets the flag.", ["maybe.go: UnmarshalJSON methods"])
# ---- struct info
p("JSON names of struct fields",
  "An exported, non-anonymous field is visible under the part of its json tag before the first comma, or its Go name when that part is empty; a tag of exactly \"-\" hides it; unexported fields are hidden; embedded struct fields are visible as if declared in place.",
  "every struct type, every tag string", INF, ["structinfo.go: extract"])
p("Unset Maybe fields are not properties",
  "A struct's property names are exactly the visible names whose field is not an invalid Maybe.",
  "every struct value", INF, ["structinfo.go: StructInfo.PropNames"])
p("The struct registry always returns the extracted info",
  "Under every interleaving of concurrent Lookup/Register calls, every info returned for a type is the one extracted from that type.",
  "every number of goroutines, every interleaving, every set of types", "Schedules cannot be enumerated by tests.", ["structinfo.go: StructInfoRegistry.Lookup, Register"])
p("Struct validation agrees with map validation",
  "For a flat struct with distinct exported JSON names, passed by pointer, validation gives the same verdict as validating the map of its present properties, when all properties are declared.",
  "every such struct, every object constraint, every schedule", INF, ["object.go: getProp, getPropNames, Validate"])
p("Missing default on a struct passed by value panics; by pointer sets the field",
  "Filling a default into an unset Maybe field works through a pointer and panics when the struct was passed by value.",
  "every struct, default and Maybe kind accepting the default", INF, ["object.go: setProp"])
# ---- builder
p("Build rejects a nil schema and leaves no dangling references",
  "Build(nil) fails; whenever Build succeeds, every reference occurring in the root or in any registered constraint is registered in the validator's map.",
  "every schema document and resolver, every iteration order", "Unbounded schema graphs.", ["builder/builder.go: Build, BuildWithCtx, compileReferences"])
p("Building terminates",
  "Building returns for every schema whose references range over a finite set of names.",
  "every such schema document", "Termination over all documents.", ["builder/builder.go: compileReferences"])
p("Built validators implement the schema",
  "For schemas in the conforming fragment (explicit types, at most one combinator, required names declared, non-overlapping patterns, ...), the validator accepts a decoded JSON value iff it is valid under the JSON Schema draft-4 reading of those keywords.",
  "every schema of the fragment, every JSON value, every iteration order", INF, ["builder/*.go: buildFromSchema and build*Constraint"])
p("Every combinator keyword is honoured (expectation)",
  "If a schema has several of not/allOf/anyOf/oneOf, all of them constrain the value.",
  "every schema", "All schemas; false because only the first in the order not, allOf, anyOf, oneOf is built.", ["builder/builder.go: buildFromSchema switch"])
p("enum is honoured for every type (expectation)",
  "A built validator only accepts values listed in the schema's enum.",
  "every schema with enum, every value", "All schemas; false for boolean/array/object/null types, and number schemas with enum reject everything.", ["builder/number.go: nc.Enum(lst)", "builder/bool.go", "builder/builder.go"])
p("Type order in the schema is irrelevant",
  "Permuting the type array of a schema does not change the built validator.",
  "every schema and permutation", INF, ["builder/builder.go: sort.Sort(sts)"])
p("Type guessing",
  "A schema without type is treated as a union of the types its keywords suggest; with no suggesting keyword and no enum the built validator imposes no type.",
  "every schema without type", INF, ["builder/builder.go: guessSchemaType and schemaLooksLike*"])
# ---- generator
p("Generated code is deterministic",
  "For validators whose pattern sources are distinct within each object and whose references are distinct constraints, Process emits the same code for every map iteration order.",
  "every validator, every iteration order", "Go randomises map order.", ["generator.go: Process, generateObjectCode"])
p("Generated validators behave like the original",
  "For constraints in the supported fragment, running the generated builder expression yields a constraint with the same verdict on every value.",
  "every constraint in the fragment, every value", INF, ["generator.go: generateCode and helpers"])
p("Generated code covers every constraint feature (expectation)",
  "For every constraint, the generated constructor expression rebuilds an equivalent constraint.",
  "every constraint", "All constraints; false: numeric multipleOf/enum, min/maxProperties, schema dependencies, nil AdditionalItems, empty Any/OneOf, fractional integer bounds and standalone Enum are lost.", ["generator.go: generateIntegerCode, generateNumberCode, generateObjectCode, generateArrayCode, generateComboCode"])
p("String literals survive code generation",
  "Text written by the generator for a constraint is emitted verbatim.",
  "every constraint and string", "All strings; false when the text contains '%', since it is used as a format string.", ["generator.go: fmt.Fprintf(out, s)"])
p("Validator names in generated code",
  "Unnamed validators get the name V<i> of their position; named ones keep theirs; declarations are emitted in sorted order, one per validator.",
  "every list of validators", INF, ["generator.go: Process"])
if __name__ == "__main__":
    for x in P: print(json.dumps(x, ensure_ascii=False))
