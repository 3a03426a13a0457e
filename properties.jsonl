{"id": "C01", "title": "Any accepts exactly when some child accepts", "statement": "Any().Add(c1)...Add(cn).Validate(v) returns nil iff at least one ci.Validate(v) returns nil; children after the first accepting one are not run; Any() with no children rejects every value.", "quantifier": "every list of child constraints (any length, any nesting), every value, every map-iteration schedule", "why_tests_cant": "The claim ranges over every constraint tree and every Go value, an infinite space; a test samples single pairs.", "anchors": ["combinations.go: AnyConstraint.Validate"]}
{"id": "C02", "title": "All accepts exactly when every child accepts, and reports the first failure", "statement": "All() returns nil iff every child returns nil; otherwise it returns, unchanged, the error of the first failing child in Add order; All() with no children accepts every value.", "quantifier": "every list of child constraints, every value, every schedule", "why_tests_cant": "The claim ranges over every constraint tree and every Go value, an infinite space; a test samples single pairs.", "anchors": ["combinations.go: AllConstraint.Validate"]}
{"id": "C03", "title": "OneOf accepts exactly when one child accepts", "statement": "OneOf() returns nil iff exactly one of its children returns nil; with zero accepting it reports 'none', with two or more it reports 'more than 1'.", "quantifier": "every list of child constraints, every value, every schedule", "why_tests_cant": "The claim ranges over every constraint tree and every Go value, an infinite space; a test samples single pairs.", "anchors": ["combinations.go: OneOfConstraint.Validate"]}
{"id": "C04", "title": "Not negates", "statement": "Not(c).Validate(v) returns nil iff c.Validate(v) returns an error; Not(nil) rejects every value; Not(Not(c)) has the verdict of c.", "quantifier": "every child constraint, every value, every schedule", "why_tests_cant": "The claim ranges over every constraint tree and every Go value, an infinite space; a test samples single pairs.", "anchors": ["basic.go: NotConstraint.Validate"]}
{"id": "C05", "title": "Reduce preserves validation", "statement": "For Any, All and OneOf, the constraint returned by Reduce() gives the same verdict on every value as the unreduced combination.", "quantifier": "every combination constraint with any number of children, every value", "why_tests_cant": "The claim ranges over every constraint tree and every Go value, an infinite space; a test samples single pairs.", "anchors": ["combinations.go: reduceCombined, AnyConstraint.Reduce, AllConstraint.Reduce, OneOfConstraint.Reduce"]}
{"id": "C06", "title": "Combinations never expose a default", "statement": "HasDefault() is false for Any, All, OneOf, Not, Enum, EmptyConstraint, NullConstraint, arrays and objects whatever their children are, so an object property guarded by one of them is never filled in.", "quantifier": "every combination constraint and children", "why_tests_cant": "The claim ranges over every constraint tree and every Go value, an infinite space; a test samples single pairs.", "anchors": ["basic.go: emptyConstraint.HasDefault, NotConstraint.HasDefault", "interface.go: comboconstraint, EnumConstraint"]}
{"id": "C07", "title": "EmptyConstraint accepts everything; NullConstraint accepts exactly nil", "statement": "EmptyConstraint.Validate(v) is nil for every v. NullConstraint.Validate(v) is nil iff v is nil or a nil chan, func, map, pointer or slice.", "quantifier": "every Go value", "why_tests_cant": "The claim ranges over every constraint tree and every Go value, an infinite space; a test samples single pairs.", "anchors": ["basic.go: emptyConstraint.Validate, nullConstraint.Validate"]}
{"id": "C08", "title": "Boolean accepts exactly booleans", "statement": "Boolean().Validate(v) is nil iff v is a bool (no pointer dereference, no coercion from strings or numbers).", "quantifier": "every Go value", "why_tests_cant": "The claim ranges over every constraint tree and every Go value, an infinite space; a test samples single pairs.", "anchors": ["bool.go: BooleanConstraint.Validate"]}
{"id": "C09", "title": "Enum accepts exactly the listed values", "statement": "Enum(e1..en).Validate(v) is nil iff v == ei for some i under Go interface equality (same dynamic type and equal value); it never panics unless both v and some ei are uncomparable values of the same type (two maps or two slices).", "quantifier": "every list of enumerated values, every Go value", "why_tests_cant": "The claim ranges over every constraint tree and every Go value, an infinite space; a test samples single pairs.", "anchors": ["enum.go: EnumConstraint.Validate"]}
{"id": "C10", "title": "String constraint: exact acceptance", "statement": "String()...Validate(v) is nil iff v is a string (or non-nil pointer to one), its byte length lies within MinLength/MaxLength when those are non-negative, the Format check passes, the Regexp matches and the value is in Enum, each only when configured.", "quantifier": "every configuration of a string constraint, every Go value, every behaviour of the regexp/time/mail/net/url libraries", "why_tests_cant": "The claim ranges over every constraint tree and every Go value, an infinite space; a test samples single pairs.", "anchors": ["string.go: StringConstraint.Validate"]}
{"id": "C11", "title": "String length limits count characters (JSON Schema)", "statement": "MinLength/MaxLength bound the number of characters of the string.", "quantifier": "every string, including non-ASCII ones", "why_tests_cant": "needs all strings; the property is in fact false for non-ASCII strings because bytes are counted.", "anchors": ["string.go: StringConstraint.Validate (len(str))"]}
{"id": "C12", "title": "hostname format accepts exactly well-formed domain names", "statement": "With Format(\"hostname\") a string passes the format check iff it is 1..255 bytes long, consists of dot-separated labels (one optional trailing dot), each label 1..63 bytes of letters, digits, '_' or '-', not starting or ending with '-', and it contains at least one letter or underscore.", "quantifier": "every byte string of any length", "why_tests_cant": "A byte-level automaton over unbounded strings.", "anchors": ["string.go: isDomainName"]}
{"id": "C13", "title": "ipv4/ipv6 formats only pass strings the address parser accepts", "statement": "A string passing Format(\"ipv4\") consists only of digits and dots, and one passing Format(\"ipv6\") only of digits and colons, and net.ParseIP accepts it; conversely such strings pass.", "quantifier": "every string, every behaviour of net.ParseIP", "why_tests_cant": "The claim ranges over every constraint tree and every Go value, an infinite space; a test samples single pairs.", "anchors": ["string.go: StringConstraint.Validate cases ipv4, ipv6"]}
{"id": "C14", "title": "ipv6 format accepts every IPv6 address (expectation)", "statement": "Every textual IPv6 address that net.ParseIP accepts passes Format(\"ipv6\").", "quantifier": "every IPv6 address literal", "why_tests_cant": "Ranges over all addresses; false of the code because hexadecimal letters are rejected.", "anchors": ["string.go: StringConstraint.Validate case ipv6"]}
{"id": "C15", "title": "Unknown formats are ignored", "statement": "A Format name other than datetime, email, hostname, ipv4, ipv6, uri (in particular JSON Schema's \"date-time\") never affects the verdict.", "quantifier": "every format string, every value", "why_tests_cant": "The claim ranges over every constraint tree and every Go value, an infinite space; a test samples single pairs.", "anchors": ["string.go: StringConstraint.Validate switch sc.format"]}
{"id": "C16", "title": "Number constraint: exact acceptance", "statement": "Number()...Validate(v) is nil iff v is a float32/float64 (or non-nil pointer to one) and, for each configured rule, it does not violate it: not below Minimum (not equal when exclusive), not above Maximum (not equal when exclusive), an exact multiple of MultipleOf unless that is 0, and a member of Enum as a float64.", "quantifier": "every configuration, every Go value including NaN, infinities and signed zero", "why_tests_cant": "The claim ranges over every constraint tree and every Go value, an infinite space; a test samples single pairs.", "anchors": ["number.go: NumberConstraint.Validate"]}
{"id": "C17", "title": "A number accepted by Minimum/Maximum lies in the interval (expectation)", "statement": "If Number().Minimum(a).Maximum(b).Validate(f) is nil then a <= f <= b.", "quantifier": "every float64 bounds and value", "why_tests_cant": "Ranges over all floats; false for NaN, which passes every bound check.", "anchors": ["number.go: NumberConstraint.Validate"]}
{"id": "C18", "title": "Integer accepts exactly whole numbers", "statement": "Integer().Validate(v) with no further rule is nil iff v (after one pointer dereference) is of integer or unsigned kind, or a float with Floor(f)==f (so infinities pass and NaN fails); integers of any Go kind and the float of the same value get the same verdict from every integer constraint.", "quantifier": "every integer constraint, every Go numeric value", "why_tests_cant": "The claim ranges over every constraint tree and every Go value, an infinite space; a test samples single pairs.", "anchors": ["number.go: IntegerConstraint.Validate"]}
{"id": "C19", "title": "Integer bounds are exact", "statement": "Integer().Minimum(a).Maximum(b) accepts an int n iff a <= n <= b.", "quantifier": "every int64/uint64 n and float64 bounds", "why_tests_cant": "Conversion of n to float64 rounds beyond 2^53, so only an all-n argument separates the exact range from the inexact one.", "anchors": ["number.go: IntegerConstraint.Validate (float64(rv.Int()))"]}
{"id": "C20", "title": "MultipleOf means exact divisibility", "statement": "A finite float passes MultipleOf(m), m finite and non-zero, iff it equals k*m for some integer k exactly; MultipleOf(0) never rejects; NaN and infinities always fail a non-zero MultipleOf.", "quantifier": "every float64 value and divisor", "why_tests_cant": "The claim ranges over every constraint tree and every Go value, an infinite space; a test samples single pairs.", "anchors": ["number.go: NumberConstraint.Validate (math.Mod)"]}
{"id": "C21", "title": "Numeric enumerations compare as float64", "statement": "An Enum on a Number/Integer constraint can only be matched by float64 entries: entries of any other Go type (int, string, nested list) never match any value.", "quantifier": "every enumeration list, every value", "why_tests_cant": "The claim ranges over every constraint tree and every Go value, an infinite space; a test samples single pairs.", "anchors": ["number.go: NumberConstraint.Validate (enum.Validate(f))"]}
{"id": "C22", "title": "Array: only slices are considered, and length bounds are exact", "statement": "Array()...Validate(v) fails for every non-slice value (including pointers to slices and Go arrays); for a slice it fails if the length is below a non-negative MinItems or above a non-negative MaxItems; unset bounds are not checked.", "quantifier": "every array constraint and value", "why_tests_cant": "The claim ranges over every constraint tree and every Go value, an infinite space; a test samples single pairs.", "anchors": ["array.go: ArrayConstraint.Validate"]}
{"id": "C23", "title": "Items applies to every element and overrides positional rules", "statement": "With Items(c) set, a slice within its length and uniqueness limits passes iff c accepts every element, whatever PositionalItems/AdditionalItems say.", "quantifier": "every element constraint, every slice", "why_tests_cant": "The claim ranges over every constraint tree and every Go value, an infinite space; a test samples single pairs.", "anchors": ["array.go: ArrayConstraint.Validate"]}
{"id": "C24", "title": "Positional items: exact acceptance", "statement": "With PositionalItems([c0..ck-1]) and no Items, a slice passes iff each existing element i<k is accepted by ci and, when the slice is longer than k, an additional constraint is set and accepts every element from index k-1 on.", "quantifier": "every list of positional constraints, every slice length", "why_tests_cant": "The claim ranges over every constraint tree and every Go value, an infinite space; a test samples single pairs.", "anchors": ["array.go: ArrayConstraint.Validate lines 83-113"]}
{"id": "C25", "title": "AdditionalItems applies only to the extra elements (documented)", "statement": "Only elements beyond the positional ones are validated against AdditionalItems.", "quantifier": "every array constraint and slice", "why_tests_cant": "All lengths; false of the code because the loop starts at the last positional element.", "anchors": ["array.go: lines 106-111, AdditionalItems doc"]}
{"id": "C26", "title": "Unspecified AdditionalItems forbids extra elements (documented)", "statement": "If AdditionalItems is never called, a slice longer than PositionalItems is rejected.", "quantifier": "every positional list, every longer slice", "why_tests_cant": "All lengths; false of the code because Array() starts with EmptyConstraint.", "anchors": ["array.go: Array(), AdditionalItems doc"]}
{"id": "C27", "title": "UniqueItems rejects every repeated element", "statement": "With UniqueItems(true), a slice is rejected iff two elements at different positions have the same fmt %s rendering; in particular it is rejected whenever two elements are equal. With UniqueItems(false) duplicates never matter.", "quantifier": "every slice of any length, every stringification", "why_tests_cant": "The claim ranges over every constraint tree and every Go value, an infinite space; a test samples single pairs.", "anchors": ["array.go: lines 56-69"]}
{"id": "C28", "title": "UniqueItems accepts pairwise different elements (expectation)", "statement": "A slice whose elements are pairwise different passes the UniqueItems check.", "quantifier": "every slice", "why_tests_cant": "All slices; false because distinct elements can have the same %s rendering.", "anchors": ["array.go: UniqueItems caveat"]}
{"id": "C29", "title": "MinProperties/MaxProperties bound the number of properties", "statement": "An object with fewer properties than a non-negative MinProperties or more than a non-negative MaxProperties is rejected before any property is looked at; unset bounds are never checked.", "quantifier": "every object constraint, every map or struct", "why_tests_cant": "The claim ranges over every constraint tree and every Go value, an infinite space; a test samples single pairs.", "anchors": ["object.go: ObjectConstraint.Validate lines 347-353"]}
{"id": "C30", "title": "A required, declared property must be present", "statement": "If p was both declared with AddProp and listed in Required, every object lacking p is rejected, even if p's constraint has a default.", "quantifier": "every object constraint, every object, every iteration order", "why_tests_cant": "The claim ranges over every constraint tree and every Go value, an infinite space; a test samples single pairs.", "anchors": ["object.go: lines 400-407"]}
{"id": "C31", "title": "Every required property must be present (documented)", "statement": "If p is listed in Required, every object lacking p is rejected.", "quantifier": "every object constraint and object", "why_tests_cant": "All property sets; false of the code for required names never declared with AddProp.", "anchors": ["object.go: Required, Validate"]}
{"id": "C32", "title": "Undeclared properties are rejected unless allowed", "statement": "If AdditionalProperties is not set, any object having a property that is neither declared nor matched by a pattern is rejected; if it is set to c, the object is accepted only if c accepts the value of every such property.", "quantifier": "every object constraint, every object, every iteration order", "why_tests_cant": "The claim ranges over every constraint tree and every Go value, an infinite space; a test samples single pairs.", "anchors": ["object.go: lines 463-475"]}
{"id": "C33", "title": "Pattern properties, over all iteration orders", "statement": "An object is accepted under every map iteration order iff (other rules aside) for each undeclared property and each pattern matching its name, the pattern's constraint accepts its value.", "quantifier": "every set of patterns, every object, every iteration order of Go maps", "why_tests_cant": "Go randomises map order; a test run sees one order.", "anchors": ["object.go: lines 437-461"]}
{"id": "C34", "title": "Acceptance of a map object: complete characterisation", "statement": "For an object constraint whose children do not inject defaults, and whose patterns do not overlap on the object's undeclared names, Validate(map) is nil iff: counts are within bounds; each declared present property is accepted and each declared absent property is not required; each undeclared property is accepted by its pattern, or else by AdditionalProperties which must be set; each property dependency of a declared-or-pattern-matched property is met; each applicable schema dependency accepts the object.", "quantifier": "every such object constraint, every map, every iteration order", "why_tests_cant": "The claim ranges over every constraint tree and every Go value, an infinite space; a test samples single pairs.", "anchors": ["object.go: ObjectConstraint.Validate"]}
{"id": "C35", "title": "Verdicts do not depend on map iteration order", "statement": "For a fixed constraint and value the verdict (nil or error) of Validate is the same for every map-iteration order.", "quantifier": "every constraint, value and pair of iteration orders", "why_tests_cant": "Go randomises map order; a single run shows one order. False in general (overlapping patterns; schema dependencies that inject defaults), true otherwise.", "anchors": ["object.go: ObjectConstraint.Validate range loops"]}
{"id": "C36", "title": "Property dependencies", "statement": "When a declared or pattern-matched property with property dependencies is present, the object is accepted only if every dependency is itself a present declared or pattern-matched property.", "quantifier": "every dependency map, every object, every iteration order", "why_tests_cant": "The claim ranges over every constraint tree and every Go value, an infinite space; a test samples single pairs.", "anchors": ["object.go: lines 477-491"]}
{"id": "C37", "title": "Property dependencies hold for every present property (documented)", "statement": "PropDependency(from, to): whenever `from` is present, the object is accepted iff `to` is present (other rules aside).", "quantifier": "every object", "why_tests_cant": "All property names; false for names only covered by AdditionalProperties, in both directions.", "anchors": ["object.go: PropDependency doc, lines 477-491"]}
{"id": "C38", "title": "Schema dependencies", "statement": "When a declared or pattern-matched property with a schema dependency and no property dependency is present, the object is accepted only if the dependency accepts the whole object.", "quantifier": "every dependency, every object, every iteration order", "why_tests_cant": "The claim ranges over every constraint tree and every Go value, an infinite space; a test samples single pairs.", "anchors": ["object.go: lines 493-497"]}
{"id": "C39", "title": "Defaults fill exactly the absent properties", "statement": "After an accepting validation of a map, every declared property that was absent and whose constraint has a non-nil default is present with that default, every property that was present at the top level is still present, and no other key has been added by this object's own rules.", "quantifier": "every object constraint without schema dependencies, every map, every iteration order", "why_tests_cant": "The claim ranges over every constraint tree and every Go value, an infinite space; a test samples single pairs.", "anchors": ["object.go: lines 411-425, setProp"]}
{"id": "C40", "title": "Validation never removes or replaces scalar data", "statement": "Whatever the constraint and verdict, after Validate the value passed is an extension of the value before: scalars, slice lengths and existing keys are unchanged; the only changes are keys added to maps (and Maybe fields set).", "quantifier": "every constraint, every value, every schedule, accepted or rejected", "why_tests_cant": "The claim ranges over every constraint tree and every Go value, an infinite space; a test samples single pairs.", "anchors": ["object.go: setProp, Validate; array.go: Validate"]}
{"id": "C41", "title": "Default-free validation is read-only", "statement": "If no constraint in the tree (through references) has a default, Validate leaves the value exactly as it was, whatever the verdict.", "quantifier": "every default-free constraint, every value, every schedule", "why_tests_cant": "The claim ranges over every constraint tree and every Go value, an infinite space; a test samples single pairs.", "anchors": ["object.go: setProp call"]}
{"id": "C42", "title": "Validation is repeatable (expectation)", "statement": "If Validate(v) accepts, a second Validate(v) accepts too.", "quantifier": "every constraint and value", "why_tests_cant": "All constraints; false when a default violates its own constraint, since defaults are injected unvalidated.", "anchors": ["object.go: lines 411-424"]}
{"id": "C43", "title": "A nil map is rejected or accepted without a panic (expectation)", "statement": "Validating an object never panics on maps with string keys.", "quantifier": "every object constraint, every map including nil maps", "why_tests_cant": "False: injecting a default into a nil map panics; true for non-nil maps without uncomparable enumerations.", "anchors": ["object.go: setProp (SetMapIndex)"]}
{"id": "C44", "title": "JSON input never panics the validator", "statement": "For every value produced by encoding/json into interface{} and every constraint whose enumerations hold only scalars and whose defaults are plain data (scalars, slices, non-nil maps), Validate does not panic.", "quantifier": "every constraint (references included), every decoded JSON value, every schedule", "why_tests_cant": "The claim ranges over every constraint tree and every Go value, an infinite space; a test samples single pairs.", "anchors": ["all Validate methods"]}
{"id": "C45", "title": "A reference behaves as its target", "statement": "Reference(m).RefersTo(n) has, in every context, the verdict, default and effects of the constraint registered under n in m; if none is registered, Validate fails and HasDefault is false.", "quantifier": "every reference, map, value", "why_tests_cant": "The claim ranges over every constraint tree and every Go value, an infinite space; a test samples single pairs.", "anchors": ["reference.go: ReferenceConstraint.Validate, Resolved, HasDefault, DefaultValue"]}
{"id": "C46", "title": "ConstraintMap is a last-writer-wins map", "statement": "After any sequence of SetReference calls, GetReference(n) returns the constraint of the last SetReference(n, _) or an error if there was none, and Len() is the number of distinct names.", "quantifier": "every sequence of operations", "why_tests_cant": "Unbounded histories.", "anchors": ["reference.go: ConstraintMap"]}
{"id": "C47", "title": "Resolution is sticky", "statement": "Under every interleaving of concurrent Resolved() and SetReference calls, once some Resolved() call on a reference has returned a constraint, every later successful Resolved() on it returns that same constraint, and that constraint had been registered under the reference's name at some earlier moment; failed resolutions are not remembered.", "quantifier": "every number of goroutines, every interleaving of lock-protected steps", "why_tests_cant": "Schedules cannot be enumerated by tests.", "anchors": ["reference.go: ReferenceConstraint.Resolved, ConstraintMap.GetReference"]}
{"id": "C48", "title": "No deadlock between reference and map locks", "statement": "In every reachable state of concurrent Resolved/SetReference/GetReference calls in which some call is unfinished, some call can take a step.", "quantifier": "every number of goroutines, every interleaving", "why_tests_cant": "Schedules cannot be enumerated by tests.", "anchors": ["reference.go: lock, Resolved, GetReference"]}
{"id": "C49", "title": "Validation without references terminates; guarded recursion terminates", "statement": "Validate returns for every constraint without references; with references it returns if every cycle of references passes through an array element or object property and no default is a container.", "quantifier": "every constraint environment, every finite value", "why_tests_cant": "Termination is a claim about all runs.", "anchors": ["all Validate methods; reference.go"]}
{"id": "C50", "title": "An unguarded reference cycle never returns", "statement": "A reference whose target is itself (for example the validator built from {\"$ref\":\"#\"}) never returns from Validate or HasDefault on any value.", "quantifier": "every value, every number of steps", "why_tests_cant": "Non-termination cannot be observed by a finite run.", "anchors": ["reference.go: Validate, HasDefault"]}
{"id": "C51", "title": "JSVal.Validate adds context without changing the verdict", "statement": "v.Validate(x) is nil iff the root constraint accepts x; otherwise the error is the root's error wrapped with the validator's name.", "quantifier": "every validator, name and value", "why_tests_cant": "The claim ranges over every constraint tree and every Go value, an infinite space; a test samples single pairs.", "anchors": ["jsval.go: JSVal.Validate"]}
{"id": "C52", "title": "Maybe.Set then Value round-trips, and failed Set changes nothing", "statement": "For each Maybe type, Set(x) with an accepted dynamic type succeeds, makes Valid() true and Value() the (converted) x; with any other type it returns an error and leaves the Maybe unchanged.", "quantifier": "every Maybe type, state and argument", "why_tests_cant": "The claim ranges over every constraint tree and every Go value, an infinite space; a test samples single pairs.", "anchors": ["maybe.go: MaybeBool/Float/Int/String/Time/Uint.Set, Value"]}
{"id": "C53", "title": "Maybe.Reset makes the value absent", "statement": "After Reset(), Valid() is false and object validation treats the property as missing, whatever was set before; a later successful Set makes it valid again.", "quantifier": "every history of Set/Reset/UnmarshalJSON calls", "why_tests_cant": "Unbounded histories.", "anchors": ["maybe.go: ValidFlag.Reset, Valid; object.go: lines 384-394"]}
{"id": "C54", "title": "Reset clears the value (documented)", "statement": "After Reset(), the Maybe value equals a freshly declared one.", "quantifier": "every Maybe value", "why_tests_cant": "All histories; false of the code because only the flag is cleared.", "anchors": ["maybe.go: Maybe.Reset doc, ValidFlag.Reset"]}
{"id": "C55", "title": "Successful UnmarshalJSON makes a Maybe valid", "statement": "After a successful UnmarshalJSON, Valid() is true and Value() is the decoded value.", "quantifier": "every Maybe type and JSON input", "why_tests_cant": "All inputs; false for MaybeTime, whose UnmarshalJSON never sets the flag.", "anchors": ["maybe.go: UnmarshalJSON methods"]}
{"id": "C56", "title": "JSON names of struct fields", "statement": "An exported, non-anonymous field is visible under the part of its json tag before the first comma, or its Go name when that part is empty; a tag of exactly \"-\" hides it; unexported fields are hidden; embedded struct fields are visible as if declared in place.", "quantifier": "every struct type, every tag string", "why_tests_cant": "The claim ranges over every constraint tree and every Go value, an infinite space; a test samples single pairs.", "anchors": ["structinfo.go: extract"]}
{"id": "C57", "title": "Unset Maybe fields are not properties", "statement": "A struct's property names are exactly the visible names whose field is not an invalid Maybe.", "quantifier": "every struct value", "why_tests_cant": "The claim ranges over every constraint tree and every Go value, an infinite space; a test samples single pairs.", "anchors": ["structinfo.go: StructInfo.PropNames"]}
{"id": "C58", "title": "The struct registry always returns the extracted info", "statement": "Under every interleaving of concurrent Lookup/Register calls, every info returned for a type is the one extracted from that type.", "quantifier": "every number of goroutines, every interleaving, every set of types", "why_tests_cant": "Schedules cannot be enumerated by tests.", "anchors": ["structinfo.go: StructInfoRegistry.Lookup, Register"]}
{"id": "C59", "title": "Struct validation agrees with map validation", "statement": "For a flat struct with distinct exported JSON names, passed by pointer, validation gives the same verdict as validating the map of its present properties, when all properties are declared.", "quantifier": "every such struct, every object constraint, every schedule", "why_tests_cant": "The claim ranges over every constraint tree and every Go value, an infinite space; a test samples single pairs.", "anchors": ["object.go: getProp, getPropNames, Validate"]}
{"id": "C60", "title": "Missing default on a struct passed by value panics; by pointer sets the field", "statement": "Filling a default into an unset Maybe field works through a pointer and panics when the struct was passed by value.", "quantifier": "every struct, default and Maybe kind accepting the default", "why_tests_cant": "The claim ranges over every constraint tree and every Go value, an infinite space; a test samples single pairs.", "anchors": ["object.go: setProp"]}
{"id": "C61", "title": "Build rejects a nil schema and leaves no dangling references", "statement": "Build(nil) fails; whenever Build succeeds, every reference occurring in the root or in any registered constraint is registered in the validator's map.", "quantifier": "every schema document and resolver, every iteration order", "why_tests_cant": "Unbounded schema graphs.", "anchors": ["builder/builder.go: Build, BuildWithCtx, compileReferences"]}
{"id": "C62", "title": "Building terminates", "statement": "Building returns for every schema whose references range over a finite set of names.", "quantifier": "every such schema document", "why_tests_cant": "Termination over all documents.", "anchors": ["builder/builder.go: compileReferences"]}
{"id": "C63", "title": "Built validators implement the schema", "statement": "For schemas in the conforming fragment (explicit types, at most one combinator, required names declared, non-overlapping patterns, ...), the validator accepts a decoded JSON value iff it is valid under the JSON Schema draft-4 reading of those keywords.", "quantifier": "every schema of the fragment, every JSON value, every iteration order", "why_tests_cant": "The claim ranges over every constraint tree and every Go value, an infinite space; a test samples single pairs.", "anchors": ["builder/*.go: buildFromSchema and build*Constraint"]}
{"id": "C64", "title": "Every combinator keyword is honoured (expectation)", "statement": "If a schema has several of not/allOf/anyOf/oneOf, all of them constrain the value.", "quantifier": "every schema", "why_tests_cant": "All schemas; false because only the first in the order not, allOf, anyOf, oneOf is built.", "anchors": ["builder/builder.go: buildFromSchema switch"]}
{"id": "C65", "title": "enum is honoured for every type (expectation)", "statement": "A built validator only accepts values listed in the schema's enum.", "quantifier": "every schema with enum, every value", "why_tests_cant": "All schemas; false for boolean/array/object/null types, and number schemas with enum reject everything.", "anchors": ["builder/number.go: nc.Enum(lst)", "builder/bool.go", "builder/builder.go"]}
{"id": "C66", "title": "Type order in the schema is irrelevant", "statement": "Permuting the type array of a schema does not change the built validator.", "quantifier": "every schema and permutation", "why_tests_cant": "The claim ranges over every constraint tree and every Go value, an infinite space; a test samples single pairs.", "anchors": ["builder/builder.go: sort.Sort(sts)"]}
{"id": "C67", "title": "Type guessing", "statement": "A schema without type is treated as a union of the types its keywords suggest; with no suggesting keyword and no enum the built validator imposes no type.", "quantifier": "every schema without type", "why_tests_cant": "The claim ranges over every constraint tree and every Go value, an infinite space; a test samples single pairs.", "anchors": ["builder/builder.go: guessSchemaType and schemaLooksLike*"]}
{"id": "C68", "title": "Generated code is deterministic", "statement": "For validators whose pattern sources are distinct within each object and whose references are distinct constraints, Process emits the same code for every map iteration order.", "quantifier": "every validator, every iteration order", "why_tests_cant": "Go randomises map order.", "anchors": ["generator.go: Process, generateObjectCode"]}
{"id": "C69", "title": "Generated validators behave like the original", "statement": "For constraints in the supported fragment, running the generated builder expression yields a constraint with the same verdict on every value.", "quantifier": "every constraint in the fragment, every value", "why_tests_cant": "The claim ranges over every constraint tree and every Go value, an infinite space; a test samples single pairs.", "anchors": ["generator.go: generateCode and helpers"]}
{"id": "C70", "title": "Generated code covers every constraint feature (expectation)", "statement": "For every constraint, the generated constructor expression rebuilds an equivalent constraint.", "quantifier": "every constraint", "why_tests_cant": "All constraints; false: numeric multipleOf/enum, min/maxProperties, schema dependencies, nil AdditionalItems, empty Any/OneOf, fractional integer bounds and standalone Enum are lost.", "anchors": ["generator.go: generateIntegerCode, generateNumberCode, generateObjectCode, generateArrayCode, generateComboCode"]}
{"id": "C71", "title": "String literals survive code generation", "statement": "Text written by the generator for a constraint is emitted verbatim.", "quantifier": "every constraint and string", "why_tests_cant": "All strings; false when the text contains '%', since it is used as a format string.", "anchors": ["generator.go: fmt.Fprintf(out, s)"]}
{"id": "C72", "title": "Validator names in generated code", "statement": "Unnamed validators get the name V<i> of their position; named ones keep theirs; declarations are emitted in sorted order, one per validator.", "quantifier": "every list of validators", "why_tests_cant": "The claim ranges over every constraint tree and every Go value, an infinite space; a test samples single pairs.", "anchors": ["generator.go: Process"]}
{"id": "C73", "title": "GetReference is atomic", "statement": "A GetReference call that overlaps any number of SetReference calls returns the constraint registered last (or the not-found error) as of some moment between the start and the end of the call.", "quantifier": "every number of goroutines, every interleaving of lock-protected steps", "why_tests_cant": "interleavings cannot be enumerated by running the code", "anchors": ["reference.go: ConstraintMap.GetReference, SetReference"]}
{"id": "C74", "title": "Accesses to the table of a ConstraintMap never race", "statement": "No two goroutines are about to access the table of the same ConstraintMap at the same time, whichever of SetReference, GetReference, Resolved and Len they are executing.", "quantifier": "every number of goroutines, every interleaving", "why_tests_cant": "interleavings cannot be enumerated by running the code", "anchors": ["reference.go: ConstraintMap, Len"]}
{"id": "C75", "title": "Generated programs decide draft-4 validity", "statement": "Take schemas that, with everything they refer to, lie in the fragment both the builder and the generator carry over, whose references cannot go round forever at one place of a document, and which agree on what # stands for. If the builder built validators from them, then the generator writes a Go program for them, and running this program yields for each schema a validator that accepts exactly the documents valid for the schema and returns an error for all others.", "quantifier": "every list of such schemas, every document, every iteration order in building, generating and validating", "why_tests_cant": "schemas, documents and iteration orders are unbounded; the claim chains builder, generator, Go semantics of the output, and validator", "anchors": ["builder/builder.go: BuildWithCtx", "generator.go: Process", "jsval.go: Validate"]}
{"id": "C76", "title": "Generating a second time gives the same code", "statement": "Calling Process a second time with the validators the first call was given, in whatever order and with whatever names the first call left them, writes the same code again.", "quantifier": "every list of validators, every iteration order of the two calls", "why_tests_cant": "Process renames and reorders its caller's validators; whether this can be noticed depends on unboundedly many validator lists", "anchors": ["generator.go: Process"]}
{"id": "C77", "title": "Validators generated together behave like the originals", "statement": "If several validators are generated into one program, each of the resulting validators does with every value what the original does, whatever the other validators register in their constraint maps.", "quantifier": "every list of validators, every value, every iteration order", "why_tests_cant": "the validators, the values and the iteration orders are unbounded", "anchors": ["generator.go: Process", "reference.go: Validate"]}
{"id": "C78", "title": "Exit status and output of the command", "statement": "The jsval command exits with status 0 exactly if its options can be parsed, the schema file can be read and decoded, every selected schema exists and can be built into a validator, the output can be opened, and the generator produces code for the validators; then the whole code is in the output file (or on standard output) and nothing else has changed. Otherwise the exit status is not 0 and nothing has changed.", "quantifier": "every file system content, every behaviour of the libraries and the operating system, every iteration order", "why_tests_cant": "the contents of files and the points of failure are unbounded; tests run one binary on a few files", "anchors": ["cmd/jsval/jsval.go: _cli", "generator.go: Process"]}
{"id": "C79", "title": "Names of the generated validators", "statement": "When the command exits with status 0, the validators in the generated code are called by the prefix option (V if there is none) followed by their position; these are distinct Go identifiers and clash with nothing else in the generated code.", "quantifier": "every prefix and every list of schemas for which the command succeeds", "why_tests_cant": "prefixes and numbers of schemas are unbounded", "anchors": ["cmd/jsval/jsval.go: _cli", "generator.go: Process"]}
{"id": "C80", "title": "The command turns schemas into code that decides validity", "statement": "Suppose the schemas the user asks for lie, with everything they refer to, in the fragment both builder and generator carry over, their references resolve, are finitely many and cannot go round forever at one place of a document, and the output can be written. Then the command exits with status 0, and the output is a Go program that, when run, sets up for schema number i a validator named by the prefix and i that accepts exactly the documents valid for the schema and returns an error for all others.", "quantifier": "every such command line and schema file, every document, every iteration order in building, generating and validating", "why_tests_cant": "schemas, documents and iteration orders are unbounded; the claim chains command, builder, generator, Go semantics of the output, and validator", "anchors": ["cmd/jsval/jsval.go: _cli", "builder/builder.go: BuildWithCtx", "generator.go: Process", "jsval.go: Validate"]}
{"id": "C81", "title": "Exactly when building a validator succeeds", "statement": "Building a validator succeeds if the schema and all schemas that take part in it exist, have known types only and no empty list of item schemas, and all names they refer to, directly or through other references, resolve to such schemas; otherwise it fails. The outcome does not depend on map iteration orders, and schemas of the conforming fragment with resolvable references can always be built.", "quantifier": "every schema and resolver with finitely many reachable names, every iteration order", "why_tests_cant": "schemas are unboundedly nested and may refer to each other in cycles; iteration orders vary from run to run", "anchors": ["builder/builder.go: Build", "builder/builder.go: buildFromSchema", "builder/builder.go: compileReferences"]}
{"id": "C82", "title": "Answers of /generate.json", "statement": "A request to /generate.json whose body is a JSON schema from which a validator can be built and code generated is answered with status 200 and a JSON object with success true and this code; any other request that is answered gets a JSON object with success false and a message. All these answers are labelled as JSON.", "quantifier": "every request body, every behaviour of the libraries, every iteration order", "why_tests_cant": "request bodies and iteration orders are unbounded", "anchors": ["server/server.go: httpGenerateValidator"]}
{"id": "C83", "title": "The server turns schemas into code that decides validity", "statement": "If the body of a request to /generate.json is a schema that lies, with everything it refers to, in the fragment both builder and generator carry over, and its references resolve, are finitely many and cannot go round forever at one place of a document, then the request is answered with success and a Go program that, when run, sets up a validator V0 that accepts exactly the documents valid for the schema and returns an error for all others.", "quantifier": "every such body, every document, every iteration order in building, generating and validating", "why_tests_cant": "schemas, documents and iteration orders are unbounded; the claim chains handler, builder, generator, Go semantics of the output, and validator", "anchors": ["server/server.go: httpGenerateValidator", "builder/builder.go: BuildWithCtx", "generator.go: Process", "jsval.go: Validate"]}
{"id": "C84", "title": "Concurrent requests do not disturb each other", "statement": "Whatever other requests are or have been in progress, every request is answered as a fresh server with nothing else to do would answer it. The page templates are parsed successfully at most once, all index pages are made from that one template, and no two goroutines access the template cache at the same time.", "quantifier": "every interleaving of every number of requests", "why_tests_cant": "interleavings are unbounded and not controlled by tests", "anchors": ["server/server.go: getTemplates", "server/server.go: ServeHTTP", "server/server.go: httpIndex"]}
{"id": "C85", "title": "The server does not get stuck", "statement": "While a request is in progress, some request in progress can take a step; if no new requests come in, the number of steps is bounded and all requests are answered or ended in the end.", "quantifier": "every interleaving of every number of requests", "why_tests_cant": "interleavings are unbounded; absence of deadlock cannot be observed by running", "anchors": ["server/server.go: getTemplates", "server/server.go: ServeHTTP"]}
{"id": "C86", "title": "The mutexes of object constraints never block for good", "statement": "Whatever goroutines validate with and configure whatever object constraints, recursive ones included, as long as a call is in progress some goroutine can go on; a goroutine that cannot waits for a mutex held by another goroutine that can, never for one it holds itself; and a mutex is given back within two steps of its holder, so never held while children are validated.", "quantifier": "every interleaving of every number of calls on every number of objects, nested to any depth", "why_tests_cant": "interleavings and nesting are unbounded; absence of deadlock cannot be observed by running", "anchors": ["object.go: Validate", "object.go: IsPropRequired", "object.go: GetPropDependencies", "object.go: GetSchemaDependency", "object.go: AddProp"]}
{"id": "C87", "title": "Object constraints can be configured while they are used", "statement": "No two goroutines access the same field of the same object constraint at the same time with one of them writing, whatever goroutines validate with it and configure it.", "quantifier": "every interleaving of every number of calls on every number of objects", "why_tests_cant": "interleavings are unbounded; the race detector only sees those that happen", "anchors": ["object.go: Validate", "object.go: PatternProperties", "object.go: MinProperties", "interface.go: ObjectConstraint"]}
{"id": "C88", "title": "Defaults do not decide the verdict where nothing sees them", "statement": "If no part of a validator looks at a value after another part may have filled in defaults, then on decoded JSON it accepts and rejects, with the same errors, exactly as the same validator with all defaults taken out; so adding, removing or changing defaults there, even to values their own constraint rejects, never changes a verdict.", "quantifier": "every constraint tree with references, every default, every decoded JSON value, every iteration order", "why_tests_cant": "trees, values, defaults and iteration orders are unbounded", "anchors": ["object.go: Validate", "combinations.go: AnyConstraint.Validate", "combinations.go: AllConstraint.Validate", "combinations.go: OneOfConstraint.Validate", "array.go: Validate", "interface.go: HasDefault"]}
{"id": "C89", "title": "What each request is answered with", "statement": "Whatever other requests are in progress, a request for / is answered with status 200 and the page if the templates can be read and executed and with 500 otherwise; a request for /generate.json with the generated code or with the first thing that went wrong (not a schema, not JSON, build error, generation error); every other path with 404. Only requests for code can go unanswered.", "quantifier": "every interleaving of every number of requests, every body and path, every behaviour of templates, decoder and formatter", "why_tests_cant": "requests, bodies and interleavings are unbounded", "anchors": ["server/server.go: ServeHTTP", "server/server.go: httpIndex", "server/server.go: httpGenerateValidator"]}
{"id": "C90", "title": "Structs with property methods are judged as the maps they show", "statement": "A struct type may have methods GetPropNames, GetPropValue and SetPropValue. If they present the struct as a map of names and non-nil values, adding a property adds it to what is presented, and changes made to a value handed out are seen again, then validating the struct, or a pointer to it, or anything that contains such structs, gives the same result as validating the presented map, defaults included, and what is left of the struct presents what is left of the map. In particular the validator built from a conforming schema accepts such a struct exactly if the presented document is valid. For types without the methods the extended model is the old one.", "quantifier": "every set of methods with these properties, every constraint tree whose items are not compared for uniqueness and whose listed values and defaults are scalars, every value, every iteration order, every recursion through references", "why_tests_cant": "methods, values, constraint trees and iteration orders are unbounded", "anchors": ["object.go: getPropNames", "object.go: getProp", "object.go: setProp", "object.go: ObjectConstraint.Validate"]}
{"id": "C91", "title": "Property methods that fail", "statement": "An error returned by GetPropNames or GetPropValue is ignored: validation goes on as if the type had no such method, with the exported fields. An error returned by SetPropValue is not: a struct that lacks a property whose default cannot be set is not accepted. Nor is a struct accepted whose GetPropNames tells of a property for which GetPropValue returns nil.", "quantifier": "every behaviour of the methods, every object constraint, every struct and pointer to a struct, every iteration order", "why_tests_cant": "methods, constraints and orders are unbounded", "anchors": ["object.go: getPropNames", "object.go: getProp", "object.go: setProp", "object.go: ObjectConstraint.Validate"]}
{"id": "C92", "title": "Which command runs and what exit status 0 means", "statement": "The process becomes a server exactly if its first argument is `server`; it then listens once, at the address of its options, changes no file, and never ends with status 0. In all other cases it does not listen, and status 0 means that code has been generated for the schemas asked for.", "quantifier": "every list of arguments, every outcome of parsing the options, every behaviour of http.ListenAndServe other than returning without an error, every file system, every iteration order", "why_tests_cant": "arguments, file systems and schemas are unbounded; a serving process does not end", "anchors": ["cmd/jsval/jsval.go: _main", "cmd/jsval/jsval.go: _server", "server/server.go: Server.Run"]}
{"id": "C93", "title": "The generator of the test validator", "statement": "gentest ends with status 0 exactly if it has two arguments, the first names a schema file from which a validator is built and code generated, and the second a file that can be opened; that file then holds the header of a Go test file and the code, and nothing else has changed. With any other status nothing has changed. For schemas in the conforming fragment the status is 0 and the code, when run, sets up a validator V0 that accepts exactly the valid documents.", "quantifier": "every list of arguments, every file system, every schema, every iteration order, every fuel large enough", "why_tests_cant": "schemas, documents, file systems and orders are unbounded", "anchors": ["internal/cmd/gentest/gentest.go: _main", "builder/builder.go: Builder.Build", "generator.go: Generator.Process"]}
{"id": "C94", "title": "Nested structs are validated as the documents they stand for", "statement": "Let a value consist of scalars, slices, maps and structs (also pointers to structs, also nested, also with structs embedded), and let every struct be replaced by the map of its properties: one for every visible field, embedded fields included, none for Maybe fields that are not set, the payload for those that are. Go integers and float32 values may be replaced by the float64 numbers they convert to, as long as no constraint applied to them asks for a number that may have a fraction (there the code rejects integers) or lists numbers; likewise a pointer to a string or a number by what it points at, and a nil pointer by null, as long as no constraint applied to it lists strings or numbers, or null, as values of any type. Times and other opaque values stay as they are. Validating the value and validating the resulting document can return the same results, and what is left behind stands for what is left behind, defaults included. A value is always accepted exactly if its document is. So the validator built from a conforming schema accepts the value exactly if the document is valid, whatever the iteration order.", "quantifier": "every value of that form whose missing fields can store the defaults of the constraints applied to it, every constraint tree with references whose enums and defaults are scalars, where undeclared Maybe fields are not put through patterns or additional properties, and items that have to be unique are scalars; every iteration order", "why_tests_cant": "values, constraints, reference graphs and orders are unbounded", "anchors": ["object.go: getPropNames", "object.go: getProp", "object.go: setProp", "object.go: ObjectConstraint.Validate", "array.go: ArrayConstraint.Validate", "maybe.go: Maybe"]}
{"id": "C95", "title": "Object constraints and values that are not objects", "statement": "An object constraint, whatever its settings, rejects with an error, and leaves alone, every value that is neither a map nor a struct (nor a pointer to one) and every map with entries whose key type is neither a string nor an interface type. An empty map with such keys is accepted if no property is declared and no number of properties is asked for; with declared properties the call panics. A time.Time counts as an object without properties. For a Maybe the call panics.", "quantifier": "every object constraint, every such value and pointer to one, every iteration order", "why_tests_cant": "constraints, values and orders are unbounded", "anchors": ["object.go: getPropNames", "object.go: getProp", "object.go: ObjectConstraint.Validate"]}
{"id": "C96", "title": "The generator of the Maybe types", "statement": "genmaybe writes maybe.go and maybe_gen_test.go and changes nothing else. What it writes does not depend on the iteration order of its table of types, and is the file of the repository up to blanks and line breaks. Running it again changes nothing. A file that cannot be opened is left as it is.", "quantifier": "every iteration order, every file system, every behaviour of format.Source that changes nothing but blanks and line breaks", "why_tests_cant": "orders and file systems are unbounded", "anchors": ["internal/cmd/genmaybe/genmaybe.go: main", "internal/cmd/genmaybe/genmaybe.go: genMaybe", "internal/cmd/genmaybe/genmaybe.go: genMaybeTests", "maybe.go"]}
{"id": "C97", "title": "Documents in memory", "statement": "For documents in which no map occurs twice, and validators whose defaults are scalars, validating the document in memory gives the outcome of validating its value, and leaves in memory what is left of the value. For validators without defaults this also holds if maps occur several times, and memory does not change. In every case, cycles included, only maps that can be reached from the document or from a default change. Maps occurring twice together with defaults, and maps as defaults, break the correspondence; a document that contains itself is validated forever by a schema that refers to itself.", "quantifier": "every memory, document, validator, table of references and iteration order", "why_tests_cant": "memories, documents, validators and orders are unbounded", "anchors": ["object.go: ObjectConstraint.Validate", "object.go: getProp", "object.go: setProp", "object.go: getPropNames", "array.go: ArrayConstraint.Validate", "combinations.go"]}
{"id": "C98", "title": "Concurrent validations", "statement": "Any number of goroutines may validate at once, with the same validators or different ones, if no map of a document validated with defaults is reached from another document and defaults are scalars. However their operations interleave, there is no data race on maps, every call that returns gives what it gives alone and leaves its document as it does alone, and all calls return. Two goroutines that validate one document with defaults race.", "quantifier": "every number of goroutines, memory, documents, validators, iteration orders and interleavings", "why_tests_cant": "interleavings, documents and validators are unbounded", "anchors": ["object.go: ObjectConstraint.Validate", "object.go: setProp", "jsval.go: JSVal.Validate"]}
{"id": "C99", "title": "The last configuration call of each kind counts", "statement": "What a string, number, integer, array or object constraint accepts depends on nothing but the last call of each kind in the chain of calls that configured it (of each kind, property name or regular expression for objects; all Required and PropDependency calls count, their names add up), not on the order of calls of different kinds. The value accepted is the one that obeys all these last calls, and the default is the one of the last Default call. Combinators ask their children in the order in which they were added.", "quantifier": "every chain of calls, every value and iteration order", "why_tests_cant": "chains, arguments and values are unbounded", "anchors": ["string.go: StringConstraint.MaxLength", "number.go: NumberConstraint.Minimum", "number.go: IntegerConstraint.Minimum", "array.go: ArrayConstraint.PositionalItems", "object.go: ObjectConstraint.Required", "object.go: ObjectConstraint.PropDependency", "combinations.go: comboconstraint.Add"]}
{"id": "C100", "title": "An integer constraint stays one", "statement": "A constraint made by Integer() and a chain of configuration calls accepts whole numbers only, and accepts every Go integer that obeys the calls.", "quantifier": "every chain of calls, every value", "why_tests_cant": "chains and values are unbounded", "anchors": ["number.go: Integer", "number.go: NumberConstraint.Enum", "number.go: NumberConstraint.MultipleOf", "interface.go: IntegerConstraint"]}
{"id": "C101", "title": "The map of a validator is the one its references are resolved in", "statement": "SetConstraintMap sets the map that is referred to when resolving references within the constraints of the validator. References are looked up when they are first used, by the name last given to RefersTo, for what was registered last in that map through any validator that shares it, and keep the constraint found.", "quantifier": "every program of SetConstraintMap, SetReference, RefersTo and Resolved calls on any number of validators, maps and references", "why_tests_cant": "programs are unbounded", "anchors": ["jsval.go: JSVal.SetConstraintMap", "reference.go: ReferenceConstraint.Resolved", "reference.go: ReferenceConstraint.RefersTo", "reference.go: ConstraintMap.SetReference", "builder/builder.go"]}
{"id": "C102", "title": "Constraints are objects: sharing, changes in place, cycles", "statement": "A constraint that is used in several places of a validator is one object. A configuration call on it shows at every place where it is used, also if it is used already, and nowhere else; a program that builds constraints may make the calls on different constraints in any order. An object without cycles behaves as the tree that hangs at it. An object may be used under itself: validation returns if every cycle goes through an array element or a property, and never returns if the first thing tried always leads round a cycle.", "quantifier": "every store of constraints with any sharing and cycles, every program of constructor and configuration calls, every value and iteration order", "why_tests_cant": "programs, sharing patterns and cyclic structures are unbounded", "anchors": ["string.go, number.go, array.go, object.go, enum.go, bool.go, combinations.go: setters", "basic.go: Not", "reference.go: SetReference, RefersTo", "interface.go: IntegerConstraint"]}
{"id": "C103", "title": "An error names a real fault", "statement": "Whatever error a validator without defaults returns, what it says is true of the value: a string really is longer than the limit the message gives, a property the message calls required really is missing, alternatives none of which matched really all have something against the value, and so on for every message of the package. Conversely a value about which one of these statements is true is accepted by no call, in no iteration order, so that a call that returns reports an error exactly when there is a fault. The property names an error carries lead from the value to the part the message is about, and the message is one of a constraint found in the validator or behind its references. With defaults the same holds for decoded JSON if no default can reach a later rule; otherwise an error may be about a value the validator filled in itself.", "quantifier": "every constraint tree and map of definitions, every value, iteration order and error", "why_tests_cant": "trees, values and the nesting of errors are unbounded", "anchors": ["object.go: Validate, the errors of the four loops", "array.go: Validate", "string.go: Validate", "number.go: Validate", "combinations.go: Validate of Any, All, OneOf", "basic.go: Validate", "enum.go: Validate", "reference.go: Resolved, Validate"]}
{"id": "C104", "title": "A Maybe written as JSON and read back", "statement": "Writing a Maybe with MarshalJSON and reading the text into a variable of the same type gives back the Maybe that was written, set or not, provided the JSON package decodes the payload it encoded; so a struct of Maybes has the same properties after a round trip, and null in the text leaves a Maybe unset.", "quantifier": "every Maybe type, state and payload, every state of the variable read into, every struct of Maybes", "why_tests_cant": "payloads and structs are unbounded, and the encoding is that of another package", "anchors": ["maybe.go: MarshalJSON, UnmarshalJSON of all six types", "structinfo.go: Maybe fields"]}
{"id": "C105", "title": "A value is judged by what it contains", "statement": "Validation looks at kinds and contents, not at the names of types: a value of a defined type, a slice or map with another element or key type, or a struct whose fields have such types gets the verdict that the plain value with the same contents gets, and is left with the same contents. Values of types such as `type Color string`, `[]string`, `map[string]int` or `map[Color]interface{}` are accepted exactly if the JSON document they stand for is valid.", "quantifier": "every constraint tree and map of definitions, every value with any types in it, every iteration order", "why_tests_cant": "types nest without bound, and tests use decoded JSON, where all types are plain", "anchors": ["enum.go: Validate, comparison with ==", "object.go: getProp, setProp, getPropNames, Validate (Maybe test of the existence switch)", "structinfo.go: extract, PropNames", "string.go, number.go, bool.go, array.go: checks of rv.Kind()"]}
{"id": "C106", "title": "Goroutines share validators whose references are resolved on first use", "statement": "Goroutines that validate separate documents at once with validators they share do not influence each other, even though references look their targets up when first used and names are registered again meanwhile: every reference has one target, registered under its name, throughout, each validation that returns gives what it gives alone with these targets and leaves its document as it does alone, there is no data race on the documents, no deadlock, and the execution comes to an end. If no name of a reference is registered meanwhile, the targets are those at the start.", "quantifier": "every number of goroutines, validators, documents, iteration orders and interleavings of map, lock and cache operations", "why_tests_cant": "interleavings are unbounded, and the race detector sees only those that happen", "anchors": ["reference.go: Resolved, GetReference, SetReference, Validate, HasDefault, DefaultValue", "object.go: Validate", "array.go, combinations.go: Validate"]}
{"id": "C107", "title": "The checked-in validator decides what a draft-4 schema is", "statement": "The program in generated_validator_test.go runs and makes a validator V0 that returns no error on a JSON document exactly if the document is a draft-4 schema: an object in which each keyword has a fitting value, schemas inside schemas included, exclusiveMaximum comes with maximum and exclusiveMinimum with minimum. (Formats other than uri are not checked, and members of enum count as different if printed differently.) It returns in all cases. The call in generated_test.go, on a negative count, gives an error. Because V0 fills in exclusiveMaximum and exclusiveMinimum, a schema without maximum or minimum that it has accepted is rejected by the next call. The file is what gentest makes of schema.json, whatever the iteration orders: every run ends with status 0 and writes the header and, up to layout, this program.", "quantifier": "every JSON document, however deep, and every iteration order; negative counts of every integer kind in every object; every iteration order of builder and generator", "why_tests_cant": "the test tries one value; schemas nest without bound and the validator is recursive", "anchors": ["generated_validator_test.go: init, V0", "generated_test.go: TestGenerated", "schema.json", "reference.go, object.go, array.go, combinations.go, string.go, number.go: Validate", "internal/cmd/gentest/gentest.go: _main", "builder/*.go", "generator.go: Process"]}
{"id": "C108", "title": "Building and generating do not depend on the order of maps", "statement": "A schema that can be built with one iteration order of Go's maps can be built with every order, with the same names registered, and the code generated from the results is the same text whatever the orders in builder and generator. So if the command, gentest or the server succeeds once on given files, it succeeds every time and writes the same. Two runs of the command that end leave the same files; if there is no validator the exit status may be 1 in one and 2 in the other. The condition: no root is the same constraint as two registered ones; without it the code can differ.", "quantifier": "every schema whose maps have each key once, every resolver, all iteration orders in builder and generator", "why_tests_cant": "the orders are chosen by the runtime and there are exponentially many", "anchors": ["builder/builder.go: Build, BuildWithCtx, compileReferences, buildFromSchema", "builder/object.go: buildObjectConstraint", "generator.go: Process", "cmd/jsval/jsval.go: _cli", "internal/cmd/gentest/gentest.go: _main", "server/server.go: httpGenerateValidator"]}
{"id": "C109", "title": "Validators built from one schema do the same", "statement": "Two validators built from one schema list properties, patterns, dependencies and registered names in whatever order Go's maps gave the builder. What one of them does to a value in some iteration order - the verdict, the error, the default values it fills in, a panic, still running after so many references - the other one does in some iteration order, and nothing else. The default given to a property that refers to them is the same. Where verdicts do not depend on iteration orders, all builds give one verdict.", "quantifier": "every schema whose maps have each key once, every resolver, every value (structs included), all iteration orders in builder and validation", "why_tests_cant": "a run shows one build and one validation of exponentially many", "anchors": ["builder/builder.go: Build, BuildWithCtx, compileReferences, buildFromSchema", "builder/object.go: buildObjectConstraint", "object.go: Validate", "reference.go: Validate", "jsval.go: Validate"]}
{"id": "C110", "title": "The project's own test programs, for all inputs", "statement": "The schemas of the project's object tests can be built whatever the orders of maps, and the validators accept exactly the objects described in words: in TestObject a matching name of at most 20 bytes, a non-negative age, a list of strings as tags, strings under matching names, and nothing else; in TestObjectDependency strings under foo and bar, foo only with bar; in TestObjectSchemaDependency a name, a matching card number only with an address. Other objects are rejected with an error, and none is changed. The number and string tests build the root the fluent calls make, for all bounds and defaults. For the array test code is generated in every order, and it has calls of Items and of PositionalItems. The structs of the Maybe tests are accepted for all names and ages, and an unset name is afterwards set to the default. The types guessed for a schema are the suggested ones, each once, in the order object, array, string, integer or number, boolean, and the table of TestGuessType holds for any limits and expressions. The constraints of TestNumber and TestString accept what is within their limits, the validator of ExampleManual exactly the maps described in words, and that of the README's positiveInteger schema exactly the objects whose age, if any, is a whole number and not negative.", "quantifier": "every object (map[string]interface{}), every bound, default, name and age, every regexp engine, all iteration orders in builder, generator and validation", "why_tests_cant": "these are the tests: each checks a handful of inputs and the iteration orders that happened to occur", "anchors": ["object_test.go: TestObject, TestObjectDependency, TestObjectSchemaDependency", "number_test.go: TestNumberFromSchema", "string_test.go: TestStringFromSchema", "array_test.go: TestArrayItemsReference", "maybe_test.go: TestMaybeString_Empty, TestMaybeString_Populated, TestMaybeString_EmptyDefault", "builder/object.go: buildObjectConstraint", "object.go: Validate", "builder/builder_test.go: TestGuessType", "example_test.go: ExampleManual", "README.md: positiveInteger", "number_test.go: TestNumber", "string_test.go: TestString"]}
{"id": "C111", "title": "Error messages can be read back", "statement": "The text of an error tells which error it is: the rule that was broken, the property names on the way, the bound, pattern or name mentioned, as long as the names that are quoted before the message goes on have no single quote in them. The text of what Validate returns tells the validator too, if its name has no spaces and does not begin like an address. So, where C103 applies, any quote-free reading of a returned message is a true statement about the value. With quotes in the names of a value, a value can forge a message that reads as a false statement about it.", "quantifier": "every error and text (kind names, type names and texts of the standard library arbitrary), every validator without defaults, every value without quotes in names and strings, all iteration orders", "why_tests_cant": "the messages are unbounded: names nest, and the ambiguity needs names chosen for it", "anchors": ["object.go: Validate (messages)", "string.go: Validate (messages)", "number.go: Validate (messages)", "array.go: Validate (messages)", "jsval.go: Validate", "maybe.go: ErrInvalidMaybeValue.Error"]}
{"id": "C112", "title": "Passing the address of the value", "statement": "Validating a pointer to a value gives the same verdict as validating the value, and puts the same defaults in the same places. In particular Validate(&v) does what Validate(v) does when v is the interface{} a document was decoded into. (Both expectations fail in part: booleans, arrays, enumerations and null are not looked for behind pointers; and behind two indirections, as with the address of an interface{}, an object constraint accepts only objects without properties, and its defaults replace the data.)", "quantifier": "all constraints, references included, all values that are not structs, all iteration orders; object constraints with any properties, patterns and dependencies behind two indirections", "why_tests_cant": "it compares two calls for every constraint, value and order; tests pass maps or structs of their own", "anchors": ["object.go: Validate, getProp, getPropNames, setProp", "string.go: Validate", "number.go: Validate", "bool.go: Validate", "array.go: Validate", "enum.go: Validate", "basic.go: nullConstraint.Validate"]}
{"id": "C113", "title": "What generated code keeps of a constraint", "statement": "The program that the generator writes sets up validators that behave like the given ones with exactly these parts left out: multipleOf and enum of numbers and integers, limits for the number of properties, dependencies on schemas, and that nothing is said about additional elements of arrays, or that there are no branches in Any or OneOf. Bounds and defaults of numbers are rounded to six decimals, those of integers lose their fraction. So code generation loses nothing of a constraint exactly if what is left behaves the same, and generating code again from what was generated loses nothing more (though it panics if an integer has a default).", "quantifier": "all constraints and lists of validators with references, except enumerations of their own, Not, percent signs, infinite numbers, and defaults or listed values of kinds the generator does not expect; all values and iteration orders", "why_tests_cant": "it is about all constraints and all values: tests of the generator compile a few constraints and try a few values", "anchors": ["generator.go: Process, generateCode, generateIntegerCode, generateNumberCode, generateEnumCode, generateStringCode, generateArrayCode, generateObjectCode, generateComboCode"]}
{"id": "C114", "title": "What generated code enforces of a schema", "statement": "For conforming schemas with references, the code generated from the validators built from them can be run, and accepts exactly the documents that are valid for the schema with these keywords left out: multipleOf, minProperties, maxProperties, dependencies on schemas, additionalItems: false, and enum next to type integer; bounds are rounded to six decimals, and lose their fraction next to type integer. Documents that are valid for the schema are accepted, provided oneOf is not used and rounding widens the bounds. The same for the code written by the command and by the server.", "quantifier": "all lists of conforming schemas with what they refer to, for which code is generated (no not, no percent signs), that agree on #; all documents, iteration orders and runs", "why_tests_cant": "it is about all schemas and documents; the tests of the generator run it on a few schemas and do not look at the validators the code sets up", "anchors": ["builder/builder.go: BuildWithCtx", "generator.go: Process, generateCode, generateIntegerCode, generateNumberCode, generateEnumCode, generateStringCode, generateArrayCode, generateObjectCode, generateComboCode", "cmd/jsval/jsval.go: _cli", "server/server.go: httpGenerateValidator"]}
{"id": "C115", "title": "References in selected parts of a file are resolved in the file (documented)", "statement": "README.md: the command, with -p, generates a set of validators for parts of a JSON document, with JSON references within the file properly resolved. That is, the validator for a selected part accepts exactly the documents that are valid for the part when every reference, # included, stands for what it points to in the file.", "quantifier": "every file and selection of parts, every document, every iteration order in building, generating and validating", "why_tests_cant": "files, parts and documents are unbounded; false for the reference #, which the builder takes to be the part if the part uses it, and the file if only what the part refers to uses it", "anchors": ["README.md: Can generate validators from JSON Schema definition", "cmd/jsval/jsval.go: _cli", "builder/builder.go: BuildWithCtx, compileReferences"]}
{"id": "C116", "title": "A part of a validator can be replaced by an equivalent one", "statement": "Two constraints can stand for each other at any place of any validator - in properties, pattern and additional properties, elements, branches, dependencies, below Not, in the targets of references - without changing its verdicts or what it leaves behind, if and only if they have the same default and, on every value, the same possible verdicts leaving the same behind. The text of their errors does not matter. In particular Reduce on a part that has no default changes nothing, and Reduce on a combination of one constraint that has a default is seen by some validator.", "quantifier": "every pair of constraints, every validator around them, every value, every iteration order", "why_tests_cant": "contexts and values are unbounded; a test compares two constraints in one context", "anchors": ["interface.go: Constraint", "object.go: ObjectConstraint.Validate", "array.go: ArrayConstraint.Validate", "combinations.go: reduceCombined", "basic.go: NotConstraint.Validate"]}
{"id": "C117", "title": "Laws of combinations", "statement": "All among the branches of All, and Any among those of Any, can be replaced by its branches; Not of Any is All of Not of the branches and Not of All is Any of them; two Nots around a constraint without default can be removed. Each of these holds for every value, defaults and panics included, and at any place of any validator (C116). The order of branches does not matter for values that the branches leave as they are in calls that return; where branches fill in defaults it does.", "quantifier": "every list of constraints, every value, every iteration order", "why_tests_cant": "constraints and values are unbounded", "anchors": ["combinations.go: AnyConstraint.Validate, AllConstraint.Validate, OneOfConstraint.Validate", "basic.go: NotConstraint.Validate"]}
{"id": "C118", "title": "Where messages come from", "statement": "Every error a validator returns, for any value, is one its rules provide for: the limit, format, pattern, name or default it speaks of has been set in that validator or in one it refers to. A validator made by Build never reports a missing reference or a not without child. Every error of a built validator goes back to keywords of the schema document, found by entering the document along the property names in the error.", "quantifier": "every validator, every value (structs, pointers, values with defaults filled in), every iteration order; every document that Build accepts", "why_tests_cant": "validators, documents and values are unbounded", "anchors": ["validate methods of all constraints", "builder/builder.go: Build, buildFromSchema, compileReferences"]}
{"id": "C119", "title": "Which of several faults is reported", "statement": "Where a value has several faults, the error of a validator without defaults is about one that has its turn: for strings length comes before format, format before pattern, pattern before enumeration; for numbers lower bound, upper bound, multiple, enumeration; for arrays the number of elements, repetitions, then the elements from left to right; for objects the number of properties, then declared properties (in no particular order), then those matching patterns, then others, then dependencies; All reports its first failing branch. Everything checked before the reported fault is accepted, and every error that has its turn is reported in some iteration order. Without object constraints the error is the same in every order.", "quantifier": "every validator without defaults in whose objects no two patterns match the same undeclared name, every value as of C35, every iteration order", "why_tests_cant": "validators, values and orders are unbounded; and that an error can occur in some order cannot be seen from runs that pick other orders", "anchors": ["Validate of all constraints: string.go, number.go, array.go:21-115, object.go:323-500, combinations.go, reference.go"]}
{"id": "C120", "title": "The names of definitions do not matter", "statement": "Two validators that are built alike, except that where one refers to a constraint by name the other uses another name, another map, or the constraint itself, return the same for every value, error included, leave the same in the argument and have the same default, as long as names used for each other stand for constraints that are alike in the same sense (a recursive constraint and the same constraint written out several times included). So references can be renamed, definitions merged or copied, references replaced by what they stand for, and entries that are not mentioned added or dropped. A schema whose definitions have other names is built exactly when the original is, with the same error otherwise, and the validator does the same.", "quantifier": "every pair of validators and maps, every correspondence of names, every value, every iteration order; every schema, resolver and permutation of names that leaves # alone", "why_tests_cant": "validators, recursive definitions, values and orders are unbounded", "anchors": ["reference.go:116-153", "interface.go: ConstraintMap", "builder/builder.go:57-154"]}
{"id": "C121", "title": "Definitions can be written out, and parts made definitions", "statement": "Two schema documents that are the same keyword by keyword, except that one may have a reference where the other has what the name leads to (on either side, any number of times, recursive definitions included) and that definitions may have other names, give validators that return the same, error included, and leave the same in the argument: with the same iteration order if both are built in one fixed order, and otherwise what one returns in some order the other returns in some order. If the first can be built, and the names taken for its names lead somewhere, the second is never refused: building it ends in a validator unless it resolves names for ever.", "quantifier": "every pair of documents and resolvers so related, every order of the builder's loops, every value, every iteration order of the validators; for the statement about any build order, documents whose property and pattern names are distinct", "why_tests_cant": "documents, ways to unfold recursive definitions, values and orders are unbounded", "anchors": ["builder/builder.go:57-154", "builder/builder.go:156-330", "reference.go:136-152"]}
{"id": "C122", "title": "A stricter constraint accepts less", "statement": "If constraint c asks at least as much as constraint d, keyword by keyword (tighter lengths, bounds and counts, part of the enumeration, multiples of the multiple, more required and more dependencies, stricter sub-constraints, further declared names where d leaves the rest alone, Not the other way round, branches of Any, All and OneOf compared as alternatives, demands and exclusive alternatives, references followed on either side, recursion included), and some call of c accepts a value, then no call of d returns an error for it; on decoded JSON every call of d that comes back returns nil.", "quantifier": "every relation between default-free constraints (with patterns that do not overlap) all of whose pairs compare in this way, every value without hidden sharing, every iteration order of both calls", "why_tests_cant": "pairs of constraints, recursive references, values and iteration orders are unbounded", "anchors": ["array.go:21-114", "object.go:324-500", "string.go:30-99", "number.go:65-140", "number.go:197-229", "enum.go:21-32", "basic.go:76-91", "combinations.go:49-135", "reference.go:136-152"]}
{"id": "C123", "title": "A narrower schema builds a stricter validator", "statement": "If one schema document asks at least as much as another, keyword by keyword (tighter limits, bounds and counts, fewer types, part of the enumeration, more required names and dependencies, narrower sub-schemas, further properties where the other leaves the rest alone, Not the other way round, branches of allOf, anyOf and oneOf compared as demands and alternatives, references followed on either side, recursive definitions included), then no call of the validator built from the second returns an error for a value that some call of the validator built from the first accepts, whatever the orders in which the two are built. The comparison takes the types a schema treats as the builder does, listed or guessed from its keywords; adding a keyword to a schema without listed types can make its validator accept more.", "quantifier": "every pair of documents and resolvers so related (with distinct property and pattern names and patterns that do not overlap; without defaults, or with defaults that nothing looks at), every order of the builder's loops, every value without hidden sharing (with defaults, every decoded JSON document), every iteration order of both calls", "why_tests_cant": "pairs of documents, recursive definitions, values and orders are unbounded", "anchors": ["builder/builder.go:57-330", "builder/string.go:11-42", "builder/number.go:9-79", "builder/array.go:8-76", "builder/object.go:8-72", "reference.go:136-152"]}
{"id": "C124", "title": "How deep validation nests", "statement": "If n names are defined, every cycle of references goes through an array element or a property, and no default is a container, then a call on a value with at most d containers one inside the other follows at most n*(d+2)+1 references one inside the other (each is a Go stack frame that stays open), whatever the iteration order; looking for a default follows at most n+1. For every n and d there are a schema and a value that need n*(d+2).", "quantifier": "every schema with such references, every value, every iteration order; the lower bound for every n and d", "why_tests_cant": "schemas, values and their depths are unbounded", "anchors": ["reference.go:116-152", "object.go:373-435"]}
{"id": "C125", "title": "What UniqueItems means for decoded JSON", "statement": "With the printing rules of fmt for decoded JSON written out: UniqueItems(true) rejects every array with two elements that are equal as JSON documents (negative zeros aside: 0 and -0 pass); and in arrays of documents all of whose strings and property names are words (not empty, without blanks, colons, brackets, % and <) it rejects nothing else, so it adds exactly the rule that the elements are pairwise different. Without words, different documents are taken for the same.", "quantifier": "every array constraint, every array of decoded JSON documents of any depth, every way of printing numbers that tells them apart, every iteration order", "why_tests_cant": "documents are unbounded; whether two of them print alike depends on every string in them", "anchors": ["array.go:57-69"]}
{"id": "C126", "title": "How many calls a validation makes", "statement": "Validating a JSON document with a validator that has no references and fills nothing in makes at most one call of a Validate method for each pair of a constraint in the validator and a value in the document. If references are nested at most k deep and no definition has more than S constraints, it makes at most (S+1)^k times as many. The count does not depend on how many nested references are allowed once the call comes back, so when every cycle of references goes through an element or a property, it is bounded by the number of definitions, their size, and the size and depth of the document. The first two bounds cannot be improved much: the product is reached, and n definitions of three constraints each can make every validation take 4*2^n-2 calls, whatever the document. Nothing is left out either: when a loop over children is not cut short - All and arrays that accept, OneOf always, Any up to the first child that accepts, the declared properties of a map that is accepted - every child is called.", "quantifier": "every constraint tree and map of definitions that fills nothing in, every decoded JSON document, every iteration order, every n", "why_tests_cant": "trees, documents and chains of definitions are unbounded, and a test that reaches the exponential case does not finish", "anchors": ["combinations.go:49-135", "basic.go:76-90", "array.go:71-113", "object.go:366-499", "reference.go:136-152"]}
{"id": "C127", "title": "Optional and unmentioned properties", "statement": "If properties that may be missing are left out of an accepted document, and properties that no constraint mentions are added, left out or changed, anywhere in it, then no call returns an error for the result. A property may be missing if no object requires it or names it as a dependency; it is unmentioned if no object declares or matches it and all leave additional properties free. Objects must not count what may change, UniqueItems may only compare scalars, and under Not and OneOf properties may not be left out (unless only scalars are judged there). For unmentioned properties alone the verdict is the same in both directions, also under Not and OneOf. Defaults that nothing sees may be filled in. The same holds of the validator built, in any order, from a schema document whose keywords say this; if the document conforms and has no endless references, every call on the result accepts.", "quantifier": "every constraint tree and recursive definition, and every schema document, of this kind, every two decoded JSON documents related in this way, every iteration order", "why_tests_cant": "documents, the places in them where properties are left out, and iteration orders are unbounded", "anchors": ["object.go:366-499", "array.go:71-113", "combinations.go:49-135", "basic.go:65-90", "builder/builder.go:156-289", "builder/object.go:8-72", "builder/array.go:8-76"]}
{"id": "C128", "title": "Keywords that do not apply", "statement": "Where a schema lists its types, keywords for other types make no difference, nor does anything next to a $ref: leaving them out or changing them, at any depth and in definitions, gives the same validator or the same failure to build, and the schemas are valid for the same values in the draft-4 reading.", "quantifier": "every pair of schemas that differ only in such keywords, every pair of resolvers whose answers do, all iteration orders, every value", "why_tests_cant": "The claim compares all ways of adding inapplicable keywords at every position of every schema; a test tries single additions.", "anchors": ["builder/builder.go: buildFromSchema", "builder/string.go, builder/number.go, builder/array.go, builder/object.go"]}
