{
 "C01": {"note": "Any: exact first-match semantics and iff for read-only children."},
 "C02": {"note": "All: conjunction, first error in order."},
 "C03": {"note": "OneOf: exactly one accepting child."},
 "C04": {"note": "Not: exact complement when the child returns; nil child always an error."},
 "C05": {"note": "Reduce keeps possible verdicts and effects. It may change HasDefault (the combinators never report one)."},
 "C06": {"note": "C06_never_filled is the observable form; C06_has_no_default the methods."},
 "C07": {"note": "EmptyConstraint and NullConstraint, exact."},
 "C08": {"note": "Exactly the bools."},
 "C09": {"note": "Exact on scalars; panic condition on slices and maps."},
 "C10": {"note": "Exact iff against the declarative StrOk rules."},
 "C100": {"note": "Enum and MultipleOf are methods of the embedded NumberConstraint and return it: Integer().MultipleOf(0.5) is a number constraint, accepts 1.5 and rejects the Go integer 2 (C100_refuted). C100_exact says what every such chain accepts; the chains without them are in C99_integer. The builder calls these methods for their effect only, so built validators are not affected."},
 "C101": {"note": "As documented it does not hold for references made with a map (generated code makes these) and for references resolved before (C101_refuted). C101_lookup and C101_sticky describe every program: references that ask the validator itself, as the builder's do, and are not resolved yet go to the map of the last SetConstraintMap. One goroutine; for several see C47 and C73."},
 "C102": {"note": "C102_tree: an object behaves as its tree, C102_has_tree: which objects have one, C102_as_references: cyclic ones behave as references. C102_frame, C102_everywhere, C102_in_place: where a change shows. C102_order, C102_untouched and C102_own_*: programs. C102_guarded and C102_cycle: cycles. Slices handed to Enum and PositionalItems are values, and references look their name up every time (for what they keep see C47 and C101)."},
 "C103": {"note": "C103_cause: every error returned is true (trees without defaults). C103_blocks and C103_iff: a fault is never accepted; patterns of one object must not match the same undeclared name, as in C35, since otherwise only one of them is looked at. C103_place: the names lead to the place. C103_decoded: trees with defaults on decoded JSON, under the condition of C88; C103_filled shows that some condition is needed. Values are the tidy ones of C35: no maps with keys other than strings and no double pointers."},
 "C104": {"note": "Refuted: MarshalJSON writes the payload whatever the flag says, so an unset Maybe comes back set, and UnmarshalJSON of MaybeTime does not set the flag, so a set time comes back unset (C104_refuted). What holds: every other type comes back valid with the stored payload (C104_payload), hence unchanged exactly if it was valid (C104_same_iff); a MaybeTime gets the time and keeps the flag of the variable (C104_time); null makes a Maybe valid with the zero value and is an error for MaybeTime (C104_null); a struct read back has exactly the properties of its fields that are not MaybeTime (C104_struct, fields held by value and all present in the text). That encoding/json decodes what it encoded is the hypothesis Kept."},
 "C105": {"note": "Refuted (C105_refuted): four kinds of types matter. Enum compares interface values with ==, so it rejects scalars of defined types and slices and maps of other types than []interface{} and map[string]interface{} (C105_enum), and judges all other values by their contents (C105_enum_plain); MapIndex panics on maps whose keys are of a defined string type, as soon as anything is looked up (C105_keys, exact); a nil pointer in a field of type *MaybeX panics in any object constraint (C105_nil_maybe); a default that is not of the element type of the map panics in SetMapIndex, so the map is not accepted (C105_default). For all other values the claim holds (C105_same_partial: Ordinary says which values those are given whether the validator has defaults or Enum constraints; element types of slices are free), so validators of conforming schemas decide validity of the contents (C105_valid). Plain values are covered whatever the constraint (C105_conservative). PrintsLikePlain is the assumption on fmt for uniqueItems. Maps with elements of a Maybe type and interface fields holding Maybes are excluded from Ordinary."},
 "C106": {"note": "The names of references are registered (not as nil) beforehand, and defaults are scalars, as in C98. C106_late shows that names must be registered beforehand: All(Not(x), x) can accept if x is registered while it runs. C106_names shows that the target belongs to the reference object, not to the name: two references to one name can differ if it is registered again between their first uses. Validations that exceed the fuel for references (r = abort diverge, endless recursion in Go) are excluded where Returns is concluded. C106_progress and C106_ends need no registered names."},
 "C107": {"note": "The file is copied byte by byte into Model/TestValidator. Documents are decoded JSON with finite numbers; fmt is to print strings as themselves. C107_again is a case of what C42_refuted is about. For C107_reproduced, format.Source may change the layout only; how jsschema and jsref read schema.json is part of the model (draft4, draft4Resolve)."},
 "C108": {"note": "The schemas, as read from JSON text, have each key once in every map. Which registered constraints are the root itself is a parameter that does not depend on the order; it holds for one name at most (C108_alias_needed shows what happens otherwise). C108_status_varies shows that the status of failures does depend on the order."},
 "C109": {"note": "C109_outcomes: the sets of possible results (verdict, error, value afterwards) of two builds are equal, references followed through the validators' own maps; C109_validate: the same for JSVal.Validate at every amount of fuel, divergence included; C109_default; C109_verdict: with C35, one verdict for all builds and orders on default-free constraints with disjoint patterns."},
 "C11": {"note": "False: lengths are counted in bytes (C11_refuted). C11_exact: the limits bound the number of bytes of the UTF-8 encoding, for every string of characters. As worded for ASCII (C11_ascii_partial), one-sidedly for all strings (C11_lengths_partial)."},
 "C110": {"note": "C110_object, C110_dependency, C110_schema_dependency: builds in every order, and accepts exactly what Spec/OwnTests says in words, for all maps; C110_number, C110_string: the built root is the fluent one for all bounds and defaults; C110_array: generated in every order, with both calls (text before format.Source); C110_maybe, C110_maybe_default: for all names, ages and defaults. The inputs of the tests are the examples. C110_guess, C110_guess_table: the types guessed, as a list. C110_number_calls, C110_string_calls: the constraints of TestNumber and TestString for all numbers (not NaN), strings and limits. C110_manual, C110_manual_nil: ExampleManual. C110_reference: the README's reference example."},
 "C111": {"note": "C111_readable: equal texts, equal errors, for errors whose quoted names have no single quote; C111_some: every error has a text. C111_validator: the same with the validator name of jsval.go:22-28. C111_true: under the hypotheses of C103_cause, each clear reading of a returned message is a true Fault. C111_quoted shows why quotes are excluded: a property name in the value forges a false message. Names of kinds and types and texts of the standard library are arbitrary in Says."},
 "C112": {"note": "False as worded (C112_refuted): with the address of an interface{} that holds a document. C112_pointer: the same call, verdict, defaults and order, for constraints that dereference (strings, numbers, integers, objects, combinations and references of such) on values that are not structs (structs: C60, C90, C94). C112_unseen: booleans, arrays, null and enumerations reject every pointer to something. Behind two indirections: C112_twice_scalars (all rejected), C112_twice_empty and C112_twice_iff (which objects are accepted: those without properties), C112_twice_overwritten (defaults replace data)."},
 "C113": {"note": "C113_kept, for single constraints: the generated expression behaves like c.keep (Spec/Keep), for all constraints that are Spellable. C113_survives_iff: Survives exactly if c and c.keep have the same outcomes. C113_program: the same for lists of validators with references, read back and run as a program. C113_stable: generating again loses nothing more; C113_again_panics: but integer defaults have become int, on which the generator panics. C113_number_minimum_iff: a lower bound of numbers survives exactly if six decimals tell it (all finite float64; from 2^33 on they always do). C113_integer_minimum_iff, C113_integer_maximum_iff: bounds of integers survive exactly if whole or if cutting off the fraction rounds to the right side, depending on sign and exclusiveness."},
 "C114": {"note": "C114_enforced: as C75, for all conforming schemas for which code is generated (CodeFor), with validity for Schema.keep (Spec/KeepSchema) in place of validity for the schema. C114_weaker: valid for the schema implies valid for Schema.keep, if oneOf is not used, rounding widens bounds (Loosens), and all references resolve. C114_accepts_valid: both together. C114_command, C114_server: the same for the code that the command and the server write (as C80, C83). Not covered: not (generated code for it does not compile), percent signs (C71), default (C88)."},
 "C115": {"note": "Refuted as worded (C115_refuted): a part that contains {\"$ref\": \"#\"} gets a validator for which # is the part, not the file. C115_references, for all schemas: whenever the command succeeds, every other registered reference is built from what it points to in the file, and # is the part exactly if the part itself uses it. C115_command: C80 without a condition on what # is in the file. C115_file: parts that do not get to # are judged as worded."},
 "C116": {"note": "Proved. `C116_replaced`: filling a marked place of a validator with equivalent constraints gives equivalent validators; `C116_everywhere` the same with the marks in the constraint map too (the two equivalent whatever the map holds); `C116_exact`: equivalence is necessary and sufficient; `C116_reduce`/`C116_reduce_seen`: what that says about `Reduce`. Equivalent means the same default and the same possible verdicts with the same left behind (Spec/Replace.lean); the text of errors and what a panic leaves behind are not compared. Places are marked by a reference, as in C106."},
 "C117": {"note": "Proved. `C117_flat`, `C117_not`, `C117_not_not`: equivalences in the sense of C116 (same default, same possible verdicts, same left behind), so they hold inside every validator. `C117_order` is about one value that no branch changes or panics on; `C117_order_seen` shows that this is needed: the second branch of `All` sees the default that the first filled in."},
 "C118": {"note": "No condition on the value, the defaults or the patterns, unlike C103. C118_schema needs `#` to resolve to the document itself where it is used, as C63 does. The converse does not hold and is not claimed: a message that a rule provides for need not occur (an earlier rule may always win)."},
 "C119": {"note": "`Reported` gives for each constraint the order of its checks, with the parts that have to be accepted before; `C119_reported` and `C119_possible` show that the errors returned in some iteration order are exactly these. `C119_fault` ties them to the faults of C103, `C119_leftmost` and `C119_declared_first` are consequences in terms of faults, `C119_one_way` needs no hypothesis on defaults or values. `C119_decoded`: the same on decoded JSON with defaults that nothing sees (C88). For other defaults the statement would have to say what is filled in before; that is not covered."},
 "C12": {"note": "The byte automaton accepts exactly the declaratively well-formed names."},
 "C120": {"note": "Matching constraints are `BuiltAlike`, an inductive relation on pairs of trees, with unfolding of names on either side; `Corresponds` says that names taken for each other lead to matching constraints again. Unresolved names must agree, as the error shows them. For schemas the renaming is a permutation of names that fixes the empty name (no reference) and #; the resolver of the renamed document is the renamed resolver."},
 "C121": {"note": "The relation is `Rewritten`, an inductive relation on pairs of schemas with unfolding of references on either side; `SameDocument` asks that names taken for each other lead to related schemas again. That the two can be built is a hypothesis of the first three theorems; `C121_buildable` says when the second follows from the first. Divergence remains there because a document may be unrolled into infinitely many definitions. Next to a $ref other keywords are ignored, as the builder ignores them."},
 "C122": {"note": "`Tightens` compares two constraints of one environment (the maps of two validators have different numbers, so validators of two schemas can be compared, see C123); `S` may be any relation closed under it, so recursive references are compared by a coinductive argument. Default-free trees with disjoint patterns, tidy values, as for C103; `C122_decoded` lifts this, on decoded JSON, to defaults that nothing sees (C88), the comparison being that of the trees without them. Lower limits up to 0 limit nothing and are not compared; alternatives of two OneOfs are compared both ways. The rules are sufficient, not necessary: e.g. bounds are compared for equal types only."},
 "C123": {"note": "`Narrows` compares two schemas of two documents; `N` may be any relation closed under it, so recursive definitions are compared by a coinductive argument, and below `not` the documents change sides. The proof turns it into `Tightens` (C122) between what is built, for one fixed order of the builder, and carries that to any order by C109. `C123_fixed` and `C123_narrower` are for bare documents: no `default`, distinct keys, patterns that match the same undeclared name have one source. The two validators have different maps (`m \u2260 m'`), as two calls of the builder do. The rules are sufficient, not necessary. `C123_decoded` allows defaults that nothing looks at (`Discreet`) and compares the documents with the defaults struck out, for decoded JSON."},
 "C124": {"note": "`sem` with fuel k is the behaviour with at most k references open at once; `C124_within` bounds it by a rank on names (how many names a name leads to on the same value). `C124_attained` gives, for every n and d, a chain of n names ending in an object and d maps around a time.Time: the last n come from looking for the default of a property that a time.Time lacks."},
 "C125": {"note": "The package fmt is not in /repo; `Model/Fmt` writes out what it prints for decoded JSON (bad verbs as %!s(type=value), slices, maps in the order of their keys), with the text of numbers and of nil inside containers as parameters (`FmtLib.Good`). `C125_repeated`, `C125_words`, `C125_adds`; `C125_confused` and `C125_zeros` show where it fails. `C125_sorted` proves what C35 and C42 assume of printing (`PrintsSorted`)."},
 "C126": {"note": "C126_tree (no references), C126_nested (k nested references, definitions of at most S constraints), C126_settled (the count is the same with more fuel once the call comes back), C126_recursive (with C124: a bound for recursive definitions that does not mention fuel), C126_product (the product is reached), C126_doubling (2^n). From below: C126_all, C126_oneOf, C126_any, C126_items (exact), C126_declared (at least the declared properties); the other call sites are shown on literals only. Constraints fill nothing in (Inert, as in C41), so that the document does not grow while it is validated. The count is Model/Effort, which follows Model/Validate and takes results from it."},
 "C127": {"note": "C127_stays (the general form), C127_optional (properties that may be missing; every call that comes back accepts), C127_unmentioned (verdicts agree both ways), C127_decoded (with defaults that nothing sees). Spec/Revised has the relation between documents and what each constraint has to tolerate; the examples show that Not makes a difference for optional properties. For schema documents (Spec/TolerantSchema): C127_schema (built in any order), C127_fixed (in one fixed order, the lemma behind it), C127_schema_defaults (with defaults nothing sees), C127_accepts (conforming and grounded: every call accepts)."},
 "C128": {"note": "Schema.trim (Spec/Trim) leaves such keywords out; two schemas differ only in them if their trims are equal. C128_build: equal results of Build, errors included, for equal trims and resolvers alike in the same sense. C128_left_out: in particular for the trim itself. C128_valid: the same draft-4 validity. Without listed types keywords suggest types (C67), so nothing is left out there; an example shows why. C63_trimmed (listed under C63) uses it to widen the conforming fragment."},
 "C13": {"note": "Exact for ipv4 and ipv6."},
 "C14": {"note": "False: hexadecimal IPv6 addresses are rejected. Refuted; exact characterisation of what is lost."},
 "C15": {"note": "Unknown formats, including date-time, are ignored."},
 "C16": {"note": "Exact iff against the declarative NumOk rules."},
 "C17": {"note": "False: NaN passes (C17_refuted). C17_exact, for all floats: accepted exactly if between the bounds, or NaN; a bound that is NaN asks for nothing."},
 "C18": {"note": "Exact; same verdict for an integer and its float64 conversion."},
 "C19": {"note": "False beyond 2^53 (C19_refuted). C19_exact, C19_exact_unsigned, for all float64 bounds and integers of any size: accepted exactly if between the bounds, or if the nearest float64 (ties to even) is the bound it is beyond. C19_never_rejects: no integer between the bounds is rejected."},
 "C20": {"note": "Exact on exact magnitudes; zero divisor ignored."},
 "C21": {"note": "Only float64 entries of a numeric enum can match."},
 "C22": {"note": "Only slices; exact length bounds."},
 "C23": {"note": "Items applies to every element, for every iteration order, and overrides positional rules."},
 "C24": {"note": "Exact characterisation including the off-by-one start of the additional loop."},
 "C25": {"note": "False: the last positional element is also checked against AdditionalItems (C25_refuted). C25_exact: accepted exactly if as claimed and the additional rule also accepts what is left of the last positional element, when there are elements beyond it. C25_additional_partial is one direction of it."},
 "C26": {"note": "False: Array() starts with AdditionalItems set to EmptyConstraint (C26_refuted). C26_default_partial: without the call the length plays no role; C26_exact: after AdditionalItems(nil), exactly the slices that are not longer than the positions and otherwise fine."},
 "C27": {"note": "Exact in terms of the %s rendering."},
 "C28": {"note": "False: different values can render alike (C28_refuted). C28_exact: accepted exactly if no two elements are printed alike. Proved as worded when the rendering separates the elements, in particular for strings; for decoded JSON see C125."},
 "C29": {"note": "Exact: out of bounds is rejected untouched; bounds that hold have no influence."},
 "C30": {"note": "For maps and flat structs, by value or pointer, any children."},
 "C31": {"note": "False: required names that are not declared are not asked for (C31_refuted). C31_exact: Required(l) adds exactly the rule that those names of l that are declared have to be present. As worded when all required names are declared (C31_required_partial)."},
 "C32": {"note": "Both halves, any children, every iteration order."},
 "C33": {"note": "Exact over all orders for non-nil maps without schema dependencies; children may fill defaults and be nondeterministic."},
 "C34": {"note": "Exact against the declarative ObjRules, for maps and flat structs. C34_local asks for determinism of the children only on the values they are applied to."},
 "C35": {"note": "False in general (C35_refuted: overlapping patterns; C35_refuted_tried: defaults in a branch of Any). Proved for trees with disjoint patterns, references included: default-free trees on tidy values, and trees with defaults (nothing filled in by branches of Any/OneOf/Not or schema dependencies) on decoded JSON, where also the values left behind agree up to key order, and on nested structs, Maybe fields included, that stand for decoded JSON (C35_structs_partial, by C94). C35_unseen_partial: the verdict, on decoded JSON, where no other rule sees what is filled in (C88); there branches of Any and OneOf may fill in, and defaults need not be JSON. Missing: values with defaults that stand for no JSON document, e.g. because a field cannot take its default."},
 "C36": {"note": "Any children, every iteration order."},
 "C37": {"note": "False in both directions for additional properties (C37_refuted, C37_converse_refuted). C37_exact: a property dependency adds exactly the rule that if the property is present and declared or matched, so are those it depends on; defaults, structs and other dependencies included. As worded when the names involved are covered (C37_dependency_partial)."},
 "C38": {"note": "C38_schema_dependency: read-only children, the dependency accepts the value itself. C38_schema_dependency_defaults: children with defaults, the dependency accepted an extension of the value."},
 "C40": {"note": "False in general (C40_refuted: pointer to interface); proved for all values and defaults without pointers to pointers/interfaces, in particular all decoded JSON."},
 "C42": {"note": "False in general (C42_refuted: defaults are injected unvalidated). Proved for default-free trees with disjoint patterns, and for trees with defaults that pass their own constraint and are not seen by another part of the constraint (FillsApart; counterexamples show that its parts are needed), on decoded JSON and on nested structs that stand for it (C42_structs_partial, by C94). Missing: values with defaults that stand for no JSON document."},
 "C43": {"note": "False (C43_refuted). Exact on nil maps: C43_panics_iff, C43_accepts_iff, C43_panics_always_iff say when an object constraint panics on a nil map in some order, accepts it, panics in every order. Default-free trees with scalar enumerations never panic (C43_nil_maps_partial). Non-nil maps with defaults: C44_no_panic."},
 "C45": {"note": "Against fixed tables (C45_target, C45_context, C45_unregistered); C45_cache and C45_cache_set show when the cache cannot be observed."},
 "C47": {"note": "Machine of lock operations with any number of goroutines; nil constraints registered on purpose are not cached by the code and not covered by C47_sticky."},
 "C48": {"note": "C48_completes also excludes livelock."},
 "C49": {"note": "Defaults are copied in the model; containers as defaults are excluded because in Go they would be shared."},
 "C52": {"note": "Set on each of the six Maybe types: succeeds exactly on the listed dynamic types (C52_succeeds_iff), holds the documented conversion (C52_round_trip), a failure changes nothing and reports no success (C52_failure). Conversions of floats outside the integer range are left open because Go does not define them."},
 "C53": {"note": "Invalid Maybes are absent: for every history of Set/Reset/UnmarshalJSON calls the property is present exactly when a validity-making call came after the last Reset."},
 "C54": {"note": "Refuted: ValidFlag.Reset (the promoted method) clears only the flag, so the stored value stays readable through Value and MarshalJSON (C54_refuted, C54_stale). What holds: the flag is that of a fresh Maybe, and the whole value is fresh exactly when the stored one is the zero value (C54_flag_partial)."},
 "C55": {"note": "Refuted for MaybeTime, whose UnmarshalJSON never sets the valid flag (C55_refuted); proved for the other five kinds (C55_valid_partial) and for the success condition of all six (C55_succeeds_iff)."},
 "C56": {"note": "Names of visible fields at every nesting depth (C56_names, C56_visible); embedded non-struct fields make the extraction panic (C56_panics)."},
 "C57": {"note": "False as stated: a field whose Go name hides the designated one makes the reported names differ from the values read (C57_refuted). Exact for every struct, shadowed and ambiguous fields included, in terms of the selector rule of the Go specification: C57_names_panics_iff, C57_names_iff, C57_value_iff. As worded for structs without shadowing (C57_names_partial, C57_value_partial)."},
 "C58": {"note": "Invariant over every interleaving of any number of goroutines; also no data race, deadlock freedom and release of the lock."},
 "C59": {"note": "False when a declared property with a default has no field that takes it (C59_refuted). Proved order by order for flat structs with takeable defaults and no schema dependencies, and by C59_nested for any constraint, nested and embedded structs, and schema dependencies, where the iteration order on the other side is some order."},
 "C60": {"note": "For every struct (C60_any_*, shadowed fields and shared JSON names included): by value never accepted, and a panic whenever nothing else rejects it; by pointer an accepted call leaves the field a valid Maybe that holds a default of a property with that field, and the property's own if it is the only one (C60_any_value). C60_by_pointer compares with the call without the rule: the same verdict, and of the end values only the field differs; this needs a field for every property (the example beside C60_any_filled has one field for two, where the verdicts differ). C60_filled has schema dependencies; C60_pointer_field *Maybe fields, by value too; C60_misfit a default the field cannot take; C60_nested nested structs."},
 "C61": {"note": "BuildWithCtx/Build of nil errs; on success every reference in the root or any table entry goes to the validator's own map and is registered there. All schemas (trees), resolvers, fuel, map orders."},
 "C62": {"note": "For every schema and resolver whose reachable reference names lie in a finite list there is a fuel bound independent of the schedule, and more fuel changes nothing; corollary for resolvers that resolve finitely many names. C62_endless shows the finiteness hypothesis is needed."},
 "C63": {"note": "Draft-4 validity is a separate spec (Spec/JsonSchema.lean); the conforming fragment is the hypothesis Schema.Conforms. C63_sound: every returning run decides validity, document unchanged, only unbounded reference following does not return. C63_exact: with grounded references, existence (and uniqueness on documents) of the meaning of references, termination, and acceptance iff valid, for all build and validation iteration orders. C63_defaults: the same for schemas with defaults, if the schema without them conforms and nothing looks at what is filled in (Schema.Discreet). Unique items are in the fragment for lists of strings (the package compares printed items), as in stringArray of the metaschema; and for any items when only documents are considered whose strings and property names are words, without negative zeros (DocClass.wordy), and fmt prints as in C125 (Props/ConformingUnique). Lengths of strings (the package counts bytes, C11) are in the fragment for ASCII documents, and as \"not empty\" (minLength 1, maxLength 0) for all texts that do not begin inside a UTF-8 character (DocClass.utf8); C63_min_edge and C63_max_edge show that for every other limit some text is judged wrongly (Props/ConformingLength). C63_characters and C63_whole: what the specification counts in a text are the characters it encodes, and such a text does not begin inside one. C63_trimmed extends the exact agreement to every schema that lies in the conforming fragment once the keywords that do not apply to its type (C128) are left out; the case shown is a boolean schema with a length, an unsupported format and a required name, which itself is outside the fragment."},
 "C64": {"note": "Full statement C64_statement refuted by {not:string, anyOf:[integer]} accepting true. C64_first_partial: it holds for the first keyword present in the order not, allOf, anyOf, oneOf. C64_later_ignored: exactly the same is built when the later keywords are left out."},
 "C65": {"note": "Full statement C65_statement refuted by {type:boolean, enum:[true]} accepting false; number schemas with an enum reject everything (proved); next to types boolean, array, object and null it has no effect (C65_ignored). What holds for scalars, next to any combinators and references: an accepted scalar is listed (an integer counts as the float64 it is compared by), or it is a boolean and the schema is for booleans, or it is null and the schema is for null (C65_accepted); these exceptions are real (C65_unlisted)."},
 "C66": {"note": "Retyped relates schemas differing by permutations of type lists at any depth, position by position; the built constraint, names and whole validator (including resolved schemas) are equal."},
 "C67": {"note": "Suggests lists the suggesting keywords per type. An untyped schema is built exactly like the one with the suggested types listed; with no suggestion and no enum only combinators matter, and without those everything is accepted. dependencies do not suggest object."},
 "C68": {"note": "Process gives the same text (or the same failure) under every iteration order when tables are maps, pattern sources are distinct in every object and no root is registered under two names; both conditions are shown to be needed. sort.Sort is modelled as a stable sort."},
 "C69": {"note": "C69_constraint: single expressions. C69_program: whole programs written by Process are read by an independently written reader of the Go subset and run; every validator variable ends up with a root having exactly the same outcomes on every value (including defaults filled in). The fragment is Supported in Spec/GenProg.lean. Hypothesis on references: what the first validator registers under a name is what this validator registers."},
 "C70": {"note": "False as stated: Survives is refuted for multipleOf and enum of numbers and integers, fractional integer bounds, bounds with more than six decimals, property counts, schema dependencies, forbidden additional items, empty Any/OneOf, enumerations of their own, every Not of a supported child, empty string lists, unlisted kinds in string lists and integer defaults. The _partial theorems say in general what is dropped. C70_bounds_partial: bounds of numbers come back rounded to six decimals and to float64; C70_decimals_iff: a lower bound survives exactly if that does not move it (0.1 does, 0.0000015 does not). C113 says exactly what is kept of every constraint for which code is written."},
 "C71": {"note": "False as stated, and exactly when: as a format, a pattern, a listed value or a default of a string constraint, a string comes back from generated code as it was if and only if it has no % (C71_verbatim, with every directive fmt knows: flags, *, argument indexes, numbers of any length, verbs outside ASCII, directives without a verb); generated code behaves the same for a listed string if and only if it has no % (C71_listed). The same for names: of properties, required properties, either side of a dependency and the sources of patterns for names (C71_names; behaviour for a declared property: C71_property), and for the name in a reference (C71_reference). C71_reference_refuted: in a whole program a definition whose name has %20 in it is registered under its name, but the reference to it refers to another name, so the validator rejects everything. C71_directives_partial says what a string with ordinary directives turns into. What nested constraints, which pass through several formats, turn into is covered by C69 (no %) only."},
 "C72": {"note": "For every list of validators Process starts with the sorted declarations, one per validator; for supported lists the program read back has them as its first declarations and the variables hold validators of these names. C72_runs_iff: the code can be run exactly if the names are different from each other, from reserved names and from the variables made for references. C72_clash: a positional name can collide with a given one."},
 "C74": {"note": "False because Len takes no lock (C74_refuted); proved for the other three operations."},
 "C75": {"note": "The fragment is Schema.Conforms and Schema.Expresses (no not, no multipleOf, no schema dependencies, no min/maxProperties, string enums, bounds with at most six decimals, no percent signs): what is left out is shown lost or altered by C70, C71 and the refutations of C63. OneRoot excludes two schemas both using #, because the generated code has a single table. C75_defaults: the same for schemas with defaults that can be written in Go source, if nothing looks at what is filled in."},
 "C76": {"note": "Refuted as worded: if two validators register different constraints under one name, the second call takes the other one. Proved where validators agree on names: C76_order (permutation of named, distinct, agreeing validators gives the same text), C76_repeat (second call gives the same text, including unnamed validators where V10 sorts before V2)."},
 "C77": {"note": "Refuted as worded: of two validators that both register something under #, one behaves like the other one after generation. Proved (C77_together_partial) for validators in the fragment the generator carries over that agree on names and register what they refer to."},
 "C78": {"note": "C78_status proves the exit status exactly. The rest is refuted as worded: the output file is truncated before the code is known to exist (C78_truncated_refuted), and an unsuccessful write leaves status 0 (C78_written_refuted). C78_output_partial: on success the output holds the bytes the operating system accepted and nothing else changes. C78_failure_partial: otherwise nothing changes, or the output file is empty."},
 "C79": {"note": "Refuted as worded: with prefix R the exit status is 0 but variables are declared twice (C79_refuted). C79_exact: whatever the prefix, the names are prefix and position and distinct; for prefixes of ASCII letters and digits that start with a letter the code can be run exactly if no name is that of a variable R<k> made for one of the references. C79_names_partial: no clash at all unless the prefix is R followed by digits only."},
 "C80": {"note": "C80_command assumes that the validators were built; C80_complete derives this from C81, so building is part of the claim. The libraries for options, JSON, pointers, layout and the operating system are parameters. Layout is assumed to keep what the program means, and the disk to take all bytes. OneRoot and the prefix condition exclude C77_refuted and C79_refuted. C80_defaults: the same with defaults."},
 "C81": {"note": "C81_necessary and C81_succeeds give both directions for every schedule; C81_conforming shows that the conforming fragment with resolvable references and known types is included."},
 "C82": {"note": "C82_success: success and code exactly if the body is a schema from which the code is generated. C82_answer_partial: every answer has status 200 and is a code object labelled as JSON, or a failure object without label. Refuted as worded because of the missing label (C82_refuted)."},
 "C83": {"note": "Building is part of the claim (by C81_conforming), as is generation (by C75). Layout is assumed to keep what the program means. The identity test of the generator is assumed not to call different constraints the same. C83_defaults: the same with defaults."},
 "C84": {"note": "Template parsing either always or never succeeds, because the template is a constant. Building and generating are one step, since they share nothing."},
 "C85": {"note": "Building is one step of the machine; that it ends is C62."},
 "C86": {"note": "Goroutines that are not waiting for a mutex are taken to be able to go on; that validation of one object ends is C49."},
 "C87": {"note": "Refuted as worded: patternProperties is read without the mutex it is written under, and the minimum, maximum and additional properties have none (C87_refuted). C87_guarded_partial proves it for the other four fields; C87_writers that writes under one mutex exclude each other; C87_readers that goroutines that only validate never race."},
 "C88": {"note": "The condition Unseen is local to each node; counterexamples beside the theorem show that each of its parts is needed. Values are decoded JSON; defaults are arbitrary Go values."},
 "C89": {"note": "The wording of messages is abstracted to its cause. Libraries are parameters. A run that panics or does not end has no answer; C89_answered says that this can only happen to requests for code."},
 "C90": {"note": "The methods are functions of what the fields hold (Model/Hooks); put says what a change of a value handed out by GetPropValue does to the fields. Methods belong to the struct type, not to the pointer type, as the package looks for them there. Looks excludes nil as a presented value (GetPropValue cannot tell it from absence; C91_listed_nil) and Maybe values."},
 "C91": {"note": "That C91_set_refused and C91_listed_nil speak of all fields (forall fs) is because other defaults may be set in between; the error of SetPropValue itself is in the example."},
 "C92": {"note": "Option parsing and http.ListenAndServe are parameters; that ListenAndServe never returns nil is its documented contract and a hypothesis of C92_status."},
 "C93": {"note": "Exact exit status, output, unchanged files otherwise, and the end-to-end theorem through builder and generator."},
 "C94": {"note": "StandsFor (Spec/Shows) relates structs, by value or by pointer, to maps, where the fields of embedded structs count as fields of the outer one (Merges: only structs are embedded, no Go name is shadowed, JSON names are distinct). The relation carries the set of constraints that a value is validated by (Role), computed from the tree and the references: a struct needs fields for the defaults of those constraints only, a Maybe field that they do not declare meets no pattern and no schema for additional properties (there the Maybe itself would be validated, C57), a Go integer needs that none of them is a number constraint (numCheck rejects Go integers, which an example shows) or lists numbers, and a pointer to a string or number stands for what it points at, a nil pointer for null, unless values of any type are listed that tell them apart (examples show that pointers to booleans and to listed strings are rejected). Times and other values without properties or items stand for themselves. Constraint.Fair asks for scalar enums and defaults. A Maybe field must store its default as a value that stands for it (a MaybeInt takes 7.0), so that the filled struct stands for the filled map. The iteration order on the other side is some order, as maps and structs list their properties in different orders. C94_valid needs no order, since the verdict does not depend on it. Corollaries for structs with defaults: C35_structs_partial, C42_structs_partial, C44_structs, C59_nested, C60_nested (Props/StructCalls, Props/StructMaps). Left out: structs under uniqueItems."},
 "C95": {"note": "Maps with keys of interface type (as YAML gives) are not among the values of the model."},
 "C96": {"note": "maybeGo and maybeGenTestGo are copies of the files in /repo. Blanks, tabs and line feeds are left out of the comparison (ink); that format.Source changes nothing else is a hypothesis."},
 "C97": {"note": "Mechanised on Model/Memory, a second model of Validate in which maps have addresses. C97_alias and C97_default show that the two conditions are needed; both are stated in the property, C97_cycle too. C97_layout shows that the hypotheses can be met for every decoded document."},
 "C98": {"note": "C98_same is the race the property mentions."},
 "C99": {"note": "Constraints are values here; C102 has them as objects, and relates what a program of calls leaves behind to the chains of C99. Objects with the same calls in another order are compared up to the order in which Go's maps are visited. C99_integer leaves out Enum and MultipleOf, which are the subject of C100."}
}
