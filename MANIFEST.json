{
 "claims": [
  {
   "property": "C01",
   "status": "proved",
   "theorems": [
    "Jsval.C01_any_exact",
    "Jsval.C01_any_accepts_iff",
    "Jsval.C01_any_short_circuit",
    "Jsval.C01_any_empty"
   ],
   "note": "Any: exact first-match semantics and iff for read-only children."
  },
  {
   "property": "C02",
   "status": "proved",
   "theorems": [
    "Jsval.C02_all_accepts_iff",
    "Jsval.C02_all_accepts_iff_readOnly",
    "Jsval.C02_all_first_error",
    "Jsval.C02_all_empty"
   ],
   "note": "All: conjunction, first error in order."
  },
  {
   "property": "C03",
   "status": "proved",
   "theorems": [
    "Jsval.C03_oneOf_exact",
    "Jsval.C03_oneOf_general"
   ],
   "note": "OneOf: exactly one accepting child."
  },
  {
   "property": "C04",
   "status": "proved",
   "theorems": [
    "Jsval.C04_not_exact",
    "Jsval.C04_not_rejects",
    "Jsval.C04_not_nil",
    "Jsval.C04_double_negation"
   ],
   "note": "Not: exact complement when the child returns; nil child always an error."
  },
  {
   "property": "C05",
   "status": "proved",
   "theorems": [
    "Jsval.C05_reduce_preserves"
   ],
   "note": "Reduce keeps possible verdicts and effects. It may change HasDefault (the combinators never report one)."
  },
  {
   "property": "C06",
   "status": "proved",
   "theorems": [
    "Jsval.C06_never_filled",
    "Jsval.C06_has_no_default"
   ],
   "note": "C06_never_filled is the observable form; C06_has_no_default the methods."
  },
  {
   "property": "C07",
   "status": "proved",
   "theorems": [
    "Jsval.C07_empty",
    "Jsval.C07_null_exact"
   ],
   "note": "EmptyConstraint and NullConstraint, exact."
  },
  {
   "property": "C08",
   "status": "proved",
   "theorems": [
    "Jsval.C08_boolean_exact"
   ],
   "note": "Exactly the bools."
  },
  {
   "property": "C09",
   "status": "proved",
   "theorems": [
    "Jsval.C09_enum_exact",
    "Jsval.C09_enum_container"
   ],
   "note": "Exact on scalars; panic condition on slices and maps."
  },
  {
   "property": "C10",
   "status": "proved",
   "theorems": [
    "Jsval.C10_string_exact",
    "Jsval.C10_string_total"
   ],
   "note": "Exact iff against the declarative StrOk rules."
  },
  {
   "property": "C11",
   "status": "partial",
   "theorems": [
    "Jsval.C11_exact",
    "Jsval.C11_refuted",
    "Jsval.C11_lengths_partial",
    "Jsval.C11_ascii_partial"
   ],
   "note": "False: lengths are counted in bytes (C11_refuted). C11_exact: the limits bound the number of bytes of the UTF-8 encoding, for every string of characters. As worded for ASCII (C11_ascii_partial), one-sidedly for all strings (C11_lengths_partial)."
  },
  {
   "property": "C12",
   "status": "proved",
   "theorems": [
    "Jsval.C12_hostname_exact"
   ],
   "note": "The byte automaton accepts exactly the declaratively well-formed names."
  },
  {
   "property": "C13",
   "status": "proved",
   "theorems": [
    "Jsval.C13_ip_exact"
   ],
   "note": "Exact for ipv4 and ipv6."
  },
  {
   "property": "C14",
   "status": "partial",
   "theorems": [
    "Jsval.C14_refuted",
    "Jsval.C14_ipv6_partial"
   ],
   "note": "False: hexadecimal IPv6 addresses are rejected. Refuted; exact characterisation of what is lost."
  },
  {
   "property": "C15",
   "status": "proved",
   "theorems": [
    "Jsval.C15_unknown_format"
   ],
   "note": "Unknown formats, including date-time, are ignored."
  },
  {
   "property": "C16",
   "status": "proved",
   "theorems": [
    "Jsval.C16_number_exact",
    "Jsval.C16_number_total"
   ],
   "note": "Exact iff against the declarative NumOk rules."
  },
  {
   "property": "C17",
   "status": "partial",
   "theorems": [
    "Jsval.C17_exact",
    "Jsval.C17_refuted",
    "Jsval.C17_interval_partial"
   ],
   "note": "False: NaN passes (C17_refuted). C17_exact, for all floats: accepted exactly if between the bounds, or NaN; a bound that is NaN asks for nothing."
  },
  {
   "property": "C18",
   "status": "proved",
   "theorems": [
    "Jsval.C18_integer_exact",
    "Jsval.C18_integer_plain",
    "Jsval.C18_kind_irrelevant"
   ],
   "note": "Exact; same verdict for an integer and its float64 conversion."
  },
  {
   "property": "C19",
   "status": "partial",
   "theorems": [
    "Jsval.C19_exact",
    "Jsval.C19_exact_unsigned",
    "Jsval.C19_never_rejects",
    "Jsval.C19_refuted",
    "Jsval.C19_integer_bounds_partial"
   ],
   "note": "False beyond 2^53 (C19_refuted). C19_exact, C19_exact_unsigned, for all float64 bounds and integers of any size: accepted exactly if between the bounds, or if the nearest float64 (ties to even) is the bound it is beyond. C19_never_rejects: no integer between the bounds is rejected."
  },
  {
   "property": "C20",
   "status": "proved",
   "theorems": [
    "Jsval.C20_multipleOf_exact"
   ],
   "note": "Exact on exact magnitudes; zero divisor ignored."
  },
  {
   "property": "C21",
   "status": "proved",
   "theorems": [
    "Jsval.C21_enum_float64_only",
    "Jsval.C21_enum_no_floats"
   ],
   "note": "Only float64 entries of a numeric enum can match."
  },
  {
   "property": "C22",
   "status": "proved",
   "theorems": [
    "Jsval.C22_only_slices",
    "Jsval.C22_length_rejects"
   ],
   "note": "Only slices; exact length bounds."
  },
  {
   "property": "C23",
   "status": "proved",
   "theorems": [
    "Jsval.C23_items_exact",
    "Jsval.C23_items_all_orders"
   ],
   "note": "Items applies to every element, for every iteration order, and overrides positional rules."
  },
  {
   "property": "C24",
   "status": "proved",
   "theorems": [
    "Jsval.C24_positional_exact"
   ],
   "note": "Exact characterisation including the off-by-one start of the additional loop."
  },
  {
   "property": "C25",
   "status": "partial",
   "theorems": [
    "Jsval.C25_refuted",
    "Jsval.C25_additional_partial",
    "Jsval.C25_exact"
   ],
   "note": "False: the last positional element is also checked against AdditionalItems (C25_refuted). C25_exact: accepted exactly if as claimed and the additional rule also accepts what is left of the last positional element, when there are elements beyond it. C25_additional_partial is one direction of it."
  },
  {
   "property": "C26",
   "status": "partial",
   "theorems": [
    "Jsval.C26_refuted",
    "Jsval.C26_default_partial",
    "Jsval.C26_explicit_nil_partial",
    "Jsval.C26_exact"
   ],
   "note": "False: Array() starts with AdditionalItems set to EmptyConstraint (C26_refuted). C26_default_partial: without the call the length plays no role; C26_exact: after AdditionalItems(nil), exactly the slices that are not longer than the positions and otherwise fine."
  },
  {
   "property": "C27",
   "status": "proved",
   "theorems": [
    "Jsval.C27_unique_exact",
    "Jsval.C27_equal_rejected"
   ],
   "note": "Exact in terms of the %s rendering."
  },
  {
   "property": "C28",
   "status": "partial",
   "theorems": [
    "Jsval.C28_refuted",
    "Jsval.C28_unique_partial",
    "Jsval.C28_strings_partial",
    "Jsval.C28_exact"
   ],
   "note": "False: different values can render alike (C28_refuted). C28_exact: accepted exactly if no two elements are printed alike. Proved as worded when the rendering separates the elements, in particular for strings; for decoded JSON see C125."
  },
  {
   "property": "C29",
   "status": "proved",
   "theorems": [
    "Jsval.C29_count_rejected",
    "Jsval.C29_count_irrelevant"
   ],
   "note": "Exact: out of bounds is rejected untouched; bounds that hold have no influence."
  },
  {
   "property": "C30",
   "status": "proved",
   "theorems": [
    "Jsval.C30_required_declared"
   ],
   "note": "For maps and flat structs, by value or pointer, any children."
  },
  {
   "property": "C31",
   "status": "partial",
   "theorems": [
    "Jsval.C31_exact",
    "Jsval.C31_refuted",
    "Jsval.C31_required_partial"
   ],
   "note": "False: required names that are not declared are not asked for (C31_refuted). C31_exact: Required(l) adds exactly the rule that those names of l that are declared have to be present. As worded when all required names are declared (C31_required_partial)."
  },
  {
   "property": "C32",
   "status": "proved",
   "theorems": [
    "Jsval.C32_undeclared_rejected",
    "Jsval.C32_additional_accepts"
   ],
   "note": "Both halves, any children, every iteration order."
  },
  {
   "property": "C33",
   "status": "proved",
   "theorems": [
    "Jsval.C33_all_orders",
    "Jsval.C33_every_pattern"
   ],
   "note": "Exact over all orders for non-nil maps without schema dependencies; children may fill defaults and be nondeterministic."
  },
  {
   "property": "C34",
   "status": "proved",
   "theorems": [
    "Jsval.C34_exact",
    "Jsval.C34_local"
   ],
   "note": "Exact against the declarative ObjRules, for maps and flat structs. C34_local asks for determinism of the children only on the values they are applied to."
  },
  {
   "property": "C35",
   "status": "partial",
   "theorems": [
    "Jsval.C35_refuted",
    "Jsval.C35_object_partial",
    "Jsval.C35_tree_partial",
    "Jsval.C35_json_partial",
    "Jsval.C35_defaults_partial",
    "Jsval.C35_defaults_json_partial",
    "Jsval.C35_refuted_tried",
    "Jsval.C35_structs_partial",
    "Jsval.C35_unseen_partial",
    "Jsval.C35_unseen_json_partial"
   ],
   "note": "False in general (C35_refuted: overlapping patterns; C35_refuted_tried: defaults in a branch of Any). Proved for trees with disjoint patterns, references included: default-free trees on tidy values, and trees with defaults (nothing filled in by branches of Any/OneOf/Not or schema dependencies) on decoded JSON, where also the values left behind agree up to key order, and on nested structs, Maybe fields included, that stand for decoded JSON (C35_structs_partial, by C94). C35_unseen_partial: the verdict, on decoded JSON, where no other rule sees what is filled in (C88); there branches of Any and OneOf may fill in, and defaults need not be JSON. Missing: values with defaults that stand for no JSON document, e.g. because a field cannot take its default."
  },
  {
   "property": "C36",
   "status": "proved",
   "theorems": [
    "Jsval.C36_prop_dependencies"
   ],
   "note": "Any children, every iteration order."
  },
  {
   "property": "C37",
   "status": "partial",
   "theorems": [
    "Jsval.C37_exact",
    "Jsval.C37_refuted",
    "Jsval.C37_converse_refuted",
    "Jsval.C37_dependency_partial"
   ],
   "note": "False in both directions for additional properties (C37_refuted, C37_converse_refuted). C37_exact: a property dependency adds exactly the rule that if the property is present and declared or matched, so are those it depends on; defaults, structs and other dependencies included. As worded when the names involved are covered (C37_dependency_partial)."
  },
  {
   "property": "C38",
   "status": "proved",
   "theorems": [
    "Jsval.C38_schema_dependency_defaults",
    "Jsval.C38_schema_dependency"
   ],
   "note": "C38_schema_dependency: read-only children, the dependency accepts the value itself. C38_schema_dependency_defaults: children with defaults, the dependency accepted an extension of the value."
  },
  {
   "property": "C39",
   "status": "proved",
   "theorems": [
    "Jsval.C39_fills_defaults",
    "Jsval.C39_then_dependencies"
   ],
   "note": ""
  },
  {
   "property": "C40",
   "status": "partial",
   "theorems": [
    "Jsval.C40_refuted",
    "Jsval.C40_extension_partial",
    "Jsval.C40_json_partial"
   ],
   "note": "False in general (C40_refuted: pointer to interface); proved for all values and defaults without pointers to pointers/interfaces, in particular all decoded JSON."
  },
  {
   "property": "C41",
   "status": "proved",
   "theorems": [
    "Jsval.C41_read_only",
    "Jsval.C41_inert"
   ],
   "note": ""
  },
  {
   "property": "C42",
   "status": "partial",
   "theorems": [
    "Jsval.C42_refuted",
    "Jsval.C42_default_free_partial",
    "Jsval.C42_json_partial",
    "Jsval.C42_defaults_partial",
    "Jsval.C42_defaults_json_partial",
    "Jsval.C42_structs_partial"
   ],
   "note": "False in general (C42_refuted: defaults are injected unvalidated). Proved for default-free trees with disjoint patterns, and for trees with defaults that pass their own constraint and are not seen by another part of the constraint (FillsApart; counterexamples show that its parts are needed), on decoded JSON and on nested structs that stand for it (C42_structs_partial, by C94). Missing: values with defaults that stand for no JSON document."
  },
  {
   "property": "C43",
   "status": "partial",
   "theorems": [
    "Jsval.C43_refuted",
    "Jsval.C43_nil_maps_partial",
    "Jsval.C43_panics_iff",
    "Jsval.C43_accepts_iff",
    "Jsval.C43_panics_always_iff"
   ],
   "note": "False (C43_refuted). Exact on nil maps: C43_panics_iff, C43_accepts_iff, C43_panics_always_iff say when an object constraint panics on a nil map in some order, accepts it, panics in every order. Default-free trees with scalar enumerations never panic (C43_nil_maps_partial). Non-nil maps with defaults: C44_no_panic."
  },
  {
   "property": "C44",
   "status": "proved",
   "theorems": [
    "Jsval.C44_no_panic",
    "Jsval.C44_json",
    "Jsval.C44_structs"
   ],
   "note": ""
  },
  {
   "property": "C45",
   "status": "proved",
   "theorems": [
    "Jsval.C45_target",
    "Jsval.C45_context",
    "Jsval.C45_unregistered",
    "Jsval.C45_cache",
    "Jsval.C45_cache_set",
    "Jsval.C45_objects",
    "Jsval.C45_nil"
   ],
   "note": "Against fixed tables (C45_target, C45_context, C45_unregistered); C45_cache and C45_cache_set show when the cache cannot be observed."
  },
  {
   "property": "C46",
   "status": "proved",
   "theorems": [
    "Jsval.C46_last_writer_wins",
    "Jsval.C46_lookups_do_not_matter",
    "Jsval.C46_len"
   ],
   "note": ""
  },
  {
   "property": "C47",
   "status": "proved",
   "theorems": [
    "Jsval.C47_sticky",
    "Jsval.C47_was_registered",
    "Jsval.C47_failure_not_remembered",
    "Jsval.C47_succeeds_after_registration"
   ],
   "note": "Machine of lock operations with any number of goroutines; nil constraints registered on purpose are not cached by the code and not covered by C47_sticky."
  },
  {
   "property": "C48",
   "status": "proved",
   "theorems": [
    "Jsval.C48_no_deadlock",
    "Jsval.C48_completes"
   ],
   "note": "C48_completes also excludes livelock."
  },
  {
   "property": "C49",
   "status": "proved",
   "theorems": [
    "Jsval.C49_reference_free",
    "Jsval.C49_guarded",
    "Jsval.C49_guarded_returns"
   ],
   "note": "Defaults are copied in the model; containers as defaults are excluded because in Go they would be shared."
  },
  {
   "property": "C50",
   "status": "proved",
   "theorems": [
    "Jsval.C50_cycle",
    "Jsval.C50_self"
   ],
   "note": ""
  },
  {
   "property": "C51",
   "status": "proved",
   "theorems": [
    "Jsval.C51_verdict",
    "Jsval.C51_error",
    "Jsval.C51_effect",
    "Jsval.C51_abort"
   ],
   "note": ""
  },
  {
   "property": "C52",
   "status": "proved",
   "theorems": [
    "Jsval.C52_succeeds_iff",
    "Jsval.C52_round_trip",
    "Jsval.C52_valid",
    "Jsval.C52_failure",
    "Jsval.C52_converts_total"
   ],
   "note": "Set on each of the six Maybe types: succeeds exactly on the listed dynamic types (C52_succeeds_iff), holds the documented conversion (C52_round_trip), a failure changes nothing and reports no success (C52_failure). Conversions of floats outside the integer range are left open because Go does not define them."
  },
  {
   "property": "C53",
   "status": "proved",
   "theorems": [
    "Jsval.C53_history",
    "Jsval.C53_reset",
    "Jsval.C53_absent",
    "Jsval.C53_required",
    "Jsval.C53_as_missing"
   ],
   "note": "Invalid Maybes are absent: for every history of Set/Reset/UnmarshalJSON calls the property is present exactly when a validity-making call came after the last Reset."
  },
  {
   "property": "C54",
   "status": "partial",
   "theorems": [
    "Jsval.C54_refuted",
    "Jsval.C54_flag_partial",
    "Jsval.C54_stale"
   ],
   "note": "Refuted: ValidFlag.Reset (the promoted method) clears only the flag, so the stored value stays readable through Value and MarshalJSON (C54_refuted, C54_stale). What holds: the flag is that of a fresh Maybe, and the whole value is fresh exactly when the stored one is the zero value (C54_flag_partial)."
  },
  {
   "property": "C55",
   "status": "partial",
   "theorems": [
    "Jsval.C55_refuted",
    "Jsval.C55_valid_partial",
    "Jsval.C55_succeeds_iff",
    "Jsval.C55_time_partial"
   ],
   "note": "Refuted for MaybeTime, whose UnmarshalJSON never sets the valid flag (C55_refuted); proved for the other five kinds (C55_valid_partial) and for the success condition of all six (C55_succeeds_iff)."
  },
  {
   "property": "C56",
   "status": "proved",
   "theorems": [
    "Jsval.C56_names",
    "Jsval.C56_visible",
    "Jsval.C56_panics"
   ],
   "note": "Names of visible fields at every nesting depth (C56_names, C56_visible); embedded non-struct fields make the extraction panic (C56_panics)."
  },
  {
   "property": "C57",
   "status": "partial",
   "theorems": [
    "Jsval.C57_names_panics_iff",
    "Jsval.C57_names_iff",
    "Jsval.C57_value_iff",
    "Jsval.C57_refuted",
    "Jsval.C57_names_partial",
    "Jsval.C57_value_partial"
   ],
   "note": "False as stated: a field whose Go name hides the designated one makes the reported names differ from the values read (C57_refuted). Exact for every struct, shadowed and ambiguous fields included, in terms of the selector rule of the Go specification: C57_names_panics_iff, C57_names_iff, C57_value_iff. As worded for structs without shadowing (C57_names_partial, C57_value_partial)."
  },
  {
   "property": "C58",
   "status": "proved",
   "theorems": [
    "Jsval.C58_extracted",
    "Jsval.C58_found",
    "Jsval.C58_no_race",
    "Jsval.C58_progress",
    "Jsval.C58_released"
   ],
   "note": "Invariant over every interleaving of any number of goroutines; also no data race, deadlock freedom and release of the lock."
  },
  {
   "property": "C59",
   "status": "partial",
   "theorems": [
    "Jsval.C59_nested",
    "Jsval.C59_refuted",
    "Jsval.C59_same_verdict_partial",
    "Jsval.C59_all_orders_partial"
   ],
   "note": "False when a declared property with a default has no field that takes it (C59_refuted). Proved order by order for flat structs with takeable defaults and no schema dependencies, and by C59_nested for any constraint, nested and embedded structs, and schema dependencies, where the iteration order on the other side is some order."
  },
  {
   "property": "C60",
   "status": "proved",
   "theorems": [
    "Jsval.C60_any_by_value",
    "Jsval.C60_any_panics",
    "Jsval.C60_any_stored",
    "Jsval.C60_any_filled",
    "Jsval.C60_any_value",
    "Jsval.C60_nested",
    "Jsval.C60_by_value_not_accepted",
    "Jsval.C60_by_value_panics",
    "Jsval.C60_by_pointer",
    "Jsval.C60_pointer_field",
    "Jsval.C60_misfit",
    "Jsval.C60_filled"
   ],
   "note": "For every struct (C60_any_*, shadowed fields and shared JSON names included): by value never accepted, and a panic whenever nothing else rejects it; by pointer an accepted call leaves the field a valid Maybe that holds a default of a property with that field, and the property's own if it is the only one (C60_any_value). C60_by_pointer compares with the call without the rule: the same verdict, and of the end values only the field differs; this needs a field for every property (the example beside C60_any_filled has one field for two, where the verdicts differ). C60_filled has schema dependencies; C60_pointer_field *Maybe fields, by value too; C60_misfit a default the field cannot take; C60_nested nested structs."
  },
  {
   "property": "C61",
   "status": "proved",
   "theorems": [
    "Jsval.C61_nil",
    "Jsval.C61_no_dangling_ctx",
    "Jsval.C61_no_dangling"
   ],
   "note": "BuildWithCtx/Build of nil errs; on success every reference in the root or any table entry goes to the validator's own map and is registered there. All schemas (trees), resolvers, fuel, map orders."
  },
  {
   "property": "C62",
   "status": "proved",
   "theorems": [
    "Jsval.C62_terminates",
    "Jsval.C62_finite_document",
    "Jsval.C62_endless"
   ],
   "note": "For every schema and resolver whose reachable reference names lie in a finite list there is a fuel bound independent of the schedule, and more fuel changes nothing; corollary for resolvers that resolve finitely many names. C62_endless shows the finiteness hypothesis is needed."
  },
  {
   "property": "C63",
   "status": "proved",
   "theorems": [
    "Jsval.C63_sound",
    "Jsval.C63_exact",
    "Jsval.C63_defaults",
    "Jsval.C63_characters",
    "Jsval.C63_whole",
    "Jsval.C63_min_edge",
    "Jsval.C63_max_edge",
    "Jsval.C63_trimmed"
   ],
   "note": "Draft-4 validity is a separate spec (Spec/JsonSchema.lean); the conforming fragment is the hypothesis Schema.Conforms. C63_sound: every returning run decides validity, document unchanged, only unbounded reference following does not return. C63_exact: with grounded references, existence (and uniqueness on documents) of the meaning of references, termination, and acceptance iff valid, for all build and validation iteration orders. C63_defaults: the same for schemas with defaults, if the schema without them conforms and nothing looks at what is filled in (Schema.Discreet). Unique items are in the fragment for lists of strings (the package compares printed items), as in stringArray of the metaschema; and for any items when only documents are considered whose strings and property names are words, without negative zeros (DocClass.wordy), and fmt prints as in C125 (Props/ConformingUnique). Lengths of strings (the package counts bytes, C11) are in the fragment for ASCII documents, and as \"not empty\" (minLength 1, maxLength 0) for all texts that do not begin inside a UTF-8 character (DocClass.utf8); C63_min_edge and C63_max_edge show that for every other limit some text is judged wrongly (Props/ConformingLength). C63_characters and C63_whole: what the specification counts in a text are the characters it encodes, and such a text does not begin inside one. C63_trimmed extends the exact agreement to every schema that lies in the conforming fragment once the keywords that do not apply to its type (C128) are left out; the case shown is a boolean schema with a length, an unsupported format and a required name, which itself is outside the fragment."
  },
  {
   "property": "C64",
   "status": "partial",
   "theorems": [
    "Jsval.C64_refuted",
    "Jsval.C64_first_partial",
    "Jsval.C64_later_ignored"
   ],
   "note": "Full statement C64_statement refuted by {not:string, anyOf:[integer]} accepting true. C64_first_partial: it holds for the first keyword present in the order not, allOf, anyOf, oneOf. C64_later_ignored: exactly the same is built when the later keywords are left out."
  },
  {
   "property": "C65",
   "status": "partial",
   "theorems": [
    "Jsval.C65_refuted",
    "Jsval.C65_number_enum_rejects_all",
    "Jsval.C65_listed_partial",
    "Jsval.C65_untyped_partial",
    "Jsval.C65_accepted",
    "Jsval.C65_unlisted",
    "Jsval.C65_ignored"
   ],
   "note": "Full statement C65_statement refuted by {type:boolean, enum:[true]} accepting false; number schemas with an enum reject everything (proved); next to types boolean, array, object and null it has no effect (C65_ignored). What holds for scalars, next to any combinators and references: an accepted scalar is listed (an integer counts as the float64 it is compared by), or it is a boolean and the schema is for booleans, or it is null and the schema is for null (C65_accepted); these exceptions are real (C65_unlisted)."
  },
  {
   "property": "C66",
   "status": "proved",
   "theorems": [
    "Jsval.C66_schema",
    "Jsval.C66_validator"
   ],
   "note": "Retyped relates schemas differing by permutations of type lists at any depth, position by position; the built constraint, names and whole validator (including resolved schemas) are equal."
  },
  {
   "property": "C67",
   "status": "proved",
   "theorems": [
    "Jsval.C67_union",
    "Jsval.C67_no_suggestion",
    "Jsval.C67_unconstrained"
   ],
   "note": "Suggests lists the suggesting keywords per type. An untyped schema is built exactly like the one with the suggested types listed; with no suggestion and no enum only combinators matter, and without those everything is accepted. dependencies do not suggest object."
  },
  {
   "property": "C68",
   "status": "proved",
   "theorems": [
    "Jsval.C68_deterministic",
    "Jsval.C68_alias_needed",
    "Jsval.C68_patterns_needed"
   ],
   "note": "Process gives the same text (or the same failure) under every iteration order when tables are maps, pattern sources are distinct in every object and no root is registered under two names; both conditions are shown to be needed. sort.Sort is modelled as a stable sort."
  },
  {
   "property": "C69",
   "status": "proved",
   "theorems": [
    "Jsval.C69_constraint",
    "Jsval.C69_program"
   ],
   "note": "C69_constraint: single expressions. C69_program: whole programs written by Process are read by an independently written reader of the Go subset and run; every validator variable ends up with a root having exactly the same outcomes on every value (including defaults filled in). The fragment is Supported in Spec/GenProg.lean. Hypothesis on references: what the first validator registers under a name is what this validator registers."
  },
  {
   "property": "C70",
   "status": "partial",
   "theorems": [
    "Jsval.C70_bounds_partial",
    "Jsval.C70_decimals_iff",
    "Jsval.C70_number_partial",
    "Jsval.C70_object_partial",
    "Jsval.C70_enum_partial",
    "Jsval.C70_combinators_partial",
    "Jsval.C70_not_partial",
    "Jsval.C70_multipleOf_refuted",
    "Jsval.C70_numberEnum_refuted",
    "Jsval.C70_fraction_refuted",
    "Jsval.C70_decimals_refuted",
    "Jsval.C70_properties_refuted",
    "Jsval.C70_dependency_refuted",
    "Jsval.C70_items_refuted",
    "Jsval.C70_combinators_refuted",
    "Jsval.C70_enum_refuted",
    "Jsval.C70_not_refuted",
    "Jsval.C70_noStrings_refuted",
    "Jsval.C70_listed_refuted",
    "Jsval.C70_default_refuted"
   ],
   "note": "False as stated: Survives is refuted for multipleOf and enum of numbers and integers, fractional integer bounds, bounds with more than six decimals, property counts, schema dependencies, forbidden additional items, empty Any/OneOf, enumerations of their own, every Not of a supported child, empty string lists, unlisted kinds in string lists and integer defaults. The _partial theorems say in general what is dropped. C70_bounds_partial: bounds of numbers come back rounded to six decimals and to float64; C70_decimals_iff: a lower bound survives exactly if that does not move it (0.1 does, 0.0000015 does not). C113 says exactly what is kept of every constraint for which code is written."
  },
  {
   "property": "C71",
   "status": "partial",
   "theorems": [
    "Jsval.C71_literals_partial",
    "Jsval.C71_directives_partial",
    "Jsval.C71_percent_refuted",
    "Jsval.C71_names",
    "Jsval.C71_property",
    "Jsval.C71_reference",
    "Jsval.C71_reference_refuted",
    "Jsval.C71_verbatim",
    "Jsval.C71_listed"
   ],
   "note": "False as stated, and exactly when: as a format, a pattern, a listed value or a default of a string constraint, a string comes back from generated code as it was if and only if it has no % (C71_verbatim, with every directive fmt knows: flags, *, argument indexes, numbers of any length, verbs outside ASCII, directives without a verb); generated code behaves the same for a listed string if and only if it has no % (C71_listed). The same for names: of properties, required properties, either side of a dependency and the sources of patterns for names (C71_names; behaviour for a declared property: C71_property), and for the name in a reference (C71_reference). C71_reference_refuted: in a whole program a definition whose name has %20 in it is registered under its name, but the reference to it refers to another name, so the validator rejects everything. C71_directives_partial says what a string with ordinary directives turns into. What nested constraints, which pass through several formats, turn into is covered by C69 (no %) only."
  },
  {
   "property": "C72",
   "status": "proved",
   "theorems": [
    "Jsval.C72_declarations",
    "Jsval.C72_program",
    "Jsval.C72_runs_iff",
    "Jsval.C72_clash"
   ],
   "note": "For every list of validators Process starts with the sorted declarations, one per validator; for supported lists the program read back has them as its first declarations and the variables hold validators of these names. C72_runs_iff: the code can be run exactly if the names are different from each other, from reserved names and from the variables made for references. C72_clash: a positional name can collide with a given one."
  },
  {
   "property": "C73",
   "status": "proved",
   "theorems": [
    "Jsval.C73_lookup_atomic"
   ],
   "note": ""
  },
  {
   "property": "C74",
   "status": "partial",
   "theorems": [
    "Jsval.C74_exclusive_partial",
    "Jsval.C74_refuted"
   ],
   "note": "False because Len takes no lock (C74_refuted); proved for the other three operations."
  },
  {
   "property": "C75",
   "status": "proved",
   "theorems": [
    "Jsval.C75_generated",
    "Jsval.C75_defaults"
   ],
   "note": "The fragment is Schema.Conforms and Schema.Expresses (no not, no multipleOf, no schema dependencies, no min/maxProperties, string enums, bounds with at most six decimals, no percent signs): what is left out is shown lost or altered by C70, C71 and the refutations of C63. OneRoot excludes two schemas both using #, because the generated code has a single table. C75_defaults: the same for schemas with defaults that can be written in Go source, if nothing looks at what is filled in."
  },
  {
   "property": "C76",
   "status": "partial",
   "theorems": [
    "Jsval.C76_order",
    "Jsval.C76_repeat",
    "Jsval.C76_refuted"
   ],
   "note": "Refuted as worded: if two validators register different constraints under one name, the second call takes the other one. Proved where validators agree on names: C76_order (permutation of named, distinct, agreeing validators gives the same text), C76_repeat (second call gives the same text, including unnamed validators where V10 sorts before V2)."
  },
  {
   "property": "C77",
   "status": "partial",
   "theorems": [
    "Jsval.C77_together_partial",
    "Jsval.C77_refuted"
   ],
   "note": "Refuted as worded: of two validators that both register something under #, one behaves like the other one after generation. Proved (C77_together_partial) for validators in the fragment the generator carries over that agree on names and register what they refer to."
  },
  {
   "property": "C78",
   "status": "partial",
   "theorems": [
    "Jsval.C78_status",
    "Jsval.C78_output_partial",
    "Jsval.C78_failure_partial",
    "Jsval.C78_truncated_refuted",
    "Jsval.C78_written_refuted"
   ],
   "note": "C78_status proves the exit status exactly. The rest is refuted as worded: the output file is truncated before the code is known to exist (C78_truncated_refuted), and an unsuccessful write leaves status 0 (C78_written_refuted). C78_output_partial: on success the output holds the bytes the operating system accepted and nothing else changes. C78_failure_partial: otherwise nothing changes, or the output file is empty."
  },
  {
   "property": "C79",
   "status": "partial",
   "theorems": [
    "Jsval.C79_names_partial",
    "Jsval.C79_exact",
    "Jsval.C79_refuted"
   ],
   "note": "Refuted as worded: with prefix R the exit status is 0 but variables are declared twice (C79_refuted). C79_exact: whatever the prefix, the names are prefix and position and distinct; for prefixes of ASCII letters and digits that start with a letter the code can be run exactly if no name is that of a variable R<k> made for one of the references. C79_names_partial: no clash at all unless the prefix is R followed by digits only."
  },
  {
   "property": "C80",
   "status": "proved",
   "theorems": [
    "Jsval.C80_complete",
    "Jsval.C80_command",
    "Jsval.C80_defaults"
   ],
   "note": "C80_command assumes that the validators were built; C80_complete derives this from C81, so building is part of the claim. The libraries for options, JSON, pointers, layout and the operating system are parameters. Layout is assumed to keep what the program means, and the disk to take all bytes. OneRoot and the prefix condition exclude C77_refuted and C79_refuted. C80_defaults: the same with defaults."
  },
  {
   "property": "C81",
   "status": "proved",
   "theorems": [
    "Jsval.C81_necessary",
    "Jsval.C81_succeeds",
    "Jsval.C81_conforming"
   ],
   "note": "C81_necessary and C81_succeeds give both directions for every schedule; C81_conforming shows that the conforming fragment with resolvable references and known types is included."
  },
  {
   "property": "C82",
   "status": "partial",
   "theorems": [
    "Jsval.C82_success",
    "Jsval.C82_answer_partial",
    "Jsval.C82_refuted"
   ],
   "note": "C82_success: success and code exactly if the body is a schema from which the code is generated. C82_answer_partial: every answer has status 200 and is a code object labelled as JSON, or a failure object without label. Refuted as worded because of the missing label (C82_refuted)."
  },
  {
   "property": "C83",
   "status": "proved",
   "theorems": [
    "Jsval.C83_defaults",
    "Jsval.C83_answer"
   ],
   "note": "Building is part of the claim (by C81_conforming), as is generation (by C75). Layout is assumed to keep what the program means. The identity test of the generator is assumed not to call different constraints the same. C83_defaults: the same with defaults."
  },
  {
   "property": "C84",
   "status": "proved",
   "theorems": [
    "Jsval.C84_isolated",
    "Jsval.C84_once",
    "Jsval.C84_exclusive"
   ],
   "note": "Template parsing either always or never succeeds, because the template is a constant. Building and generating are one step, since they share nothing."
  },
  {
   "property": "C85",
   "status": "proved",
   "theorems": [
    "Jsval.C85_no_deadlock",
    "Jsval.C85_completes"
   ],
   "note": "Building is one step of the machine; that it ends is C62."
  },
  {
   "property": "C86",
   "status": "proved",
   "theorems": [
    "Jsval.C86_no_deadlock",
    "Jsval.C86_waits",
    "Jsval.C86_released"
   ],
   "note": "Goroutines that are not waiting for a mutex are taken to be able to go on; that validation of one object ends is C49."
  },
  {
   "property": "C87",
   "status": "partial",
   "theorems": [
    "Jsval.C87_guarded_partial",
    "Jsval.C87_writers",
    "Jsval.C87_readers",
    "Jsval.C87_refuted"
   ],
   "note": "Refuted as worded: patternProperties is read without the mutex it is written under, and the minimum, maximum and additional properties have none (C87_refuted). C87_guarded_partial proves it for the other four fields; C87_writers that writes under one mutex exclude each other; C87_readers that goroutines that only validate never race."
  },
  {
   "property": "C88",
   "status": "proved",
   "theorems": [
    "Jsval.C88_verdict",
    "Jsval.C88_returns",
    "Jsval.C88_same"
   ],
   "note": "The condition Unseen is local to each node; counterexamples beside the theorem show that each of its parts is needed. Values are decoded JSON; defaults are arbitrary Go values."
  },
  {
   "property": "C89",
   "status": "proved",
   "theorems": [
    "Jsval.C89_answers",
    "Jsval.C89_answered"
   ],
   "note": "The wording of messages is abstracted to its cause. Libraries are parameters. A run that panics or does not end has no answer; C89_answered says that this can only happen to requests for code."
  },
  {
   "property": "C90",
   "status": "proved",
   "theorems": [
    "Jsval.C90_conservative",
    "Jsval.C90_shows",
    "Jsval.C90_valid"
   ],
   "note": "The methods are functions of what the fields hold (Model/Hooks); put says what a change of a value handed out by GetPropValue does to the fields. Methods belong to the struct type, not to the pointer type, as the package looks for them there. Looks excludes nil as a presented value (GetPropValue cannot tell it from absence; C91_listed_nil) and Maybe values."
  },
  {
   "property": "C91",
   "status": "proved",
   "theorems": [
    "Jsval.C91_getter_errors",
    "Jsval.C91_set_refused",
    "Jsval.C91_set_missing",
    "Jsval.C91_listed_nil"
   ],
   "note": "That C91_set_refused and C91_listed_nil speak of all fields (forall fs) is because other defaults may be set in between; the error of SetPropValue itself is in the example."
  },
  {
   "property": "C92",
   "status": "proved",
   "theorems": [
    "Jsval.C92_status",
    "Jsval.C92_listens",
    "Jsval.C92_server_harmless"
   ],
   "note": "Option parsing and http.ListenAndServe are parameters; that ListenAndServe never returns nil is its documented contract and a hypothesis of C92_status."
  },
  {
   "property": "C93",
   "status": "proved",
   "theorems": [
    "Jsval.C93_status",
    "Jsval.C93_output",
    "Jsval.C93_failure",
    "Jsval.C93_program"
   ],
   "note": "Exact exit status, output, unchanged files otherwise, and the end-to-end theorem through builder and generator."
  },
  {
   "property": "C94",
   "status": "proved",
   "theorems": [
    "Jsval.C94_same",
    "Jsval.C94_accepts",
    "Jsval.C94_valid"
   ],
   "note": "StandsFor (Spec/Shows) relates structs, by value or by pointer, to maps, where the fields of embedded structs count as fields of the outer one (Merges: only structs are embedded, no Go name is shadowed, JSON names are distinct). The relation carries the set of constraints that a value is validated by (Role), computed from the tree and the references: a struct needs fields for the defaults of those constraints only, a Maybe field that they do not declare meets no pattern and no schema for additional properties (there the Maybe itself would be validated, C57), a Go integer needs that none of them is a number constraint (numCheck rejects Go integers, which an example shows) or lists numbers, and a pointer to a string or number stands for what it points at, a nil pointer for null, unless values of any type are listed that tell them apart (examples show that pointers to booleans and to listed strings are rejected). Times and other values without properties or items stand for themselves. Constraint.Fair asks for scalar enums and defaults. A Maybe field must store its default as a value that stands for it (a MaybeInt takes 7.0), so that the filled struct stands for the filled map. The iteration order on the other side is some order, as maps and structs list their properties in different orders. C94_valid needs no order, since the verdict does not depend on it. Corollaries for structs with defaults: C35_structs_partial, C42_structs_partial, C44_structs, C59_nested, C60_nested (Props/StructCalls, Props/StructMaps). Left out: structs under uniqueItems."
  },
  {
   "property": "C95",
   "status": "proved",
   "theorems": [
    "Jsval.C95_kind",
    "Jsval.C95_nil",
    "Jsval.C95_keys",
    "Jsval.C95_empty",
    "Jsval.C95_maybe",
    "Jsval.C95_time"
   ],
   "note": "Maps with keys of interface type (as YAML gives) are not among the values of the model."
  },
  {
   "property": "C96",
   "status": "proved",
   "theorems": [
    "Jsval.C96_files",
    "Jsval.C96_again",
    "Jsval.C96_unwritable"
   ],
   "note": "maybeGo and maybeGenTestGo are copies of the files in /repo. Blanks, tabs and line feeds are left out of the comparison (ink); that format.Source changes nothing else is a hypothesis."
  },
  {
   "property": "C97",
   "status": "proved",
   "theorems": [
    "Jsval.C97_tree",
    "Jsval.C97_shared",
    "Jsval.C97_frame",
    "Jsval.C97_readonly",
    "Jsval.C97_layout",
    "Jsval.C97_alias",
    "Jsval.C97_default",
    "Jsval.C97_cycle"
   ],
   "note": "Mechanised on Model/Memory, a second model of Validate in which maps have addresses. C97_alias and C97_default show that the two conditions are needed; both are stated in the property, C97_cycle too. C97_layout shows that the hypotheses can be met for every decoded document."
  },
  {
   "property": "C98",
   "status": "proved",
   "theorems": [
    "Jsval.C98_separate",
    "Jsval.C98_tree",
    "Jsval.C98_finishes",
    "Jsval.C98_same"
   ],
   "note": "C98_same is the race the property mentions."
  },
  {
   "property": "C99",
   "status": "proved",
   "theorems": [
    "Jsval.C99_string",
    "Jsval.C99_number",
    "Jsval.C99_integer",
    "Jsval.C99_array",
    "Jsval.C99_array_items",
    "Jsval.C99_array_positional",
    "Jsval.C99_object",
    "Jsval.C99_answers",
    "Jsval.C99_combinators"
   ],
   "note": "Constraints are values here; C102 has them as objects, and relates what a program of calls leaves behind to the chains of C99. Objects with the same calls in another order are compared up to the order in which Go's maps are visited. C99_integer leaves out Enum and MultipleOf, which are the subject of C100."
  },
  {
   "property": "C100",
   "status": "partial",
   "theorems": [
    "Jsval.C100_refuted",
    "Jsval.C100_exact"
   ],
   "note": "Enum and MultipleOf are methods of the embedded NumberConstraint and return it: Integer().MultipleOf(0.5) is a number constraint, accepts 1.5 and rejects the Go integer 2 (C100_refuted). C100_exact says what every such chain accepts; the chains without them are in C99_integer. The builder calls these methods for their effect only, so built validators are not affected."
  },
  {
   "property": "C101",
   "status": "partial",
   "theorems": [
    "Jsval.C101_lookup",
    "Jsval.C101_sticky",
    "Jsval.C101_refuted"
   ],
   "note": "As documented it does not hold for references made with a map (generated code makes these) and for references resolved before (C101_refuted). C101_lookup and C101_sticky describe every program: references that ask the validator itself, as the builder's do, and are not resolved yet go to the map of the last SetConstraintMap. One goroutine; for several see C47 and C73."
  },
  {
   "property": "C102",
   "status": "proved",
   "theorems": [
    "Jsval.C102_tree",
    "Jsval.C102_has_tree",
    "Jsval.C102_as_references",
    "Jsval.C102_frame",
    "Jsval.C102_everywhere",
    "Jsval.C102_in_place",
    "Jsval.C102_cycle",
    "Jsval.C102_guarded",
    "Jsval.C102_order",
    "Jsval.C102_untouched",
    "Jsval.C102_own_string",
    "Jsval.C102_own_number",
    "Jsval.C102_own_integer",
    "Jsval.C102_own_array",
    "Jsval.C102_own_object",
    "Jsval.C102_own_combinators",
    "Jsval.C102_own_others",
    "Jsval.C102_registered"
   ],
   "note": "C102_tree: an object behaves as its tree, C102_has_tree: which objects have one, C102_as_references: cyclic ones behave as references. C102_frame, C102_everywhere, C102_in_place: where a change shows. C102_order, C102_untouched and C102_own_*: programs. C102_guarded and C102_cycle: cycles. Slices handed to Enum and PositionalItems are values, and references look their name up every time (for what they keep see C47 and C101)."
  },
  {
   "property": "C103",
   "status": "proved",
   "theorems": [
    "Jsval.C103_cause",
    "Jsval.C103_blocks",
    "Jsval.C103_iff",
    "Jsval.C103_place",
    "Jsval.C103_decoded",
    "Jsval.C103_filled"
   ],
   "note": "C103_cause: every error returned is true (trees without defaults). C103_blocks and C103_iff: a fault is never accepted; patterns of one object must not match the same undeclared name, as in C35, since otherwise only one of them is looked at. C103_place: the names lead to the place. C103_decoded: trees with defaults on decoded JSON, under the condition of C88; C103_filled shows that some condition is needed. Values are the tidy ones of C35: no maps with keys other than strings and no double pointers."
  },
  {
   "property": "C104",
   "status": "partial",
   "theorems": [
    "Jsval.C104_written",
    "Jsval.C104_payload",
    "Jsval.C104_same_iff",
    "Jsval.C104_time",
    "Jsval.C104_refuted",
    "Jsval.C104_null",
    "Jsval.C104_struct"
   ],
   "note": "Refuted: MarshalJSON writes the payload whatever the flag says, so an unset Maybe comes back set, and UnmarshalJSON of MaybeTime does not set the flag, so a set time comes back unset (C104_refuted). What holds: every other type comes back valid with the stored payload (C104_payload), hence unchanged exactly if it was valid (C104_same_iff); a MaybeTime gets the time and keeps the flag of the variable (C104_time); null makes a Maybe valid with the zero value and is an error for MaybeTime (C104_null); a struct read back has exactly the properties of its fields that are not MaybeTime (C104_struct, fields held by value and all present in the text). That encoding/json decodes what it encoded is the hypothesis Kept."
  },
  {
   "property": "C105",
   "status": "partial",
   "theorems": [
    "Jsval.C105_same_partial",
    "Jsval.C105_conservative",
    "Jsval.C105_valid",
    "Jsval.C105_enum",
    "Jsval.C105_enum_plain",
    "Jsval.C105_keys",
    "Jsval.C105_nil_maybe",
    "Jsval.C105_default",
    "Jsval.C105_default_taken",
    "Jsval.C105_interface_keys",
    "Jsval.C105_nil_element",
    "Jsval.C105_refuted"
   ],
   "note": "Refuted (C105_refuted): four kinds of types matter. Enum compares interface values with ==, so it rejects scalars of defined types and slices and maps of other types than []interface{} and map[string]interface{} (C105_enum), and judges all other values by their contents (C105_enum_plain); MapIndex panics on maps whose keys are of a defined string type, as soon as anything is looked up (C105_keys, exact); a nil pointer in a field of type *MaybeX panics in any object constraint (C105_nil_maybe); a default that is not of the element type of the map panics in SetMapIndex, so the map is not accepted (C105_default). For all other values the claim holds (C105_same_partial: Ordinary says which values those are given whether the validator has defaults or Enum constraints; element types of slices are free), so validators of conforming schemas decide validity of the contents (C105_valid). Plain values are covered whatever the constraint (C105_conservative). PrintsLikePlain is the assumption on fmt for uniqueItems. Maps with elements of a Maybe type and interface fields holding Maybes are excluded from Ordinary."
  },
  {
   "property": "C106",
   "status": "proved",
   "theorems": [
    "Jsval.C106_separate",
    "Jsval.C106_tree",
    "Jsval.C106_fixed",
    "Jsval.C106_progress",
    "Jsval.C106_ends",
    "Jsval.C106_late",
    "Jsval.C106_names",
    "Jsval.C106_nil"
   ],
   "note": "The names of references are registered (not as nil) beforehand, and defaults are scalars, as in C98. C106_late shows that names must be registered beforehand: All(Not(x), x) can accept if x is registered while it runs. C106_names shows that the target belongs to the reference object, not to the name: two references to one name can differ if it is registered again between their first uses. Validations that exceed the fuel for references (r = abort diverge, endless recursion in Go) are excluded where Returns is concluded. C106_progress and C106_ends need no registered names."
  },
  {
   "property": "C107",
   "status": "proved",
   "theorems": [
    "Jsval.C107_file",
    "Jsval.C107_decides",
    "Jsval.C107_again",
    "Jsval.C107_test",
    "Jsval.C107_reproduced"
   ],
   "note": "The file is copied byte by byte into Model/TestValidator. Documents are decoded JSON with finite numbers; fmt is to print strings as themselves. C107_again is a case of what C42_refuted is about. For C107_reproduced, format.Source may change the layout only; how jsschema and jsref read schema.json is part of the model (draft4, draft4Resolve)."
  },
  {
   "property": "C108",
   "status": "proved",
   "theorems": [
    "Jsval.C108_table",
    "Jsval.C108_any_order",
    "Jsval.C108_text",
    "Jsval.C108_command_ends",
    "Jsval.C108_command",
    "Jsval.C108_gentest",
    "Jsval.C108_server",
    "Jsval.C108_status_varies",
    "Jsval.C108_alias_needed"
   ],
   "note": "The schemas, as read from JSON text, have each key once in every map. Which registered constraints are the root itself is a parameter that does not depend on the order; it holds for one name at most (C108_alias_needed shows what happens otherwise). C108_status_varies shows that the status of failures does depend on the order."
  },
  {
   "property": "C109",
   "status": "proved",
   "theorems": [
    "Jsval.C109_outcomes",
    "Jsval.C109_validate",
    "Jsval.C109_default",
    "Jsval.C109_verdict"
   ],
   "note": "C109_outcomes: the sets of possible results (verdict, error, value afterwards) of two builds are equal, references followed through the validators' own maps; C109_validate: the same for JSVal.Validate at every amount of fuel, divergence included; C109_default; C109_verdict: with C35, one verdict for all builds and orders on default-free constraints with disjoint patterns."
  },
  {
   "property": "C110",
   "status": "proved",
   "theorems": [
    "Jsval.C110_guess",
    "Jsval.C110_guess_table",
    "Jsval.C110_number_calls",
    "Jsval.C110_string_calls",
    "Jsval.C110_manual",
    "Jsval.C110_manual_nil",
    "Jsval.C110_reference",
    "Jsval.C110_object",
    "Jsval.C110_dependency",
    "Jsval.C110_schema_dependency",
    "Jsval.C110_number",
    "Jsval.C110_string",
    "Jsval.C110_array",
    "Jsval.C110_maybe",
    "Jsval.C110_maybe_default"
   ],
   "note": "C110_object, C110_dependency, C110_schema_dependency: builds in every order, and accepts exactly what Spec/OwnTests says in words, for all maps; C110_number, C110_string: the built root is the fluent one for all bounds and defaults; C110_array: generated in every order, with both calls (text before format.Source); C110_maybe, C110_maybe_default: for all names, ages and defaults. The inputs of the tests are the examples. C110_guess, C110_guess_table: the types guessed, as a list. C110_number_calls, C110_string_calls: the constraints of TestNumber and TestString for all numbers (not NaN), strings and limits. C110_manual, C110_manual_nil: ExampleManual. C110_reference: the README's reference example."
  },
  {
   "property": "C111",
   "status": "proved",
   "theorems": [
    "Jsval.C111_readable",
    "Jsval.C111_some",
    "Jsval.C111_validator",
    "Jsval.C111_true",
    "Jsval.C111_quoted"
   ],
   "note": "C111_readable: equal texts, equal errors, for errors whose quoted names have no single quote; C111_some: every error has a text. C111_validator: the same with the validator name of jsval.go:22-28. C111_true: under the hypotheses of C103_cause, each clear reading of a returned message is a true Fault. C111_quoted shows why quotes are excluded: a property name in the value forges a false message. Names of kinds and types and texts of the standard library are arbitrary in Says."
  },
  {
   "property": "C112",
   "status": "partial",
   "theorems": [
    "Jsval.C112_pointer",
    "Jsval.C112_unseen",
    "Jsval.C112_refuted",
    "Jsval.C112_twice_scalars",
    "Jsval.C112_twice_empty",
    "Jsval.C112_twice_iff",
    "Jsval.C112_twice_overwritten"
   ],
   "note": "False as worded (C112_refuted): with the address of an interface{} that holds a document. C112_pointer: the same call, verdict, defaults and order, for constraints that dereference (strings, numbers, integers, objects, combinations and references of such) on values that are not structs (structs: C60, C90, C94). C112_unseen: booleans, arrays, null and enumerations reject every pointer to something. Behind two indirections: C112_twice_scalars (all rejected), C112_twice_empty and C112_twice_iff (which objects are accepted: those without properties), C112_twice_overwritten (defaults replace data)."
  },
  {
   "property": "C113",
   "status": "proved",
   "theorems": [
    "Jsval.C113_kept",
    "Jsval.C113_survives_iff",
    "Jsval.C113_program",
    "Jsval.C113_stable",
    "Jsval.C113_again_panics",
    "Jsval.C113_number_minimum_iff",
    "Jsval.C113_integer_minimum_iff",
    "Jsval.C113_integer_maximum_iff"
   ],
   "note": "C113_kept, for single constraints: the generated expression behaves like c.keep (Spec/Keep), for all constraints that are Spellable. C113_survives_iff: Survives exactly if c and c.keep have the same outcomes. C113_program: the same for lists of validators with references, read back and run as a program. C113_stable: generating again loses nothing more; C113_again_panics: but integer defaults have become int, on which the generator panics. C113_number_minimum_iff: a lower bound of numbers survives exactly if six decimals tell it (all finite float64; from 2^33 on they always do). C113_integer_minimum_iff, C113_integer_maximum_iff: bounds of integers survive exactly if whole or if cutting off the fraction rounds to the right side, depending on sign and exclusiveness."
  },
  {
   "property": "C114",
   "status": "proved",
   "theorems": [
    "Jsval.C114_enforced",
    "Jsval.C114_weaker",
    "Jsval.C114_accepts_valid",
    "Jsval.C114_command",
    "Jsval.C114_server"
   ],
   "note": "C114_enforced: as C75, for all conforming schemas for which code is generated (CodeFor), with validity for Schema.keep (Spec/KeepSchema) in place of validity for the schema. C114_weaker: valid for the schema implies valid for Schema.keep, if oneOf is not used, rounding widens bounds (Loosens), and all references resolve. C114_accepts_valid: both together. C114_command, C114_server: the same for the code that the command and the server write (as C80, C83). Not covered: not (generated code for it does not compile), percent signs (C71), default (C88)."
  },
  {
   "property": "C115",
   "status": "partial",
   "theorems": [
    "Jsval.C115_references",
    "Jsval.C115_command",
    "Jsval.C115_file",
    "Jsval.C115_refuted"
   ],
   "note": "Refuted as worded (C115_refuted): a part that contains {\"$ref\": \"#\"} gets a validator for which # is the part, not the file. C115_references, for all schemas: whenever the command succeeds, every other registered reference is built from what it points to in the file, and # is the part exactly if the part itself uses it. C115_command: C80 without a condition on what # is in the file. C115_file: parts that do not get to # are judged as worded."
  },
  {
   "property": "C116",
   "status": "proved",
   "theorems": [
    "Jsval.C116_replaced",
    "Jsval.C116_everywhere",
    "Jsval.C116_exact",
    "Jsval.C116_reduce",
    "Jsval.C116_reduce_seen"
   ],
   "note": "Proved. `C116_replaced`: filling a marked place of a validator with equivalent constraints gives equivalent validators; `C116_everywhere` the same with the marks in the constraint map too (the two equivalent whatever the map holds); `C116_exact`: equivalence is necessary and sufficient; `C116_reduce`/`C116_reduce_seen`: what that says about `Reduce`. Equivalent means the same default and the same possible verdicts with the same left behind (Spec/Replace.lean); the text of errors and what a panic leaves behind are not compared. Places are marked by a reference, as in C106."
  },
  {
   "property": "C117",
   "status": "proved",
   "theorems": [
    "Jsval.C117_flat",
    "Jsval.C117_not",
    "Jsval.C117_not_not",
    "Jsval.C117_order",
    "Jsval.C117_order_seen"
   ],
   "note": "Proved. `C117_flat`, `C117_not`, `C117_not_not`: equivalences in the sense of C116 (same default, same possible verdicts, same left behind), so they hold inside every validator. `C117_order` is about one value that no branch changes or panics on; `C117_order_seen` shows that this is needed: the second branch of `All` sees the default that the first filled in."
  },
  {
   "property": "C118",
   "status": "proved",
   "theorems": [
    "Jsval.C118_messages",
    "Jsval.C118_place",
    "Jsval.C118_built",
    "Jsval.C118_schema"
   ],
   "note": "No condition on the value, the defaults or the patterns, unlike C103. C118_schema needs `#` to resolve to the document itself where it is used, as C63 does. The converse does not hold and is not claimed: a message that a rule provides for need not occur (an earlier rule may always win)."
  },
  {
   "property": "C119",
   "status": "proved",
   "theorems": [
    "Jsval.C119_reported",
    "Jsval.C119_possible",
    "Jsval.C119_fault",
    "Jsval.C119_leftmost",
    "Jsval.C119_declared_first",
    "Jsval.C119_one_way",
    "Jsval.C119_decoded"
   ],
   "note": "`Reported` gives for each constraint the order of its checks, with the parts that have to be accepted before; `C119_reported` and `C119_possible` show that the errors returned in some iteration order are exactly these. `C119_fault` ties them to the faults of C103, `C119_leftmost` and `C119_declared_first` are consequences in terms of faults, `C119_one_way` needs no hypothesis on defaults or values. `C119_decoded`: the same on decoded JSON with defaults that nothing sees (C88). For other defaults the statement would have to say what is filled in before; that is not covered."
  },
  {
   "property": "C120",
   "status": "proved",
   "theorems": [
    "Jsval.C120_same",
    "Jsval.C120_default",
    "Jsval.C120_rename",
    "Jsval.C120_unmentioned",
    "Jsval.C120_built",
    "Jsval.C120_buildable",
    "Jsval.C120_schema"
   ],
   "note": "Matching constraints are `BuiltAlike`, an inductive relation on pairs of trees, with unfolding of names on either side; `Corresponds` says that names taken for each other lead to matching constraints again. Unresolved names must agree, as the error shows them. For schemas the renaming is a permutation of names that fixes the empty name (no reference) and #; the resolver of the renamed document is the renamed resolver."
  },
  {
   "property": "C121",
   "status": "proved",
   "theorems": [
    "Jsval.C121_fixed",
    "Jsval.C121_schema",
    "Jsval.C121_accepts",
    "Jsval.C121_buildable"
   ],
   "note": "The relation is `Rewritten`, an inductive relation on pairs of schemas with unfolding of references on either side; `SameDocument` asks that names taken for each other lead to related schemas again. That the two can be built is a hypothesis of the first three theorems; `C121_buildable` says when the second follows from the first. Divergence remains there because a document may be unrolled into infinitely many definitions. Next to a $ref other keywords are ignored, as the builder ignores them."
  },
  {
   "property": "C122",
   "status": "proved",
   "theorems": [
    "Jsval.C122_stricter",
    "Jsval.C122_rejects",
    "Jsval.C122_json",
    "Jsval.C122_decoded"
   ],
   "note": "`Tightens` compares two constraints of one environment (the maps of two validators have different numbers, so validators of two schemas can be compared, see C123); `S` may be any relation closed under it, so recursive references are compared by a coinductive argument. Default-free trees with disjoint patterns, tidy values, as for C103; `C122_decoded` lifts this, on decoded JSON, to defaults that nothing sees (C88), the comparison being that of the trees without them. Lower limits up to 0 limit nothing and are not compared; alternatives of two OneOfs are compared both ways. The rules are sufficient, not necessary: e.g. bounds are compared for equal types only."
  },
  {
   "property": "C123",
   "status": "proved",
   "theorems": [
    "Jsval.C123_fixed",
    "Jsval.C123_narrower",
    "Jsval.C123_decoded"
   ],
   "note": "`Narrows` compares two schemas of two documents; `N` may be any relation closed under it, so recursive definitions are compared by a coinductive argument, and below `not` the documents change sides. The proof turns it into `Tightens` (C122) between what is built, for one fixed order of the builder, and carries that to any order by C109. `C123_fixed` and `C123_narrower` are for bare documents: no `default`, distinct keys, patterns that match the same undeclared name have one source. The two validators have different maps (`m ≠ m'`), as two calls of the builder do. The rules are sufficient, not necessary. `C123_decoded` allows defaults that nothing looks at (`Discreet`) and compares the documents with the defaults struck out, for decoded JSON."
  },
  {
   "property": "C124",
   "status": "proved",
   "theorems": [
    "Jsval.C124_within",
    "Jsval.C124_default",
    "Jsval.C124_attained"
   ],
   "note": "`sem` with fuel k is the behaviour with at most k references open at once; `C124_within` bounds it by a rank on names (how many names a name leads to on the same value). `C124_attained` gives, for every n and d, a chain of n names ending in an object and d maps around a time.Time: the last n come from looking for the default of a property that a time.Time lacks."
  },
  {
   "property": "C125",
   "status": "proved",
   "theorems": [
    "Jsval.C125_sorted",
    "Jsval.C125_repeated",
    "Jsval.C125_words",
    "Jsval.C125_adds",
    "Jsval.C125_confused",
    "Jsval.C125_zeros"
   ],
   "note": "The package fmt is not in /repo; `Model/Fmt` writes out what it prints for decoded JSON (bad verbs as %!s(type=value), slices, maps in the order of their keys), with the text of numbers and of nil inside containers as parameters (`FmtLib.Good`). `C125_repeated`, `C125_words`, `C125_adds`; `C125_confused` and `C125_zeros` show where it fails. `C125_sorted` proves what C35 and C42 assume of printing (`PrintsSorted`)."
  },
  {
   "property": "C126",
   "status": "proved",
   "theorems": [
    "Jsval.C126_tree",
    "Jsval.C126_nested",
    "Jsval.C126_settled",
    "Jsval.C126_recursive",
    "Jsval.C126_product",
    "Jsval.C126_doubling",
    "Jsval.C126_all",
    "Jsval.C126_oneOf",
    "Jsval.C126_any",
    "Jsval.C126_items",
    "Jsval.C126_declared"
   ],
   "note": "C126_tree (no references), C126_nested (k nested references, definitions of at most S constraints), C126_settled (the count is the same with more fuel once the call comes back), C126_recursive (with C124: a bound for recursive definitions that does not mention fuel), C126_product (the product is reached), C126_doubling (2^n). From below: C126_all, C126_oneOf, C126_any, C126_items (exact), C126_declared (at least the declared properties); the other call sites are shown on literals only. Constraints fill nothing in (Inert, as in C41), so that the document does not grow while it is validated. The count is Model/Effort, which follows Model/Validate and takes results from it."
  },
  {
   "property": "C127",
   "status": "proved",
   "theorems": [
    "Jsval.C127_stays",
    "Jsval.C127_optional",
    "Jsval.C127_unmentioned",
    "Jsval.C127_decoded",
    "Jsval.C127_fixed",
    "Jsval.C127_schema",
    "Jsval.C127_schema_defaults",
    "Jsval.C127_accepts"
   ],
   "note": "C127_stays (the general form), C127_optional (properties that may be missing; every call that comes back accepts), C127_unmentioned (verdicts agree both ways), C127_decoded (with defaults that nothing sees). Spec/Revised has the relation between documents and what each constraint has to tolerate; the examples show that Not makes a difference for optional properties. For schema documents (Spec/TolerantSchema): C127_schema (built in any order), C127_fixed (in one fixed order, the lemma behind it), C127_schema_defaults (with defaults nothing sees), C127_accepts (conforming and grounded: every call accepts)."
  },
  {
   "property": "C128",
   "status": "proved",
   "theorems": [
    "Jsval.C128_build",
    "Jsval.C128_left_out",
    "Jsval.C128_valid"
   ],
   "note": "Schema.trim (Spec/Trim) leaves such keywords out; two schemas differ only in them if their trims are equal. C128_build: equal results of Build, errors included, for equal trims and resolvers alike in the same sense. C128_left_out: in particular for the trim itself. C128_valid: the same draft-4 validity. Without listed types keywords suggest types (C67), so nothing is left out there; an example shows why. C63_trimmed (listed under C63) uses it to widen the conforming fragment."
  }
 ]
}