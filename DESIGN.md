# A machine-checked model of lestrrat/go-jsval in Lean 4

`lean/` is a Lake project. `Verif/Model` follows the Go code function by function (each definition cites file and lines in
/repo). `Verif/Spec` says in independent terms what is claimed. `Verif/Lemmas` holds proofs, `Verif/Props` the theorems
`Cxx_…` for property `Cxx` of `properties.jsonl`, each with a concrete case that meets its hypotheses.
`MANIFEST.json` lists them (regenerated by `tools/manifest.py`), `AXIOMS.md` the axioms of each (by `tools/axioms.py`).

## Trusted base

* The Lean 4 kernel. No `native_decide`, no `bv_decide`, no `sorry`; concrete runs are evaluated by the kernel
  (`decide +kernel`, `rfl`).
* The axioms `propext`, `Quot.sound` and `Classical.choice` of Lean, as listed per theorem in `AXIOMS.md`. No axiom is added.
* That the definitions in `Verif/Model` describe the Go code. There is no Go toolchain with the dependencies here, so the
  model was written by reading /repo and never run against it. The mutation log `seeded/LOG.jsonl` shows that the theorems notice
  wrong edits of the model; it says nothing about agreement with Go.
* That the definitions in `Verif/Spec` say what their comments say.

## What is modelled

| Go | Lean | theorems |
|---|---|---|
| basic.go, bool.go, enum.go, combinations.go | `Model/Validate`, `Model/Constraint` | C01–C09, C116, C117, C122 |
| string.go (`isDomainName`: `Model/Domain`) | `Model/Validate` | C10–C15 |
| number.go | `Model/Validate`, `Model/Float` | C16–C21 |
| array.go | `Model/Validate`, `Model/Fmt`, `Model/Effort` | C22–C28, C125, C126 |
| object.go | `Model/Validate`, `Model/ObjectLocks`, `Model/Hooks`, `Model/Memory`, `Model/Typed` | C29–C44, C59, C60, C86–C88, C90, C91, C94, C95, C97, C98, C103, C105, C112, C118, C119, C127 |
| jsval.go, interface.go | `Model/Validate`, `Model/Constraint`, `Model/Validators` | C49–C51, C101 |
| reference.go | `Model/Reference`, `Model/Validators`, `Model/Sharing` | C45–C48, C73, C74, C101, C106, C120, C121, C124, C126 |
| the setters of all constraints | `Model/Constraint`, `Model/Calls`, `Model/Graph` | C99, C100, C102 |
| maybe.go | `Model/Maybe` | C52–C55, C104 |
| structinfo.go | `Model/StructInfo`, `Model/Registry`, `Model/Typed` | C56–C58, C105 |
| builder/*.go | `Model/Schema`, `Model/Builder` | C61–C67, C81, C108, C109, C120, C121, C123, C127, C128 |
| generator.go | `Model/Generator`, `Model/GoText` | C68–C72, C75–C77, C108, C113, C114 |
| cmd/jsval/jsval.go | `Model/Cli`, `Model/Main` | C78–C80, C92, C108, C114, C115 |
| internal/cmd/gentest/gentest.go | `Model/Gentest` | C93, C108 |
| internal/cmd/genmaybe/genmaybe.go | `Model/Genmaybe` | C96 |
| generated_validator_test.go, schema.json | `Model/TestValidator` | C107 |
| object_test.go, number_test.go, string_test.go, array_test.go, maybe_test.go, builder/builder_test.go, example_test.go, README.md | `Spec/OwnTests` | C110 |
| the text of all error messages of the package | `Model/Messages` | C111 |
| server/server.go | `Model/Server` | C82–C85, C89, C108 |

Not modelled: maybe_gen_test.go (which only has to compile), `TestMaybeInt` and `TestMaybeTime` as such (see C52–C55, C104), and the packages outside /repo (jsschema, jsref, jspointer, pdebug, and so on).

### Values

* `GoVal` is what `reflect` shows: nil, booleans, the integer, unsigned and float kinds, strings as byte lists, slices,
  maps with string keys (association lists and a nil flag), other maps (only their size; maps with interface keys, `map[interface{}]…`, are left out), structs with field descriptors,
  pointers, interface cells behind pointers, the six Maybe types, `time.Time` (opaque), and everything else as an opaque kind.
* In `Model/Validate` scalars have predeclared types, slices are `[]interface{}`, string maps `map[string]interface{}`, and a struct
  field has the type of what it holds. `Model/Typed` is the same validation on values that carry their types: defined types, slices and maps
  of any element type, maps from defined string types or from interfaces (with string keys in them), struct fields with static types,
  nil pointers to Maybes. C105 says for which of them the types make no difference. Enumerations and defaults are still
  plain values there. Interface types other than `interface{}`, arrays, and methods of defined types (`String`, property methods) are left out;
  what `%s` prints is an oracle on typed values, and C105 assumes that it tells apart what the plain one does.
* In `Model/Validate` values are trees. Writing through a map or pointer is seen exactly at that place. A default value is copied
  where it is injected; in Go the injected value is the same object as the default, so containers as defaults are excluded
  wherever this could be seen (C49 and others).
* `Model/Memory` is validation once more, with maps as objects in a memory: they can be shared, contain themselves, and be the
  defaults of a validator. C97 relates the two. It covers scalars, slices and maps with string keys; structs and
  pointers are left out of it. A `reflect` operation on one map is one step, and so is a call of `fmt.Sprintf`, which reads everything it can reach.
  Defaults that are equal as values are one object. Slices have no address, as the validator does not write to them.
* For C98 the goroutines take turns in one memory (sequential consistency, which Go guarantees in the absence of data races; their absence
  is part of the theorem). References have fixed targets there. `Model/Sharing` joins that machine with the one of `Model/Reference`: the goroutines do
  map operations on documents and lock operations, cache accesses and lookups on the references they share, while others register
  names. C106 relates it to C98. A goroutine calls other methods of constraint maps only after its validation, which costs nothing, as goroutines are unlimited. The mutexes
  of object constraints stay on their own (C86): they are taken while a field is read, and validation writes none.
* In `Model/Validate` struct types have no user methods. `Model/Hooks` is the same validation for struct types with `GetPropNames`,
  `GetPropValue`, `SetPropValue`, given as functions of what the fields hold; without methods it is `Model/Validate` (C90_conservative).
  Methods with other signatures and methods with other state are not covered.
* Constraints are values in most of the model. A chain of configuration calls gives a constraint (`Model/Calls`). That constraints
  are objects, which calls change in place, which may be shared and may use themselves, is in `Model/Graph`; C102 relates the two.
* `==` on interface values is exact for nil, booleans, numbers, strings; it panics on two slices or two maps; comparing
  pointers, structs and other kinds depends on identities the model does not carry and ends in `abort outside`.
  Theorems that claim a result exclude `outside` or prove that it does not occur.
* Pointers to pointers reach reflect operations that are not modelled; they also end in `outside`.
* Float64 values are exact: NaN, infinities, or sign and magnitude in units of 2^-1074. Integers are rounded to the nearest even
  when converted. Converting floats outside the integer range is implementation-defined in Go; the model does as amd64 does.

### Validation

* A validator takes an oracle `Sched` for map iteration orders and a value. It gives `ok`, `err e` or `abort` (panic,
  divergence, outside the model) and the value after the call. `shuffle` reaches every permutation, and every execution of a loop has its own number,
  so "for every schedule" is "for every iteration order of every loop".
* Errors are constructors, one per message in the source, with the names and limits the message contains. `Model/Messages` says which
  texts each of them can have (`Says`; names of kinds and types and texts of the standard library are arbitrary there), and C111 that the text tells
  the error if quoted names have no single quotes. What each of them claims about the value is `Fault` in `Spec/Faults` (C103). Which rules
  of a validator, and which keywords of a schema, can lead to it is `Blames` and `Accuses` in `Spec/Blames`, `Spec/Accuses` (C118). Which of several
  faults is reported, and after which checks, is `Reported` in `Spec/Reported` (C119).
* References are followed with fuel. `abort diverge` is running out; `Returns` means some fuel is enough, and then any larger is.
  Go's stack limit is not modelled: endless recursion is divergence.
* `denote` reads references in fixed tables. `Model/Reference` relates this to `ConstraintMap` and the cache in
  `ReferenceConstraint`, sequentially and as a machine whose steps are lock operations and the accesses between them.
  References are identified by the number of their map and their name. `Len` is one step.
  Memory is sequentially consistent in these machines, which is what Go gives programs without data races; C74 shows where a race is.
* `regexp`, `time`, `mail`, `net`, `url` and `fmt.Sprintf("%s")` are parameters (`Ext`); theorems hold for all behaviours of them.
  For C125, and for unique items in C63, `Model/Fmt` writes out what `fmt.Sprintf("%s")` prints for decoded JSON; the text of a number, and that of nil inside a container, stay parameters.
* For C126 `Model/Effort` counts calls of `Validate` methods. It takes the results of the calls from `Model/Validate` and only adds up; calls of `HasDefault`
  and `DefaultValue`, regular expressions, and what `fmt` does for `UniqueItems` are not counted.
* `pdebug` output is left out (it does nothing without the debug build tag).

### Struct inspection

* A struct value carries its field descriptors; type and value are not separate. Embedded pointers and other
  embedded non-structs make the extraction panic, as in the code. The registry is a cache of `extract`; its machine has the
  lock operations as steps.
* Whether a field is a Maybe, which the code asks of its type, is read off the value in it. So a nil pointer counts as a pointer to something other than a Maybe type:
  fields of type `*MaybeX` that are nil, on which the code panics, are not represented; nor are interface fields that hold a Maybe.

### Builder

* jsschema is not in /repo. `Model/Schema` has the fields the builder reads. Schemas are trees; names stand for references.
* The order on types that `sort` uses and the list of known formats are parameters (`SchemaLib`).
* Resolving a reference is a function of its name (`Resolver`): an error, a schema, a JSON object with the outcome of
  extracting a schema, or something else. Asking twice gives the same answer.

### Generator

* Text is modelled byte by byte up to the call of `format.Source`, which is not modelled (it lays out text that parses, and fails otherwise).
* `strconv.Quote`, `%d`, `%f`, `%t` and `Fprintf` without operands are written out in `Model/GoText`; `unicode.IsPrint` is a parameter.
* `sort.Sort` is modelled as a stable sort. Identity tests between roots and registered constraints are given by `same`.
* Generated text is read by a reader in `Spec/GoSyntax`, written after the Go specification and independent of the generator: lexer with automatic
  semicolons, parser, evaluator for the fluent constructors. It covers ASCII identifiers; it takes `break`, `continue`, `fallthrough`
  and `return` for identifiers (the hypotheses on names exclude them); constants are rounded to the closest float64 (`Spec/Decimal`, proved closest in `Lemmas/Decimal`); the package clause is
  not part of the text.

### Command

* Options, JSON decoding, JSON pointers, schema extraction, layout and the operating system are parameters (`CliLib`). The
  disk is a map from paths to contents, and standard output. Log lines are left out. A panic is exit status 2.
* The output file is not the schema file's own open handle: the schema file is read before the output is opened, as in the code.

### Server

* Schema reading, JSON, templates and layout are parameters (`ServerLib`). The JSON answer is a value (`Payload`), not text. Of net/http the order of
  setting headers, sending status and writing the body is modelled. A panic means no answer.
* `io.Copy` from the body may fail; its error is ignored in the code, so the body of a `Request` is what could be read.
* Concurrent requests are a machine whose steps are mutex operations and the accesses between them. Building and generating for one
  request share nothing with other requests and are one step.

### Mutexes of object constraints

* `Model/ObjectLocks` is a machine of its own for any number of goroutines and objects. It does not follow what is read: loops may run any number
  of times and any object may be called where children are called, so it has all executions of the code and more.
* Constraints of other kinds take none of these mutexes and are skipped. The exported function fields are not treated as configuration.

### The checked-in validator

* `Model/TestValidator` is the text of generated_validator_test.go, read by the reader of `Spec/GoSyntax`, and `schema.json` as the schema library
  reads it. `Spec/MetaSchema` is the grammar of draft-4 schemas, written from the draft. Of the test in generated_test.go the call is covered (C107_test).
  For C107_reproduced the kernel computes the generated text for one order, and C108 carries it over to all; the tactic block there only builds `Eq.refl true`.
* `Spec/OwnTests` has the schemas of the other tests as the schema library reads them, and in words what their validators accept (C110). Of the tests
  the calls of builder, validator and generator are covered, not reading JSON and not `format.Source`, so C110_array speaks of the text before it is
  formatted. C110_schema_dependency assumes that the empty string is not among the formats of the schema library. C34_local is C34 with determinism
  of the children asked for only on the values they are applied to; the address constraint of TestObjectSchemaDependency needs that.

### Draft-4 validity

`Spec/JsonSchema` defines validity of a document from the draft, not from the library. `Schema.Conforms` is the fragment for which
the builder is proved faithful (C63), for the documents of a `DocClass`: all, those of ASCII texts (needed for limits of lengths), of texts in UTF-8
(for "not empty"; `Props/ConformingLength` shows that no other limit can be had), or of words (for unique items that are not strings). Keywords that do not apply to the type of a schema are left out first (`Schema.trim`,
`Spec/Trim`, C128; `C63_trimmed`). `Schema.Expresses` what the generator carries over (C75). What becomes of constraints outside of that in generated code is `Constraint.keep` (`Spec/Keep`, C113); bounds of integers beyond 64 bits are converted as on amd64 there. On the side of schemas this is `Schema.keep` (`Spec/KeepSchema`, C114). Outside them the
refutations listed below apply. Defaults are allowed where `Schema.Discreet` holds: building without defaults is building and
taking the defaults out (`Lemmas/BuildPlain`), and C88 relates the two validators. C90 and C94 carry this over to structs: those whose methods show a document, and those whose fields do (`Spec/Shows`), embedded ones included (`Spec/Merges`), with Go integers and pointers to strings and numbers where nothing tells them from what they stand for. What a value stands for depends on the constraints it is validated by (`Role`), so structs need fields only for the defaults that apply to them; C35, C42, C44, C59 and C60 follow for such structs (`Props/StructCalls`, `Props/StructMaps`); C60 is taken further in `Props/StructFill`, by comparing a call with the call on the struct already filled in, and in `Props/FillAny` to every struct, shadowed fields and shared JSON names included, by following a single field through the call (`Lemmas/Stays`). Pointers to other values are in `Props/Pointers` (C112). The same extends to generated code (C75), the command (C80) and the server (C83).

## Properties that do not hold

Where the code violates a property as worded, a theorem `…_refuted` gives a concrete counterexample, `…_partial` theorems
prove what remains under the missing hypothesis, often as an exact characterisation, and the claim has status `partial`.

C11 (lengths are bytes), C14 (IPv6 rejected), C17 (NaN), C19 (beyond 2^53), C25 and C26 (additional items), C28 (elements that print alike),
C31 (required but undeclared), C35 (overlapping patterns, defaults in branches that are tried), C37 (dependencies of additional properties), C40 (pointers to interfaces), C42 (defaults not validated),
C43 (nil maps), C54 (`Reset` keeps the payload), C55 (`MaybeTime`), C57 (shadowed names), C59, C60 (defaults on structs), C64 (several
combinators), C65 (enumerations of typed schemas), C70 and C71 (lost in generation), C74 (`Len`), C76 and C77 (validators
that register different constraints under one name), C78 (output truncated too early, write errors ignored), C79 (prefix `R`; `C79_exact` and `C72_runs_iff` say exactly which names clash), C82 (error messages
not labelled as JSON), C87 (patterns, limits and additional properties are read without the mutex),
C100 (`Integer().MultipleOf` and `Integer().Enum` are number constraints), C101 (`SetConstraintMap` does not reach references made with a map),
C104 (an unset Maybe is written as its payload; `MaybeTime` is read without being set), C105 (`Enum` compares types; maps from defined string types,
nil Maybe pointers, and defaults of another type than a map's elements panic), C112 (the address of an `interface{}` variable), C115 (`#` in a part selected with `-p` is the part).

C43 on nil maps (`Props/NilMaps`) and C57 (`Props/Shadowing`) are exact: C57 against the selector rule of the Go specification, stated with
field paths (`Spec/Selects`), to which the modelled `FieldByName` is proved equal. C71 is exact for the strings of string constraints
(`Props/Literals`), the names in object constraints and the names of references (`Props/LiteralNames`): they come back from generated code as they were if and only if they have no `%`. `Lemmas/Directives` goes through
every directive `fmt` knows, and shows that whatever is put in its place, the text is another one or does not compile.
`Props/Exact` says what holds instead of C11, C17, C19, C28, C31, C37, C64 and C65, without restricting the inputs: for C19 the code
compares the nearest float64, ties to even (`Spec/Rounding`), so it accepts exactly the integers that are between the bounds or
round to the bound they are beyond.

## Methods of proof

| area | method |
|---|---|
| combinators, arrays | induction on the list of children or elements |
| strings | automaton invariant against a declarative specification of host names |
| numbers | arithmetic on exact magnitudes |
| objects | loop invariants over arbitrary schedules; declarative `ObjRules` |
| whole trees (read-only, scalars kept, no panic, determinacy, termination) | structural induction with a "policy" closed under every constraint, fuel induction for references |
| defaults and verdicts | lockstep of a validator with the one without defaults; every loop of an object relates the two states |
| memory | simulation of the tree model by programs of map operations; programs confined to a set of maps, closed under what they write |
| locks | inductive invariants over all interleavings; ranking functions for progress |
| shared references | projection of an execution to one with fixed targets, chosen at its end; well-founded order on what goroutines have before them |
| builder | induction over schemas; fixed point of reference compilation; every built constraint tracks validity of its schema |
| order of maps | relations between constraints that do not see how maps are listed (`OrderBlind`): written alike, doing the same in some order |
| generator | lexing and parsing compose over concatenation of text; simulation between a constraint and the one rebuilt from text |

## Mutation tests

`seeded/LOG.jsonl` has one line per wrong program tried in a scratch copy: definition, edit, the claim it breaks, and the theorems that
no longer prove.
