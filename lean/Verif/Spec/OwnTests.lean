import Verif.Spec.Object
import Verif.Spec.Scalar
import Verif.Model.Builder
import Verif.Model.Validate
/-!
# The validators of the project's own tests

The schemas of object_test.go, and in words what the validators built from them accept. `schema.Read` is not part of the model: a schema
text is given as the schema it is read as (`"additionalProperties": false` as `.nil`, nothing written as `.allow`; see Model/Schema.lean).
-/
namespace Jsval

/-- The schema of `TestObject` (object_test.go:13-38). -/
def testObjectSchema : Schema := .mk {
  type := [.object], additionalProps := .nil,
  properties := [
    (b! "name", .mk { type := [.string], maxLength := some 20, pattern := some (b! "^[a-z ]+$") }),
    (b! "age", .mk { type := [.integer], minimum := some F64.zero }),
    (b! "tags", .mk { type := [.array], items := .list [.mk { type := [.string] }] })],
  patternProps := [(0, b! "name#[a-z]+", .mk { type := [.string] })] }

/-- The schema of `TestObjectDependency` (object_test.go:82-92). -/
def testDependencySchema : Schema := .mk {
  type := [.object], additionalProps := .nil,
  properties := [(b! "foo", .mk { type := [.string] }), (b! "bar", .mk { type := [.string] })],
  depNames := [(b! "foo", [b! "bar"])] }

/-- The schema of `TestObjectSchemaDependency` (object_test.go:127-145). -/
def testSchemaDependencySchema : Schema := .mk {
  type := [.object],
  properties := [(b! "name", .mk { type := [.string] }), (b! "credit_card", .mk { type := [.string], pattern := some (b! "^[0-9]+$") })],
  required := [b! "name"],
  depSchemas := [(b! "credit_card", .mk {
    properties := [(b! "billing_address", .mk { type := [.string] })], required := [b! "billing_address"] })] }

/-- The schema of `TestArrayItemsReference` (array_test.go:16-33), and the resolver that knows its definition. -/
def testArraySchema : Schema := .mk {
  type := [.object],
  properties := [
    (b! "numbers", .mk { type := [.array], items := .list [.mk { reference := b! "#/definitions/uint" }] }),
    (b! "tuple", .mk { items := .tuple [.mk { type := [.string] }, .mk { type := [.boolean] }, .mk { type := [.number] }] })] }
@[inherit_doc testArraySchema] def testArrayResolve : Resolver := fun n =>
  if n = b! "#/definitions/uint" then .object (some { type := [.integer], minimum := some F64.zero }) else .fail

/-- Whatever the orders of the maps in the builder, a validator can be built, and whatever the orders in the validator, it
accepts `v` if `P` and rejects it with an error if not; it does not change it. -/
structure Judged (lib : SchemaLib) (m : Nat) (resolve : Resolver) (ext : Ext) (s : Schema) (v : GoVal) (P : Prop) : Prop where
  builds : ∃ N, ∀ fuel, N ≤ fuel → ∀ σ, ∃ b, BuildWithCtx lib m resolve fuel σ s = .ok b
  accepts : P → ∀ fuel σ b, BuildWithCtx lib m resolve fuel σ s = .ok b → ∀ name k τ,
    JSVal.validate ext (b.env m) k ⟨name, some b.root⟩ τ v = (.ok, v)
  rejects : ¬ P → ∀ fuel σ b, BuildWithCtx lib m resolve fuel σ s = .ok b → ∀ name k τ,
    ∃ w e, JSVal.validate ext (b.env m) k ⟨name, some b.root⟩ τ v = (.err w e, v)

/-- What the validator of `TestObject` accepts: a name of at most 20 bytes that matches, an age that is not negative, a list of
strings as tags, and strings under names matching `name#[a-z]+`; each of them may be missing, and nothing else may be there. -/
structure TestObjectOk (ext : Ext) (kvs : List (GoStr × GoVal)) : Prop where
  name : ∀ x, (b! "name", x) ∈ kvs → ∃ s, x = .str s ∧ s.length ≤ 20 ∧ ext.reMatch (b! "^[a-z ]+$") s = true
  age : ∀ x, (b! "age", x) ∈ kvs → (∃ k n, x = .int k n ∧ 0 ≤ n) ∨ (∃ k n, x = .uint k n) ∨
    ∃ k f, x = .float k f ∧ f.Whole ∧ F64.Le F64.zero f
  tags : ∀ x, (b! "tags", x) ∈ kvs → ∃ n xs, x = .slice n xs ∧ ∀ y ∈ xs, ∃ s, y = .str s
  others : ∀ k x, (k, x) ∈ kvs → k ≠ b! "name" → k ≠ b! "age" → k ≠ b! "tags" →
    ext.reMatch (b! "name#[a-z]+") k = true ∧ ∃ s, x = .str s

/-- What the validator of `TestObjectDependency` accepts: nothing but strings under `foo` and `bar`, and `foo` only with `bar`. -/
structure TestDependencyOk (kvs : List (GoStr × GoVal)) : Prop where
  only : ∀ k x, (k, x) ∈ kvs → (k = b! "foo" ∨ k = b! "bar") ∧ ∃ s, x = .str s
  dep : Has kvs (b! "foo") → Has kvs (b! "bar")

/-- What the validator of `TestObjectSchemaDependency` accepts: a name, which is a string; a card only if its number matches and there
is an address, which is a string then; and anything else. -/
structure TestSchemaDependencyOk (ext : Ext) (kvs : List (GoStr × GoVal)) : Prop where
  name : Has kvs (b! "name") ∧ ∀ x, (b! "name", x) ∈ kvs → ∃ s, x = .str s
  card : ∀ x, (b! "credit_card", x) ∈ kvs → ∃ s, x = .str s ∧ ext.reMatch (b! "^[0-9]+$") s = true
  address : Has kvs (b! "credit_card") → Has kvs (b! "billing_address") ∧ ∀ x, (b! "billing_address", x) ∈ kvs → ∃ s, x = .str s

end Jsval
