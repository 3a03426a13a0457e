import Verif.Model.Constraint
/-!
# Chains of configuration calls

`String().MinLength(1).MaxLength(3)` and so on: the calls as data, and what a chain of them gives. Setters of `Constraint.lean`
are applied from left to right. Constraints are values here; `Graph.lean` has them as objects which calls change in place.
-/
namespace Jsval

/-- Calls on a `StringConstraint` (string.go:17-22, 184-222). -/
inductive StrCall where
  | default (v : GoVal)
  | enum (l : List GoVal)
  | maxLength (n : Int)
  | minLength (n : Int)
  | regexp (rx : GoStr)
  | format (f : GoStr)

/-- One call (string.go:17-22, 184-222). -/
def StrCall.on (c : StrC) : StrCall → StrC
  | .default v => c.Default v
  | .enum l => c.Enum l
  | .maxLength n => c.MaxLength n
  | .minLength n => c.MinLength n
  | .regexp rx => c.Regexp rx
  | .format f => c.Format f

/-- `String().…` (string.go:17-22, 184-229). -/
def StringCalls (l : List StrCall) : Constraint := .string (l.foldl StrCall.on String')

/-- Calls on a `NumberConstraint` or an `IntegerConstraint` (number.go:12-62, 159-191). -/
inductive NumCall where
  | default (v : GoVal)
  | enum (l : List GoVal)
  | minimum (n : F64)
  | maximum (n : F64)
  | multipleOf (n : F64)
  | exclMin (b : Bool)
  | exclMax (b : Bool)

/-- One call on a `NumberConstraint` (number.go:12-62). -/
def NumCall.on (c : NumC) : NumCall → NumC
  | .default v => c.Default v
  | .enum l => c.Enum l
  | .minimum n => c.Minimum n
  | .maximum n => c.Maximum n
  | .multipleOf n => c.MultipleOf n
  | .exclMin b => c.ExclusiveMinimum b
  | .exclMax b => c.ExclusiveMaximum b

/-- What a chain of calls has as its type: `*NumberConstraint` or `*IntegerConstraint`. -/
inductive NumChain where
  | number (c : NumC)
  | integer (c : NumC)

/-- One call in a chain. `IntegerConstraint` (interface.go:86-92) embeds `NumberConstraint`. It has its own `Default`, `Maximum`,
`Minimum`, `ExclusiveMinimum` and `ExclusiveMaximum` (number.go:159-191); `Enum` and `MultipleOf` are those of the embedded
`NumberConstraint` (number.go:12, 44), which is what they return. -/
def NumChain.call : NumChain → NumCall → NumChain
  | .number c, k => .number (k.on c)
  | .integer c, .enum l => .number (c.Enum l)
  | .integer c, .multipleOf n => .number (c.MultipleOf n)
  | .integer c, k => .integer (k.on c)

/-- The constraint. -/
def NumChain.get : NumChain → Constraint
  | .number c => .number c
  | .integer c => .integer c

/-- `Number().…` (number.go:12-62, 143-148). -/
def NumberCalls (l : List NumCall) : Constraint := (l.foldl NumChain.call (.number Number')).get

/-- `Integer().…` (number.go:151-191). -/
def IntegerCalls (l : List NumCall) : Constraint := (l.foldl NumChain.call (.integer Number')).get

/-- Calls on an `ArrayConstraint` (array.go:125-172). -/
inductive ArrCall (C : Type := Constraint) where
  | additionalItems (c : Option C)
  | items (c : Option C)
  | minItems (n : Int)
  | maxItems (n : Int)
  | positionalItems (cs : List C)
  | uniqueItems (b : Bool)

/-- One call (array.go:125-172). -/
def ArrCall.on {C : Type} (a : ArrC C) : ArrCall C → ArrC C
  | .additionalItems c => a.AdditionalItems c
  | .items c => a.Items c
  | .minItems n => a.MinItems n
  | .maxItems n => a.MaxItems n
  | .positionalItems cs => a.PositionalItems cs
  | .uniqueItems b => a.UniqueItems b

/-- `Array().…` (array.go:12-18, 125-172). -/
def ArrayCalls (l : List ArrCall) : Constraint := .array (l.foldl ArrCall.on Array')

/-- Calls on an `ObjectConstraint` (object.go:36-126). A compiled regular expression has an identity and a source. -/
inductive ObjCall (C : Type := Constraint) where
  | required (l : List GoStr)
  | minProperties (n : Int)
  | maxProperties (n : Int)
  | additionalProperties (c : Option C)
  | addProp (name : GoStr) (c : C)
  | patternProperties (id : Nat) (src : GoStr) (c : C)
  | propDependency (p : GoStr) (l : List GoStr)
  | schemaDependency (p : GoStr) (c : C)

/-- One call (object.go:36-126). -/
def ObjCall.on {C : Type} (o : ObjC C) : ObjCall C → ObjC C
  | .required l => o.Required l
  | .minProperties n => o.MinProperties n
  | .maxProperties n => o.MaxProperties n
  | .additionalProperties c => o.AdditionalProperties c
  | .addProp n c => o.AddProp n c
  | .patternProperties id src c => o.PatternProperties id src c
  | .propDependency p l => o.PropDependency p l
  | .schemaDependency p c => o.SchemaDependency p c

/-- `Object().…` (object.go:22-126), to be asked for what is required. -/
def ObjectOf (l : List ObjCall) : ObjC Constraint := l.foldl ObjCall.on Object'

/-- `Object().…` (object.go:22-126). -/
def ObjectCalls (l : List ObjCall) : Constraint := .object (ObjectOf l)

/-- `AnyConstraint.Add` (combinations.go:9-11, 40-43). -/
def AnyAdd : Constraint → Constraint → Constraint
  | .any cs, c => .any (cs ++ [c])
  | d, _ => d

/-- `AllConstraint.Add` (combinations.go:9-11, 74-77). -/
def AllAdd : Constraint → Constraint → Constraint
  | .all cs, c => .all (cs ++ [c])
  | d, _ => d

/-- `OneOfConstraint.Add` (combinations.go:9-11, 108-111). -/
def OneOfAdd : Constraint → Constraint → Constraint
  | .oneOf cs, c => .oneOf (cs ++ [c])
  | d, _ => d

end Jsval
