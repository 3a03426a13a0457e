import Verif.Model.StructInfo
/-!
# Constraints (interface.go) and their fluent construction API
-/
namespace Jsval

/-- `NumberConstraint` (interface.go:73-84). A flag/value pair such as `applyMinimum`/`minimum` is an
`Option`; `dflt` is `defaultValue` (`none`: not initialised). -/
structure NumC where
  dflt : Option GoVal := none
  minimum : Option F64 := none
  maximum : Option F64 := none
  multipleOf : Option F64 := none
  exclMin : Bool := false
  exclMax : Bool := false
  enums : Option (List GoVal) := none

/-- `StringConstraint` (interface.go:62-69). `regexp` holds the pattern source. -/
structure StrC where
  dflt : Option GoVal := none
  enums : Option (List GoVal) := none
  maxLength : Int
  minLength : Int
  regexp : Option GoStr := none
  format : GoStr := []

/-- `ArrayConstraint` (interface.go:96-104) over children of type `C` (the embedded `defaultValue` has no
setter and is never initialised). -/
structure ArrC (C : Type) where
  items : Option C
  positional : List C
  additional : Option C
  minItems : Int
  maxItems : Int
  unique : Bool

/-- `ObjectConstraint` (interface.go:108-135) over children of type `C`. Go maps are association lists.
`patterns` is keyed by `*regexp.Regexp` identity: entries are (pointer id, source, constraint). The
`FieldNameFromName`/`FieldNamesFromStruct` hooks are never read by the code and omitted; the embedded
`defaultValue` is never initialised. -/
structure ObjC (C : Type) where
  props : List (GoStr × C)
  patterns : List (Nat × GoStr × C)
  additional : Option C
  required : List GoStr
  propdeps : List (GoStr × List GoStr)
  schemadeps : List (GoStr × C)
  minProps : Int
  maxProps : Int

/-- All constraint types. `ref m n` is a `ReferenceConstraint` whose resolver is constraint map number `m` and
whose reference string is `n`. -/
inductive Constraint where
  | empty
  | null
  | boolean (dflt : Option GoVal)
  | string (c : StrC)
  | number (c : NumC)
  | integer (c : NumC)
  | enum (vals : List GoVal)
  | array (c : ArrC Constraint)
  | object (c : ObjC Constraint)
  | any (cs : List Constraint)
  | all (cs : List Constraint)
  | oneOf (cs : List Constraint)
  | not (child : Option Constraint)
  | ref (m : Nat) (name : GoStr)

/-! ## Constructors and setters -/

/-- `Array()` (array.go:12-18). -/
def Array' : ArrC Constraint :=
  { items := none, positional := [], additional := some .empty, minItems := -1, maxItems := -1,
    unique := false }

namespace ArrC
variable {C : Type}
/-- array.go:125 -/
def AdditionalItems (a : ArrC C) (c : Option C) : ArrC C := { a with additional := c }
/-- array.go:132 -/
def Items (a : ArrC C) (c : Option C) : ArrC C := { a with items := c }
/-- array.go:139 -/
def MinItems (a : ArrC C) (n : Int) : ArrC C := { a with minItems := n }
/-- array.go:146 -/
def MaxItems (a : ArrC C) (n : Int) : ArrC C := { a with maxItems := n }
/-- array.go:155 -/
def PositionalItems (a : ArrC C) (cs : List C) : ArrC C := { a with positional := cs }
/-- array.go:166 -/
def UniqueItems (a : ArrC C) (b : Bool) : ArrC C := { a with unique := b }
end ArrC

/-- `Object()` (object.go:22-33). -/
def Object' : ObjC Constraint :=
  { props := [], patterns := [], additional := none, required := [], propdeps := [], schemadeps := [],
    minProps := -1, maxProps := -1 }

/-- Add to a set represented as a list. -/
def addName (p : GoStr) (l : List GoStr) : List GoStr := if p ∈ l then l else l ++ [p]

/-- `m[id] = …` for the pattern map, keyed by regexp identity. -/
def patInsert {C : Type} (id : Nat) (src : GoStr) (c : C) : List (Nat × GoStr × C) → List (Nat × GoStr × C)
  | [] => [(id, src, c)]
  | (i, s, c') :: l => if i = id then (id, src, c) :: l else (i, s, c') :: patInsert id src c l

namespace ObjC
variable {C : Type}
/-- object.go:36 -/
def Required (o : ObjC C) (l : List GoStr) : ObjC C :=
  { o with required := l.foldl (fun acc p => addName p acc) o.required }
/-- object.go:48 -/
def IsPropRequired (o : ObjC C) (p : GoStr) : Bool := decide (p ∈ o.required)
/-- object.go:58 -/
def MinProperties (o : ObjC C) (n : Int) : ObjC C := { o with minProps := n }
/-- object.go:65 -/
def MaxProperties (o : ObjC C) (n : Int) : ObjC C := { o with maxProps := n }
/-- object.go:72 -/
def AdditionalProperties (o : ObjC C) (c : Option C) : ObjC C := { o with additional := c }
/-- object.go:78 -/
def AddProp (o : ObjC C) (name : GoStr) (c : C) : ObjC C := { o with props := ainsert name c o.props }
/-- object.go:89 (`PatternPropertiesString`, object.go:100, passes a fresh identity) -/
def PatternProperties (o : ObjC C) (id : Nat) (src : GoStr) (c : C) : ObjC C :=
  { o with patterns := patInsert id src c o.patterns }
/-- object.go:128 -/
def GetPropDependencies (o : ObjC C) (p : GoStr) : List GoStr := (alookup p o.propdeps).getD []
/-- object.go:107 -/
def PropDependency (o : ObjC C) (p : GoStr) (to : List GoStr) : ObjC C :=
  { o with propdeps := ainsert p (o.GetPropDependencies p ++ to) o.propdeps }
/-- object.go:120 -/
def SchemaDependency (o : ObjC C) (p : GoStr) (c : C) : ObjC C :=
  { o with schemadeps := ainsert p c o.schemadeps }
/-- object.go:144 -/
def GetSchemaDependency (o : ObjC C) (p : GoStr) : Option C := alookup p o.schemadeps
end ObjC

/-- `String()` (string.go:225-229): `minLength` keeps Go's zero value. -/
def String' : StrC := { maxLength := -1, minLength := 0 }

namespace StrC
/-- string.go:17 -/
def Default (c : StrC) (v : GoVal) : StrC := { c with dflt := some v }
/-- string.go:184 -/
def Enum (c : StrC) (l : List GoVal) : StrC := { c with enums := some l }
/-- string.go:193 -/
def MaxLength (c : StrC) (n : Int) : StrC := { c with maxLength := n }
/-- string.go:199 -/
def MinLength (c : StrC) (n : Int) : StrC := { c with minLength := n }
/-- string.go:206, 212 -/
def Regexp (c : StrC) (rx : GoStr) : StrC := { c with regexp := some rx }
/-- string.go:218 -/
def Format (c : StrC) (f : GoStr) : StrC := { c with format := f }
end StrC

/-- `Number()` (number.go:143) and `Integer()` (number.go:151). -/
def Number' : NumC := {}

namespace NumC
/-- number.go:12 -/
def Enum (c : NumC) (l : List GoVal) : NumC := { c with enums := some l }
/-- number.go:21, 159 -/
def Default (c : NumC) (v : GoVal) : NumC := { c with dflt := some v }
/-- number.go:28, 166 -/
def Maximum (c : NumC) (n : F64) : NumC := { c with maximum := some n }
/-- number.go:35, 173 -/
def Minimum (c : NumC) (n : F64) : NumC := { c with minimum := some n }
/-- number.go:44 -/
def MultipleOf (c : NumC) (n : F64) : NumC := { c with multipleOf := some n }
/-- number.go:52, 181 -/
def ExclusiveMinimum (c : NumC) (b : Bool) : NumC := { c with exclMin := b }
/-- number.go:59, 188 -/
def ExclusiveMaximum (c : NumC) (b : Bool) : NumC := { c with exclMax := b }
end NumC

/-- `reduceCombined` (combinations.go:17-26). -/
def reduceCombined (cc : Constraint) (l : List Constraint) : Constraint :=
  match l with
  | [c] => c
  | _ => cc

/-- `AnyConstraint.Reduce` (combinations.go:35). -/
def reduceAny (l : List Constraint) : Constraint := reduceCombined (.any l) l
/-- `AllConstraint.Reduce` (combinations.go:69). -/
def reduceAll (l : List Constraint) : Constraint := reduceCombined (.all l) l
/-- `OneOfConstraint.Reduce` (combinations.go:103). -/
def reduceOneOf (l : List Constraint) : Constraint := reduceCombined (.oneOf l) l

end Jsval
