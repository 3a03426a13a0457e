import Verif.Spec.Basic
/-!
# What an object constraint is supposed to mean

A declarative reading of objects (maps and structs as lists of properties) and of the rules of an object constraint,
written without the loops, sets and accessors of the validator.
-/
namespace Jsval

/-- The JSON name of a struct field: the part of the tag before the first comma, or the Go name when that part is
empty; hidden when unexported or tagged exactly `-`. -/
def jsonNameSpec (f : Field) : Option GoStr :=
  if f.exported = false ∨ f.tag = b! "-" then none
  else
    let s := f.tag.takeWhile (fun c => c != 44)
    some (if s = [] then f.name else s)

/-- The value a field contributes: an unset Maybe contributes none, a set one its payload. -/
def fieldContent : GoVal → Option GoVal
  | .maybe b m => if b then some m.toGo else none
  | .ptr (some (.maybe b m)) => if b then some m.toGo else none
  | x => some x

/-- The properties of a struct value, Maybes unwrapped. -/
def structProps (fs : List (Field × GoVal)) : List (GoStr × GoVal) :=
  fs.filterMap (fun p => (jsonNameSpec p.1).bind (fun n => (fieldContent p.2).map (n, ·)))

/-- The properties of a struct value with the field values as they are stored. -/
def structRaw (fs : List (Field × GoVal)) : List (GoStr × GoVal) :=
  fs.filterMap (fun p => (jsonNameSpec p.1).bind (fun n => (fieldContent p.2).map (fun _ => (n, p.2))))

/-- A struct type without embedding whose Go names and visible JSON names are distinct. -/
structure FlatStruct (fs : List (Field × GoVal)) : Prop where
  noEmb : ∀ p ∈ fs, p.1.anonymous = false
  goNames : (fs.map (·.1.name)).Nodup
  jsonNames : (fs.filterMap (fun p => jsonNameSpec p.1)).Nodup

/-- `IsObj v kvs raws`: the argument `v` is an object whose properties are `kvs` (`raws`: as stored). -/
inductive IsObj : GoVal → List (GoStr × GoVal) → List (GoStr × GoVal) → Prop where
  | map (n kvs) : (kvs.map (·.1)).Nodup → IsObj (.map n kvs) kvs kvs
  | ptrMap (n kvs) : (kvs.map (·.1)).Nodup → IsObj (.ptr (some (.map n kvs))) kvs kvs
  | struct (fs) : FlatStruct fs → IsObj (.struct fs) (structProps fs) (structRaw fs)
  | ptrStruct (fs) : FlatStruct fs → IsObj (.ptr (some (.struct fs))) (structProps fs) (structRaw fs)

/-- Has a property of this name. -/
def Has (kvs : List (GoStr × GoVal)) (k : GoStr) : Prop := ∃ x, (k, x) ∈ kvs

variable {C : Type}

namespace ObjC
/-- The name is declared with `AddProp`. -/
def Declares (o : ObjC C) (k : GoStr) : Prop := ∃ c, (k, c) ∈ o.props

/-- Some pattern of the constraint matches the name. -/
def PatternFor (ext : Ext) (o : ObjC C) (k : GoStr) : Prop :=
  ∃ id src c, (id, src, c) ∈ o.patterns ∧ ext.reMatch src k = true

/-- The name is declared or matched by a pattern. -/
def Covers (ext : Ext) (o : ObjC C) (k : GoStr) : Prop := o.Declares k ∨ o.PatternFor ext k

/-- The tables keyed by property name have distinct keys, as Go maps do. -/
structure Wf (o : ObjC C) : Prop where
  props : (o.props.map (·.1)).Nodup

/-- One of the sub-constraints. -/
inductive Child (o : ObjC C) : C → Prop where
  | prop {p c} : (p, c) ∈ o.props → Child o c
  | pattern {id src c} : (id, src, c) ∈ o.patterns → Child o c
  | additional {c} : o.additional = some c → Child o c
  | dependency {p c} : o.GetSchemaDependency p = some c → Child o c
end ObjC

/-- The number of properties is within the bounds that are set. -/
def CountOk (o : ObjC C) (n : Nat) : Prop :=
  (0 ≤ o.minProps → o.minProps ≤ n) ∧ (0 ≤ o.maxProps → (n : Int) ≤ o.maxProps)

/-- No two patterns match the same undeclared property. -/
def NoOverlap (ext : Ext) (o : ObjC C) (kvs : List (GoStr × GoVal)) : Prop :=
  ∀ k, Has kvs k → ¬ o.Declares k → ∀ p ∈ o.patterns, ∀ q ∈ o.patterns,
    ext.reMatch p.2.1 k = true → ext.reMatch q.2.1 k = true → p = q

/-- The rules of an object constraint, for an object with properties `kvs` (`raws`: as stored) that itself is the
value `whole`; `acc c x` says that child `c` accepts `x`. -/
structure ObjRules (ext : Ext) (o : ObjC C) (acc : C → GoVal → Prop) (whole : GoVal)
    (kvs raws : List (GoStr × GoVal)) : Prop where
  count : CountOk o kvs.length
  declared : ∀ p c x, (p, c) ∈ o.props → (p, x) ∈ kvs → acc c x
  required : ∀ p, p ∈ o.required → o.Declares p → Has kvs p
  pattern : ∀ k x, (k, x) ∈ raws → ¬ o.Declares k → ∀ id src c, (id, src, c) ∈ o.patterns →
    ext.reMatch src k = true → acc c x
  additional : ∀ k x, (k, x) ∈ raws → ¬ o.Declares k → ¬ o.PatternFor ext k →
    ∃ c, o.additional = some c ∧ acc c x
  propDeps : ∀ k, Has kvs k → o.Covers ext k → ∀ d ∈ o.GetPropDependencies k, Has kvs d ∧ o.Covers ext d
  schemaDeps : ∀ k, Has kvs k → o.Covers ext k → o.GetPropDependencies k = [] →
    ∀ c, o.GetSchemaDependency k = some c → acc c whole

end Jsval
