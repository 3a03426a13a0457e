import Verif.Spec.Faults
import Verif.Spec.OrderDefaults
/-!
# Which messages a validator can utter

`Blames ext env c e`: reading the validator alone, without any value, `e` is a message that may come out of it: the rule it speaks of is set, and
the names in it are names the validator knows of (or, for patterns and additional properties, may meet). One rule per message of the package.
-/
namespace Jsval

/-- Messages of string constraints. -/
inductive StrBlames (c : StrC) : Err → Prop where
  | notString : StrBlames c .notString
  | tooLong : 0 ≤ c.maxLength → StrBlames c (.tooLong c.maxLength)
  | tooShort : 0 < c.minLength → StrBlames c (.tooShort c.minLength)
  | datetime : c.format = b! "datetime" → StrBlames c .badDatetime
  | email : c.format = b! "email" → StrBlames c .badEmail
  | hostname : c.format = b! "hostname" → StrBlames c .badHostname
  | ipv4 : c.format = b! "ipv4" → StrBlames c .badIPv4
  | ipv6 : c.format = b! "ipv6" → StrBlames c .badIPv6
  | uri : c.format = b! "uri" → StrBlames c .badURI
  | regexp {rx s} : c.regexp = some rx → StrBlames c (.badRegexp s rx)
  | enums {l} : c.enums = some l → StrBlames c .notInEnum

/-- Messages of the rules of number constraints. -/
inductive NumBlames (c : NumC) : Err → Prop where
  | belowMin {m} : c.minimum = some m → c.exclMin = false → NumBlames c .belowMin
  | belowMinExcl {m} : c.minimum = some m → c.exclMin = true → NumBlames c .belowMinExcl
  | aboveMax {m} : c.maximum = some m → c.exclMax = false → NumBlames c .aboveMax
  | aboveMaxExcl {m} : c.maximum = some m → c.exclMax = true → NumBlames c .aboveMaxExcl
  | notMultiple {m} : c.multipleOf = some m → ¬ m.IsZero → NumBlames c .notMultiple
  | enums {l} : c.enums = some l → NumBlames c .notInEnum

/-- Messages of array constraints about the array itself. -/
inductive ArrBlames (a : ArrC Constraint) : Err → Prop where
  | notSlice : ArrBlames a .notSlice
  | fewItems : 0 < a.minItems → ArrBlames a .fewItems
  | manyItems : 0 ≤ a.maxItems → ArrBlames a .manyItems
  | dupItem : a.unique = true → ArrBlames a .dupItem
  | addlItems : a.items = none → a.additional = none → a.positional ≠ [] → ArrBlames a .addlItems

/-- Messages of object constraints about the object itself. -/
inductive ObjBlames (o : ObjC Constraint) : Err → Prop where
  | notObject : ObjBlames o .noPropNames
  | mapKeys : ObjBlames o .mapKeys
  | fewProps : 0 < o.minProps → ObjBlames o .fewProps
  | manyProps : 0 ≤ o.maxProps → ObjBlames o .manyProps
  | required {p} : p ∈ o.required → o.Declares p → ObjBlames o (.required p)
  | addlNotAllowed : o.additional = none → ObjBlames o .addlNotAllowed
  | depMissing {k d} : d ∈ o.GetPropDependencies k → ObjBlames o (.depMissing d)

/-- What setting a property can run into. -/
inductive SetBlames (p : GoStr) : Err → Prop where
  | noField : SetBlames p (.noField p)
  | kind : SetBlames p .setPropKind
  | maybe : SetBlames p .badMaybe
  | time : SetBlames p .badTime

/-- `e` may come out of `c`, following at most `k` references on the way. -/
inductive Blames (ext : Ext) (env : Env) : Nat → Constraint → Err → Prop where
  | null {k : Nat} : Blames ext env k .null .notNull
  | boolean {k : Nat} {d} : Blames ext env k (.boolean d) .notBool
  | enum {k : Nat} {l} : Blames ext env k (.enum l) .notInEnum
  | string {k : Nat} {c e} : StrBlames c e → Blames ext env k (.string c) e
  | notFloat {k : Nat} {c} : Blames ext env k (.number c) .notFloat
  | number {k : Nat} {c e} : NumBlames c e → Blames ext env k (.number c) e
  | notNumeric {k : Nat} {c} : Blames ext env k (.integer c) .notNumeric
  | notIntegral {k : Nat} {c} : Blames ext env k (.integer c) .notIntegral
  | integer {k : Nat} {c e} : NumBlames c e → Blames ext env k (.integer c) e
  -- arrays
  | array {k : Nat} {a e} : ArrBlames a e → Blames ext env k (.array a) e
  | item {k : Nat} {a c e} : a.items = some c → Blames ext env k c e → Blames ext env k (.array a) e
  | positional {k : Nat} {a c e} : a.items = none → c ∈ a.positional → Blames ext env k c e → Blames ext env k (.array a) e
  | extra {k : Nat} {a c e} : a.items = none → a.additional = some c → a.positional ≠ [] → Blames ext env k c e → Blames ext env k (.array a) e
  -- objects
  | object {k : Nat} {o e} : ObjBlames o e → Blames ext env k (.object o) e
  | prop {k : Nat} {o p c e} : (p, c) ∈ o.props → Blames ext env k c e → Blames ext env k (.object o) (.prop p e)
  | setDefault {k : Nat} {o p c e} : (p, c) ∈ o.props → p ∉ o.required → Defaulted env c → SetBlames p e →
      Blames ext env k (.object o) (.setDefault p e)
  | pattern {k : Nat} {o id src c q e} : (id, src, c) ∈ o.patterns → ext.reMatch src q = true → Blames ext env k c e →
      Blames ext env k (.object o) (.prop q e)
  | addlProp {k : Nat} {o q c e} : o.additional = some c → Blames ext env k c e → Blames ext env k (.object o) (.addlProp q e)
  | dependency {k : Nat} {o q c e} : o.GetPropDependencies q = [] → o.GetSchemaDependency q = some c → Blames ext env k c e →
      Blames ext env k (.object o) e
  -- combinations
  | any {k : Nat} {cs} : Blames ext env k (.any cs) .anyNone
  | all {k : Nat} {cs c e} : c ∈ cs → Blames ext env k c e → Blames ext env k (.all cs) e
  | oneOfNone {k : Nat} {cs} : Blames ext env k (.oneOf cs) .oneOfNone
  | oneOfMany {k : Nat} {cs} : 1 < cs.length → Blames ext env k (.oneOf cs) .oneOfMany
  | notFailed {k : Nat} {c} : Blames ext env k (.not (some c)) .notFailed
  | notNoChild {k : Nat} : Blames ext env k (.not none) .notNoChild
  -- references
  | ref {k : Nat} {m n c e} : env m n = some c → Blames ext env k c e → Blames ext env (k + 1) (.ref m n) e
  | refNotFound {k : Nat} {m n} : env m n = none → Blames ext env k (.ref m n) (.refNotFound n)

end Jsval
