import Verif.Spec.Array
import Verif.Spec.Defaults
/-!
# What is wrong with a value

`Fault ext env c v e`: `e` is a true statement about what keeps `v` from obeying `c`. One rule per message of the package, in terms of the
value and of what the constraint asks for; no order of checks, no loops.
-/
namespace Jsval

/-- What a string can do wrong. -/
inductive StrFault (ext : Ext) (c : StrC) (s : GoStr) : Err → Prop where
  | tooLong : 0 ≤ c.maxLength → c.maxLength < (s.length : ℤ) → StrFault ext c s (.tooLong c.maxLength)
  | tooShort : 0 ≤ c.minLength → (s.length : ℤ) < c.minLength → StrFault ext c s (.tooShort c.minLength)
  | datetime : c.format = b! "datetime" → ext.timeParse s = none → StrFault ext c s .badDatetime
  | email : c.format = b! "email" → ext.mailOk s = false → StrFault ext c s .badEmail
  | hostname : c.format = b! "hostname" → ¬ HostOk s → StrFault ext c s .badHostname
  | ipv4 : c.format = b! "ipv4" → ((∃ x ∈ s, x ≠ 46 ∧ ¬ (48 ≤ x ∧ x ≤ 57)) ∨ ext.ipOk s = false) → StrFault ext c s .badIPv4
  | ipv6 : c.format = b! "ipv6" → ((∃ x ∈ s, x ≠ 58 ∧ ¬ (48 ≤ x ∧ x ≤ 57)) ∨ ext.ipOk s = false) → StrFault ext c s .badIPv6
  | uri : c.format = b! "uri" → ext.urlOk s = false → StrFault ext c s .badURI
  | regexp {rx} : c.regexp = some rx → ext.reMatch rx s = false → StrFault ext c s (.badRegexp s rx)
  | enums {l} : c.enums = some l → GoVal.str s ∉ l → StrFault ext c s .notInEnum

/-- What a number can do wrong. -/
inductive NumFault (c : NumC) (f : F64) : Err → Prop where
  | belowMin {m} : c.minimum = some m → c.exclMin = false → F64.Lt f m → NumFault c f .belowMin
  | belowMinExcl {m} : c.minimum = some m → c.exclMin = true → F64.Lt f m ∨ F64.Eq f m → NumFault c f .belowMinExcl
  | aboveMax {m} : c.maximum = some m → c.exclMax = false → F64.Lt m f → NumFault c f .aboveMax
  | aboveMaxExcl {m} : c.maximum = some m → c.exclMax = true → F64.Lt m f ∨ F64.Eq f m → NumFault c f .aboveMaxExcl
  | notMultiple {m} : c.multipleOf = some m → ¬ m.IsZero → ¬ F64.MultOf f m → NumFault c f .notMultiple
  | enums {l} : c.enums = some l → (¬ ∃ g, GoVal.float .f64 g ∈ l ∧ F64.Eq g f) → NumFault c f .notInEnum

/-- The properties an object constraint finds in a value: those of a map or struct, none in a time. -/
inductive Props : GoVal → List (GoStr × GoVal) → List (GoStr × GoVal) → Prop where
  | obj {v kvs raws} : IsObj v kvs raws → Props v kvs raws
  | time {v t} : Target v (.time t) → Props v [] []

/-- Some call accepts. -/
def Accepted (ext : Ext) (env : Env) (c : Constraint) (v : GoVal) : Prop := ∃ σ v', Returns ext env c σ v .ok v'

/-- `e` truly says what is wrong with `v`, seen from `c`. -/
inductive Fault (ext : Ext) (env : Env) : Constraint → GoVal → Err → Prop where
  | null {v} : ¬ NilLike v → Fault ext env .null v .notNull
  | boolean {d v} : (∀ b, v ≠ .bool b) → Fault ext env (.boolean d) v .notBool
  | enum {l v} : (∀ x ∈ l, ¬ SameGo x v) → Fault ext env (.enum l) v .notInEnum
  | notString {c v} : (∀ s, ¬ Target v (.str s)) → Fault ext env (.string c) v .notString
  | string {c v s e} : Target v (.str s) → StrFault ext c s e → Fault ext env (.string c) v e
  | notFloat {c v} : (∀ k f, ¬ Target v (.float k f)) → Fault ext env (.number c) v .notFloat
  | number {c v k f e} : Target v (.float k f) → NumFault c f e → Fault ext env (.number c) v e
  | notNumeric {c v} : (∀ k n, ¬ Target v (.int k n)) → (∀ k n, ¬ Target v (.uint k n)) → (∀ k f, ¬ Target v (.float k f)) →
      Fault ext env (.integer c) v .notNumeric
  | notIntegral {c v k f} : Target v (.float k f) → ¬ f.Whole → Fault ext env (.integer c) v .notIntegral
  | int {c v k n e} : Target v (.int k n) → NumFault c (F64.ofInt n) e → Fault ext env (.integer c) v e
  | uint {c v k n e} : Target v (.uint k n) → NumFault c (F64.ofInt n) e → Fault ext env (.integer c) v e
  | whole {c v k f e} : Target v (.float k f) → f.Whole → NumFault c f e → Fault ext env (.integer c) v e
  -- arrays
  | notSlice {a v} : (∀ n xs, v ≠ .slice n xs) → Fault ext env (.array a) v .notSlice
  | fewItems {a n xs} : 0 ≤ a.minItems → (xs.length : ℤ) < a.minItems → Fault ext env (.array a) (.slice n xs) .fewItems
  | manyItems {a n xs} : 0 ≤ a.maxItems → a.maxItems < (xs.length : ℤ) → Fault ext env (.array a) (.slice n xs) .manyItems
  | dupItem {a n xs} : a.unique = true → Repeats ext xs → Fault ext env (.array a) (.slice n xs) .dupItem
  | item {a n xs c x e} : a.items = some c → x ∈ xs → Fault ext env c x e → Fault ext env (.array a) (.slice n xs) e
  | positional {a n xs} {j : ℕ} {c x e} : a.items = none → a.positional[j]? = some c → xs[j]? = some x → Fault ext env c x e →
      Fault ext env (.array a) (.slice n xs) e
  | extra {a n xs} {j : ℕ} {c x e} : a.items = none → a.additional = some c → 0 < a.positional.length →
      a.positional.length < xs.length → a.positional.length - 1 ≤ j → xs[j]? = some x → Fault ext env c x e →
      Fault ext env (.array a) (.slice n xs) e
  | addlItems {a n xs} : a.items = none → a.additional = none → 0 < a.positional.length → a.positional.length < xs.length →
      Fault ext env (.array a) (.slice n xs) .addlItems
  -- objects
  | notObject {o v} : (∀ kvs raws, ¬ Props v kvs raws) → Fault ext env (.object o) v .noPropNames
  | fewProps {o v kvs raws} : Props v kvs raws → 0 ≤ o.minProps → (kvs.length : ℤ) < o.minProps → Fault ext env (.object o) v .fewProps
  | manyProps {o v kvs raws} : Props v kvs raws → 0 ≤ o.maxProps → o.maxProps < (kvs.length : ℤ) →
      Fault ext env (.object o) v .manyProps
  | required {o v kvs raws p} : Props v kvs raws → p ∈ o.required → o.Declares p → ¬ Has kvs p →
      Fault ext env (.object o) v (.required p)
  | prop {o v kvs raws p c x e} : Props v kvs raws → (p, c) ∈ o.props → (p, x) ∈ kvs → Fault ext env c x e →
      Fault ext env (.object o) v (.prop p e)
  | pattern {o v kvs raws k id src c x e} : Props v kvs raws → ¬ o.Declares k → (id, src, c) ∈ o.patterns →
      ext.reMatch src k = true → (k, x) ∈ raws → Fault ext env c x e → Fault ext env (.object o) v (.prop k e)
  | addlNotAllowed {o v kvs raws k} : Props v kvs raws → ¬ o.Declares k → ¬ o.PatternFor ext k → Has kvs k →
      o.additional = none → Fault ext env (.object o) v .addlNotAllowed
  | addlProp {o v kvs raws k c x e} : Props v kvs raws → ¬ o.Declares k → ¬ o.PatternFor ext k → o.additional = some c →
      (k, x) ∈ raws → Fault ext env c x e → Fault ext env (.object o) v (.addlProp k e)
  | depMissing {o v kvs raws k d} : Props v kvs raws → Has kvs k → o.Covers ext k → d ∈ o.GetPropDependencies k →
      ¬ (Has kvs d ∧ o.Covers ext d) → Fault ext env (.object o) v (.depMissing d)
  | dependency {o v kvs raws k c e} : Props v kvs raws → Has kvs k → o.Covers ext k → o.GetPropDependencies k = [] →
      o.GetSchemaDependency k = some c → Fault ext env c v e → Fault ext env (.object o) v e
  -- combinations; `es` tells what is wrong from the point of view of each branch
  | any {cs v} (es : Constraint → Err) : (∀ c, c ∈ cs → Fault ext env c v (es c)) → Fault ext env (.any cs) v .anyNone
  | all {cs v c e} : c ∈ cs → Fault ext env c v e → Fault ext env (.all cs) v e
  | oneOfNone {cs v} (es : Constraint → Err) : (∀ c, c ∈ cs → Fault ext env c v (es c)) → Fault ext env (.oneOf cs) v .oneOfNone
  | oneOfMany {cs v} {i j : ℕ} {c d} : i < j → cs[i]? = some c → cs[j]? = some d → Accepted ext env c v → Accepted ext env d v →
      Fault ext env (.oneOf cs) v .oneOfMany
  | notFailed {c v} : Accepted ext env c v → Fault ext env (.not (some c)) v .notFailed
  | notNoChild {v} : Fault ext env (.not none) v .notNoChild
  -- references
  | ref {m n c v e} : env m n = some c → Fault ext env c v e → Fault ext env (.ref m n) v e
  | refNotFound {m n v} : env m n = none → Fault ext env (.ref m n) v (.refNotFound n)

/-- The property names an error mentions, from the outside in. -/
def Err.names : Err → List GoStr
  | .prop p e => p :: e.names
  | .addlProp p e => p :: e.names
  | .setDefault p e => p :: e.names
  | _ => []

/-- The message behind the names. -/
def Err.reason : Err → Err
  | .prop _ e => e.reason
  | .addlProp _ e => e.reason
  | .setDefault _ e => e.reason
  | e => e

/-- The messages a constraint utters about the value it is given (as opposed to passing on those of its parts). -/
def Constraint.Utters : Constraint → Err → Prop
  | .null, .notNull => True
  | .boolean _, .notBool => True
  | .enum _, .notInEnum => True
  | .string _, .notString => True
  | .string c, .tooLong n => n = c.maxLength
  | .string c, .tooShort n => n = c.minLength
  | .string c, .badRegexp _ rx => c.regexp = some rx
  | .string _, e => e = .badDatetime ∨ e = .badEmail ∨ e = .badHostname ∨ e = .badIPv4 ∨ e = .badIPv6 ∨ e = .badURI ∨ e = .notInEnum
  | .number _, e => e = .notFloat ∨ e = .belowMin ∨ e = .belowMinExcl ∨ e = .aboveMax ∨ e = .aboveMaxExcl ∨ e = .notMultiple ∨ e = .notInEnum
  | .integer _, e => e = .notNumeric ∨ e = .notIntegral ∨ e = .belowMin ∨ e = .belowMinExcl ∨ e = .aboveMax ∨ e = .aboveMaxExcl ∨
      e = .notMultiple ∨ e = .notInEnum
  | .array _, e => e = .notSlice ∨ e = .fewItems ∨ e = .manyItems ∨ e = .dupItem ∨ e = .addlItems
  | .object o, .required p => p ∈ o.required
  | .object o, .depMissing d => ∃ k, d ∈ o.GetPropDependencies k
  | .object _, e => e = .noPropNames ∨ e = .fewProps ∨ e = .manyProps ∨ e = .addlNotAllowed
  | .any _, .anyNone => True
  | .oneOf _, e => e = .oneOfNone ∨ e = .oneOfMany
  | .not _, e => e = .notFailed ∨ e = .notNoChild
  | .ref _ n, .refNotFound n' => n' = n
  | _, _ => False

/-- `At v ks x`: `x` is found in `v` by entering properties of these names, one after the other, with array elements in between. -/
inductive At : GoVal → List GoStr → GoVal → Prop where
  | here {v} : At v [] v
  | item {n xs x ks y} : x ∈ xs → At x ks y → At (.slice n xs) ks y
  | prop {v kvs raws k x ks y} : IsObj v kvs raws → (k, x) ∈ kvs ∨ (k, x) ∈ raws → At x ks y → At v (k :: ks) y

/-- `d` is in the tree of `c`, or in a tree reached from it through references. -/
inductive ReachedFrom (env : Env) : Constraint → Constraint → Prop where
  | refl {c} : ReachedFrom env c c
  | child {c d e} : c.Child d → ReachedFrom env d e → ReachedFrom env c e
  | ref {m n d e} : env m n = some d → ReachedFrom env d e → ReachedFrom env (.ref m n) e

end Jsval
