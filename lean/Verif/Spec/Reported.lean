import Verif.Spec.Faults
/-!
# Which fault is reported

A value can have many faults; `Validate` returns one error. `Reported ext env c v e` says which ones it can be: the rules of `Fault`
(`Spec/Faults.lean`), each with the parts that have to be in order before the check behind it is made. Where Go ranges over a map there is
no "before" between the entries; there is one between the groups of checks.
-/
namespace Jsval

/-- The order of the checks on strings. -/
def Err.strRank : Err → ℕ
  | .tooLong _ => 0
  | .tooShort _ => 1
  | .badRegexp _ _ => 3
  | .notInEnum => 4
  | _ => 2

/-- The order of the checks on numbers. -/
def Err.numRank : Err → ℕ
  | .belowMin => 0
  | .belowMinExcl => 0
  | .aboveMax => 1
  | .aboveMaxExcl => 1
  | .notMultiple => 2
  | _ => 3

/-- `e` is the first of the faults of a string. -/
def StrFirst (ext : Ext) (c : StrC) (s : GoStr) (e : Err) : Prop :=
  StrFault ext c s e ∧ ∀ e', StrFault ext c s e' → e.strRank ≤ e'.strRank

/-- `e` is the first of the faults of a number. -/
def NumFirst (c : NumC) (f : F64) (e : Err) : Prop := NumFault c f e ∧ ∀ e', NumFault c f e' → e.numRank ≤ e'.numRank

/-- Values Go compares without a panic, and whose comparison is modelled: those of different kinds, and scalars. -/
def Comparable : GoVal → GoVal → Prop
  | .slice _ _, .slice _ _ => False
  | .map _ _, .map _ _ => False
  | .mapOther _ _, .mapOther _ _ => False
  | .struct _, .struct _ => False
  | .ptr _, .ptr _ => False
  | .iface _, .iface _ => False
  | .maybe _ _, .maybe _ _ => False
  | .time _, .time _ => False
  | .other _ _, .other _ _ => False
  | _, _ => True

/-- Following references from a constraint ends, be it at an unresolved one. -/
inductive LinkEnds (env : Env) : Constraint → Prop where
  | plain {c} : (∀ m n, c ≠ .ref m n) → LinkEnds env c
  | unresolved {m n} : env m n = none → LinkEnds env (.ref m n)
  | ref {m n c} : env m n = some c → LinkEnds env c → LinkEnds env (.ref m n)

/-- The number of elements is allowed. -/
def ItemsOk (a : ArrC Constraint) (n : ℕ) : Prop :=
  ¬ (0 ≤ a.minItems ∧ (n : ℤ) < a.minItems) ∧ ¬ (0 ≤ a.maxItems ∧ a.maxItems < (n : ℤ))

/-- The elements that have a constraint of their own and whose position satisfies `P` are accepted. -/
def PlacesPass (ext : Ext) (env : Env) (a : ArrC Constraint) (xs : List GoVal) (P : ℕ → Prop) : Prop :=
  ∀ (i : ℕ) (c : Constraint) (x : GoVal), P i → a.positional[i]? = some c → xs[i]? = some x → Accepted ext env c x

/-- Nothing is wrong with the declared properties: those present are accepted, those absent are not required. -/
structure DeclaredPass (ext : Ext) (env : Env) (o : ObjC Constraint) (kvs : List (GoStr × GoVal)) : Prop where
  present : ∀ p c x, (p, c) ∈ o.props → (p, x) ∈ kvs → Accepted ext env c x
  absent : ∀ p c, (p, c) ∈ o.props → ¬ Has kvs p → p ∉ o.required ∧ LinkEnds env c

/-- Nothing is wrong with the undeclared properties whose names match a pattern. -/
def PatternsPass (ext : Ext) (env : Env) (o : ObjC Constraint) (raws : List (GoStr × GoVal)) : Prop :=
  ∀ k x, (k, x) ∈ raws → ¬ o.Declares k → ∀ id src c, (id, src, c) ∈ o.patterns → ext.reMatch src k = true → Accepted ext env c x

/-- Nothing is wrong with the other properties. -/
def OthersPass (ext : Ext) (env : Env) (o : ObjC Constraint) (raws : List (GoStr × GoVal)) : Prop :=
  ∀ k x, (k, x) ∈ raws → ¬ o.Declares k → ¬ o.PatternFor ext k → ∃ c, o.additional = some c ∧ Accepted ext env c x

/-- `e` can be what a call reports about `v`. -/
inductive Reported (ext : Ext) (env : Env) : Constraint → GoVal → Err → Prop where
  | null {v} : ¬ NilLike v → Reported ext env .null v .notNull
  | boolean {d v} : (∀ b, v ≠ .bool b) → Reported ext env (.boolean d) v .notBool
  | enum {l v} : (∀ x ∈ l, Comparable x v ∧ ¬ SameGo x v) → Reported ext env (.enum l) v .notInEnum
  | notString {c v} : (∀ s, ¬ Target v (.str s)) → Reported ext env (.string c) v .notString
  | string {c v s e} : Target v (.str s) → StrFirst ext c s e → Reported ext env (.string c) v e
  | notFloat {c v} : (∀ k f, ¬ Target v (.float k f)) → Reported ext env (.number c) v .notFloat
  | number {c v k f e} : Target v (.float k f) → NumFirst c f e → Reported ext env (.number c) v e
  | notNumeric {c v} : (∀ k n, ¬ Target v (.int k n)) → (∀ k n, ¬ Target v (.uint k n)) → (∀ k f, ¬ Target v (.float k f)) →
      Reported ext env (.integer c) v .notNumeric
  | notIntegral {c v k f} : Target v (.float k f) → ¬ f.Whole → Reported ext env (.integer c) v .notIntegral
  | int {c v k n e} : Target v (.int k n) → NumFirst c (F64.ofInt n) e → Reported ext env (.integer c) v e
  | uint {c v k n e} : Target v (.uint k n) → NumFirst c (F64.ofInt n) e → Reported ext env (.integer c) v e
  | whole {c v k f e} : Target v (.float k f) → f.Whole → NumFirst c f e → Reported ext env (.integer c) v e
  -- arrays: the number of elements, repetitions, the elements from left to right
  | notSlice {a v} : (∀ n xs, v ≠ .slice n xs) → Reported ext env (.array a) v .notSlice
  | fewItems {a n xs} : 0 ≤ a.minItems → (xs.length : ℤ) < a.minItems → Reported ext env (.array a) (.slice n xs) .fewItems
  | manyItems {a n xs} : ¬ (0 ≤ a.minItems ∧ (xs.length : ℤ) < a.minItems) → 0 ≤ a.maxItems → a.maxItems < (xs.length : ℤ) →
      Reported ext env (.array a) (.slice n xs) .manyItems
  | dupItem {a n xs} : ItemsOk a xs.length → a.unique = true → Repeats ext xs → Reported ext env (.array a) (.slice n xs) .dupItem
  | item {a n xs} {j : ℕ} {c x e} : ItemsOk a xs.length → ¬ (a.unique = true ∧ Repeats ext xs) → a.items = some c → xs[j]? = some x →
      (∀ (i : ℕ) (y : GoVal), i < j → xs[i]? = some y → Accepted ext env c y) → Reported ext env c x e →
      Reported ext env (.array a) (.slice n xs) e
  | positional {a n xs} {j : ℕ} {c x e} : ItemsOk a xs.length → ¬ (a.unique = true ∧ Repeats ext xs) → a.items = none →
      a.positional[j]? = some c → xs[j]? = some x → PlacesPass ext env a xs (· < j) → Reported ext env c x e →
      Reported ext env (.array a) (.slice n xs) e
  | extra {a n xs} {j : ℕ} {c x e} : ItemsOk a xs.length → ¬ (a.unique = true ∧ Repeats ext xs) → a.items = none →
      PlacesPass ext env a xs (fun _ => True) → a.additional = some c → 0 < a.positional.length → a.positional.length < xs.length →
      a.positional.length - 1 ≤ j → xs[j]? = some x →
      (∀ (i : ℕ) (y : GoVal), a.positional.length - 1 ≤ i → i < j → xs[i]? = some y → Accepted ext env c y) → Reported ext env c x e →
      Reported ext env (.array a) (.slice n xs) e
  | addlItems {a n xs} : ItemsOk a xs.length → ¬ (a.unique = true ∧ Repeats ext xs) → a.items = none →
      PlacesPass ext env a xs (fun _ => True) → a.additional = none → 0 < a.positional.length → a.positional.length < xs.length →
      Reported ext env (.array a) (.slice n xs) .addlItems
  -- objects: the number of properties, declared ones, those matching patterns, others, dependencies
  -- (asking a Maybe for its properties panics)
  | notObject {o v} : (∀ kvs raws, ¬ Props v kvs raws) → (∀ b m, ¬ Target v (.maybe b m)) → Reported ext env (.object o) v .noPropNames
  | fewProps {o v kvs raws} : Props v kvs raws → 0 ≤ o.minProps → (kvs.length : ℤ) < o.minProps → Reported ext env (.object o) v .fewProps
  | manyProps {o v kvs raws} : Props v kvs raws → ¬ (0 ≤ o.minProps ∧ (kvs.length : ℤ) < o.minProps) → 0 ≤ o.maxProps →
      o.maxProps < (kvs.length : ℤ) → Reported ext env (.object o) v .manyProps
  | required {o v kvs raws p} : Props v kvs raws → CountOk o kvs.length → p ∈ o.required → o.Declares p → ¬ Has kvs p →
      Reported ext env (.object o) v (.required p)
  | prop {o v kvs raws p c x e} : Props v kvs raws → CountOk o kvs.length → (p, c) ∈ o.props → (p, x) ∈ kvs → Reported ext env c x e →
      Reported ext env (.object o) v (.prop p e)
  | pattern {o v kvs raws k id src c x e} : Props v kvs raws → CountOk o kvs.length → DeclaredPass ext env o kvs → ¬ o.Declares k →
      (id, src, c) ∈ o.patterns → ext.reMatch src k = true → (k, x) ∈ raws → Reported ext env c x e →
      Reported ext env (.object o) v (.prop k e)
  | addlNotAllowed {o v kvs raws k} : Props v kvs raws → CountOk o kvs.length → DeclaredPass ext env o kvs → PatternsPass ext env o raws →
      ¬ o.Declares k → ¬ o.PatternFor ext k → Has kvs k → o.additional = none → Reported ext env (.object o) v .addlNotAllowed
  | addlProp {o v kvs raws k c x e} : Props v kvs raws → CountOk o kvs.length → DeclaredPass ext env o kvs → PatternsPass ext env o raws →
      ¬ o.Declares k → ¬ o.PatternFor ext k → o.additional = some c → (k, x) ∈ raws → Reported ext env c x e →
      Reported ext env (.object o) v (.addlProp k e)
  | depMissing {o v kvs raws k d before after} : Props v kvs raws → CountOk o kvs.length → DeclaredPass ext env o kvs →
      PatternsPass ext env o raws → OthersPass ext env o raws → Has kvs k → o.Covers ext k → o.GetPropDependencies k = before ++ d :: after →
      (∀ d' ∈ before, Has kvs d' ∧ o.Covers ext d') → ¬ (Has kvs d ∧ o.Covers ext d) → Reported ext env (.object o) v (.depMissing d)
  | dependency {o v kvs raws k c e} : Props v kvs raws → CountOk o kvs.length → DeclaredPass ext env o kvs → PatternsPass ext env o raws →
      OthersPass ext env o raws → Has kvs k → o.Covers ext k → o.GetPropDependencies k = [] → o.GetSchemaDependency k = some c →
      Reported ext env c v e → Reported ext env (.object o) v e
  -- combinations
  | any {cs v} (es : Constraint → Err) : (∀ c, c ∈ cs → Reported ext env c v (es c)) → Reported ext env (.any cs) v .anyNone
  | all {cs v} {j : ℕ} {c e} : cs[j]? = some c → (∀ (i : ℕ) (d : Constraint), i < j → cs[i]? = some d → Accepted ext env d v) →
      Reported ext env c v e → Reported ext env (.all cs) v e
  | oneOfNone {cs v} (es : Constraint → Err) : (∀ c, c ∈ cs → Reported ext env c v (es c)) → Reported ext env (.oneOf cs) v .oneOfNone
  | oneOfMany {cs v} {i j : ℕ} {c d} (es : Constraint → Err) : i < j → cs[i]? = some c → cs[j]? = some d → Accepted ext env c v →
      Accepted ext env d v → (∀ c, c ∈ cs → ¬ Accepted ext env c v → Reported ext env c v (es c)) → Reported ext env (.oneOf cs) v .oneOfMany
  | notFailed {c v} : Accepted ext env c v → Reported ext env (.not (some c)) v .notFailed
  | notNoChild {v} : Reported ext env (.not none) v .notNoChild
  -- references
  | ref {m n c v e} : env m n = some c → Reported ext env c v e → Reported ext env (.ref m n) v e
  | refNotFound {m n v} : env m n = none → Reported ext env (.ref m n) v (.refNotFound n)

end Jsval
