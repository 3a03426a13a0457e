import Verif.Spec.Stricter
import Verif.Spec.Defaults
/-!
# Documents that differ in optional and in unmentioned properties
-/
namespace Jsval

/-- `w` is `v` with some properties named in `L` left out, anywhere in it, and with properties named in `D` added, left out or changed. -/
inductive Revised (L D : GoStr → Prop) : GoVal → GoVal → Prop where
  | same (v) : Revised L D v v
  | arr (xs ys : List GoVal) : xs.length = ys.length → (∀ (i : ℕ) (x y : GoVal), xs[i]? = some x → ys[i]? = some y → Revised L D x y) →
      Revised L D (.slice false xs) (.slice false ys)
  | obj (kvs kvs' : List (GoStr × GoVal)) : (∀ k, Has kvs' k → Has kvs k ∨ D k) → (∀ k, Has kvs k → Has kvs' k ∨ L k ∨ D k) →
      (∀ k x y, (k, x) ∈ kvs → (k, y) ∈ kvs' → ¬ D k → Revised L D x y) → Revised L D (.map false kvs) (.map false kvs')

/-- The constraint accepts only strings, only numbers or only booleans. -/
def Constraint.Plainly (c : Constraint) : Prop := ∃ k, c.sort? = some k ∧ k ≠ .arr

/-- What the constraint itself says about such properties: those in `L` are optional, those in `D` not mentioned and free to occur; it does not
count what may be missing or come on top, and does not compare parts that may change. -/
def Tolerates (ext : Ext) (L D : GoStr → Prop) : Constraint → Prop
  | .object o =>
    (∀ k, L k → (o.Declares k → k ∉ o.required) ∧ (∀ q, k ∉ o.GetPropDependencies q) ∧ o.minProps ≤ 0) ∧
    (∀ k, D k → ¬ o.Covers ext k ∧ o.additional = some .empty ∧ o.minProps ≤ 0 ∧ o.maxProps < 0)
  | .array a => a.unique = true → ∃ c, a.items = some c ∧ c.Plainly
  | .enum l => ∀ x ∈ l, IsScalar x
  | .oneOf cs => (∀ k, ¬ L k) ∨ ∀ c ∈ cs, c.Plainly
  | .not (some c) => (∀ k, ¬ L k) ∨ c.Plainly
  | _ => True

end Jsval
