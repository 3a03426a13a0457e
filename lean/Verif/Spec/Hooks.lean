import Verif.Model.Hooks
import Verif.Spec.Defaults
import Verif.Spec.Tree
/-!
# What a struct with property methods stands for
-/
namespace Jsval
variable (hk : Hooks)

/-- The struct has no property `k`: `GetPropValue` returns nil for it, or returns an error and no field goes by that
name either. -/
def Lacks (fs : Fields) (k : GoStr) : Prop :=
  hk.value fs k = some (some .nil) ∨ (hk.value fs k = some none ∧
    ∀ f ∈ fs, f.1.anonymous = false ∧ (f.1.exported = true → jsonName f.1.name f.1.tag ≠ some k))

/-- `v` shows itself as `w`, which has no structs: maps and slices do with their contents, and a struct with property
methods, or a pointer to one, shows itself as the map of the names and values that the methods tell. A value that is nil
cannot be told. -/
inductive Looks : GoVal → GoVal → Prop where
  | scalar (v) : IsScalar v → Looks v v
  | slice (n) (xs ys : List GoVal) : xs.length = ys.length →
      (∀ (i : Nat) x y, xs[i]? = some x → ys[i]? = some y → Looks x y) → Looks (.slice n xs) (.slice n ys)
  | map (n) (kvs kws : List (GoStr × GoVal)) : kvs.map (·.1) = kws.map (·.1) → (kws.map (·.1)).Nodup →
      (∀ k x y, (k, x) ∈ kvs → (k, y) ∈ kws → Looks x y) → Looks (.map n kvs) (.map n kws)
  | struct (fs : Fields) (kws : List (GoStr × GoVal)) : (kws.map (·.1)).Nodup →
      hk.names fs = some (some (kws.map (·.1))) →
      (∀ k, k ∈ kws.map (·.1) → ∃ x, hk.value fs k = some (some x) ∧ x ≠ .nil) →
      (∀ k x w, (k, w) ∈ kws → hk.value fs k = some (some x) → Looks x w) →
      (∀ k, k ∉ kws.map (·.1) → Lacks hk fs k) → Looks (.struct fs) (.map false kws)
  | ptr (fs : Fields) (kws : List (GoStr × GoVal)) : Looks (.struct fs) (.map false kws) →
      Looks (.ptr (some (.struct fs))) (.map false kws)

/-- `SetPropValue` adds a property, and what nested validations do to a value handed out by `GetPropValue` shows in the
struct. -/
structure Hooks.Faithful : Prop where
  set : ∀ fs (kws : List (GoStr × GoVal)) p dv, Looks hk (.struct fs) (.map false kws) → p ∉ kws.map (·.1) → IsScalar dv → dv ≠ .nil →
    ∃ f fs', hk.set fs = some f ∧ f p dv = (none, fs') ∧ Looks hk (.struct fs') (.map false (kws ++ [(p, dv)]))
  put : ∀ fs l r p w0 x w, Looks hk (.struct fs) (.map false (l ++ (p, w0) :: r)) → x ≠ .nil → Looks hk x w →
    Looks hk (.struct (hk.put fs p x)) (.map false (l ++ (p, w) :: r))

/-- Nothing in this constraint lets a struct be told from the map it shows itself as: items are not compared by their
printed form, listed values are scalars, and defaults are scalars other than nil. -/
def Constraint.Blind (c : Constraint) : Prop :=
  (∀ a, c = .array a → a.unique = false) ∧ (∀ vals, c = .enum vals → ∀ e ∈ vals, IsScalar e) ∧
  ∀ dv, c.ownDefault = some dv → IsScalar dv ∧ dv ≠ .nil

/-- The call returns `r` and leaves the argument, a value with property methods, as `v'`. -/
def ReturnsH (ext : Ext) (env : Env) (c : Constraint) (σ : Sched) (v : GoVal) (r : Res) (v' : GoVal) : Prop :=
  r ≠ .abort .diverge ∧ ∃ fuel, (semH hk ext env fuel c).val σ v = (r, v')

/-- The methods, except that a getter that returns an error is not there. -/
def Hooks.quiet : Hooks where
  names fs := match hk.names fs with | some (some l) => some (some l) | _ => none
  value fs p := match hk.value fs p with | some (some x) => some (some x) | _ => none
  set := hk.set
  put := hk.put

end Jsval
