import Verif.Spec.Defaults
/-!
# Vocabulary for iteration order in the presence of defaults
-/
namespace Jsval

/-- The same value up to the order in which the keys of maps are listed, at any depth. -/
inductive Alike : GoVal → GoVal → Prop where
  | refl (v) : Alike v v
  | slice (n) (xs ys : List GoVal) : xs.length = ys.length →
      (∀ (i : Nat) (x y : GoVal), xs[i]? = some x → ys[i]? = some y → Alike x y) → Alike (.slice n xs) (.slice n ys)
  | map (n) (kvs kws : List (GoStr × GoVal)) : (∀ k, Has kvs k ↔ Has kws k) →
      (∀ k x y, (k, x) ∈ kvs → (k, y) ∈ kws → Alike x y) → Alike (.map n kvs) (.map n kws)

/-- `c.Uses env d`: validating with `c` may validate with `d`: `d` is `c` itself, or in a sub-constraint, or reached through
references. -/
inductive Constraint.Uses (env : Env) : Constraint → Constraint → Prop where
  | refl (c) : Uses env c c
  | child {c d e} : c.Child d → Uses env d e → Uses env c e
  | ref {m n d e} : env m n = some d → Uses env d e → Uses env (.ref m n) e

/-- Sub-constraints that are tried on a value that is kept when they fail, or run after the value has been accepted:
branches of `Any`, `OneOf` and `Not`, and schema dependencies. -/
inductive Constraint.Tried : Constraint → Constraint → Prop where
  | any {cs d} : d ∈ cs → Tried (.any cs) d
  | oneOf {cs d} : d ∈ cs → Tried (.oneOf cs) d
  | not {d} : Tried (.not (some d)) d
  | dependency {o p d} : ObjC.GetSchemaDependency o p = some d → Tried (.object o) d

/-- The constraint behind any number of references. -/
inductive Constraint.Resolves (env : Env) : Constraint → Constraint → Prop where
  | refl (c) : Resolves env c c
  | ref {m n d e} : env m n = some d → Resolves env d e → Resolves env (.ref m n) e

/-- As a declared property, this constraint fills in a default when the property is absent. -/
def Defaulted (env : Env) (c : Constraint) : Prop := ∃ d, c.Resolves env d ∧ d.ownDefault ≠ none

/-- An object constraint with a property that it fills in. -/
inductive Constraint.FillsIn (env : Env) : Constraint → Prop where
  | mk {o p c} : (p, c) ∈ ObjC.props o → Defaulted env c → FillsIn env (.object o)

/-- Nothing this constraint uses fills anything in. (Defaults that are not those of a declared property do nothing.) -/
def Inert (env : Env) (c : Constraint) : Prop := ∀ e, c.Uses env e → ¬ e.FillsIn env

/-- Nothing that is only tried fills anything in. -/
def TriedInert (env : Env) (c : Constraint) : Prop := ∀ d, c.Tried d → Inert env d

/-- `fmt.Sprintf("%s", …)` prints maps with sorted keys (package fmt), so the order of the keys does not show. -/
def PrintsSorted (ext : Ext) : Prop := ∀ v w, IsJson v → IsJson w → Alike v w → ext.sprint v = ext.sprint w

/-- A default passes the checks of its own constraint (references play no role for constraints with a default). -/
def DefaultPasses (ext : Ext) (c : Constraint) : Prop :=
  ∀ dv, c.ownDefault = some dv → dv ≠ .nil → (sem ext (fun _ _ => none) 0 c).Accepts dv

/-- What is filled in by one part of the constraint is not seen by another part of it: only the first branch of an `All` fills
in; arrays with unique items, and additional items, do not; a property that is filled in has no dependencies, and its object
no maximum. -/
def FillsApart (env : Env) : Constraint → Prop
  | .all cs => ∀ d ∈ cs.tail, Inert env d
  | .array a => (a.unique = true → ∀ d, a.Child d → Inert env d) ∧ ∀ d, a.additional = some d → Inert env d
  | .object o => ∀ p c, (p, c) ∈ o.props → Defaulted env c →
      o.maxProps < 0 ∧ o.GetPropDependencies p = [] ∧ o.GetSchemaDependency p = none
  | _ => True

end Jsval
