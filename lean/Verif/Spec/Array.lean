import Verif.Spec.Scalar
/-!
# Declarative rules for arrays
-/
namespace Jsval

/-- The length rules: only non-negative limits count. -/
def LenOk {C : Type} (a : ArrC C) (xs : List GoVal) : Prop :=
  (0 ≤ a.minItems → a.minItems ≤ (xs.length : ℤ)) ∧ (0 ≤ a.maxItems → (xs.length : ℤ) ≤ a.maxItems)

/-- Two elements at different positions have the same rendering. -/
def Repeats (ext : Ext) (xs : List GoVal) : Prop :=
  ∃ (i j : Nat) (x y : GoVal), i < j ∧ xs[i]? = some x ∧ xs[j]? = some y ∧ ext.sprint x = ext.sprint y

/-- The uniqueness rule. -/
def UniqOk {C : Type} (ext : Ext) (a : ArrC C) (xs : List GoVal) : Prop :=
  a.unique = true → ¬ Repeats ext xs

end Jsval
