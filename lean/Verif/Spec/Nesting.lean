import Verif.Spec.Reference
import Mathlib.Data.Finset.Card

/-!
How deep validation nests (C124). `sem ext env k c` is the behaviour of a constraint when a call chain may follow at most
`k` references one inside the other (reference.go:136-152 calls `Validate` of what the name stands for, so every reference
followed is a Go stack frame that stays until that call returns); `.abort .diverge` is the outcome when one more would be
needed.
-/

namespace Jsval

/-- `F` holds every name that stands for a constraint. -/
def Names (env : Env) (F : Finset (Nat × GoStr)) : Prop := ∀ m n, env m n ≠ none → (m, n) ∈ F

/-- No call on `v`, whatever the iteration order, nests more than `k` references. -/
def NestsAtMost (ext : Ext) (env : Env) (k : Nat) (c : Constraint) (v : GoVal) : Prop :=
  ∀ σ, ((sem ext env k c).val σ v).1 ≠ .abort .diverge

/-- Every call on `v`, whatever the iteration order, nests more than `k` references. -/
def NestsBeyond (ext : Ext) (env : Env) (k : Nat) (c : Constraint) (v : GoVal) : Prop :=
  ∀ σ, ((sem ext env k c).val σ v).1 = .abort .diverge

/-- `HasDefault()` and `DefaultValue()` (reference.go:116-132) nest at most `k` references. -/
def DefaultNestsAtMost (ext : Ext) (env : Env) (k : Nat) (c : Constraint) : Prop :=
  (sem ext env k c).dflt ≠ .abort .diverge

end Jsval
