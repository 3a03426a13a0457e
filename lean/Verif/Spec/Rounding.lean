import Verif.Spec.Decimal
import Mathlib.Algebra.Group.Even
/-!
# Rounding integers to float64

Numbers are integers in units of 2^-1074, the unit of `F64`.
-/
namespace Jsval

/-- The value of a finite float64. -/
def F64.Value (f : ℤ) : Prop := F64.Mag f.natAbs

/-- The last of the 53 bits is zero. -/
def F64.EvenValue (f : ℤ) : Prop := ∃ q j, 2 ^ 52 ≤ q ∧ q ≤ 2 ^ 53 ∧ q % 2 = 0 ∧ f.natAbs = q * 2 ^ j

/-- `x` rounds to the float64 `f`: none is closer, and if another one is as close, `f` is the even one. -/
def F64.Rounds (x f : ℤ) : Prop :=
  F64.Value f ∧ ∀ y, F64.Value y → (f - x).natAbs ≤ (y - x).natAbs ∧ ((f - x).natAbs = (y - x).natAbs → y ≠ f → F64.EvenValue f)

end Jsval
