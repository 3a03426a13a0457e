import Verif.Model.GoText
/-!
# Decimal numbers as float64

The float64 closest to a decimal number: what a Go compiler makes of the constant, and a JSON decoder of the number.
-/
namespace Jsval

/-- This magnitude (in units of 2^-1074) is that of a float64: at most 53 significant bits. -/
def F64.Mag (m : Nat) : Prop := ∃ q j, q ≤ 2 ^ 53 ∧ m = q * 2 ^ j

/-- `a / b` rounded to the magnitude of a float64, ties to even: a multiple of `2^e`, where `e` is such that 53 bits are
left. (`Lemmas/Decimal.lean` proves that no magnitude is closer.) -/
def F64.nearest (a b : Nat) : Nat :=
  let e := (a / b).log2 + 1 - 53
  divRound a (b * 2 ^ e) * 2 ^ e

/-- The constant `±n / 10^k` as a `float64`: the closest one, and no constant is negative zero. Constants that are too large
do not compile. -/
@[irreducible] def decF64 (neg : Bool) (n k : Nat) : Option F64 :=
  let m := F64.nearest (n * F64.unit) (10 ^ k)
  if m < 2 ^ 1024 * F64.unit then some (.fin (neg && decide (m ≠ 0)) m) else none

/-- The float64 of a decimal number with at most six decimals, which is below 2^33 or has that value exactly; not negative zero. -/
def SixDec (f : F64) : Prop := ∃ neg n, decF64 neg n 6 = some f ∧
  (n < 2 ^ 33 * 10 ^ 6 ∨ ∃ neg m, f = .fin neg m ∧ m * 10 ^ 6 = n * F64.unit)

/-- The float64 closest to the number with six decimals closest to this one. -/
def F64.six : F64 → F64
  | .fin neg m => .fin neg (F64.nearest (divRound (m * 10 ^ 6) F64.unit * F64.unit) (10 ^ 6))
  | f => f

/-- A finite float64. -/
def F64.IsFinite (f : F64) : Prop := ∃ neg m, f = .fin neg m ∧ F64.Mag m ∧ m < 2 ^ 1024 * F64.unit

/-- What a compiler makes of this float64 written with six decimals: the same as `F64.six`, but never negative zero. -/
def F64.reread : F64 → F64
  | .fin neg m =>
    let x := F64.nearest (divRound (m * 10 ^ 6) F64.unit * F64.unit) (10 ^ 6)
    .fin (neg && decide (x ≠ 0)) x
  | f => f

/-- A float64 that is below 2^33 and not negative once rounded to six decimals, or not zero then. -/
def F64.Moderate (f : F64) : Prop := ∃ neg m, f = .fin neg m ∧ divRound (m * 10 ^ 6) F64.unit < 2 ^ 33 * 10 ^ 6 ∧
  (neg = true → divRound (m * 10 ^ 6) F64.unit ≠ 0)

end Jsval
