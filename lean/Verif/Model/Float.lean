/-!
# float64

Finite float64 values are exact integer multiples of 2^-1074, so they are modelled by a sign and an exact
magnitude in that unit.  Nothing in the library does inexact arithmetic on floats except the conversion
of integers (`float64(rv.Int())`, number.go:217-219), for which `ofInt` rounds to nearest even.
Magnitudes that are not representable in 53 bits never arise from Go; theorems that hold for all
magnitudes hold in particular for the representable ones.
-/
namespace Jsval

/-- A Go float64. `fin neg mag` is `±mag * 2^-1074`; `fin true 0` is negative zero. -/
inductive F64 where
  | nan
  | inf (neg : Bool)
  | fin (neg : Bool) (mag : Nat)
deriving DecidableEq, Repr

namespace F64

/-- The magnitude of `1.0`. -/
@[irreducible] def unit : Nat := 2 ^ 1074

/-- Signed magnitude. -/
def signed (neg : Bool) (mag : Nat) : Int := if neg then -(mag : Int) else (mag : Int)

/-- Go `a < b` on float64 (false when either is NaN). -/
def lt : F64 → F64 → Bool
  | nan, _ => false
  | _, nan => false
  | inf true, inf true => false
  | inf true, _ => true
  | inf false, _ => false
  | fin _ _, inf n => !n
  | fin n m, fin n' m' => decide (signed n m < signed n' m')

/-- Go `a == b` on float64 (false when either is NaN; `-0 == 0`). -/
def eq : F64 → F64 → Bool
  | nan, _ => false
  | _, nan => false
  | inf n, inf n' => n == n'
  | inf _, fin _ _ => false
  | fin _ _, inf _ => false
  | fin n m, fin n' m' => decide (signed n m = signed n' m')

/-- Go `a <= b` on float64. -/
def le (a b : F64) : Bool := lt a b || eq a b

/-- Go `math.Floor`. -/
def floor : F64 → F64
  | nan => nan
  | inf n => inf n
  | fin n m =>
    let q := Int.fdiv (signed n m) unit
    fin n (q.natAbs * unit)

/-- Go `math.Mod` (exact; the result has the sign of the dividend). -/
def mod : F64 → F64 → F64
  | nan, _ => nan
  | _, nan => nan
  | inf _, _ => nan
  | fin n m, inf _ => fin n m
  | fin n m, fin _ m' => if m' = 0 then nan else fin n (m % m')

/-- The constant `0`. -/
def zero : F64 := fin false 0

/-- Round a natural number to 53 significant bits, ties to even. -/
def round53 (n : Nat) : Nat :=
  let k := n.log2 + 1 - 53
  if k = 0 then n
  else
    let q := n / 2 ^ k
    let r := n % 2 ^ k
    let half := 2 ^ (k - 1)
    let q' := if r > half ∨ (r = half ∧ q % 2 = 1) then q + 1 else q
    q' * 2 ^ k

/-- Go `float64(n)` for an integer of up to 64 bits. -/
def ofInt (n : Int) : F64 := fin (decide (n < 0)) (round53 n.natAbs * unit)

/-- The float with exactly the integer value `n` (no rounding; equals `ofInt` up to 2^53). -/
def exactInt (n : Int) : F64 := fin (decide (n < 0)) (n.natAbs * unit)

/-- Go `int64(f)` / `int(f)`: truncation toward zero. NaN, infinities and out-of-range values are
implementation-defined in Go; like amd64 they give `-2^63` here. -/
def truncInt : F64 → Int
  | nan => -(2 ^ 63)
  | inf _ => -(2 ^ 63)
  | fin n m =>
    let t := signed n (m / unit)
    if -(2 ^ 63) ≤ t ∧ t < 2 ^ 63 then t else -(2 ^ 63)

/-- Go `uint64(f)`: truncation; out of range implementation-defined, `2^63` here. -/
def truncNat : F64 → Nat
  | nan => 2 ^ 63
  | inf _ => 2 ^ 63
  | fin n m =>
    let t := signed n (m / unit)
    if 0 ≤ t ∧ t < 2 ^ 64 then t.toNat else 2 ^ 63

end F64
end Jsval
