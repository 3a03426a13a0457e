import Verif.Spec.Struct
/-!
# Go's selector rule

The Go specification's rule for `x.f` ("the field at the shallowest depth in `T` where there is such an `f`; if there is
not exactly one `f` with shallowest depth, the selector expression is illegal"), which `reflect.Value.FieldByName`
follows, returning the zero `Value` where the expression would be illegal.
-/
namespace Jsval

/-- `FieldPath fs p f v`: following the field positions in `p`, all but the last of them embedded structs, leads to
field `f` with value `v`. -/
inductive FieldPath : List (Field × GoVal) → List Nat → Field → GoVal → Prop where
  | here {fs i f v} : fs[i]? = some (f, v) → FieldPath fs [i] f v
  | inside {fs i e gs p f v} : fs[i]? = some (e, .struct gs) → e.anonymous = true → FieldPath gs p f v →
      FieldPath fs (i :: p) f v

/-- `GoSelects fs n v`: the Go selector `n` is legal on the struct and selects a field with value `v`. -/
def GoSelects (fs : List (Field × GoVal)) (n : GoStr) (v : GoVal) : Prop :=
  ∃ p f, FieldPath fs p f v ∧ f.name = n ∧
    ∀ p' f' v', FieldPath fs p' f' v' → f'.name = n → p' = p ∨ p.length < p'.length

/-- The field holds a Maybe that is set, by value or by pointer. -/
inductive HoldsSet : GoVal → Prop where
  | val (m) : HoldsSet (.maybe true m)
  | ptr (m) : HoldsSet (.ptr (some (.maybe true m)))

end Jsval
