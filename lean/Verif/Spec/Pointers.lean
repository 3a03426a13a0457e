import Verif.Model.Constraint
/-!
# Pointers to what is validated
-/
namespace Jsval

/-- Neither nil nor a pointer, an interface variable or a struct. -/
def GoVal.Here : GoVal → Prop
  | .nil => False
  | .ptr _ => False
  | .iface _ => False
  | .struct _ => False
  | _ => True

/-- Constraints that dereference what they are given, at every place where the value itself is validated: strings, numbers, integers and objects, and what is
made of them. Booleans, arrays, enumerations and null do not. (What stands inside of objects and arrays does not matter.) -/
inductive Constraint.Through : Constraint → Prop where
  | empty : Through .empty
  | string (c) : Through (.string c)
  | number (c) : Through (.number c)
  | integer (c) : Through (.integer c)
  | object {o} : (∀ p c, (p, c) ∈ o.schemadeps → Through c) → Through (.object o)
  | any {cs} : (∀ c ∈ cs, Through c) → Through (.any cs)
  | all {cs} : (∀ c ∈ cs, Through c) → Through (.all cs)
  | oneOf {cs} : (∀ c ∈ cs, Through c) → Through (.oneOf cs)
  | notNil : Through (.not none)
  | not {c} : Through c → Through (.not (some c))
  | ref (m n) : Through (.ref m n)

/-- The argument is a pointer to a pointer to `x`, or a pointer to an interface variable that holds `x`. -/
inductive Twice : GoVal → GoVal → Prop where
  | ptr (x) : Twice (.ptr (some (.ptr (some x)))) x
  | iface (x) : Twice (.ptr (some (.iface x))) x

/-- `y` where `x` is. -/
def rewrap (v y : GoVal) : GoVal :=
  match v with
  | .ptr (some (.ptr _)) => .ptr (some (.ptr (some y)))
  | _ => .ptr (some (.iface y))

/-- nil deletes, other values are stored -/
def keptOf : GoVal → Option GoVal
  | .nil => none
  | v => some v

end Jsval
