import Verif.Spec.Basic
/-!
# Values that are not objects
-/
namespace Jsval

/-- The value or what it points to. -/
inductive Pointee : GoVal → GoVal → Prop where
  | here (x) : Pointee x x
  | ptr (x) : Pointee (.ptr (some x)) x

/-- Neither a map nor a struct, nor a pointer. Maybes and `time.Time` are structs. -/
def IsPlain : GoVal → Prop
  | .map _ _ | .mapOther _ _ | .struct _ | .maybe _ _ | .time _ | .ptr _ | .iface _ => False
  | _ => True

end Jsval
