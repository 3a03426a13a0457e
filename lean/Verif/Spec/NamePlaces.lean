import Verif.Model.Generator
/-!
# Names in object constraints

The places in which the code generator writes a name of an object constraint.
-/
namespace Jsval

/-- The places for a name in an object constraint. -/
inductive NamePlace where
  /-- the name of a property -/
  | prop
  /-- the name of a required property -/
  | req
  /-- the source of a pattern for property names -/
  | pat
  /-- a property that depends on another one -/
  | dependent
  /-- a property that another one depends on -/
  | dependency
deriving DecidableEq, Repr

/-- An object constraint with a name in one place. -/
def NamePlace.holding (p : NamePlace) (s : GoStr) : Constraint :=
  match p with
  | .prop => .object (Object'.AddProp s .empty)
  | .req => .object (Object'.Required [s])
  | .pat => .object (Object'.PatternProperties 0 s .empty)
  | .dependent => .object (Object'.PropDependency s [b! "x"])
  | .dependency => .object (Object'.PropDependency (b! "x") [s])

end Jsval
