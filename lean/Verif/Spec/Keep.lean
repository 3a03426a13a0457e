import Verif.Spec.GenProg
import Verif.Spec.Decimal
/-!
# What generated code keeps of a constraint

`Constraint.keep` removes from a constraint what the code generator does not write, and rounds numbers as it does. It is defined
without the generator's text in mind; that the generated programs set up just this is C113.
-/
namespace Jsval

/-- A value among the enumerated values of a string, read back: integers become `int`, floats become `float64` with six
decimals. -/
def GoVal.keep : GoVal → GoVal
  | .int _ n => .int .int n
  | .float _ f => .float .f64 f.reread
  | v => v

/-- Of a string constraint everything is kept (but see `GoVal.keep`). -/
def StrC.keep (c : StrC) : StrC := { c with enums := c.enums.map (·.map GoVal.keep) }

/-- Of a number constraint, `multipleOf` and `enum` get lost. Bounds and default are rounded to six decimals. -/
def NumC.keepNum (c : NumC) : NumC :=
  { dflt := c.dflt.map fun
      | .float _ f => .float .f64 f.reread
      | v => v
    minimum := c.minimum.map F64.reread, maximum := c.maximum.map F64.reread
    exclMin := c.exclMin, exclMax := c.exclMax, multipleOf := none, enums := none }

/-- Of an integer constraint, `multipleOf` and `enum` get lost. Bounds and default lose their fraction. -/
def NumC.keepInt (c : NumC) : NumC :=
  { dflt := c.dflt.map fun
      | .float .f64 f => .int .int f.truncInt
      | v => v
    minimum := c.minimum.map (fun f => F64.ofInt f.truncInt), maximum := c.maximum.map (fun f => F64.ofInt f.truncInt)
    exclMin := c.exclMin, exclMax := c.exclMax, multipleOf := none, enums := none }

/-- Arrays are open if nothing is said about additional elements. -/
def ArrC.keep (a : ArrC Constraint) : ArrC Constraint := { a with additional := some (a.additional.getD .empty) }

/-- Of an object constraint, dependencies on schemas and the limits for the number of properties get lost. -/
def ObjC.keep (o : ObjC Constraint) : ObjC Constraint := { o with schemadeps := [], minProps := -1, maxProps := -1 }

mutual
/-- What generated code keeps of the constraint. `Any` and `OneOf` without branches accept everything. -/
def Constraint.keep : Constraint → Constraint
  | .empty => .empty
  | .null => .null
  | .boolean d => .boolean d
  | .string c => .string c.keep
  | .number c => .number c.keepNum
  | .integer c => .integer c.keepInt
  | .enum l => .enum l
  | .array ⟨i, p, a, mn, mx, u⟩ => .array (ArrC.keep ⟨keepOpt i, keepList p, keepOpt a, mn, mx, u⟩)
  | .object ⟨ps, pats, a, req, pd, sd, mn, mx⟩ =>
    .object (ObjC.keep ⟨keepProps ps, keepPats pats, keepOpt a, req, pd, keepProps sd, mn, mx⟩)
  | .any cs => match cs with | [] => .empty | c :: cs => .any (c.keep :: keepList cs)
  | .all cs => .all (keepList cs)
  | .oneOf cs => match cs with | [] => .empty | c :: cs => .oneOf (c.keep :: keepList cs)
  | .not c => .not (keepOpt c)
  | .ref m n => .ref m n
/-- Optional child. -/
def keepOpt : Option Constraint → Option Constraint
  | none => none
  | some c => some c.keep
/-- List of children. -/
def keepList : List Constraint → List Constraint
  | [] => []
  | c :: cs => c.keep :: keepList cs
/-- Named children. -/
def keepProps : List (GoStr × Constraint) → List (GoStr × Constraint)
  | [] => []
  | (n, c) :: cs => (n, c.keep) :: keepProps cs
/-- Pattern children. -/
def keepPats : List (Nat × GoStr × Constraint) → List (Nat × GoStr × Constraint)
  | [] => []
  | (i, s, c) :: cs => (i, s, c.keep) :: keepPats cs
end

/-- What is kept of registered constraints. -/
def Env.keep (env : Env) : Env := fun m n => (env m n).map Constraint.keep

/-- A value the generator can write among the enumerated values of a string. -/
def GoVal.Spellable : GoVal → Prop
  | .str s => Plain s
  | .int _ _ => True
  | .float _ f => f.IsFinite
  | _ => False

/-- Constraints for which an expression is written (that compiles): no `Enum` and no `Not`, no percent signs, nothing
infinite, and defaults of the kinds the generator expects. The tables are maps. -/
def Constraint.Spellable (refs : Bool) : Constraint → Prop
  | .boolean d => ∀ v, d = some v → ∃ b, v = .bool b
  | .string c => Plain c.format ∧ (∀ r, c.regexp = some r → Plain r) ∧
      (∀ l, c.enums = some l → l ≠ [] ∧ ∀ v ∈ l, v.Spellable) ∧ (∀ v, c.dflt = some v → ∃ s, v = .str s ∧ Plain s)
  | .number c => (∀ f, c.minimum = some f → f.IsFinite) ∧ (∀ f, c.maximum = some f → f.IsFinite) ∧
      ∀ v, c.dflt = some v → ∃ k f, v = .float k f ∧ f.IsFinite
  | .integer c => (∀ f, c.minimum = some f → f.IsFinite) ∧ (∀ f, c.maximum = some f → f.IsFinite) ∧
      ∀ v, c.dflt = some v → ∃ f, v = .float .f64 f
  | .enum _ => False
  | .object o => (o.props.map (·.1)).Nodup ∧ (o.propdeps.map (·.1)).Nodup ∧ o.Written
  | .not _ => False
  | .ref _ n => refs = true ∧ Plain n
  | _ => True

end Jsval
