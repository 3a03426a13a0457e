import Verif.Spec.OrderDefaults
/-!
# Vocabulary: constraints without their defaults, and defaults that nothing sees
-/
namespace Jsval

/-! `Constraint.plain c` is `c` with every default taken out. -/
mutual
/-- The constraint without defaults. -/
def Constraint.plain : Constraint → Constraint
  | .empty => .empty
  | .null => .null
  | .boolean _ => .boolean none
  | .string c => .string { c with dflt := none }
  | .number c => .number { c with dflt := none }
  | .integer c => .integer { c with dflt := none }
  | .enum l => .enum l
  | .array ⟨i, p, a, mn, mx, u⟩ => .array ⟨plainOpt i, plainList p, plainOpt a, mn, mx, u⟩
  | .object ⟨ps, pats, a, req, pd, sd, mn, mx⟩ =>
    .object ⟨plainProps ps, plainPats pats, plainOpt a, req, pd, plainProps sd, mn, mx⟩
  | .any cs => .any (plainList cs)
  | .all cs => .all (plainList cs)
  | .oneOf cs => .oneOf (plainList cs)
  | .not c => .not (plainOpt c)
  | .ref m n => .ref m n
/-- Optional child. -/
def plainOpt : Option Constraint → Option Constraint
  | none => none
  | some c => some c.plain
/-- List of children. -/
def plainList : List Constraint → List Constraint
  | [] => []
  | c :: cs => c.plain :: plainList cs
/-- Named children. -/
def plainProps : List (GoStr × Constraint) → List (GoStr × Constraint)
  | [] => []
  | (n, c) :: cs => (n, c.plain) :: plainProps cs
/-- Pattern children. -/
def plainPats : List (Nat × GoStr × Constraint) → List (Nat × GoStr × Constraint)
  | [] => []
  | (i, s, c) :: cs => (i, s, c.plain) :: plainPats cs
end

/-- The registered constraints without defaults. -/
def Env.plain (env : Env) : Env := fun m n => (env m n).map Constraint.plain

/-- Constraints that only accept values that are neither arrays nor objects. -/
inductive Constraint.ForScalars : Constraint → Prop where
  | null : ForScalars .null
  | boolean {d} : ForScalars (.boolean d)
  | string {c} : ForScalars (.string c)
  | number {c} : ForScalars (.number c)
  | integer {c} : ForScalars (.integer c)

/-- No value passes both: one is for objects or arrays, the other for something else, or they are references to such constraints. A
reference to nothing passes no value. -/
inductive Clash (env : Env) : Constraint → Constraint → Prop where
  | objectScalar {o b} : Constraint.ForScalars b → Clash env (.object o) b
  | objectArray {o a} : Clash env (.object o) (.array a)
  | arrayScalar {a b} : Constraint.ForScalars b → Clash env (.array a) b
  | arrayObject {a o} : Clash env (.array a) (.object o)
  | left {m n a b} : env m n = some a → Clash env a b → Clash env (.ref m n) b
  | right {m n a b} : env m n = some b → Clash env a b → Clash env a (.ref m n)
  | leftNothing {m n b} : env m n = none → Clash env (.ref m n) b
  | rightNothing {m n a} : env m n = none → Clash env a (.ref m n)

/-- What is filled in is not looked at afterwards: of the branches of a combinator only the last fills in, except that in an `Any` or a
`OneOf` branches for different kinds of values may; additional items of an array (which begin at the last positional one) check nothing,
or the positional ones fill in nothing; an object with schema dependencies fills in nothing. -/
def Unseen (env : Env) : Constraint → Prop
  | .all cs => cs.Pairwise fun a _ => Inert env a
  | .any cs => cs.Pairwise fun a b => Inert env a ∨ Clash env a b
  | .oneOf cs => cs.Pairwise fun a b => Inert env a ∨ Clash env a b
  | .array a => ∀ d, a.additional = some d → d = .empty ∨ ∀ p ∈ a.positional, Inert env p
  | .object o => o.Wf ∧ (o.schemadeps = [] ∨ Inert env (.object o))
  | _ => True

end Jsval
