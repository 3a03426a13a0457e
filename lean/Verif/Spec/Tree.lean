import Verif.Spec.Object
/-!
# Constraint trees

The sub-constraint relation, to speak about "every constraint in the tree".
-/
namespace Jsval

/-- One of the sub-constraints of an array constraint. -/
inductive ArrC.Child {C : Type} (a : ArrC C) : C → Prop where
  | items {c} : a.items = some c → Child a c
  | positional {c} : c ∈ a.positional → Child a c
  | additional {c} : a.additional = some c → Child a c

/-- `c.Child d`: `d` is an immediate sub-constraint of `c` (the target of a reference is not). -/
inductive Constraint.Child : Constraint → Constraint → Prop where
  | array {a d} : a.Child d → Child (.array a) d
  | object {o d} : ObjC.Child o d → Child (.object o) d
  | any {cs d} : d ∈ cs → Child (.any cs) d
  | all {cs d} : d ∈ cs → Child (.all cs) d
  | oneOf {cs d} : d ∈ cs → Child (.oneOf cs) d
  | not {d} : Child (.not (some d)) d

/-- Sub-constraints that see a part of the value: array elements and properties. -/
inductive Constraint.Elem : Constraint → Constraint → Prop where
  | array {a d} : a.Child d → Elem (.array a) d
  | prop {o p d} : (p, d) ∈ o.props → Elem (.object o) d
  | pattern {o id src d} : (id, src, d) ∈ o.patterns → Elem (.object o) d
  | additional {o d} : o.additional = some d → Elem (.object o) d

/-- Sub-constraints that see the very same value: branches of combinators and schema dependencies. -/
inductive Constraint.Same : Constraint → Constraint → Prop where
  | dependency {o p d} : ObjC.GetSchemaDependency o p = some d → Same (.object o) d
  | any {cs d} : d ∈ cs → Same (.any cs) d
  | all {cs d} : d ∈ cs → Same (.all cs) d
  | oneOf {cs d} : d ∈ cs → Same (.oneOf cs) d
  | not {d} : Same (.not (some d)) d

/-- `d.In c`: `d` occurs in the tree `c` (possibly `c` itself). -/
inductive Constraint.In : Constraint → Constraint → Prop where
  | refl (c) : In c c
  | child {c d e} : c.Child d → In e d → In e c

/-- Every constraint in the tree has property `L`. -/
def Constraint.Every (L : Constraint → Prop) (c : Constraint) : Prop := ∀ d, d.In c → L d

/-- Every constraint in every registered tree has property `L`. -/
def Env.Every (L : Constraint → Prop) (env : Env) : Prop := ∀ m n c, env m n = some c → c.Every L

/-- The default set with `Default(…)` on this very constraint. -/
def Constraint.ownDefault : Constraint → Option GoVal
  | .boolean d => d
  | .string c => c.dflt
  | .number c => c.dflt
  | .integer c => c.dflt
  | _ => none

/-- The property tables of an object constraint have distinct keys, as Go maps do. -/
def Constraint.WfNode : Constraint → Prop
  | .object o => o.Wf
  | _ => True

end Jsval
