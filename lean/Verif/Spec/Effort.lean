import Verif.Model.Constraint
/-!
How large validators and documents are (C126).
-/
namespace Jsval

mutual
/-- The number of values in a document: itself, and those in its elements or properties. -/
def GoVal.nodes : GoVal → Nat
  | .slice _ xs => 1 + nodesList xs
  | .map _ kvs => 1 + nodesEntries kvs
  | _ => 1
/-- The values in the elements. -/
def nodesList : List GoVal → Nat
  | [] => 0
  | x :: xs => x.nodes + nodesList xs
/-- The values in the properties. -/
def nodesEntries : List (GoStr × GoVal) → Nat
  | [] => 0
  | (_, x) :: kvs => x.nodes + nodesEntries kvs
end

mutual
/-- The number of constraints in a tree; a reference counts as one, whatever it stands for. -/
def Constraint.size : Constraint → Nat
  | .array c => 1 + sizeArr c
  | .object c => 1 + sizeObj c
  | .any cs => 1 + sizeList cs
  | .all cs => 1 + sizeList cs
  | .oneOf cs => 1 + sizeList cs
  | .not c => 1 + sizeOpt c
  | _ => 1
/-- Those below an array constraint. -/
def sizeArr : ArrC Constraint → Nat
  | ⟨i, p, a, _, _, _⟩ => sizeOpt i + sizeList p + sizeOpt a
/-- Those below an object constraint. -/
def sizeObj : ObjC Constraint → Nat
  | ⟨ps, pats, a, _, _, sd, _, _⟩ => sizeProps ps + sizePats pats + sizeOpt a + sizeProps sd
/-- Those below an optional child. -/
def sizeOpt : Option Constraint → Nat
  | none => 0
  | some c => c.size
/-- Those in a list. -/
def sizeList : List Constraint → Nat
  | [] => 0
  | c :: cs => c.size + sizeList cs
/-- Those in a table. -/
def sizeProps : List (GoStr × Constraint) → Nat
  | [] => 0
  | (_, c) :: cs => c.size + sizeProps cs
/-- Those in a table of patterns. -/
def sizePats : List (Nat × GoStr × Constraint) → Nat
  | [] => 0
  | (_, _, c) :: cs => c.size + sizePats cs
end

end Jsval
