import Verif.Model.Calls
import Verif.Model.Validate
import Verif.Lemmas.Basic
/-!
# Constraints as objects

Constructors give pointers (`*StringConstraint`, …), setters change the object they are called on and give the same pointer
back, and an object may be used in several places of a validator, or under itself. Here constraints are objects in a store.
Elsewhere in the model they are trees.

Simplifications: the slices given to `Enum(…)` and `PositionalItems(…)` are values; `Resolved()` looks its name up every time
(what it keeps is in `Reference.lean`); the patterns of an object constraint are keyed by the identity of the regular expression.
-/
namespace Jsval

/-- The object a `Constraint` is (interface.go:38-182, reference.go:59-64), its children being pointers. The parameters of a
`NumberConstraint` are a cell of their own: an `IntegerConstraint` embeds one (interface.go:90-92), and the setters it inherits
give a pointer to that one. -/
inductive GNode where
  | empty
  | null
  | boolean (dflt : Option GoVal)
  | string (c : StrC)
  | number (cell : Nat)
  | integer (cell : Nat)
  | enum (vals : List GoVal)
  | array (c : ArrC Nat)
  | object (c : ObjC Nat)
  | any (cs : List Nat)
  | all (cs : List Nat)
  | oneOf (cs : List Nat)
  | not (child : Option Nat)
  | ref (m : Nat) (name : GoStr)

/-- The objects, the cells of number constraints, and the constraint maps (reference.go:18-21). -/
structure Store where
  node : Nat → GNode
  cell : Nat → NumC
  maps : Nat → GoStr → Option Nat

/-- `HasDefault()`, `DefaultValue()` and `Validate(v)` of an object, given those of the objects it points to and of references;
as `denote` (array.go:21-115, basic.go:10-90, bool.go:21-29, combinations.go:49-60, 82-94, 116-135, enum.go:21-32,
number.go:65-140, 197-229, object.go:324-500, reference.go:116-153, string.go:30-132). -/
def GNode.sem (ext : Ext) (cell : Nat → NumC) (S : Nat → Sem) (ρ : RefSem) : GNode → Sem
  | .empty => ⟨.none, fun _ v => (.ok, v)⟩
  | .null => ⟨.none, pureV nullCheck⟩
  | .boolean d => ⟨.ofOption d, pureV boolCheck⟩
  | .string c => ⟨.ofOption c.dflt, pureV (strCheck ext c)⟩
  | .number a => ⟨.ofOption (cell a).dflt, pureV (numCheck (cell a))⟩
  | .integer a => ⟨.ofOption (cell a).dflt, pureV (intCheck (cell a))⟩
  | .enum vals => ⟨.none, pureV (enumCheck vals)⟩
  | .array c => ⟨.none, arrayV ext (c.map S)⟩
  | .object c => ⟨.none, objectV ext (c.map S)⟩
  | .any cs => ⟨.none, anyLoop 0 (cs.map S)⟩
  | .all cs => ⟨.none, allLoop 0 (cs.map S)⟩
  | .oneOf cs => ⟨.none, oneOfLoop 0 0 (cs.map S)⟩
  | .not c => ⟨.none, notV (c.map S)⟩
  | .ref m n => ρ m n

/-- The behaviour of the object at an address, following at most this many pointers and references along any call chain
(object.go:324-500 and so on, reference.go:116-153). -/
def graphSem (ext : Ext) (s : Store) : Nat → Nat → Sem
  | 0, _ => running
  | k + 1, p => (s.node p).sem ext s.cell (graphSem ext s k) fun m n =>
      match s.maps m n with
      | none => unresolved n
      | some q => graphSem ext s k q

/-- Validating with the object at `p` returns `r` and leaves the argument as `v'`. -/
def Store.Returns (ext : Ext) (s : Store) (p : Nat) (σ : Sched) (v : GoVal) (r : Res) (v' : GoVal) : Prop :=
  r ≠ .abort .diverge ∧ ∃ fuel, (graphSem ext s fuel p).val σ v = (r, v')

/-- `HasDefault()`/`DefaultValue()` of the object at `p` return and say `d`. -/
def Store.DefaultReturns (ext : Ext) (s : Store) (p : Nat) (d : Dflt) : Prop :=
  d ≠ .abort .diverge ∧ ∃ fuel, (graphSem ext s fuel p).dflt = d

/-! ## Programs that build constraints -/

/-- The address of `EmptyConstraint` (interface.go:41). -/
def emptyAddr : Nat := 0
/-- The address of `NullConstraint` (interface.go:47). -/
def nullAddr : Nat := 1

/-- Before the program starts there are only the two constants. -/
def Store.init : Store where
  node p := if p = nullAddr then .null else .empty
  cell _ := Number'
  maps _ _ := none

/-- A step of a program that builds constraints. `new… p` calls a constructor and names the result `p`; the cell of a number
constraint has a name of its own. `asNumber p a`: the pointer to the number constraint with cell `a`, as inherited setters of
integer constraints give it, is named `p`. -/
inductive BStep where
  | newBoolean (p : Nat)
  | newString (p : Nat)
  | newNumber (p a : Nat)
  | newInteger (p a : Nat)
  | asNumber (p a : Nat)
  | newEnum (p : Nat) (l : List GoVal)
  | newArray (p : Nat)
  | newObject (p : Nat)
  | newAny (p : Nat)
  | newAll (p : Nat)
  | newOneOf (p : Nat)
  | newNot (p : Nat) (c : Option Nat)
  | newReference (p m : Nat)
  | boolDefault (p : Nat) (v : GoVal)
  | str (p : Nat) (c : StrCall)
  | num (a : Nat) (c : NumCall)
  | enum (p : Nat) (l : List GoVal)
  | arr (p : Nat) (c : ArrCall Nat)
  | obj (p : Nat) (c : ObjCall Nat)
  | add (p q : Nat)
  | refersTo (p : Nat) (n : GoStr)
  | setReference (m : Nat) (n : GoStr) (q : Nat)

/-- What a step writes to: an object, a cell, or an entry of a constraint map. -/
inductive Loc where
  | node (p : Nat)
  | cell (a : Nat)
  | entry (m : Nat) (n : GoStr)
deriving DecidableEq

/-- A store with another object at `p`. -/
def Store.setNode (s : Store) (p : Nat) (n : GNode) : Store := { s with node := fun q => if q = p then n else s.node q }
/-- A store with another number constraint in cell `a`. -/
def Store.setCell (s : Store) (a : Nat) (c : NumC) : Store := { s with cell := fun b => if b = a then c else s.cell b }
/-- A store with another entry in a constraint map. -/
def Store.setEntry (s : Store) (m : Nat) (n : GoStr) (q : Nat) : Store :=
  { s with maps := fun m' n' => if m' = m ∧ n' = n then some q else s.maps m' n' }

/-- `c.Default(v)` on a `BooleanConstraint` (bool.go:14-18). -/
def GNode.boolDefault (v : GoVal) : GNode → GNode
  | .boolean _ => .boolean (some v)
  | n => n
/-- A call on a `StringConstraint` (string.go:17-22, 184-222). -/
def GNode.str (c : StrCall) : GNode → GNode
  | .string s => .string (c.on s)
  | n => n
/-- `c.Enum(…)` on an `EnumConstraint` (enum.go:15-18). -/
def GNode.setEnum (l : List GoVal) : GNode → GNode
  | .enum _ => .enum l
  | n => n
/-- A call on an `ArrayConstraint` (array.go:125-172). -/
def GNode.arr (c : ArrCall Nat) : GNode → GNode
  | .array a => .array (c.on a)
  | n => n
/-- A call on an `ObjectConstraint` (object.go:36-126). -/
def GNode.obj (c : ObjCall Nat) : GNode → GNode
  | .object o => .object (c.on o)
  | n => n
/-- `c.Add(…)` on an `AnyConstraint`, `AllConstraint` or `OneOfConstraint` (combinations.go:9-11, 40-43, 74-77, 108-111). -/
def GNode.add (q : Nat) : GNode → GNode
  | .any cs => .any (cs ++ [q])
  | .all cs => .all (cs ++ [q])
  | .oneOf cs => .oneOf (cs ++ [q])
  | n => n
/-- `c.RefersTo(n)` on a `ReferenceConstraint` (reference.go:105-108). -/
def GNode.refersTo (name : GoStr) : GNode → GNode
  | .ref m _ => .ref m name
  | n => n

/-- One step. Go's types rule out calls on an object of another kind; here they do nothing. Constructors: bool.go:9-11,
string.go:225-229, number.go:143-156, enum.go:10-12, array.go:12-18, object.go:22-33, combinations.go:29-31, 63-65, 97-99,
basic.go:58-60, reference.go:67-71. Setters: as cited at each. `SetReference`: reference.go:36-42. The number of parts of the
store a step writes to is one, except for `newNumber` and `newInteger`, which make an object with a fresh cell. -/
def Store.step (s : Store) : BStep → Store
  | .newBoolean p => s.setNode p (.boolean none)
  | .newString p => s.setNode p (.string String')
  | .newNumber p a => (s.setNode p (.number a)).setCell a Number'
  | .newInteger p a => (s.setNode p (.integer a)).setCell a Number'
  | .asNumber p a => s.setNode p (.number a)
  | .newEnum p l => s.setNode p (.enum l)
  | .newArray p => s.setNode p (.array ⟨none, [], some emptyAddr, -1, -1, false⟩)
  | .newObject p => s.setNode p (.object ⟨[], [], none, [], [], [], -1, -1⟩)
  | .newAny p => s.setNode p (.any [])
  | .newAll p => s.setNode p (.all [])
  | .newOneOf p => s.setNode p (.oneOf [])
  | .newNot p c => s.setNode p (.not c)
  | .newReference p m => s.setNode p (.ref m [])
  | .boolDefault p v => s.setNode p ((s.node p).boolDefault v)
  | .str p c => s.setNode p ((s.node p).str c)
  | .num a c => s.setCell a (c.on (s.cell a))
  | .enum p l => s.setNode p ((s.node p).setEnum l)
  | .arr p c => s.setNode p ((s.node p).arr c)
  | .obj p c => s.setNode p ((s.node p).obj c)
  | .add p q => s.setNode p ((s.node p).add q)
  | .refersTo p n => s.setNode p ((s.node p).refersTo n)
  | .setReference m n q => s.setEntry m n q

/-- A program that builds constraints. -/
def Store.run (s : Store) (l : List BStep) : Store := l.foldl Store.step s

end Jsval
