import Verif.Model.Graph
import Verif.Spec.Reference
import Verif.Spec.Object
/-!
# Vocabulary for constraints as objects
-/
namespace Jsval

/-- The object points to `q`. -/
inductive GNode.Points : GNode → Nat → Prop where
  | array {a q} : ArrC.Child a q → Points (.array a) q
  | object {o q} : ObjC.Child o q → Points (.object o) q
  | any {cs q} : q ∈ cs → Points (.any cs) q
  | all {cs q} : q ∈ cs → Points (.all cs) q
  | oneOf {cs q} : q ∈ cs → Points (.oneOf cs) q
  | not {q} : Points (.not (some q)) q

/-- The tree this object is when its pointers are the trees `f`. -/
def GNode.tree (cell : Nat → NumC) (f : Nat → Constraint) : GNode → Constraint
  | .empty => .empty
  | .null => .null
  | .boolean d => .boolean d
  | .string c => .string c
  | .number a => .number (cell a)
  | .integer a => .integer (cell a)
  | .enum l => .enum l
  | .array a => .array ⟨a.items.map f, a.positional.map f, a.additional.map f, a.minItems, a.maxItems, a.unique⟩
  | .object o => .object ⟨o.props.map fun x => (x.1, f x.2), o.patterns.map fun x => (x.1, x.2.1, f x.2.2), o.additional.map f,
      o.required, o.propdeps, o.schemadeps.map fun x => (x.1, f x.2), o.minProps, o.maxProps⟩
  | .any cs => .any (cs.map f)
  | .all cs => .all (cs.map f)
  | .oneOf cs => .oneOf (cs.map f)
  | .not c => .not (c.map f)
  | .ref m n => .ref m n

/-- `c` is the tree that hangs at `p`: what one sees of the store from `p` on, following pointers but not references. -/
inductive Store.Hangs (s : Store) : Nat → Constraint → Prop where
  | mk {p : Nat} (f : Nat → Constraint) : (∀ q, (s.node p).Points q → Hangs s q (f q)) → Hangs s p ((s.node p).tree s.cell f)

/-- The maps of the store, read as maps of trees. -/
def Store.MapsAre (s : Store) (env : Env) : Prop := ∀ m n,
  (s.maps m n = none ∧ env m n = none) ∨ ∃ q c, s.maps m n = some q ∧ env m n = some c ∧ s.Hangs q c

/-- The object at `q` is used by the object at `p`: by a pointer, or by a name. -/
inductive Store.Uses (s : Store) (p : Nat) : Nat → Prop where
  | pointer {q} : (s.node p).Points q → Uses s p q
  | name {m n q} : s.node p = .ref m n → s.maps m n = some q → Uses s p q

/-- The object at `q` is put to the very value the object at `p` is put to. -/
inductive Store.Same (s : Store) (p : Nat) : Nat → Prop where
  | dependency {o x q} : s.node p = .object o → o.GetSchemaDependency x = some q → Same s p q
  | any {cs q} : s.node p = .any cs → q ∈ cs → Same s p q
  | all {cs q} : s.node p = .all cs → q ∈ cs → Same s p q
  | oneOf {cs q} : s.node p = .oneOf cs → q ∈ cs → Same s p q
  | not {q} : s.node p = .not (some q) → Same s p q
  | name {m n q} : s.node p = .ref m n → s.maps m n = some q → Same s p q

/-- The object at `q` is what the object at `p` turns to first, with the value it was given. -/
inductive Store.First (s : Store) (p : Nat) : Nat → Prop where
  | any {cs q} : s.node p = .any (q :: cs) → First s p q
  | all {cs q} : s.node p = .all (q :: cs) → First s p q
  | oneOf {cs q} : s.node p = .oneOf (q :: cs) → First s p q
  | not {q} : s.node p = .not (some q) → First s p q
  | name {m n q} : s.node p = .ref m n → s.maps m n = some q → First s p q

/-- Every cycle of objects goes through array elements or properties. -/
def Store.Guarded (s : Store) : Prop := WellFounded fun q p => s.Same p q

/-- The default set on this object. -/
def GNode.ownDefault (cell : Nat → NumC) : GNode → Option GoVal
  | .boolean d => d
  | .string c => c.dflt
  | .number a => (cell a).dflt
  | .integer a => (cell a).dflt
  | _ => none

/-- No default is a container. -/
def Store.FlatDefaults (s : Store) : Prop := ∀ p dv, (s.node p).ownDefault s.cell = some dv → Flat dv

/-- The object has its parameters in this cell. -/
def GNode.Cell (n : GNode) (a : Nat) : Prop := n = .number a ∨ n = .integer a

/-- On the addresses in `R` the stores are alike: same objects, same cells for them, same entries for the names they use. -/
structure Store.AlikeOn (s s' : Store) (R : Nat → Prop) : Prop where
  node : ∀ p, R p → s'.node p = s.node p
  cell : ∀ p a, R p → (s.node p).Cell a → s'.cell a = s.cell a
  maps : ∀ p m n, R p → s.node p = .ref m n → s'.maps m n = s.maps m n

/-- Whatever is used by an object in `R` is in `R`. -/
def Store.Closed (s : Store) (R : Nat → Prop) : Prop := ∀ p q, R p → s.Uses p q → R q

/-- The same call, given trees instead of pointers. -/
def ArrCall.withTrees (f : Nat → Constraint) : ArrCall Nat → ArrCall
  | .additionalItems c => .additionalItems (c.map f)
  | .items c => .items (c.map f)
  | .minItems n => .minItems n
  | .maxItems n => .maxItems n
  | .positionalItems cs => .positionalItems (cs.map f)
  | .uniqueItems b => .uniqueItems b

/-- The same call, given trees instead of pointers. -/
def ObjCall.withTrees (f : Nat → Constraint) : ObjCall Nat → ObjCall
  | .required l => .required l
  | .minProperties n => .minProperties n
  | .maxProperties n => .maxProperties n
  | .additionalProperties c => .additionalProperties (c.map f)
  | .addProp n c => .addProp n (f c)
  | .patternProperties id src c => .patternProperties id src (f c)
  | .propDependency x l => .propDependency x l
  | .schemaDependency x c => .schemaDependency x (f c)

/-- The place to which a step writes. -/
inductive BStep.Writes : BStep → Loc → Prop where
  | newBoolean (p) : Writes (.newBoolean p) (.node p)
  | newString (p) : Writes (.newString p) (.node p)
  | newNumber (p a) : Writes (.newNumber p a) (.node p)
  | newNumberCell (p a) : Writes (.newNumber p a) (.cell a)
  | newInteger (p a) : Writes (.newInteger p a) (.node p)
  | newIntegerCell (p a) : Writes (.newInteger p a) (.cell a)
  | asNumber (p a) : Writes (.asNumber p a) (.node p)
  | newEnum (p l) : Writes (.newEnum p l) (.node p)
  | newArray (p) : Writes (.newArray p) (.node p)
  | newObject (p) : Writes (.newObject p) (.node p)
  | newAny (p) : Writes (.newAny p) (.node p)
  | newAll (p) : Writes (.newAll p) (.node p)
  | newOneOf (p) : Writes (.newOneOf p) (.node p)
  | newNot (p c) : Writes (.newNot p c) (.node p)
  | newReference (p m) : Writes (.newReference p m) (.node p)
  | boolDefault (p v) : Writes (.boolDefault p v) (.node p)
  | str (p c) : Writes (.str p c) (.node p)
  | num (a c) : Writes (.num a c) (.cell a)
  | enum (p l) : Writes (.enum p l) (.node p)
  | arr (p c) : Writes (.arr p c) (.node p)
  | obj (p c) : Writes (.obj p c) (.node p)
  | add (p q) : Writes (.add p q) (.node p)
  | refersTo (p n) : Writes (.refersTo p n) (.node p)
  | setReference (m n q) : Writes (.setReference m n q) (.entry m n)

/-- In both programs the steps that write to `x` are the same ones in the same order. -/
inductive SameAt (x : Loc) : List BStep → List BStep → Prop where
  | nil : SameAt x [] []
  | both {b l l'} : SameAt x l l' → SameAt x (b :: l) (b :: l')
  | left {b l l'} : ¬ b.Writes x → SameAt x l l' → SameAt x (b :: l) l'
  | right {b l l'} : ¬ b.Writes x → SameAt x l l' → SameAt x l (b :: l')

/-- Address `p` is name `""` of map `2 p`; name `n` of map `m` of the store is name `n` of map `2 m + 1`. -/
def GNode.asRefs (cell : Nat → NumC) (n : GNode) : Constraint :=
  match n with
  | .ref m x => .ref (2 * m + 1) x
  | n => n.tree cell fun q => .ref (2 * q) []

/-- The maps in which every object has a name. -/
def Store.asEnv (s : Store) : Env := fun i x =>
  if i % 2 = 0 then (if x = [] then some ((s.node (i / 2)).asRefs s.cell) else none)
  else (s.maps (i / 2) x).map fun q => (s.node q).asRefs s.cell

/-- The stores hold the same at this place. -/
def Store.EqAt (s s' : Store) : Loc → Prop
  | .node p => s.node p = s'.node p
  | .cell a => s.cell a = s'.cell a
  | .entry m n => s.maps m n = s'.maps m n

/-- The tree in which the reference `h` is replaced by `d`. -/
def Constraint.fill (c : Constraint) (h : Nat × GoStr) (d : Constraint) : Constraint :=
  c.inline fun m n => if (m, n) = h then d else .ref m n

end Jsval
