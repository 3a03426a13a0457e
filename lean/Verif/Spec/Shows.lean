import Verif.Spec.Hooks
import Verif.Spec.Merges
import Verif.Spec.Reference
/-!
# The map a struct stands for
-/
namespace Jsval

/-- Constraints that the same value is validated by. -/
abbrev Role := Constraint → Prop

/-- Validating by the first constraint may include validating the same value by the second: as a branch, by a reference, or as
a schema dependency. -/
inductive Constraint.Alongside (env : Env) : Constraint → Constraint → Prop where
  | refl (c) : Alongside env c c
  | same {c d e} : c.Same d → Alongside env d e → Alongside env c e
  | ref {m n d e} : env m n = some d → Alongside env d e → Alongside env (.ref m n) e

/-- The constraints that an object constraint may ask of property `k`. -/
inductive ObjC.Asks (ext : Ext) (o : ObjC Constraint) (k : GoStr) : Constraint → Prop where
  | declared {d} : (k, d) ∈ o.props → Asks ext o k d
  | pattern {id src d} : ¬ o.Declares k → (id, src, d) ∈ o.patterns → ext.reMatch src k = true → Asks ext o k d
  | additional {d} : ¬ o.Declares k → o.additional = some d → Asks ext o k d

/-- The constraints that an array constraint may ask of item `i`. Additional items start at the last positional one (C25). -/
inductive ArrC.Asks (a : ArrC Constraint) (i : Nat) : Constraint → Prop where
  | items {d} : a.items = some d → Asks a i d
  | positional {d} : a.items = none → a.positional[i]? = some d → Asks a i d
  | additional {d} : a.items = none → a.positional.length - 1 ≤ i → a.additional = some d → Asks a i d

section
variable (ext : Ext) (env : Env) (K : Role)

/-- What property `k` of a value is validated by. -/
def Role.prop (k : GoStr) : Role := fun e => ∃ o d, K (.object o) ∧ o.Asks ext k d ∧ d.Alongside env e

/-- What item `i` of a value is validated by. -/
def Role.item (i : Nat) : Role := fun e => ∃ a d, K (.array a) ∧ a.Asks i d ∧ d.Alongside env e

/-- A missing property `p` of the value may be filled with `dv`. -/
def Role.Fills (p : GoStr) (dv : GoVal) : Prop :=
  ∃ o d, K (.object o) ∧ (p, d) ∈ o.props ∧ DefaultReturns ext env d (.some dv)

/-- A Maybe field with this name is only looked into: the property is declared, or else it meets no pattern and nothing is asked of
additional properties. (What is not declared is validated as the Maybe that it is, C57.) -/
def Role.LooksInto (k : GoStr) : Prop := ∀ o, K (.object o) → o.Declares k ∨
  ((∀ id src d, (id, src, d) ∈ o.patterns → ext.reMatch src k = false) ∧ ∀ d, o.additional = some d → d = .empty)
end

/-- This is a number, of any type. -/
def IsNumber : GoVal → Prop
  | .int _ _ | .uint _ _ | .float _ _ => True
  | _ => False

/-- Values listed for any type are not numbers, so `float32`s and `float64`s are not told apart. -/
def Role.TakesSingles (K : Role) : Prop := ∀ vals, K (.enum vals) → ∀ e ∈ vals, ¬ IsNumber e

/-- Also, nothing asks for a number that may have a fraction, so Go integers are not told from `float64`s. -/
def Role.TakesInts (K : Role) : Prop := (∀ n, ¬ K (.number n)) ∧ K.TakesSingles

/-- This is a string. -/
def IsText : GoVal → Prop
  | .str _ => True
  | _ => False

/-- Values listed for any type are neither numbers nor strings, so pointers to numbers and strings are not told from what they point at. -/
def Role.TakesPointers (K : Role) : Prop := ∀ vals, K (.enum vals) → ∀ e ∈ vals, ¬ IsNumber e ∧ ¬ IsText e

/-- `null` is not listed among values of any type, so nil pointers are not told from it. -/
def Role.TakesNull (K : Role) : Prop := ∀ vals, K (.enum vals) → .nil ∉ vals

/-- Values that have no properties or items that could be validated: scalars, times, other maps, channels and the like, and pointers to
scalars and times. -/
inductive IsLeaf : GoVal → Prop where
  | scalar {v} : IsScalar v → IsLeaf v
  | time (t) : IsLeaf (.time t)
  | mapOther (n l) : IsLeaf (.mapOther n l)
  | other (k b) : IsLeaf (.other k b)
  | ptrNil : IsLeaf (.ptr none)
  | ptr {v} : IsScalar v → IsLeaf (.ptr (some v))
  | ptrTime (t) : IsLeaf (.ptr (some (.time t)))

/-- A leaf stands for itself. Also, unless they are told apart, a Go integer stands for the `float64` it is converted to, a `float32` for
the `float64` of the same value, a nil pointer for `null`, and a pointer to a string or a number for what that stands for. -/
inductive LeafFor (K : Role) : GoVal → GoVal → Prop where
  | same (v) : IsLeaf v → LeafFor K v v
  | int (k n) : K.TakesInts → LeafFor K (.int k n) (.float .f64 (F64.ofInt n))
  | uint (k) (n : Nat) : K.TakesInts → LeafFor K (.uint k n) (.float .f64 (F64.ofInt n))
  | single (f) : K.TakesSingles → LeafFor K (.float .f32 f) (.float .f64 f)
  | null : K.TakesNull → LeafFor K (.ptr none) .nil
  | behind (x y) : K.TakesPointers → IsNumber x ∨ IsText x → LeafFor K x y → LeafFor K (.ptr (some x)) y

/-- A Maybe field that stores this default as a value that stands for it: a `MaybeFloat` the number it is given, a
`MaybeString` the string, a `MaybeInt` a number that is an integer of its range. -/
inductive Takes (ext : Ext) (K : Role) : GoVal → GoVal → Prop where
  | val (m dv y) : FillsWith ext m.kind dv y → LeafFor K y dv → Takes ext K (.maybe false m) dv
  | ptr (m dv y) : Converts ext m.kind dv y → LeafFor K y dv → Takes ext K (.ptr (some (.maybe false m))) dv

/-- The map with entries `kws` has the properties that the fields `fs` show: one for every visible field, except for the
Maybe fields that are not set; for a Maybe field that is set, the map has what its payload stands for. -/
structure ShownBy (ext : Ext) (env : Env) (K : Role) (fs : List (Field × GoVal)) (kws : List (GoStr × GoVal)) : Prop where
  merges : Merges fs
  nodup : (kws.map (·.1)).Nodup
  keys : ∀ k, k ∈ kws.map (·.1) ↔ ∃ f x y, (f, x) ∈ unembed fs ∧ jsonNameSpec f = some k ∧ fieldContent x = some y
  maybes : ∀ f x k, (f, x) ∈ unembed fs → jsonNameSpec f = some k → HoldsMaybe x →
    K.LooksInto ext k ∧ ∀ y, fieldContent x = some y → ∃ z, LeafFor (K.prop ext env k) y z ∧ (k, z) ∈ kws

/-- `v`, where it is validated by the constraints in `K`, stands for `w`, which has no structs: a struct, or a pointer to one, stands
for the map of its properties, and the values inside likewise; the fields of an embedded struct count as fields of the struct it is
in. A property that is missing and can be filled has a Maybe field that takes the default, and the struct is then given by pointer.
Items that have to be unique, which are compared as they are printed, are the same leaves. -/
inductive StandsFor (ext : Ext) (env : Env) : Role → GoVal → GoVal → Prop where
  | leaf (K v w) : LeafFor K v w → StandsFor ext env K v w
  | slice (K n) (xs ys : List GoVal) : xs.length = ys.length →
      (∀ (i : Nat) x y, xs[i]? = some x → ys[i]? = some y → StandsFor ext env (K.item env i) x y) →
      (∀ a, K (.array a) → a.unique = true → xs = ys ∧ ∀ x ∈ xs, IsLeaf x) →
      StandsFor ext env K (.slice n xs) (.slice n ys)
  | map (K n) (kvs kws : List (GoStr × GoVal)) : (kvs.map (·.1)).Nodup → (kws.map (·.1)).Nodup →
      (∀ k, k ∈ kvs.map (·.1) ↔ k ∈ kws.map (·.1)) →
      (∀ k x y, (k, x) ∈ kvs → (k, y) ∈ kws → StandsFor ext env (K.prop ext env k) x y) →
      StandsFor ext env K (.map n kvs) (.map n kws)
  | struct (K fs kws) : ShownBy ext env K fs kws →
      (∀ f x k y, (f, x) ∈ unembed fs → jsonNameSpec f = some k → ¬ HoldsMaybe x → (k, y) ∈ kws →
        StandsFor ext env (K.prop ext env k) x y) →
      (∀ p dv, K.Fills ext env p dv → p ∈ kws.map (·.1)) → StandsFor ext env K (.struct fs) (.map false kws)
  | ptr (K fs kws) : ShownBy ext env K fs kws →
      (∀ f x k y, (f, x) ∈ unembed fs → jsonNameSpec f = some k → ¬ HoldsMaybe x → (k, y) ∈ kws →
        StandsFor ext env (K.prop ext env k) x y) →
      (∀ p dv, K.Fills ext env p dv → p ∉ kws.map (·.1) →
        ∃ f x, (f, x) ∈ unembed fs ∧ jsonNameSpec f = some p ∧ Takes ext (K.prop ext env p) x dv) →
      StandsFor ext env K (.ptr (some (.struct fs))) (.map false kws)

/-- Listed values are scalars, and defaults are scalars other than nil. -/
def Constraint.Fair (c : Constraint) : Prop :=
  (∀ vals, c = .enum vals → ∀ e ∈ vals, IsScalar e) ∧ ∀ dv, c.ownDefault = some dv → IsScalar dv ∧ dv ≠ .nil

end Jsval
