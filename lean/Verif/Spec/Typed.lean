import Verif.Model.Typed
import Verif.Spec.Tree
/-!
# Values whose types do not matter
-/
namespace Jsval

/-- What a validator may do that asks for types. -/
structure Uses where
  /-- it has defaults -/
  defaults : Prop
  /-- it has enumerations of its own (`Enum(…)`; those of string and number constraints compare the contents) -/
  enums : Prop

/-- One of the six Maybe types, or a pointer to one. Types defined from them are not: they lack the methods. -/
def GoType.IsMaybeType (t : GoType) : Prop := ∃ k, t = .maybe k ∨ t = .ptr (.maybe k)

/-- A place of type `e` takes a value of type `t`: it is an interface, or of the same type, or of a type with the same one underneath where one of the
two has no name. -/
inductive GoType.Takes : GoType → GoType → Prop where
  | same (t : GoType) : Takes t t
  | iface {t e : GoType} : e.under = .any → Takes e t
  | unnamed {t e : GoType} : t.under = e.under → (t = .any ∨ (∃ u, t = .slice u) ∨ (∃ k u, t = .map k u) ∨ ∃ u, t = .ptr u) → Takes e t
  | unnamedPlace {t e : GoType} : t.under = e.under → (e = .any ∨ (∃ u, e = .slice u) ∨ (∃ k u, e = .map k u) ∨ ∃ u, e = .ptr u) → Takes e t

/-- A field whose type is a Maybe type holds a Maybe of this type (not a nil pointer), other fields hold none (an `interface{}` could),
and no embedded `interface{}` holds a struct. -/
def FieldOk (f : TField) (v : TVal) : Prop :=
  (f.type.IsMaybeType ↔ isMaybeVal v.content = true) ∧ (f.type.IsMaybeType → f.type = v.typeOf) ∧
  (f.anonymous = true → f.type = .any → (∀ id, v.typeOf ≠ .struct id) ∧ v.typeOf ≠ .time)

/-- The value is a scalar of a defined type, or a slice or map of another type than `[]interface{}` and `map[string]interface{}`. -/
inductive OwnType : TVal → Prop where
  | bool (n : GoStr) (b : Bool) : OwnType (.bool (some n) b)
  | int (n : GoStr) (k : IntKind) (i : Int) : OwnType (.int (some n) k i)
  | uint (n : GoStr) (k : UintKind) (i : Nat) : OwnType (.uint (some n) k i)
  | float (n : GoStr) (k : FloatKind) (f : F64) : OwnType (.float (some n) k f)
  | str (n s : GoStr) : OwnType (.str (some n) s)
  | slice {n e z xs} : n ≠ none ∨ e ≠ .any → OwnType (.slice n e z xs)
  | map {n k e z kvs} : n ≠ none ∨ k ≠ .str ∨ e ≠ .any → OwnType (.map n k e z kvs)

/-- Values without parts. -/
def TVal.isLeaf : TVal → Bool
  | .slice _ _ _ _ | .map _ _ _ _ _ | .struct _ _ | .ptr _ (some _) | .iface _ => false
  | _ => true

/-- Values whose types do not matter to a validator with these uses: the keys of maps are of type `string`, their elements are not of a Maybe type,
fields are as above. If there are defaults, maps have elements of type `interface{}`; if there are enumerations, scalars, slices and maps
are of plain types. Slices may have any element type, scalars and structs any name. -/
inductive Ordinary (u : Uses) : TVal → Prop where
  | leaf {v} : v.isLeaf = true → (u.enums → ¬ OwnType v) → Ordinary u v
  | slice {n e z xs} : (u.enums → n = none ∧ e = .any) → (∀ x ∈ xs, Ordinary u x) → Ordinary u (.slice n e z xs)
  | map {n e z kvs} : (u.enums → n = none ∧ e = .any) → (u.defaults → e.under = .any) → ¬ e.IsMaybeType →
      (∀ p ∈ kvs, Ordinary u p.2) → Ordinary u (.map n .str e z kvs)
  | struct {id fs} : (∀ p ∈ fs, FieldOk p.1 p.2) → (∀ p ∈ fs, Ordinary u p.2) → Ordinary u (.struct id fs)
  | ptr {e x} : Ordinary u x → Ordinary u (.ptr e (some x))
  | iface {x} : Ordinary u x → Ordinary u (.iface x)

/-- The constraint does nothing that is not among these uses. -/
def Constraint.Within (u : Uses) : Constraint → Prop
  | .enum _ => u.enums
  | c => c.ownDefault ≠ none → u.defaults

/-- Elements print alike exactly if their contents do: the assumption on `fmt` for `UniqueItems`. Types with a `String` method may break it. -/
def PrintsLikePlain (ext : Ext) (text : TVal → GoStr) : Prop :=
  ∀ v w, text v = text w ↔ ext.sprint v.content = ext.sprint w.content

/-- The value is this map, or a pointer to it. -/
def MapIn (v : TVal) (n : Option GoStr) (k e : GoType) (z : Bool) (kvs : List (GoStr × TVal)) : Prop :=
  v = .map n k e z kvs ∨ ∃ t, v = .ptr t (some (.map n k e z kvs))

/-- The call returns `r` and leaves the argument, a value with its types, as `v'`. -/
def ReturnsT (ext : Ext) (text : TVal → GoStr) (env : Env) (c : Constraint) (σ : Sched) (v : TVal) (r : Res) (v' : TVal) : Prop :=
  r ≠ .abort .diverge ∧ ∃ fuel, (semT ext text env fuel c).val σ v = (r, v')

/-- A value is judged by what it contains: each call on it has a call on its content, and conversely, with the same
result, leaving a value with the content that call leaves. -/
def JudgedByContent (ext : Ext) (text : TVal → GoStr) (env : Env) (c : Constraint) (v : TVal) : Prop :=
  ∀ (σ : Sched) (r : Res),
    (∀ v', ReturnsT ext text env c σ v r v' → Returns ext env c σ v.content r v'.content) ∧
    (∀ w', Returns ext env c σ v.content r w' → ∃ v', ReturnsT ext text env c σ v r v' ∧ v'.content = w')

end Jsval
