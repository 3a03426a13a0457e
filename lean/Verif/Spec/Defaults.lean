import Verif.Spec.Tree
/-!
# Vocabulary for defaults, mutation and panics
-/
namespace Jsval

/-- `Extends v v'`: `v'` is `v` with, possibly, keys added to maps and unset Maybes set, at any depth. Scalars, slice
lengths, existing keys, struct fields and pointers are kept. -/
inductive Extends : GoVal → GoVal → Prop where
  | refl (v) : Extends v v
  | slice (n) (xs xs' : List GoVal) : xs'.length = xs.length →
      (∀ (i : Nat) (x x' : GoVal), xs[i]? = some x → xs'[i]? = some x' → Extends x x') →
      Extends (.slice n xs) (.slice n xs')
  | map (n) (kvs kvs' : List (GoStr × GoVal)) (g : GoStr → GoVal → GoVal) :
      (∀ k x, (k, x) ∈ kvs → (k, g k x) ∈ kvs') → (∀ k x, (k, x) ∈ kvs → Extends x (g k x)) →
      ((kvs.map (·.1)).Nodup → (kvs'.map (·.1)).Nodup) → Extends (.map n kvs) (.map n kvs')
  | struct (fs fs' : List (Field × GoVal)) : fs'.map (·.1) = fs.map (·.1) →
      (∀ (i : Nat) (p p' : Field × GoVal), fs[i]? = some p → fs'[i]? = some p' → Extends p.2 p'.2) →
      Extends (.struct fs) (.struct fs')
  | ptr (x x') : Extends x x' → Extends (.ptr (some x)) (.ptr (some x'))
  | iface (x x') : Extends x x' → Extends (.iface x) (.iface x')
  | maybe (p p' : MaybeVal) : p'.kind = p.kind → Extends (.maybe false p) (.maybe true p')

/-- Neither a pointer nor an interface. -/
def NotIndirect : GoVal → Prop
  | .ptr _ => False
  | .iface _ => False
  | _ => True

/-- Everywhere in the value, pointers point directly at values: no pointers to pointers, no pointers to interfaces. -/
inductive Direct : GoVal → Prop where
  | nil : Direct .nil
  | bool (b) : Direct (.bool b)
  | int (k n) : Direct (.int k n)
  | uint (k n) : Direct (.uint k n)
  | float (k f) : Direct (.float k f)
  | str (s) : Direct (.str s)
  | slice (n xs) : (∀ x, x ∈ xs → Direct x) → Direct (.slice n xs)
  | map (n) (kvs : List (GoStr × GoVal)) : (∀ k x, (k, x) ∈ kvs → Direct x) → Direct (.map n kvs)
  | mapOther (n l) : Direct (.mapOther n l)
  | struct (fs : List (Field × GoVal)) : (∀ f x, (f, x) ∈ fs → Direct x) → Direct (.struct fs)
  | ptrNil : Direct (.ptr none)
  | ptr (x) : NotIndirect x → Direct x → Direct (.ptr (some x))
  | maybe (b p) : Direct (.maybe b p)
  | time (t) : Direct (.time t)
  | other (k b) : Direct (.other k b)

/-- What `encoding/json` decodes into an `interface{}`. -/
inductive IsJson : GoVal → Prop where
  | null : IsJson .nil
  | bool (b) : IsJson (.bool b)
  | num (f) : IsJson (.float .f64 f)
  | str (s) : IsJson (.str s)
  | arr (xs) : (∀ x, x ∈ xs → IsJson x) → IsJson (.slice false xs)
  | obj (kvs : List (GoStr × GoVal)) : (kvs.map (·.1)).Nodup → (∀ k x, (k, x) ∈ kvs → IsJson x) → IsJson (.map false kvs)

/-- Scalars, slices and maps with string keys, nested; `nilMaps` says whether nil maps may occur. -/
inductive Data (nilMaps : Bool) : GoVal → Prop where
  | nil : Data nilMaps .nil
  | bool (b) : Data nilMaps (.bool b)
  | int (k n) : Data nilMaps (.int k n)
  | uint (k n) : Data nilMaps (.uint k n)
  | float (k f) : Data nilMaps (.float k f)
  | str (s) : Data nilMaps (.str s)
  | time (t) : Data nilMaps (.time t)
  | slice (n xs) : (∀ x, x ∈ xs → Data nilMaps x) → Data nilMaps (.slice n xs)
  | map (n) (kvs : List (GoStr × GoVal)) : (n = true → nilMaps = true) → (∀ k x, (k, x) ∈ kvs → Data nilMaps x) →
      Data nilMaps (.map n kvs)

theorem IsJson.data {b : Bool} {v : GoVal} (h : IsJson v) : Data b v := by
  induction h with
  | null => exact .nil
  | bool => exact .bool _
  | num => exact .float _ _
  | str => exact .str _
  | arr xs _ ih => exact .slice _ _ ih
  | obj kvs _ _ ih => exact .map _ _ (by simp) ih

theorem IsJson.direct {v : GoVal} (h : IsJson v) : Direct v := by
  induction h with
  | null => exact .nil
  | bool => exact .bool _
  | num => exact .float _ _
  | str => exact .str _
  | arr xs _ ih => exact .slice _ _ ih
  | obj kvs _ _ ih => exact .map _ _ ih

/-- A value that can be compared with `==`. -/
inductive IsScalar : GoVal → Prop where
  | nil : IsScalar .nil
  | bool (b) : IsScalar (.bool b)
  | int (k n) : IsScalar (.int k n)
  | uint (k n) : IsScalar (.uint k n)
  | float (k f) : IsScalar (.float k f)
  | str (s) : IsScalar (.str s)

/-- The enumeration of this constraint, if it has one. -/
def Constraint.enumOf : Constraint → List GoVal
  | .enum l => l
  | .string c => c.enums.getD []
  | .number c => c.enums.getD []
  | .integer c => c.enums.getD []
  | _ => []

/-- This constraint has no default of its own. -/
def NoDefault (c : Constraint) : Prop := c.ownDefault = none

/-- This constraint's own default, if any, satisfies `D`. -/
def DefaultIn (D : GoVal → Prop) (c : Constraint) : Prop := ∀ dv, c.ownDefault = some dv → D dv

/-- This constraint's enumeration holds only scalars. -/
def ScalarEnum (c : Constraint) : Prop := ∀ x, x ∈ c.enumOf → IsScalar x

end Jsval

namespace Jsval

/-- The argument is this map, or a pointer to it (`byPtr`). -/
def MapArg (byPtr : Bool) (n : Bool) (kvs : List (GoStr × GoVal)) : GoVal :=
  if byPtr then .ptr (some (.map n kvs)) else .map n kvs

/-- How an accepting run may change the top level of a map: `dflt p` is the default of the declared property `p`. -/
structure MapFilled (declared : GoStr → Prop) (dflt : GoStr → GoVal → Prop) (kvs kvs' : List (GoStr × GoVal)) : Prop where
  /-- an absent declared property with a non-nil default is there afterwards, with that default -/
  filled : ∀ p, declared p → ¬ Has kvs p → ∀ dv, dflt p dv → dv ≠ .nil → (p, dv) ∈ kvs'
  /-- what was there is still there -/
  kept : ∀ k, Has kvs k → Has kvs' k
  /-- anything new is a declared property with a non-nil default -/
  new : ∀ k, Has kvs' k → ¬ Has kvs k → declared k ∧ ∃ dv, dflt k dv ∧ dv ≠ .nil

/-- Values whose maps have distinct string keys, whose structs are flat (no embedding, distinct names) and whose
pointers point directly at values. Decoded JSON, and structs of such values. -/
inductive Tidy : GoVal → Prop where
  | nil : Tidy .nil
  | bool (b) : Tidy (.bool b)
  | int (k n) : Tidy (.int k n)
  | uint (k n) : Tidy (.uint k n)
  | float (k f) : Tidy (.float k f)
  | str (s) : Tidy (.str s)
  | time (t) : Tidy (.time t)
  | slice (n xs) : (∀ x, x ∈ xs → Tidy x) → Tidy (.slice n xs)
  | map (n) (kvs : List (GoStr × GoVal)) : (kvs.map (·.1)).Nodup → (∀ k x, (k, x) ∈ kvs → Tidy x) → Tidy (.map n kvs)
  | struct (fs : List (Field × GoVal)) : FlatStruct fs → (∀ f x, (f, x) ∈ fs → Tidy x) → Tidy (.struct fs)
  | maybe (b m) : Tidy (.maybe b m)
  | ptrNil : Tidy (.ptr none)
  | ptr (x) : NotIndirect x → Tidy x → Tidy (.ptr (some x))

theorem IsJson.tidy {v : GoVal} (h : IsJson v) : Tidy v := by
  induction h with
  | null => exact .nil
  | bool => exact .bool _
  | num => exact .float _ _
  | str => exact .str _
  | arr xs _ ih => exact .slice _ _ ih
  | obj kvs hn _ ih => exact .map _ _ hn ih

/-- In an object constraint, no two patterns match the same undeclared name; property tables have distinct keys. -/
def DisjointPatterns (ext : Ext) : Constraint → Prop
  | .object o => o.Wf ∧ ∀ k, ¬ o.Declares k → ∀ p ∈ o.patterns, ∀ q ∈ o.patterns,
      ext.reMatch p.2.1 k = true → ext.reMatch q.2.1 k = true → p = q
  | _ => True

end Jsval
