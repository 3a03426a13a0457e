import Verif.Spec.Faults
/-!
# One constraint asks at least as much as another

`Tightens ext env S c d` compares two constraints keyword by keyword: whatever `d` limits, `c` limits at least as tightly. Sub-constraints are
compared by the relation `S`. A relation all of whose pairs compare in this way may be recursive: references on either side are followed.
-/
namespace Jsval

/-- Strings: no wider length limits (negative: none), the same format and pattern where `d` has one, a part of its enumeration. -/
structure StrC.Tighter (c d : StrC) : Prop where
  max : 0 ≤ d.maxLength → 0 ≤ c.maxLength ∧ c.maxLength ≤ d.maxLength
  min : 0 < d.minLength → d.minLength ≤ c.minLength
  format : d.format = [] ∨ d.format = c.format
  regexp : ∀ rx, d.regexp = some rx → c.regexp = some rx
  enums : ∀ l, d.enums = some l → ∃ l', c.enums = some l' ∧ ∀ x ∈ l', x ∈ l

/-- Numbers: the bounds of `c` lie within those of `d` (an exclusive bound is tighter than an inclusive one), multiples of multiples, a part
of the enumeration. -/
structure NumC.Tighter (c d : NumC) : Prop where
  min : ∀ m, d.minimum = some m → ∃ m', c.minimum = some m' ∧ (F64.Lt m m' ∨ F64.Eq m m' ∧ (d.exclMin = true → c.exclMin = true))
  max : ∀ m, d.maximum = some m → ∃ m', c.maximum = some m' ∧ (F64.Lt m' m ∨ F64.Eq m' m ∧ (d.exclMax = true → c.exclMax = true))
  mult : ∀ m, d.multipleOf = some m → m.IsZero ∨ ∃ m', c.multipleOf = some m' ∧ ¬ m'.IsZero ∧ F64.MultOf m' m
  enums : ∀ l, d.enums = some l → ∃ l', c.enums = some l' ∧ ∀ x ∈ l', x ∈ l

/-- What is left over: forbidden where `d` forbids it, forbidden or held to no less where `d` has a constraint. -/
def RestTighter (S : Constraint → Constraint → Prop) (a b : Option Constraint) : Prop :=
  (b = none → a = none) ∧ ∀ d, b = some d → a = none ∨ ∃ c, a = some c ∧ S c d

/-- Arrays: no wider limits, each element held to no less. -/
structure ArrC.Tighter (S : Constraint → Constraint → Prop) (a b : ArrC Constraint) : Prop where
  min : 0 < b.minItems → b.minItems ≤ a.minItems
  max : 0 ≤ b.maxItems → 0 ≤ a.maxItems ∧ a.maxItems ≤ b.maxItems
  unique : b.unique = true → a.unique = true
  items : ∀ d, b.items = some d → ∃ c, a.items = some c ∧ S c d
  positional : b.items = none → b.positional = [] ∨ (a.items = none ∧ a.positional.length = b.positional.length ∧
    (∀ (j : ℕ) (c d : Constraint), a.positional[j]? = some c → b.positional[j]? = some d → S c d) ∧ RestTighter S a.additional b.additional)

/-- Objects: no wider limits, more required, each property held to no less. `o` may declare further names that `p` leaves alone. -/
structure ObjC.Tighter (ext : Ext) (S : Constraint → Constraint → Prop) (o p : ObjC Constraint) : Prop where
  min : 0 < p.minProps → p.minProps ≤ o.minProps
  max : 0 ≤ p.maxProps → 0 ≤ o.maxProps ∧ o.maxProps ≤ p.maxProps
  props : ∀ k d, (k, d) ∈ p.props → ∃ c, (k, c) ∈ o.props ∧ S c d
  fresh : ∀ k, o.Declares k → ¬ p.Declares k → p.additional = some .empty ∧ ¬ p.PatternFor ext k
  required : ∀ k ∈ p.required, p.Declares k → k ∈ o.required
  sources : ∀ id src c, (id, src, c) ∈ o.patterns → ∃ id' d, (id', src, d) ∈ p.patterns
  patterns : ∀ id src d, (id, src, d) ∈ p.patterns → ∃ id' c, (id', src, c) ∈ o.patterns ∧ S c d
  additional : RestTighter S o.additional p.additional
  propDeps : ∀ k, ∀ d ∈ p.GetPropDependencies k, d ∈ o.GetPropDependencies k ∧ (o.Declares d → p.Declares d)
  schemaDeps : ∀ k d, p.GetPropDependencies k = [] → p.GetSchemaDependency k = some d →
    o.GetPropDependencies k = [] ∧ ∃ c, o.GetSchemaDependency k = some c ∧ S c d

/-- The kinds of values no two of which a value can have. -/
inductive Sort' where
  | str | num | bool | arr
  deriving DecidableEq

/-- The only kind of value a constraint of this type accepts. -/
def Constraint.sort? : Constraint → Option Sort'
  | .string _ => some .str
  | .number _ => some .num
  | .integer _ => some .num
  | .boolean _ => some .bool
  | .array _ => some .arr
  | _ => none

/-- `c` asks at least as much as `d`, sub-constraints compared by `S`. -/
inductive Tightens (ext : Ext) (env : Env) (S : Constraint → Constraint → Prop) : Constraint → Constraint → Prop where
  | same {c} : Tightens ext env S c c
  | anything {c} : Tightens ext env S c .empty
  | boolean {x y} : Tightens ext env S (.boolean x) (.boolean y)
  | string {c d} : c.Tighter d → Tightens ext env S (.string c) (.string d)
  | number {c d} : c.Tighter d → Tightens ext env S (.number c) (.number d)
  | integer {c d} : c.Tighter d → Tightens ext env S (.integer c) (.integer d)
  | enum {l l'} : (∀ x ∈ l, x ∈ l') → Tightens ext env S (.enum l) (.enum l')
  | array {a b} : a.Tighter S b → Tightens ext env S (.array a) (.array b)
  | object {o p} : o.Tighter ext S p → Tightens ext env S (.object o) (.object p)
  -- combinators on either side
  | anyLeft {cs d} : (∀ c ∈ cs, S c d) → Tightens ext env S (.any cs) d
  | anyRight {c d ds} : d ∈ ds → S c d → Tightens ext env S c (.any ds)
  | allLeft {c cs d} : c ∈ cs → S c d → Tightens ext env S (.all cs) d
  | allRight {c ds} : (∀ d ∈ ds, S c d) → Tightens ext env S c (.all ds)
  | oneOfLeft {cs d} : (∀ c ∈ cs, S c d) → Tightens ext env S (.oneOf cs) d
  | oneOfRight {c ds} {i : ℕ} {d} : ds[i]? = some d → S c d → (∀ (j : ℕ) (x : Constraint), j ≠ i → ds[j]? = some x → S c (.not (some x))) →
      Tightens ext env S c (.oneOf ds)
  | oneOf {cs ds} : cs.length = ds.length → (∀ (j : ℕ) (x y : Constraint), cs[j]? = some x → ds[j]? = some y → S x y ∧ S y x) →
      Tightens ext env S (.oneOf cs) (.oneOf ds)
  | not {c d} : S d c → Tightens ext env S (.not (some c)) (.not (some d))
  | apart {c d k k'} : c.sort? = some k → d.sort? = some k' → k ≠ k' → Tightens ext env S c (.not (some d))
  -- references on either side
  | refLeft {m n c d} : env m n = some c → S c d → Tightens ext env S (.ref m n) d
  | refRight {m n c d} : env m n = some d → S c d → Tightens ext env S c (.ref m n)
  | refNowhere {m n d} : env m n = none → Tightens ext env S (.ref m n) d

end Jsval
