import Verif.Spec.Tree
import Verif.Spec.Basic
import Verif.Model.Reference
/-!
# Vocabulary for references and termination
-/
namespace Jsval

/-- The value nests containers (slices, maps, structs) at most `d` deep; pointers and interface cells do not count. -/
inductive DepthLe : Nat → GoVal → Prop where
  | nil {d} : DepthLe d .nil
  | bool {d} (b) : DepthLe d (.bool b)
  | int {d} (k n) : DepthLe d (.int k n)
  | uint {d} (k n) : DepthLe d (.uint k n)
  | float {d} (k f) : DepthLe d (.float k f)
  | str {d} (s) : DepthLe d (.str s)
  | mapOther {d} (n l) : DepthLe d (.mapOther n l)
  | maybe {d} (b p) : DepthLe d (.maybe b p)
  | time {d} (t) : DepthLe d (.time t)
  | other {d} (k b) : DepthLe d (.other k b)
  | ptrNil {d} : DepthLe d (.ptr none)
  | ptr {d} (x) : DepthLe d x → DepthLe d (.ptr (some x))
  | iface {d} (x) : DepthLe d x → DepthLe d (.iface x)
  | slice {d} (n xs) : (∀ x, x ∈ xs → DepthLe d x) → DepthLe (d + 1) (.slice n xs)
  | map {d} (n) (kvs : List (GoStr × GoVal)) : (∀ k x, (k, x) ∈ kvs → DepthLe d x) → DepthLe (d + 1) (.map n kvs)
  | struct {d} (fs : List (Field × GoVal)) : (∀ f x, (f, x) ∈ fs → DepthLe d x) → DepthLe (d + 1) (.struct fs)

/-- No container in it. -/
def Flat (v : GoVal) : Prop := DepthLe 0 v

/-- `d.Here c`: `d` occurs in `c` outside array elements and properties, so it is applied to the very value `c` is. -/
inductive Constraint.Here : Constraint → Constraint → Prop where
  | refl (c) : Here c c
  | same {c d e} : c.Same d → Here e d → Here e c

/-- Reference `q` is met while following reference `p`, without descending into the value. -/
def Unguarded (env : Env) (q p : Nat × GoStr) : Prop := ∃ c, env p.1 p.2 = some c ∧ (Constraint.ref q.1 q.2).Here c

/-- Every cycle of references goes through array elements or properties. -/
def Guarded (env : Env) : Prop := WellFounded (Unguarded env)

/-- A reference-free constraint node. -/
def NotRef (c : Constraint) : Prop := ∀ m n, c ≠ .ref m n

/-- The call never comes back, whatever the iteration order. -/
def NeverReturns (ext : Ext) (env : Env) (c : Constraint) (v : GoVal) : Prop :=
  ∀ σ r v', ¬ Returns ext env c σ v r v'

/-- `HasDefault()`/`DefaultValue()` never comes back. -/
def DefaultNeverReturns (ext : Ext) (env : Env) (c : Constraint) : Prop :=
  ∀ fuel, (sem ext env fuel c).dflt = .abort .diverge

mutual
/-- The tree with every reference `(m, n)` replaced by `f m n`. -/
def Constraint.inline (f : Nat → GoStr → Constraint) : Constraint → Constraint
  | .array ⟨i, p, a, mn, mx, u⟩ => .array ⟨inlineOpt f i, inlineList f p, inlineOpt f a, mn, mx, u⟩
  | .object ⟨ps, pats, a, req, pd, sd, mn, mx⟩ =>
    .object ⟨inlineProps f ps, inlinePats f pats, inlineOpt f a, req, pd, inlineProps f sd, mn, mx⟩
  | .any cs => .any (inlineList f cs)
  | .all cs => .all (inlineList f cs)
  | .oneOf cs => .oneOf (inlineList f cs)
  | .not c => .not (inlineOpt f c)
  | .ref m n => f m n
  | .empty => .empty
  | .null => .null
  | .boolean d => .boolean d
  | .string c => .string c
  | .number c => .number c
  | .integer c => .integer c
  | .enum vals => .enum vals

def inlineOpt (f : Nat → GoStr → Constraint) : Option Constraint → Option Constraint
  | none => none
  | some c => some (c.inline f)

def inlineList (f : Nat → GoStr → Constraint) : List Constraint → List Constraint
  | [] => []
  | c :: cs => c.inline f :: inlineList f cs

def inlineProps (f : Nat → GoStr → Constraint) : List (GoStr × Constraint) → List (GoStr × Constraint)
  | [] => []
  | (n, c) :: cs => (n, c.inline f) :: inlineProps f cs

def inlinePats (f : Nat → GoStr → Constraint) : List (Nat × GoStr × Constraint) → List (Nat × GoStr × Constraint)
  | [] => []
  | (i, s, c) :: cs => (i, s, c.inline f) :: inlinePats f cs
end

/-- `HasDefault()`/`DefaultValue()` return and say `d`. -/
def DefaultReturns (ext : Ext) (env : Env) (c : Constraint) (d : Dflt) : Prop :=
  d ≠ .abort .diverge ∧ ∃ fuel, (sem ext env fuel c).dflt = d

/-! ## Histories of the reference machine -/

/-- The constraint this event registers under `n` in map `m`, if any. -/
def REvent.writes {C : Type} (m : Nat) (n : GoStr) : REvent C → Option (Option C)
  | .wrote m' n' c => if m' = m ∧ n' = n then some c else none
  | _ => none

/-- The last constraint registered under `n` in map `m`. -/
def lastWrite {C : Type} (m : Nat) (n : GoStr) (es : List (REvent C)) : Option (Option C) :=
  (es.filterMap (REvent.writes m n)).getLast?

/-- At some moment after the start of the current call of goroutine `t`, `out` was what map `m` held under `n`. -/
def SeenBy {C : Type} (t m : Nat) (n : GoStr) (out : Out C) (es : List (REvent C)) : Prop :=
  ∃ a b, es = a ++ b ∧ lastWrite m n a = out ∧ ∀ call, REvent.begin t call ∉ b

/-- The event is not the start of a call. -/
def REvent.Continues {C : Type} (e : REvent C) : Prop := ∀ t call, e ≠ .begin t call

/-- Every call has returned. -/
def RState.AllDone {C : Type} (s : RState C) : Prop := ∀ t, s.pc t = .idle

end Jsval
