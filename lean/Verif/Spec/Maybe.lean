import Verif.Spec.Object
import Verif.Model.Maybe
/-!
# What the Maybe types are supposed to do
-/
namespace Jsval

/-- `n` is the float's value with the fraction dropped. -/
def F64.Truncates (f : F64) (n : Int) : Prop :=
  ∃ neg mag, f = .fin neg mag ∧ n.natAbs * F64.unit ≤ mag ∧ mag < (n.natAbs + 1) * F64.unit ∧
    (0 < n → neg = false) ∧ (n < 0 → neg = true)

/-- The dynamic values `Set` takes, per Maybe type. -/
inductive Settable (ext : Ext) : MaybeKind → GoVal → Prop where
  | bool (b) : Settable ext .bool (.bool b)
  | float (k f) : Settable ext .float (.float k f)
  | int (k n) : Settable ext .int (.int k n)
  | intOfFloat (f) : Settable ext .int (.float .f64 f)
  | str (s) : Settable ext .str (.str s)
  | timeOfStr (s t) : ext.timeParse s = some t → Settable ext .time (.str s)
  | time (t) : Settable ext .time (.time t)
  | uint (k n) : k ≠ .uintptr → Settable ext .uint (.uint k n)
  | uintOfFloat (f) : Settable ext .uint (.float .f64 f)

/-- `Converts ext k x y`: a Maybe of kind `k` set to `x` holds `y`. Floats outside the range of the integer type are
left open: Go does not define their conversion. -/
inductive Converts (ext : Ext) : MaybeKind → GoVal → GoVal → Prop where
  | bool (b) : Converts ext .bool (.bool b) (.bool b)
  | float (k f) : Converts ext .float (.float k f) (.float .f64 f)
  | int (k n) : Converts ext .int (.int k n) (.int .int64 n)
  | intOfFloat (f n) : F64.Truncates f n → -(2 ^ 63) ≤ n → n < 2 ^ 63 → Converts ext .int (.float .f64 f) (.int .int64 n)
  | str (s) : Converts ext .str (.str s) (.str s)
  | timeOfStr (s t) : ext.timeParse s = some t → Converts ext .time (.str s) (.time t)
  | time (t) : Converts ext .time (.time t) (.time t)
  | uint (k n) : k ≠ .uintptr → Converts ext .uint (.uint k n) (.uint .uint64 n)
  | uintOfFloat (f) (n : Nat) : F64.Truncates f n → n < 2 ^ 64 → Converts ext .uint (.float .f64 f) (.uint .uint64 n)

/-- The value a JSON text stands for, per Maybe type. -/
inductive Decodes (ext : Ext) (js : JsonExt) : MaybeKind → GoStr → GoVal → Prop where
  | bool (d b) : js.decBool d = some b → Decodes ext js .bool d (.bool b)
  | float (d f) : js.decFloat d = some f → Decodes ext js .float d (.float .f64 f)
  | int (d n) : js.decInt d = some n → Decodes ext js .int d (.int .int64 n)
  | str (d s) : js.decStr d = some s → Decodes ext js .str d (.str s)
  | time (d s t) : js.decStr d = some s → ext.timeParse s = some t → Decodes ext js .time d (.time t)
  | uint (d n) : js.decUint d = some n → Decodes ext js .uint d (.uint .uint64 n)

/-- Calls made on one Maybe variable. -/
inductive MaybeOp where
  | set (x : GoVal)
  | reset
  | unmarshal (data : GoStr)

/-- The state after one call. -/
def MaybeOp.run (ext : Ext) (js : JsonExt) (m : MaybeSt) : MaybeOp → MaybeSt
  | .set x => (m.Set ext x).2
  | .reset => m.Reset
  | .unmarshal d => (m.UnmarshalJSON ext js d).2

/-- The state after a history of calls. -/
def MaybeSt.after (ext : Ext) (js : JsonExt) (m : MaybeSt) (ops : List MaybeOp) : MaybeSt :=
  ops.foldl (MaybeOp.run ext js) m

/-- Calls that make a Maybe of this kind valid: a `Set` with a value it takes, or an `UnmarshalJSON` of a text it
decodes — except that `MaybeTime.UnmarshalJSON` forgets the flag. -/
inductive MakesValid (ext : Ext) (js : JsonExt) (k : MaybeKind) : MaybeOp → Prop where
  | set (x) : Settable ext k x → MakesValid ext js k (.set x)
  | unmarshal (d y) : k ≠ .time → Decodes ext js k d y → MakesValid ext js k (.unmarshal d)

/-- A Maybe as a struct field: by value or by pointer. -/
def MaybeSt.held (m : MaybeSt) (byPtr : Bool) : GoVal :=
  if byPtr then .ptr (some (.maybe m.valid m.p)) else .maybe m.valid m.p

end Jsval
