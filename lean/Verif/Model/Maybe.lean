import Verif.Model.Value
/-!
# The `Maybe*` types (maybe.go)

A Maybe value is its `ValidFlag` and payload.  `Set`, `Reset`, `UnmarshalJSON` return the new state.
-/
namespace Jsval

/-- State of a `Maybe*` variable (maybe.go:67-70 and siblings). -/
structure MaybeSt where
  valid : Bool
  p : MaybeVal
deriving DecidableEq, Repr

/-- The six kinds. -/
inductive MaybeKind where | bool | float | int | str | time | uint
deriving DecidableEq, Repr

def MaybeVal.kind : MaybeVal → MaybeKind
  | .bool _ => .bool | .float _ => .float | .int _ => .int
  | .str _ => .str | .time _ => .time | .uint _ => .uint

/-- `Valid()` (maybe.go:63). -/
def MaybeSt.Valid (m : MaybeSt) : Bool := m.valid

/-- `Value()` (maybe.go:82, 116, 158, 189, 228, 275). -/
def MaybeSt.Value (m : MaybeSt) : GoVal := m.p.toGo

/-- `Reset()` (maybe.go:59): only the embedded flag is cleared. -/
def MaybeSt.Reset (m : MaybeSt) : MaybeSt := { m with valid := false }

/-- A freshly declared variable of the given kind (Go zero values; `zeroTime` is `time.Time{}`). -/
def MaybeSt.fresh (zeroTime : GoTime) : MaybeKind → MaybeSt
  | .bool => ⟨false, .bool false⟩
  | .float => ⟨false, .float F64.zero⟩
  | .int => ⟨false, .int 0⟩
  | .str => ⟨false, .str []⟩
  | .time => ⟨false, .time zeroTime⟩
  | .uint => ⟨false, .uint 0⟩

/-- The payload `Set(x)` stores in a Maybe of kind `k`, or the error it returns
(maybe.go:72-80, 103-114, 137-156, 179-187, 210-226, 254-273). -/
def maybeConv (ext : Ext) : MaybeKind → GoVal → Except Err MaybeVal
  | .bool, .bool b => .ok (.bool b)
  | .float, .float _ f => .ok (.float f)
  | .int, .int _ n => .ok (.int n)
  | .int, .float .f64 f => .ok (.int f.truncInt)
  | .str, .str s => .ok (.str s)
  | .time, .str s => match ext.timeParse s with
    | some t => .ok (.time t)
    | none => .error .badTime
  | .time, .time t => .ok (.time t)
  | .uint, .uint .uintptr _ => .error .badMaybe
  | .uint, .uint _ n => .ok (.uint n)
  | .uint, .float .f64 f => .ok (.uint f.truncNat)
  | _, _ => .error .badMaybe

/-- `Set(x)`: error (if any) and the new state. -/
def MaybeSt.Set (ext : Ext) (m : MaybeSt) (x : GoVal) : Option Err × MaybeSt :=
  match maybeConv ext m.p.kind x with
  | .ok p => (none, ⟨true, p⟩)
  | .error e => (some e, m)

/-- `json.Unmarshal` into the Go variable used by each `UnmarshalJSON` (external): `none` is an error.
`null` leaves the variable at its zero value and succeeds. -/
structure JsonExt where
  decBool : GoStr → Option Bool
  decFloat : GoStr → Option F64
  decInt : GoStr → Option Int
  decStr : GoStr → Option GoStr
  decUint : GoStr → Option Nat
  encBool : Bool → GoStr
  encFloat : F64 → Option GoStr
  encInt : Int → GoStr
  encStr : GoStr → GoStr
  encUint : Nat → GoStr

/-- Outcome of `UnmarshalJSON`. -/
inductive UnErr where
  /-- `json.Unmarshal` failed -/
  | json
  /-- `time.Parse` failed -/
  | time
  /-- `Set` failed -/
  | set (e : Err)
deriving DecidableEq, Repr

/-- `return v.Set(in)`. -/
def MaybeSt.setUn (ext : Ext) (m : MaybeSt) (x : GoVal) : Option UnErr × MaybeSt :=
  match m.Set ext x with
  | (none, m') => (none, m')
  | (some e, m') => (some (.set e), m')

/-- `UnmarshalJSON(data)` (maybe.go:90-96, 124-130, 166-172, 197-203, 236-247, 283-289).
Note the `MaybeTime` case: it assigns `v.Time` but never the flag (maybe.go:245). -/
def MaybeSt.UnmarshalJSON (ext : Ext) (js : JsonExt) (m : MaybeSt) (data : GoStr) : Option UnErr × MaybeSt :=
  match m.p with
  | .bool _ => match js.decBool data with
    | some b => m.setUn ext (.bool b)
    | none => (some .json, m)
  | .float _ => match js.decFloat data with
    | some f => m.setUn ext (.float .f64 f)
    | none => (some .json, m)
  | .int _ => match js.decInt data with
    | some n => m.setUn ext (.int .int64 n)
    | none => (some .json, m)
  | .str _ => match js.decStr data with
    | some s => m.setUn ext (.str s)
    | none => (some .json, m)
  | .time _ => match js.decStr data with
    | some s => match ext.timeParse s with
      | some t => (none, { m with p := .time t })
      | none => (some .time, m)
    | none => (some .json, m)
  | .uint _ => match js.decUint data with
    | some n => m.setUn ext (.uint .uint64 n)
    | none => (some .json, m)

/-- `MarshalJSON()` (maybe.go:86, 120, 162, 193, 232, 279): the payload, whatever the flag says.
`none` is an encoding error (NaN and infinities). -/
def MaybeSt.MarshalJSON (ext : Ext) (js : JsonExt) (m : MaybeSt) : Option GoStr :=
  match m.p with
  | .bool b => some (js.encBool b)
  | .float f => js.encFloat f
  | .int n => some (js.encInt n)
  | .str s => some (js.encStr s)
  | .time t => some (js.encStr (ext.timeFormat t))
  | .uint n => some (js.encUint n)

end Jsval
