import Verif.Model.Base
import Verif.Model.Float
/-!
# Go values as seen through `reflect`, and the external libraries
-/
namespace Jsval

inductive IntKind where | int | int8 | int16 | int32 | int64
deriving DecidableEq, Repr
inductive UintKind where | uint | uint8 | uint16 | uint32 | uint64 | uintptr
deriving DecidableEq, Repr
inductive FloatKind where | f32 | f64
deriving DecidableEq, Repr
/-- Kinds the library never looks inside. -/
inductive OtherKind where | array | chan | func | complex | unsafePtr
deriving DecidableEq, Repr

/-- A `time.Time` instant (opaque). -/
abbrev GoTime := Int

/-- Payload of the six `Maybe*` types (maybe.go:67-252). -/
inductive MaybeVal where
  | bool (b : Bool)
  | float (f : F64)
  | int (n : Int)
  | str (s : GoStr)
  | time (t : GoTime)
  | uint (n : Nat)
deriving DecidableEq, Repr

/-- A struct field descriptor (`reflect.StructField`): Go name, value of the `json` tag (empty if absent),
whether it is exported (`PkgPath == ""`) and whether it is embedded (`Anonymous`). -/
structure Field where
  name : GoStr
  tag : GoStr := []
  exported : Bool := true
  anonymous : Bool := false
deriving DecidableEq, Repr

/-- Go values held in an `interface{}`.

Simplifications: scalars have predeclared (unnamed) types; slices are `[]interface{}` and string-keyed maps
`map[string]interface{}`; values are trees (no aliasing between sub-values), so a mutation through a map
or pointer is visible exactly at the place of the map or pointer; struct types carry no user methods
(`Model/Hooks` adds `GetPropNames`, `GetPropValue`, `SetPropValue`).
`iface v` only occurs as the target of a pointer (`*interface{}`). -/
inductive GoVal where
  | nil
  | bool (b : Bool)
  | int (k : IntKind) (n : Int)
  | uint (k : UintKind) (n : Nat)
  | float (k : FloatKind) (f : F64)
  | str (s : GoStr)
  | slice (isNil : Bool) (xs : List GoVal)
  | map (isNil : Bool) (kvs : List (GoStr × GoVal))
  /-- a map whose key kind is neither string nor interface, with `n` entries -/
  | mapOther (isNil : Bool) (n : Nat)
  | struct (fs : List (Field × GoVal))
  | ptr (p : Option GoVal)
  | iface (v : GoVal)
  /-- a `MaybeBool`/… struct value: the embedded `ValidFlag` and the payload field -/
  | maybe (valid : Bool) (p : MaybeVal)
  | time (t : GoTime)
  | other (k : OtherKind) (isNil : Bool)
deriving Repr

/-- `Maybe*.Value()` (maybe.go:82,116,158,189,228,275). -/
def MaybeVal.toGo : MaybeVal → GoVal
  | .bool b => .bool b
  | .float f => .float .f64 f
  | .int n => .int .int64 n
  | .str s => .str s
  | .time t => .time t
  | .uint n => .uint .uint64 n

/-- The external libraries the validators call; every theorem holds for all behaviours of them. -/
structure Ext where
  /-- `regexp.MatchString`: pattern source, subject -/
  reMatch : GoStr → GoStr → Bool
  /-- `time.Parse(time.RFC3339, s)` -/
  timeParse : GoStr → Option GoTime
  /-- `t.Format(time.RFC3339)` -/
  timeFormat : GoTime → GoStr
  /-- `mail.ParseAddress(s)` succeeds -/
  mailOk : GoStr → Bool
  /-- `net.ParseIP(s) != nil` -/
  ipOk : GoStr → Bool
  /-- `url.Parse(s)` succeeds -/
  urlOk : GoStr → Bool
  /-- `fmt.Sprintf("%s", v)` -/
  sprint : GoVal → GoStr

/-- A `reflect.Value`: `none` is the zero Value (`zeroval`, interface.go:11). -/
abbrev RV := Option GoVal

/-- `reflect.ValueOf`. -/
def valueOf : GoVal → RV
  | .nil => none
  | v => some v

/-- `rv.Elem()` when the kind is Ptr or Interface, else `rv` — the idiom at number.go:78-81,
string.go:42-45, object.go:165-168, 337-340. -/
def RV.indirect : RV → RV
  | some (.ptr none) => none
  | some (.ptr (some x)) => some x
  | some (.iface v) => valueOf v
  | rv => rv

/-- Go `e == v` on interface values (enum.go:27): `false` for different dynamic types, a panic for two
values of the same uncomparable type. Comparisons of pointers, structs, channels and non-string-keyed
maps depend on identities the model does not carry and are `outside`. -/
def goEq : GoVal → GoVal → Except Abort Bool
  | .nil, .nil => .ok true
  | .bool a, .bool b => .ok (a == b)
  | .int k a, .int k' b => .ok (k == k' && a == b)
  | .uint k a, .uint k' b => .ok (k == k' && a == b)
  | .float k a, .float k' b => .ok (k == k' && F64.eq a b)
  | .str a, .str b => .ok (a == b)
  | .slice _ _, .slice _ _ => .error .panic
  | .map _ _, .map _ _ => .error .panic
  | .mapOther _ _, .mapOther _ _ => .error .outside
  | .struct _, .struct _ => .error .outside
  | .ptr _, .ptr _ => .error .outside
  | .iface _, .iface _ => .error .outside
  | .maybe _ _, .maybe _ _ => .error .outside
  | .time _, .time _ => .error .outside
  | .other _ _, .other _ _ => .error .outside
  | _, _ => .ok false

end Jsval
