/-!
# Base: byte strings, schedules, errors, results

Shared vocabulary of the model of lestrrat/go-jsval.
-/
namespace Jsval

/-- A Go `string`: an arbitrary byte sequence. `len(s)` is `List.length`. -/
abbrev GoStr := List UInt8

/-- `b! "abc"` is the Go string literal `"abc"` (its UTF-8 bytes), expanded at parse time. -/
syntax "b!" str : term
macro_rules
  | `(b! $s:str) => do
    let bs := s.getString.toUTF8.toList
    let elems := bs.toArray.map (fun b => Lean.Syntax.mkNumLit (toString b.toNat))
    `(([$[$elems],*] : List UInt8))

/-! ## Map-iteration schedules

Go leaves the order of `for k := range m` unspecified.  Every such loop of the library consults a
schedule. `shuffle` turns a number into a permutation; `Sched` supplies one number per loop
execution (addressed by its position in the call tree), so quantifying over `Sched` quantifies over all
iteration orders of all loops (see `shuffle_surj` in `Lemmas/Sched.lean`). -/

/-- An oracle for map-iteration orders: call-tree address ↦ permutation number. -/
abbrev Sched := List Nat → Nat

/-- The schedule seen by the `i`-th sub-call. -/
def Sched.sub (σ : Sched) (i : Nat) : Sched := fun p => σ (i :: p)

/-- The permutation number for the current loop. -/
def Sched.key (σ : Sched) : Nat := σ []

/-- Insert `a` at position `i` (at the end if `i` is too large). -/
def insertAt {α : Type _} (i : Nat) (a : α) (l : List α) : List α := l.take i ++ a :: l.drop i

/-- The permutation of `l` with (Lehmer) number `k`. -/
def shuffle {α : Type _} (k : Nat) : List α → List α
  | [] => []
  | a :: l => insertAt (k % (l.length + 1)) a (shuffle (k / (l.length + 1)) l)

/-- The ways a call can fail to return normally. -/
inductive Abort where
  /-- a Go run-time panic -/
  | panic
  /-- the call does not return (reference cycle); in the fuelled model: fuel exhausted -/
  | diverge
  /-- the situation is outside the modelled part of Go's reflect semantics -/
  | outside
deriving DecidableEq, Repr

/-- The errors returned by the `Validate` methods; one constructor per message in the source. -/
inductive Err where
  | notNull                              -- basic.go:55 "value is not null"
  | notNoChild                           -- basic.go:83 "'not' constraint does not have a child constraint"
  | notFailed                            -- basic.go:87 "'not' validation failed"
  | notSlice                             -- array.go:43 "value must be a slice (was: ...)"
  | fewItems                             -- array.go:49
  | manyItems                            -- array.go:53
  | dupItem                              -- array.go:65 "duplicate element found"
  | addlItems                            -- array.go:104 "additional elements found in array"
  | notBool                              -- bool.go:26
  | anyNone                              -- combinations.go:59
  | oneOfNone                            -- combinations.go:130 "none of the constraints passed"
  | oneOfMany                            -- combinations.go:132 "more than 1 of the constraints passed"
  | notInEnum                            -- enum.go:31
  | notFloat                             -- number.go:86
  | belowMinExcl                         -- number.go:97
  | belowMin                             -- number.go:101
  | aboveMaxExcl                         -- number.go:112
  | aboveMax                             -- number.go:116
  | notMultiple                          -- number.go:128
  | notIntegral                          -- number.go:223 "value is not an int/uint"
  | notNumeric                           -- number.go:227
  | notString                            -- string.go:50
  | tooLong (max : Int)                  -- string.go:60
  | tooShort (min : Int)                 -- string.go:69
  | badDatetime                          -- string.go:76
  | badEmail                             -- string.go:80
  | badHostname                          -- string.go:84
  | badIPv4                              -- string.go:92,96
  | badIPv6                              -- string.go:104,108
  | badURI                               -- string.go:112
  | badRegexp (s rx : GoStr)             -- string.go:121
  | mapKeys                              -- object.go:176 "panic: can only handle maps with string keys"
  | noPropNames                          -- object.go:195
  | fewProps                             -- object.go:349
  | manyProps                            -- object.go:352
  | required (p : GoStr)                 -- object.go:406
  | setDefault (p : GoStr) (e : Err)     -- object.go:419
  | prop (p : GoStr) (e : Err)           -- object.go:433, 458
  | addlNotAllowed                       -- object.go:466
  | addlProp (p : GoStr) (e : Err)       -- object.go:472
  | depMissing (p : GoStr)               -- object.go:484
  | refNotFound (n : GoStr)              -- reference.go:52
  | noField (p : GoStr)                  -- object.go:257 "setProp: could not find field"
  | setPropKind                          -- object.go:287 "setProp: don't know what to do"
  | badMaybe                             -- maybe.go ErrInvalidMaybeValue
  | badTime                              -- maybe.go:213 time.Parse error
deriving DecidableEq, Repr

/-- Result of a `Validate` call. -/
inductive Res where
  | ok
  | err (e : Err)
  | abort (a : Abort)
deriving DecidableEq, Repr

/-- Failure of an auxiliary function returning a value: a Go error or an abnormal end. -/
inductive Stop where
  | err (e : Err)
  | abort (a : Abort)
deriving DecidableEq, Repr

/-- A stopped computation as a result of `Validate`. -/
def Stop.toRes : Stop → Res
  | .err e => .err e
  | .abort a => .abort a

end Jsval
