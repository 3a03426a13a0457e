import Verif.Spec.Basic
import Mathlib.Order.WithBot
import Mathlib.Data.Int.Order.Basic
/-!
# Declarative rules for scalar values
-/
namespace Jsval

/-- The extended number a float64 stands for, in units of 2^-1074; NaN stands for none. -/
def F64.num : F64 → Option (WithBot (WithTop ℤ))
  | .nan => none
  | .inf true => some ⊥
  | .inf false => some (WithBot.some ⊤)
  | .fin neg m => some (WithBot.some (WithTop.some (if neg then -(m : ℤ) else m)))

/-- Numeric order on float64. -/
def F64.Lt (a b : F64) : Prop := ∃ x y, a.num = some x ∧ b.num = some y ∧ x < y
def F64.Le (a b : F64) : Prop := ∃ x y, a.num = some x ∧ b.num = some y ∧ x ≤ y
def F64.Eq (a b : F64) : Prop := ∃ x, a.num = some x ∧ b.num = some x

/-- `f` is an integer (the infinities count, NaN does not); `F64.unit` is 2^1074, the magnitude of 1.0. -/
def F64.Whole : F64 → Prop
  | .nan => False
  | .inf _ => True
  | .fin _ m => ∃ k : ℕ, m = k * F64.unit

/-- `f` is exactly an integer multiple of `m`; for infinite `m` only zero is. -/
def F64.MultOf (f m : F64) : Prop :=
  match f, m with
  | .fin n a, .fin n' b => ∃ k : ℤ, (if n then -(a : ℤ) else a) = k * (if n' then -(b : ℤ) else b)
  | .fin _ a, .inf _ => a = 0
  | _, _ => False

/-- `m` is zero (of either sign). -/
def F64.IsZero (m : F64) : Prop := ∃ n, m = .fin n 0

/-- nil, or a nil channel, function, map, pointer, slice (or empty interface cell). -/
inductive NilLike : GoVal → Prop where
  | nil : NilLike .nil
  | chan : NilLike (.other .chan true)
  | func : NilLike (.other .func true)
  | map (kvs) : NilLike (.map true kvs)
  | mapOther (n) : NilLike (.mapOther true n)
  | ptr : NilLike (.ptr none)
  | slice (xs) : NilLike (.slice true xs)
  | iface : NilLike (.iface .nil)

/-- Same dynamic type and equal values, for the comparable scalar types. -/
inductive SameGo : GoVal → GoVal → Prop where
  | nil : SameGo .nil .nil
  | bool (b) : SameGo (.bool b) (.bool b)
  | int (k n) : SameGo (.int k n) (.int k n)
  | uint (k n) : SameGo (.uint k n) (.uint k n)
  | float (k a b) : F64.Eq a b → SameGo (.float k a) (.float k b)
  | str (s) : SameGo (.str s) (.str s)

/-- nil, booleans, numbers, strings. -/
inductive Scalar : GoVal → Prop where
  | nil : Scalar .nil
  | bool (b) : Scalar (.bool b)
  | int (k n) : Scalar (.int k n)
  | uint (k n) : Scalar (.uint k n)
  | float (k f) : Scalar (.float k f)
  | str (s) : Scalar (.str s)

/-- Both are slices or both are (string-keyed) maps. -/
inductive SameContainer : GoVal → GoVal → Prop where
  | slice (b xs b' ys) : SameContainer (.slice b xs) (.slice b' ys)
  | map (b xs b' ys) : SameContainer (.map b xs) (.map b' ys)

/-- `x` itself, or what a non-nil pointer (or interface cell) holds. -/
inductive Target : GoVal → GoVal → Prop where
  | ptr (x) : Target (.ptr (some x)) x
  | iface (x) : Target (.iface x) x
  | self (x) : (∀ p, x ≠ .ptr p) → (∀ y, x ≠ .iface y) → Target x x

/-- Bytes allowed in a domain label. -/
def LabelByte (c : UInt8) : Prop :=
  (97 ≤ c ∧ c ≤ 122) ∨ (65 ≤ c ∧ c ≤ 90) ∨ c = 95 ∨ (48 ≤ c ∧ c ≤ 57) ∨ c = 45

/-- Letters and underscore. -/
def LetterByte (c : UInt8) : Prop := (97 ≤ c ∧ c ≤ 122) ∨ (65 ≤ c ∧ c ≤ 90) ∨ c = 95

/-- A well-formed label: 1 to 63 allowed bytes, no `-` at either end. -/
structure LabelOk (l : GoStr) : Prop where
  ne : l ≠ []
  le : l.length ≤ 63
  bytes : ∀ c ∈ l, LabelByte c
  first : l.head? ≠ some 45
  last : l.getLast? ≠ some 45

/-- Labels joined by dots. -/
def joinDots : List GoStr → GoStr
  | [] => []
  | [l] => l
  | l :: ls => l ++ 46 :: joinDots ls

/-- A well-formed domain name: dot-separated labels, optionally one trailing dot, at most 255 bytes, at
least one letter or underscore. -/
def HostOk (s : GoStr) : Prop :=
  s.length ≤ 255 ∧ (∃ c ∈ s, LetterByte c) ∧
  ∃ labels : List GoStr, labels ≠ [] ∧ (∀ l ∈ labels, LabelOk l) ∧
    (s = joinDots labels ∨ s = joinDots labels ++ [46])

/-- The format rules: only six format names mean anything. -/
def FormatOk (ext : Ext) (fmt s : GoStr) : Prop :=
  (fmt = b! "datetime" → ∃ t, ext.timeParse s = some t) ∧
  (fmt = b! "email" → ext.mailOk s = true) ∧
  (fmt = b! "hostname" → HostOk s) ∧
  (fmt = b! "ipv4" → (∀ c ∈ s, c = 46 ∨ (48 ≤ c ∧ c ≤ 57)) ∧ ext.ipOk s = true) ∧
  (fmt = b! "ipv6" → (∀ c ∈ s, c = 58 ∨ (48 ≤ c ∧ c ≤ 57)) ∧ ext.ipOk s = true) ∧
  (fmt = b! "uri" → ext.urlOk s = true)

/-- All rules of a string constraint. -/
structure StrOk (ext : Ext) (c : StrC) (s : GoStr) : Prop where
  max : 0 ≤ c.maxLength → (s.length : ℤ) ≤ c.maxLength
  min : 0 ≤ c.minLength → c.minLength ≤ (s.length : ℤ)
  format : FormatOk ext c.format s
  regexp : ∀ rx, c.regexp = some rx → ext.reMatch rx s = true
  enums : ∀ l, c.enums = some l → GoVal.str s ∈ l

/-- All rules of a number constraint. A NaN violates no bound. -/
structure NumOk (c : NumC) (f : F64) : Prop where
  min : ∀ m, c.minimum = some m → ¬ F64.Lt f m
  exclMin : ∀ m, c.minimum = some m → c.exclMin = true → ¬ F64.Eq f m
  max : ∀ m, c.maximum = some m → ¬ F64.Lt m f
  exclMax : ∀ m, c.maximum = some m → c.exclMax = true → ¬ F64.Eq f m
  mult : ∀ m, c.multipleOf = some m → ¬ m.IsZero → F64.MultOf f m
  enums : ∀ l, c.enums = some l → ∃ g, GoVal.float .f64 g ∈ l ∧ F64.Eq g f

end Jsval
