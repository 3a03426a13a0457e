import Verif.Spec.Tree
import Verif.Spec.Decimal
/-!
# The fragment the code generator supports

Conditions on the single constraints of a tree under which generated code is claimed to rebuild an equivalent tree. What
is left out here is where the generator loses information or writes text that is not Go (see the refutations in
`Props/Generator.lean`).
-/
namespace Jsval

/-- No percent sign: the generator uses its own output as a format string. -/
def Plain (s : GoStr) : Prop := (0x25 : UInt8) ∉ s

/-- An ASCII letter. -/
def AsciiLetter (c : UInt8) : Prop := (0x61 ≤ c ∧ c ≤ 0x7A) ∨ (0x41 ≤ c ∧ c ≤ 0x5A)

/-- At most seven decimal digits. -/
def ShortNumber (s : GoStr) : Prop := s.length ≤ 7 ∧ ∀ c ∈ s, 0x30 ≤ c ∧ c ≤ 0x39

/-- What `fmt` allows between a `%` and its verb, apart from `*` and argument indexes: flags, a width, a precision. -/
def Modifiers (s : GoStr) : Prop :=
  ∃ flags width prec, s = flags ++ width ++ prec ∧ (∀ c ∈ flags, c ∈ b! "#0+- ") ∧ ShortNumber width ∧
    (prec = [] ∨ ∃ n, prec = 0x2E :: n ∧ ShortNumber n)

/-- What is written for a string used as a format without operands: a directive ending in a letter reports a missing
operand, one ending in `%` stands for a `%`. -/
inductive Formatted : GoStr → GoStr → Prop where
  | plain (u) : Plain u → Formatted u u
  | missing (u m c s t) : Plain u → Modifiers m → AsciiLetter c → Formatted s t →
      Formatted (u ++ 0x25 :: (m ++ c :: s)) (u ++ (b! "%!" ++ [c] ++ b! "(MISSING)" ++ t))
  | percent (u m s t) : Plain u → Modifiers m → Formatted s t → Formatted (u ++ 0x25 :: (m ++ 0x25 :: s)) (u ++ 0x25 :: t)

/-- The places for a string in a string constraint. -/
inductive Place where
  | format | pattern | listed | dflt
deriving DecidableEq, Repr

/-- A string constraint with a string in one place. -/
def Place.holding (p : Place) (s : GoStr) : Constraint :=
  match p with
  | .format => .string { String' with format := s }
  | .pattern => .string { String' with regexp := some s }
  | .listed => .string { String' with enums := some [.str s] }
  | .dflt => .string { String' with dflt := some (.str s) }

/-- A float that `int(f)` and back leaves alone. -/
def IntBound (f : F64) : Prop := F64.ofInt f.truncInt = f

/-- Enumeration values that have a literal. -/
def EnumLit : GoVal → Prop
  | .str s => Plain s
  | .int .int _ => True
  | .float .f64 f => SixDec f
  | _ => False

/-- Supported string constraints. -/
structure StrC.Gen (c : StrC) : Prop where
  format : Plain c.format
  regexp : ∀ r, c.regexp = some r → Plain r
  enums : ∀ l, c.enums = some l → l ≠ [] ∧ ∀ v ∈ l, EnumLit v
  dflt : ∀ v, c.dflt = some v → ∃ s, v = .str s ∧ Plain s

/-- Supported number constraints. -/
structure NumC.GenNum (c : NumC) : Prop where
  minimum : ∀ f, c.minimum = some f → SixDec f
  maximum : ∀ f, c.maximum = some f → SixDec f
  multipleOf : c.multipleOf = none
  enums : c.enums = none
  dflt : ∀ v, c.dflt = some v → ∃ f, v = .float .f64 f ∧ SixDec f

/-- Supported integer constraints; `ints` tells whether they may have defaults. (These are written without fraction, and become an
`int` when the code is run.) -/
structure NumC.GenInt (ints : Prop) (c : NumC) : Prop where
  minimum : ∀ f, c.minimum = some f → IntBound f
  maximum : ∀ f, c.maximum = some f → IntBound f
  multipleOf : c.multipleOf = none
  enums : c.enums = none
  dflt : ∀ v, c.dflt = some v → ints ∧ ∃ f, v = .float .f64 f

/-- Object constraints for which code is written: no two patterns have the same source, and no name has a percent sign. -/
structure ObjC.Written {C : Type} (o : ObjC C) : Prop where
  patSources : (o.patterns.map (·.2.1)).Nodup
  plainProps : ∀ p ∈ o.props, Plain p.1
  plainPats : ∀ p ∈ o.patterns, Plain p.2.1
  plainReq : ∀ n ∈ o.required, Plain n
  plainDeps : ∀ p ∈ o.propdeps, Plain p.1 ∧ ∀ d ∈ p.2, Plain d

/-- Supported object constraints. -/
structure ObjC.Gen {C : Type} (o : ObjC C) : Prop where
  propNames : (o.props.map (·.1)).Nodup
  patSources : (o.patterns.map (·.2.1)).Nodup
  depNames : (o.propdeps.map (·.1)).Nodup
  plainProps : ∀ p ∈ o.props, Plain p.1
  plainPats : ∀ p ∈ o.patterns, Plain p.2.1
  plainReq : ∀ n ∈ o.required, Plain n
  plainDeps : ∀ p ∈ o.propdeps, Plain p.1 ∧ ∀ d ∈ p.2, Plain d
  schemadeps : o.schemadeps = []
  minProps : o.minProps < 0
  maxProps : o.maxProps < 0

theorem ObjC.Gen.written {C : Type} {o : ObjC C} (h : o.Gen) : o.Written :=
  ⟨h.patSources, h.plainProps, h.plainPats, h.plainReq, h.plainDeps⟩

/-- Constraints for which code is generated; `refs` tells whether references may occur, `ints` whether integers may have defaults. -/
def Constraint.GenD (ints : Prop) (refs : Bool) : Constraint → Prop
  | .empty => True
  | .null => True
  | .boolean d => ∀ v, d = some v → ∃ b, v = .bool b
  | .string c => c.Gen
  | .number c => c.GenNum
  | .integer c => c.GenInt ints
  | .enum _ => False
  | .array a => a.additional ≠ none ∨ a.positional = [] ∨ a.items ≠ none
  | .object o => o.Gen
  | .any l => l ≠ []
  | .all _ => True
  | .oneOf l => l ≠ []
  | .not _ => False
  | .ref _ n => refs = true ∧ Plain n

/-- Supported constraints: what the code sets up is equivalent. -/
abbrev Constraint.Gen (refs : Bool) : Constraint → Prop := Constraint.GenD False refs

end Jsval
