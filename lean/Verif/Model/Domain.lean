import Verif.Model.Base
/-!
# `isDomainName` (string.go:134-181)
-/
namespace Jsval

/-- Loop state of `isDomainName`: last byte, "seen a letter" flag, current label length. -/
structure DomSt where
  last : UInt8
  ok : Bool
  partlen : Nat
deriving DecidableEq, Repr

/-- string.go:152: `'a' <= c && c <= 'z' || 'A' <= c && c <= 'Z' || c == '_'`. -/
def isLetterByte (c : UInt8) : Bool :=
  (97 ≤ c && c ≤ 122) || (65 ≤ c && c ≤ 90) || c == 95

/-- string.go:155: `'0' <= c && c <= '9'`. -/
def isDigitByte (c : UInt8) : Bool := 48 ≤ c && c ≤ 57

/-- One iteration of the loop at string.go:147-175 (`none` is `return false`). -/
def domStep (st : DomSt) (c : UInt8) : Option DomSt :=
  if isLetterByte c then some ⟨c, true, st.partlen + 1⟩
  else if isDigitByte c then some ⟨c, st.ok, st.partlen + 1⟩
  else if c == 45 then           -- '-'
    if st.last == 46 then none else some ⟨c, st.ok, st.partlen + 1⟩
  else if c == 46 then           -- '.'
    if st.last == 46 || st.last == 45 then none
    else if st.partlen > 63 || st.partlen == 0 then none
    else some ⟨c, st.ok, 0⟩
  else none

/-- The loop at string.go:147-175. -/
def domLoop : List UInt8 → DomSt → Option DomSt
  | [], st => some st
  | c :: cs, st => match domStep st c with
    | none => none
    | some st' => domLoop cs st'

/-- `isDomainName` (string.go:135-181). -/
def isDomainName (s : GoStr) : Bool :=
  if s.length == 0 then false
  else if s.length > 255 then false
  else match domLoop s ⟨46, false, 0⟩ with
    | none => false
    | some st => if st.last == 45 || st.partlen > 63 then false else st.ok

end Jsval
