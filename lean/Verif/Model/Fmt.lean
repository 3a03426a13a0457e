import Verif.Model.GoText
import Verif.Model.Value

/-!
What `fmt.Sprintf("%s", iv)` (array.go:62) gives for a decoded JSON document. The package fmt is not in /repo; this is its
documented behaviour: a value the verb `s` does not fit is printed as `%!s(type=value)`, slices as `[a b c]`, maps as
`map[k:v l:w]` in the order of their keys. Everything else that is printed stays the oracle `Ext.sprint`.
-/

namespace Jsval

/-- What is not spelled out: the text of a float64 with `%v`, and of a nil inside a slice or map. -/
structure FmtLib where
  num : F64 → GoStr
  nilIn : GoStr

/-- The texts with a space between them. -/
def spaceSep : List GoStr → GoStr
  | [] => []
  | [t] => t
  | t :: u :: l => t ++ 32 :: spaceSep (u :: l)

/-- The entries of a map in the order of their keys, as fmt prints maps. -/
def byKey {α : Type} (l : List (GoStr × α)) : List (GoStr × α) := l.insertionSort (fun a b => strLe a.1 b.1 = true)

mutual
/-- A value inside a slice or map, printed for array.go:62. -/
def fmtIn (L : FmtLib) : GoVal → GoStr
  | .nil => L.nilIn
  | .bool b => b! "%!s(bool=" ++ boolDec b ++ b! ")"
  | .float .f64 f => b! "%!s(float64=" ++ L.num f ++ b! ")"
  | .str s => s
  | .slice _ xs => 91 :: (spaceSep (fmtElems L xs) ++ [93])
  | .map _ kvs => b! "map[" ++ spaceSep ((byKey (fmtEntries L kvs)).map fun p => p.1 ++ 58 :: p.2) ++ [93]
  | _ => []

/-- The elements of a slice, printed for array.go:62. -/
def fmtElems (L : FmtLib) : List GoVal → List GoStr
  | [] => []
  | x :: xs => fmtIn L x :: fmtElems L xs

/-- The entries of a map, printed for array.go:62. -/
def fmtEntries (L : FmtLib) : List (GoStr × GoVal) → List (GoStr × GoStr)
  | [] => []
  | (k, x) :: kvs => (k, fmtIn L x) :: fmtEntries L kvs
end

/-- `fmt.Sprintf("%s", iv)` (array.go:62) for a decoded document. -/
def fmtS (L : FmtLib) : GoVal → GoStr
  | .nil => b! "%!s(<nil>)"
  | v => fmtIn L v

end Jsval
