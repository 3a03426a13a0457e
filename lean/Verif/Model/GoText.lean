import Mathlib.Data.List.Sort
import Mathlib.Data.Nat.Digits.Defs
import Verif.Model.Base
import Verif.Model.Float
/-!
# Text produced by the standard library for the generator

`strconv.Quote`, the verbs `%d`, `%f`, `%t` and what `fmt.Fprintf(out, s)` does with a format string `s` and no
operands. These are parts of Go's standard library that generator.go calls; they are written out after the library's
source (strconv/quote.go, fmt/print.go), everything else about `fmt` is left out.
-/
namespace Jsval

/-! ## UTF-8 -/

/-- A continuation byte in the given range. -/
def inRange (lo hi b : UInt8) : Bool := lo ≤ b && b ≤ hi

/-- `utf8.DecodeRuneInString` on a non-ASCII start: the rune and the number of bytes; `none` is `(RuneError, 1)`. -/
def decodeRune : GoStr → Option (Nat × Nat)
  | [] => none
  | b0 :: rest =>
    if b0 < 0x80 then some (b0.toNat, 1)
    else if inRange 0xC2 0xDF b0 then
      match rest with
      | b1 :: _ => if inRange 0x80 0xBF b1 then some ((b0.toNat - 0xC0) * 64 + (b1.toNat - 0x80), 2) else none
      | _ => none
    else if inRange 0xE0 0xEF b0 then
      match rest with
      | b1 :: b2 :: _ =>
        let lo : UInt8 := if b0 == 0xE0 then 0xA0 else 0x80
        let hi : UInt8 := if b0 == 0xED then 0x9F else 0xBF
        if inRange lo hi b1 && inRange 0x80 0xBF b2 then
          some ((b0.toNat - 0xE0) * 4096 + (b1.toNat - 0x80) * 64 + (b2.toNat - 0x80), 3)
        else none
      | _ => none
    else if inRange 0xF0 0xF4 b0 then
      match rest with
      | b1 :: b2 :: b3 :: _ =>
        let lo : UInt8 := if b0 == 0xF0 then 0x90 else 0x80
        let hi : UInt8 := if b0 == 0xF4 then 0x8F else 0xBF
        if inRange lo hi b1 && inRange 0x80 0xBF b2 && inRange 0x80 0xBF b3 then
          some ((b0.toNat - 0xF0) * 262144 + (b1.toNat - 0x80) * 4096 + (b2.toNat - 0x80) * 64 + (b3.toNat - 0x80), 4)
        else none
      | _ => none
    else none

/-! ## `strconv.Quote` -/

/-- A lower-case hexadecimal digit. -/
def hexDigit (n : Nat) : UInt8 := if n < 10 then UInt8.ofNat (48 + n) else UInt8.ofNat (87 + n)

/-- `n` as exactly `k` hexadecimal digits. -/
def hexDigits : Nat → Nat → GoStr
  | 0, _ => []
  | k + 1, n => hexDigits k (n / 16) ++ [hexDigit (n % 16)]

/-- `appendEscapedRune` for the quote `"` (strconv/quote.go), for the rune `r` encoded as `bytes`. `isPrint` is
`strconv.IsPrint` on runes from 0x80 on. -/
def escRune (isPrint : Nat → Bool) (r : Nat) (bytes : GoStr) : GoStr :=
  if r = 0x22 ∨ r = 0x5C then 0x5C :: bytes
  else if (0x20 ≤ r ∧ r < 0x7F) ∨ (0x80 ≤ r ∧ isPrint r = true) then bytes
  else if r = 0x07 then b! "\\a"
  else if r = 0x08 then b! "\\b"
  else if r = 0x0C then b! "\\f"
  else if r = 0x0A then b! "\\n"
  else if r = 0x0D then b! "\\r"
  else if r = 0x09 then b! "\\t"
  else if r = 0x0B then b! "\\v"
  else if r < 0x20 ∨ r = 0x7F then b! "\\x" ++ hexDigits 2 r
  else if r < 0x10000 then b! "\\u" ++ hexDigits 4 r
  else b! "\\U" ++ hexDigits 8 r

/-- The loop of `strconv.Quote`; the number bounds the remaining length. -/
def quoteLoop (isPrint : Nat → Bool) : Nat → GoStr → GoStr
  | 0, _ => []
  | _ + 1, [] => []
  | n + 1, b :: s =>
    match decodeRune (b :: s) with
    | none => b! "\\x" ++ hexDigits 2 b.toNat ++ quoteLoop isPrint n s
    | some (r, w) => escRune isPrint r ((b :: s).take w) ++ quoteLoop isPrint n ((b :: s).drop w)

/-- `strconv.Quote(s)`. -/
def goQuote (isPrint : Nat → Bool) (s : GoStr) : GoStr := 0x22 :: quoteLoop isPrint s.length s ++ [0x22]

/-! ## Numbers -/

/-- `n` in decimal. -/
def natDec (n : Nat) : GoStr := if n = 0 then [48] else (Nat.digits 10 n).reverse.map (fun d => UInt8.ofNat (48 + d))

/-- `%d`. -/
def intDec (n : Int) : GoStr := if n < 0 then 45 :: natDec n.natAbs else natDec n.natAbs

/-- `n` as exactly `k` decimal digits. -/
def decDigits : Nat → Nat → GoStr
  | 0, _ => []
  | k + 1, n => decDigits k (n / 10) ++ [UInt8.ofNat (48 + n % 10)]

/-- `a / b` to the nearest integer, ties to even. -/
def divRound (a b : Nat) : Nat :=
  let q := a / b
  let r := a % b
  if 2 * r > b ∨ (2 * r = b ∧ q % 2 = 1) then q + 1 else q

/-- `%f`: six decimals, correctly rounded. -/
def fltDec : F64 → GoStr
  | .nan => b! "NaN"
  | .inf neg => if neg then b! "-Inf" else b! "+Inf"
  | .fin neg m =>
    let u := divRound (m * 1000000) F64.unit
    (if neg then [45] else []) ++ natDec (u / 1000000) ++ [46] ++ decDigits 6 (u % 1000000)

/-- `%t`. -/
def boolDec (b : Bool) : GoStr := if b then b! "true" else b! "false"

/-! ## `fmt.Fprintf(out, s)` without operands -/

/-- A decimal digit. -/
def isDigit (c : UInt8) : Bool := 0x30 ≤ c && c ≤ 0x39

/-- `parsenum` (fmt/print.go) on the rest of the text: whether there was a number, its value, and what is left. A number
beyond a million gives up and skips everything. -/
def parseNum : GoStr → Nat → Bool → Bool × Nat × GoStr
  | [], num, isnum => (isnum, num, [])
  | c :: s, num, isnum =>
    if isDigit c then
      if num > 1000000 then (false, 0, [])
      else parseNum s (num * 10 + (c.toNat - 48)) true
    else (isnum, num, c :: s)

/-- `argNumber` (fmt/print.go) with no operands: what is left, whether an index was found, whether there was a bracket
(then `goodArgNum` becomes false, since no index is in range). -/
def argNumber : GoStr → GoStr × Bool × Bool
  | 0x5B :: s =>
    if s.length < 2 then (s, false, true)
    else if 0x5D ∈ s then
      let inner := s.takeWhile (fun c => c != 0x5D)
      let (isnum, _, left) := parseNum inner 0 false
      (s.drop (inner.length + 1), isnum && left.isEmpty, true)
    else (s, false, true)
  | s => (s, false, false)

/-- What a directive turns into, and the text after it. -/
abbrev Directive := GoStr × GoStr

/-- The verb of a directive (fmt/print.go): `pre` has been written already, `good` is `goodArgNum`. -/
def fmtVerb (pre : GoStr) (good : Bool) (s : GoStr) : Directive :=
  match s with
  | [] => (pre ++ b! "%!(NOVERB)", [])
  | c :: rest =>
    if c = 0x25 then (pre ++ [0x25], rest)
    else
      let vw : GoStr × GoStr := match decodeRune s with
        | some (_, w) => (s.take w, s.drop w)
        | none => ([0xEF, 0xBF, 0xBD], rest)
      (pre ++ b! "%!" ++ vw.1 ++ (if good then b! "(MISSING)" else b! "(BADINDEX)"), vw.2)

/-- The last argument index before the verb. -/
def fmtIndex (pre : GoStr) (good after : Bool) (s : GoStr) : Directive :=
  if after then fmtVerb pre good s
  else
    let a := argNumber s
    fmtVerb pre (good && !a.2.2) a.1

/-- The precision. -/
def fmtPrec (pre : GoStr) (good after : Bool) (s : GoStr) : Directive :=
  match s with
  | 0x2E :: s1 =>
    let a := argNumber s1
    let good := good && !after && !a.2.2
    match a.1 with
    | 0x2A :: s3 => fmtIndex (pre ++ b! "%!(BADPREC)") good false s3
    | s2 => fmtIndex pre good a.2.1 (parseNum s2 0 false).2.2
  | s => fmtIndex pre good after s

/-- The width. -/
def fmtWidth (good after : Bool) (s : GoStr) : Directive :=
  match s with
  | 0x2A :: s1 => fmtPrec (b! "%!(BADWIDTH)") good false s1
  | s =>
    let n := parseNum s 0 false
    fmtPrec [] (good && !(after && n.1)) after n.2.2

/-- One of the flags `#`, `0`, `+`, `-`, space. -/
def isFlag (c : UInt8) : Bool := c == 0x23 || c == 0x30 || c == 0x2B || c == 0x2D || c == 0x20

/-- A directive, after its `%`. -/
def fmtDirective (s : GoStr) : Directive :=
  let s := s.dropWhile isFlag
  let a := argNumber s
  fmtWidth (!a.2.2) a.2.1 a.1

/-- `doPrintf` (fmt/print.go) without operands; the number bounds the remaining length. -/
def fmtLoop : Nat → GoStr → GoStr
  | 0, _ => []
  | _ + 1, [] => []
  | n + 1, c :: s =>
    if c = 0x25 then
      let d := fmtDirective s
      d.1 ++ fmtLoop n d.2
    else c :: fmtLoop n s

/-- What `fmt.Fprintf(out, s)` writes. -/
def fmtText (s : GoStr) : GoStr := fmtLoop s.length s

/-! ## Strings -/

/-- Go's `<=` on strings: lexicographic by byte. -/
def strLe : GoStr → GoStr → Bool
  | [], _ => true
  | _ :: _, [] => false
  | a :: s, b :: t => if a < b then true else if a = b then strLe s t else false

/-- `sort.Strings`. -/
def sortStrings (l : List GoStr) : List GoStr := l.insertionSort (fun a b => strLe a b = true)

/-- `strings.TrimSuffix(s, ".\n")`. -/
def trimDotNl (s : GoStr) : GoStr :=
  if b! ".\n" <:+ s then s.take (s.length - 2) else s

/-- `strings.Join`-like: the texts with `, ` between them. -/
def commaSep : List GoStr → GoStr
  | [] => []
  | [t] => t
  | t :: u :: l => t ++ b! ", " ++ commaSep (u :: l)

end Jsval
