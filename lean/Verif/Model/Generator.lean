import Verif.Model.Constraint
import Verif.Model.GoText
/-!
# The code generator (generator.go)

`gen` is `generateCode` on a constraint: the text it writes, or how it stops. `process` is `Process` up to its call of
`format.Source`, which only lays out text that parses and fails otherwise. Writes to a `bytes.Buffer` never fail.
-/
namespace Jsval

/-- How the generator can stop without a text. -/
inductive GenStop where
  /-- an error is returned -/
  | err
  /-- a run-time panic -/
  | panic
  /-- `fmt` prints a value with an unsuitable verb; the text is not modelled -/
  | outside
deriving DecidableEq, Repr

/-- A text, or a stop. -/
abbrev G := Except GenStop GoStr

/-- Write the texts one after the other, stopping at the first that cannot be produced. -/
def catG : List G → G
  | [] => .ok []
  | t :: l =>
    match t with
    | .error e => .error e
    | .ok t =>
      match catG l with
      | .error e => .error e
      | .ok r => .ok (t ++ r)

/-- The end of `generateCode` (generator.go:229-231): the collected text becomes a format string. -/
def emitCode (t : G) : G := t.map (fun s => fmtText (trimDotNl s))

/-- `generateReferenceCode` (generator.go:236-240); `cm` is `ctx.cmname`. -/
def genReference (isPrint : Nat → Bool) (cm name : GoStr) : G :=
  .ok (b! "jsval.Reference(" ++ cm ++ b! ").RefersTo(" ++ goQuote isPrint name ++ b! ")")

/-- `generateComboCode` (generator.go:242-255) from child number `i` on. -/
def genAdds : Nat → List (Sched → G) → Sched → List G
  | _, [], _ => []
  | i, c :: l, σ => [.ok (b! ".\nAdd(\n"), c (σ.sub i), .ok (b! ",\n)")] ++ genAdds (i + 1) l σ

/-- `generateComboCode` (generator.go:242-255). -/
def genCombo (name : GoStr) (l : List (Sched → G)) (σ : Sched) : G :=
  match l with
  | [] => .ok (b! "jsval.EmptyConstraint")
  | l => catG (.ok (b! "jsval." ++ name ++ b! "()") :: genAdds 0 l σ)

/-- `if b { write t }` -/
def optText (b : Bool) (t : GoStr) : GoStr := if b then t else []

/-- `if apply { write "…(" value ")" }` -/
def optCall {α : Type} (o : Option α) (m : GoStr) (f : α → GoStr) : GoStr :=
  match o with
  | none => []
  | some x => m ++ f x ++ b! ")"

/-- `generateIntegerCode` (generator.go:269-293). The default is asserted to be a `float64`. -/
def genInteger (c : NumC) : G :=
  let t := b! "jsval.Integer()" ++
    optCall c.minimum (b! ".Minimum(") (fun f => intDec f.truncInt) ++
    optText c.exclMin (b! ".ExclusiveMinimum(true)") ++
    optCall c.maximum (b! ".Maximum(") (fun f => intDec f.truncInt) ++
    optText c.exclMax (b! ".ExclusiveMaximum(true)")
  match c.dflt with
  | none => .ok t
  | some (.float .f64 f) => .ok (t ++ b! ".Default(" ++ intDec f.truncInt ++ b! ")")
  | some _ => .error .panic

/-- `generateNumberCode` (generator.go:295-319). `%f` suits floats only. -/
def genNumber (c : NumC) : G :=
  let t := b! "jsval.Number()" ++
    optCall c.minimum (b! ".Minimum(") fltDec ++
    optText c.exclMin (b! ".ExclusiveMinimum(true)") ++
    optCall c.maximum (b! ".Maximum(") fltDec ++
    optText c.exclMax (b! ".ExclusiveMaximum(true)")
  match c.dflt with
  | none => .ok t
  | some (.float _ f) => .ok (t ++ b! ".Default(" ++ fltDec f ++ b! ")")
  | some _ => .error .outside

/-- One value in `generateEnumCode` (generator.go:325-335). The unsigned kinds share a case with the signed ones, where
`rv.Int()` panics; `rv.Interface()` panics on a nil value. -/
def genEnumVal (isPrint : Nat → Bool) : GoVal → G
  | .str s => .ok (goQuote isPrint s)
  | .int _ n => .ok (intDec n)
  | .uint .uintptr _ => .error .err
  | .uint _ _ => .error .panic
  | .float _ f => .ok (fltDec f)
  | .nil => .error .panic
  | _ => .error .err

/-- `generateEnumCode` (generator.go:321-342). -/
def genEnumList (isPrint : Nat → Bool) : List GoVal → List G
  | [] => []
  | [v] => [genEnumVal isPrint v]
  | v :: w :: l => [genEnumVal isPrint v, .ok (b! ", ")] ++ genEnumList isPrint (w :: l)

/-- `generateStringCode` (generator.go:344-382). -/
def genString (isPrint : Nat → Bool) (c : StrC) : G :=
  catG ([
    .ok (b! "jsval.String()"),
    .ok (if c.maxLength > -1 then b! ".MaxLength(" ++ intDec c.maxLength ++ b! ")" else []),
    .ok (if c.minLength > 0 then b! ".MinLength(" ++ intDec c.minLength ++ b! ")" else []),
    .ok (if c.format ≠ [] then b! ".Format(" ++ goQuote isPrint c.format ++ b! ")" else []),
    .ok (optCall c.regexp (b! ".RegexpString(") (goQuote isPrint))] ++
    (match c.enums with
      | none => []
      | some l => [.ok (b! ".Enum(")] ++ genEnumList isPrint l ++ [.ok (b! ",)")]) ++
    (match c.dflt with
      | none => []
      | some (.str s) => [.ok (b! ".Default(" ++ goQuote isPrint s ++ b! ")")]
      | some _ => [.error .err]))

/-- `generateBooleanCode` (generator.go:511-517). `%t` suits booleans only. -/
def genBoolean (d : Option GoVal) : G :=
  match d with
  | none => .ok (b! "jsval.Boolean()")
  | some (.bool b) => .ok (b! "jsval.Boolean().Default(" ++ boolDec b ++ b! ")")
  | some _ => .error .outside

/-- A sub-constraint as sole argument on lines of its own. -/
def genSub (m : GoStr) (c : Option (Sched → G)) (σ : Sched) : List G :=
  match c with
  | none => []
  | some c => [.ok (b! ".\n" ++ m ++ b! "(\n"), c σ, .ok (b! ",\n)")]

/-- The positional items (generator.go:492-496): an error is dropped together with the text of the item, a panic is
not. -/
def genPositional : Nat → List (Sched → G) → Sched → List G
  | _, [], _ => []
  | i, c :: l, σ =>
    (match c (σ.sub i) with
      | .ok t => .ok (t ++ b! ",\n")
      | .error .err => .ok (b! ",\n")
      | .error e => .error e) :: genPositional (i + 1) l σ

/-- `generateArrayCode` (generator.go:471-509). -/
def genArray (a : ArrC (Sched → G)) (σ : Sched) : G :=
  catG ([.ok (b! "jsval.Array()")] ++
    genSub (b! "Items") a.items (σ.sub 0) ++
    genSub (b! "AdditionalItems") a.additional (σ.sub 1) ++
    (if a.positional.length > 0 then
      [.ok (b! ".\nPositionalItems([]jsval.Constraint{\n")] ++ genPositional 0 a.positional (σ.sub 2) ++ [.ok (b! "})")]
    else []) ++
    [.ok (if a.minItems > -1 then b! ".\nMinItems(" ++ intDec a.minItems ++ b! ")" else []),
     .ok (if a.maxItems > -1 then b! ".\nMaxItems(" ++ intDec a.maxItems ++ b! ")" else []),
     .ok (optText a.unique (b! ".\nUniqueItems(true)"))])

/-- Named children in the given order of names (generator.go:422-430, 445-451), from name number `i` on. The names come
from the table, so the lookup never fails. -/
def genNamed (isPrint : Nat → Bool) (m : GoStr) (tbl : List (GoStr × (Sched → G))) : Nat → List GoStr → Sched → List G
  | _, [], _ => []
  | i, n :: l, σ =>
    (match alookup n tbl with
      | none => []
      | some c => [.ok (b! ".\n" ++ m ++ b! "(\n" ++ goQuote isPrint n ++ b! ",\n"), c (σ.sub i), .ok (b! ",\n)")]) ++
    genNamed isPrint m tbl (i + 1) l σ

/-- The temporary table `ppmap` (generator.go:437-443), filled in iteration order. -/
def ppmap {α : Type} (l : List (Nat × GoStr × α)) : List (GoStr × α) :=
  l.foldl (fun m p => ainsert p.2.1 p.2.2 m) []

/-- The calls of `PropDependency` (generator.go:460-465) for the given keys. -/
def genDeps (isPrint : Nat → Bool) (deps : List (GoStr × List GoStr)) (keys : List GoStr) : GoStr :=
  keys.flatMap (fun k => ((alookup k deps).getD []).flatMap (fun d =>
    b! ".\nPropDependency(" ++ goQuote isPrint k ++ b! ", " ++ goQuote isPrint d ++ b! ")"))

/-- `generateObjectCode` (generator.go:384-469). Objects never have a default. -/
def genObject (isPrint : Nat → Bool) (o : ObjC (Sched → G)) (σ : Sched) : G :=
  catG ([.ok (b! "jsval.Object()"),
    .ok (if o.required.length > 0 then
      b! ".\nRequired(" ++ commaSep ((sortStrings (shuffle (σ.sub 0).key o.required)).map (goQuote isPrint)) ++ b! ")"
      else [])] ++
    genSub (b! "AdditionalProperties") o.additional (σ.sub 1) ++
    genNamed isPrint (b! "AddProp") o.props 0 (sortStrings (shuffle (σ.sub 2).key (o.props.map (·.1)))) (σ.sub 3) ++
    genNamed isPrint (b! "PatternPropertiesString") (ppmap (shuffle (σ.sub 4).key o.patterns)) 0
      (sortStrings ((shuffle (σ.sub 4).key o.patterns).map (·.2.1))) (σ.sub 5) ++
    [.ok (genDeps isPrint o.propdeps (sortStrings (shuffle (σ.sub 6).key (o.propdeps.map (·.1)))))])

/-- `generateNotCode` (generator.go:519-526). A nil child writes nothing. -/
def genNot (c : Option (Sched → G)) (σ : Sched) : G :=
  catG ([.ok (b! "jsval.Not(\n")] ++ (match c with | none => [] | some c => [c (σ.sub 0)]) ++ [.ok (b! "\n)")])

mutual
/-- `generateCode` (generator.go:165-234) on a constraint. There is no case for `*EnumConstraint`: nothing is
written. -/
def gen (isPrint : Nat → Bool) (cm : GoStr) : Constraint → Sched → G
  | .empty => fun _ => emitCode (.ok (b! "jsval.EmptyConstraint"))
  | .null => fun _ => emitCode (.ok (b! "jsval.NullConstraint"))
  | .boolean d => fun _ => emitCode (genBoolean d)
  | .string c => fun _ => emitCode (genString isPrint c)
  | .number c => fun _ => emitCode (genNumber c)
  | .integer c => fun _ => emitCode (genInteger c)
  | .enum _ => fun _ => emitCode (.ok [])
  | .array c => fun σ => emitCode (genArray (genArr isPrint cm c) σ)
  | .object c => fun σ => emitCode (genObject isPrint (genObj isPrint cm c) σ)
  | .any cs => fun σ => emitCode (genCombo (b! "Any") (genList isPrint cm cs) σ)
  | .all cs => fun σ => emitCode (genCombo (b! "All") (genList isPrint cm cs) σ)
  | .oneOf cs => fun σ => emitCode (genCombo (b! "OneOf") (genList isPrint cm cs) σ)
  | .not c => fun σ => emitCode (genNot (genOpt isPrint cm c) σ)
  | .ref _ n => fun _ => emitCode (genReference isPrint cm n)

/-- Children of an array constraint. -/
def genArr (isPrint : Nat → Bool) (cm : GoStr) : ArrC Constraint → ArrC (Sched → G)
  | ⟨i, p, a, mn, mx, u⟩ => ⟨genOpt isPrint cm i, genList isPrint cm p, genOpt isPrint cm a, mn, mx, u⟩

/-- Children of an object constraint. -/
def genObj (isPrint : Nat → Bool) (cm : GoStr) : ObjC Constraint → ObjC (Sched → G)
  | ⟨ps, pats, a, req, pd, sd, mn, mx⟩ =>
    ⟨genProps isPrint cm ps, genPats isPrint cm pats, genOpt isPrint cm a, req, pd, genProps isPrint cm sd, mn, mx⟩

/-- Optional child. -/
def genOpt (isPrint : Nat → Bool) (cm : GoStr) : Option Constraint → Option (Sched → G)
  | none => none
  | some c => some (gen isPrint cm c)

/-- List of children. -/
def genList (isPrint : Nat → Bool) (cm : GoStr) : List Constraint → List (Sched → G)
  | [] => []
  | c :: cs => gen isPrint cm c :: genList isPrint cm cs

/-- Named children. -/
def genProps (isPrint : Nat → Bool) (cm : GoStr) : List (GoStr × Constraint) → List (GoStr × (Sched → G))
  | [] => []
  | (n, c) :: cs => (n, gen isPrint cm c) :: genProps isPrint cm cs

/-- Pattern children. -/
def genPats (isPrint : Nat → Bool) (cm : GoStr) : List (Nat × GoStr × Constraint) → List (Nat × GoStr × (Sched → G))
  | [] => []
  | (i, s, c) :: cs => (i, s, gen isPrint cm c) :: genPats isPrint cm cs
end

/-! ## `Process` -/

/-- What `Process` sees of a `*JSVal`: its name, its constraint map and its root (`none`: nil). `same` tells which of the
constraints registered under a name *is* the root (`v.root == rc`, an identity test; generator.go:147). -/
structure GenVal where
  name : GoStr
  refs : List (GoStr × Constraint)
  root : Option Constraint
  same : GoStr → Bool

/-- The inner merge loop (generator.go:41-47). -/
def mergeRefs (refs : List (GoStr × Constraint)) : List (GoStr × Constraint) → List (GoStr × Constraint)
  | [] => refs
  | (n, c) :: l => if (alookup n refs).isSome then mergeRefs refs l else mergeRefs (refs ++ [(n, c)]) l

/-- The merge loop (generator.go:40-53) from validator number `i` on. -/
def mergeAll (σ : Sched) : Nat → List GenVal → List (GoStr × Constraint) → List (GoStr × Constraint)
  | _, [], refs => refs
  | i, v :: l, refs => mergeAll σ (i + 1) l (mergeRefs refs (shuffle (σ.sub i).key v.refs))

/-- The naming of validators (generator.go:49-51), from number `i` on. -/
def nameVals : Nat → List GenVal → List GenVal
  | _, [] => []
  | i, v :: l => (if v.name = [] then { v with name := b! "V" ++ natDec i } else v) :: nameVals (i + 1) l

/-- `R<i>` for the reference names in order (generator.go:68-72), from number `i` on. -/
def refVars : Nat → List GoStr → List (GoStr × GoStr)
  | _, [] => []
  | i, n :: l => (n, b! "R" ++ natDec i) :: refVars (i + 1) l

/-- White space at the start of the text of a constraint (generator.go:85-92). That text starts with `jsval`, so only
single-byte spaces are considered; a text of spaces only stays as it is. -/
def dropSpace (s : GoStr) : GoStr :=
  let r := s.dropWhile (fun c => c == 0x20 || (0x09 ≤ c && c ≤ 0x0D))
  if r = [] then s else r

/-- `generateValidatorCode` (generator.go:137-163). `refs` is the merged table, `vars` its variables. -/
def genValidator (isPrint : Nat → Bool) (cm : GoStr) (refs : List (GoStr × Constraint)) (vars : List (GoStr × GoStr))
    (v : GenVal) (σ : Sched) : G :=
  catG ([.ok (b! "jsval.New()"), .ok (b! ".\nSetName(" ++ goQuote isPrint v.name ++ b! ")"),
    .ok (if cm ≠ [] then b! ".\nSetConstraintMap(" ++ cm ++ b! ")" else [])] ++
    (match (shuffle (σ.sub 0).key refs).find? (fun r => v.same r.1) with
      | some r => [.ok (b! ".\nSetRoot(" ++ (alookup r.1 vars).getD [] ++ b! ")")]
      | none =>
        [.ok (b! ".\nSetRoot(\n"),
         (match v.root with | some c => gen isPrint cm c (σ.sub 1) | none => emitCode (.ok [])),
         .ok (b! ",\n)\n")]))

/-- The assignments of the reference variables (generator.go:79-94), from number `i` on. -/
def genRefAssign (isPrint : Nat → Bool) (cm : GoStr) (refs : List (GoStr × Constraint)) (σ : Sched) :
    Nat → List (GoStr × GoStr) → List G
  | _, [] => []
  | i, (n, var) :: l =>
    [.ok (b! "\n" ++ var ++ b! " = "),
     (match alookup n refs with
      | some c => (gen isPrint cm c (σ.sub i)).map dropSpace
      | none => .ok [])] ++ genRefAssign isPrint cm refs σ (i + 1) l

/-- The assignments of the validator variables (generator.go:103-108), from number `i` on. -/
def genValAssign (isPrint : Nat → Bool) (cm : GoStr) (refs : List (GoStr × Constraint)) (vars : List (GoStr × GoStr))
    (σ : Sched) : Nat → List GenVal → List G
  | _, [] => []
  | i, v :: l =>
    [.ok (b! "\n" ++ v.name ++ b! " = "), emitCode (genValidator isPrint cm refs vars v (σ.sub i))] ++
    genValAssign isPrint cm refs vars σ (i + 1) l

/-- `sort.Sort(JSValSlice(validators))` (generator.go:102); modelled as a stable sort. -/
def sortVals (l : List GenVal) : List GenVal := l.insertionSort (fun a b => strLe a.name b.name = true)

/-- `Process` (generator.go:26-118) up to the text handed to `format.Source`. -/
def process (isPrint : Nat → Bool) (vals : List GenVal) (σ : Sched) : G :=
  let refs := mergeAll (σ.sub 0) 0 vals []
  let vals := nameVals 0 vals
  let cm : GoStr := if refs.length > 0 then b! "M" else []
  let vars := refVars 0 (sortStrings (refs.map (·.1)))
  catG ((sortStrings (vals.map (·.name))).map (fun n => .ok (b! "\nvar " ++ n ++ b! " *jsval.JSVal")) ++
    (if refs.length > 0 then
      [.ok (b! "\nvar " ++ cm ++ b! " *jsval.ConstraintMap")] ++
      vars.map (fun p => .ok (b! "\nvar " ++ p.2 ++ b! " jsval.Constraint"))
    else []) ++
    [.ok (b! "\nfunc init() {")] ++
    (if refs.length > 0 then
      [.ok (b! "\n" ++ cm ++ b! " = &jsval.ConstraintMap{}")] ++
      genRefAssign isPrint cm refs (σ.sub 1) 0 vars ++
      vars.map (fun p => .ok (b! "\n" ++ cm ++ b! ".SetReference(" ++ goQuote isPrint p.1 ++ b! ", " ++ p.2 ++ b! ")"))
    else []) ++
    genValAssign isPrint cm refs vars (σ.sub 2) 0 (sortVals vals) ++
    [.ok (b! "\n}")])

end Jsval
