import Verif.Model.Value
/-!
# Struct inspection (structinfo.go) and `FieldByName`
-/
namespace Jsval

/-- `PropInfo` (structinfo.go:10-15). -/
structure PropInfo where
  fieldName : GoStr
  isMaybe : Bool
deriving DecidableEq, Repr

/-- A Go map as an association list: lookup. -/
def alookup {β : Type _} (k : GoStr) : List (GoStr × β) → Option β
  | [] => none
  | (k', v) :: l => if k' = k then some v else alookup k l

/-- A Go map as an association list: `m[k] = v`. -/
def ainsert {β : Type _} (k : GoStr) (v : β) : List (GoStr × β) → List (GoStr × β)
  | [] => [(k, v)]
  | (k', v') :: l => if k' = k then (k, v) :: l else (k', v') :: ainsert k v l

/-- A Go map as an association list: `delete(m, k)`. -/
def adelete {β : Type _} (k : GoStr) (l : List (GoStr × β)) : List (GoStr × β) :=
  l.filter (fun p => decide (p.1 ≠ k))

/-- The loop at structinfo.go:152-158 computing `flen`; `j` is the loop index, `flen` the variable. -/
def flenLoop : List UInt8 → Nat → Nat → Nat
  | [], _, flen => flen
  | c :: cs, j, flen => if c == 44 then flen else flenLoop cs (j + 1) j

/-- The property name a field with this Go name and json tag gets (structinfo.go:144-162);
`none` when the tag is `"-"` (structinfo.go:133). -/
def jsonName (goName tag : GoStr) : Option GoStr :=
  if tag = b! "-" then none
  else match tag with
    | [] => some goName
    | c :: _ =>
      if c == 44 then some goName
      else some (tag.take (flenLoop tag 0 0 + 1))

/-- `fv.Type.Implements(maybeif) || reflect.PtrTo(fv.Type).Implements(maybeif)` (structinfo.go:139,
object.go:384), for a field or property holding this value. Simplification: the static type is read off
the value, so a nil pointer counts as a pointer to a non-Maybe type. -/
def isMaybeVal : GoVal → Bool
  | .maybe _ _ => true
  | .ptr (some (.maybe _ _)) => true
  | _ => false

mutual
/-- `extract` (structinfo.go:114-165), as the loop from field `i` on with accumulator `props`.
`none` is a panic: `NumField` of an embedded field that is not a struct. -/
def extractInto (props : List (GoStr × PropInfo)) : List (Field × GoVal) → Option (List (GoStr × PropInfo))
  | [] => some props
  | p :: rest => (extractField props p).bind (fun props' => extractInto props' rest)
/-- The loop body (structinfo.go:117-163). -/
def extractField (props : List (GoStr × PropInfo)) : Field × GoVal → Option (List (GoStr × PropInfo))
  | (f, v) =>
    if f.anonymous then extractEmb props v
    else if f.exported then
      match jsonName f.name f.tag with
      | none => some props
      | some n => some (ainsert n ⟨f.name, isMaybeVal v⟩ props)
    else some props
/-- An embedded field (structinfo.go:118-124). A `Maybe*` struct embeds the non-struct `ValidFlag`, a `time.Time` has
only unexported fields. Map iteration order at structinfo.go:120 is irrelevant because the keys of `info` are
distinct. -/
def extractEmb (props : List (GoStr × PropInfo)) : GoVal → Option (List (GoStr × PropInfo))
  | .struct fs => (extractInto [] fs).map (fun info => info.foldl (fun acc kv => ainsert kv.1 kv.2 acc) props)
  | .time _ => some props
  | _ => none
end

/-- `extract(t)` for the type of this struct (structinfo.go:114). -/
def extract (fs : List (Field × GoVal)) : Option (List (GoStr × PropInfo)) := extractInto [] fs

/-- All fields named `fn` at embedding depth exactly `d`. -/
def fieldsAt (fn : GoStr) : Nat → List (Field × GoVal) → List GoVal
  | 0, fs => (fs.filter (fun p => decide (p.1.name = fn))).map (·.2)
  | d + 1, fs => fs.flatMap (fun p =>
      if p.1.anonymous then
        match p.2 with
        | .struct fs' => fieldsAt fn d fs'
        | _ => []
      else [])

mutual
/-- Embedding depth of a struct type. -/
def embDepth : List (Field × GoVal) → Nat
  | [] => 0
  | p :: rest => max (embDepthF p) (embDepth rest)
/-- … of one field. -/
def embDepthF : Field × GoVal → Nat
  | (_, v) => embDepthV v
/-- … of one value. -/
def embDepthV : GoVal → Nat
  | .struct fs => embDepth fs + 1
  | _ => 0
end

/-- The embedding depth at which `reflect.Value.FieldByName(fn)` finds its field: the shallowest depth
with a field of that name, which must be unique there. -/
def fieldDepth (fn : GoStr) (fs : List (Field × GoVal)) : Option Nat :=
  ((List.range (embDepth fs + 1)).find? (fun d => !(fieldsAt fn d fs).isEmpty)).bind
    (fun d => if (fieldsAt fn d fs).length = 1 then some d else none)

/-- `reflect.Value.FieldByName(fn)`; `none` is the zero Value. -/
def fieldByName (fn : GoStr) (fs : List (Field × GoVal)) : Option GoVal :=
  (fieldDepth fn fs).bind (fun d => (fieldsAt fn d fs).head?)

/-- Overwrite the fields named `fn` at depth `d`. -/
def fieldsSet (fn : GoStr) (x : GoVal) : Nat → List (Field × GoVal) → List (Field × GoVal)
  | 0, fs => fs.map (fun p => if p.1.name = fn then (p.1, x) else p)
  | d + 1, fs => fs.map (fun p =>
      if p.1.anonymous then
        match p.2 with
        | .struct fs' => (p.1, .struct (fieldsSet fn x d fs'))
        | _ => p
      else p)

/-- Store `x` in the field found by `FieldByName(fn)`. -/
def setField (fn : GoStr) (x : GoVal) (fs : List (Field × GoVal)) : List (Field × GoVal) :=
  match fieldDepth fn fs with
  | none => fs
  | some d => fieldsSet fn x d fs

/-- `fv.MethodByName("Valid").Call(nil)` on a Maybe field (structinfo.go:48-50): `none` is a panic
(no such method). -/
def maybeValid : GoVal → Option Bool
  | .maybe b _ => some b
  | .ptr (some (.maybe b _)) => some b
  | _ => none

/-- `StructInfo.PropNames` (structinfo.go:41-59), the loop over `si.props`. The order of the result is
irrelevant to its callers, which build a set from it and take its length. -/
def propNamesLoop (fs : List (Field × GoVal)) : List (GoStr × PropInfo) → Except Abort (List GoStr)
  | [] => .ok []
  | (pname, info) :: rest =>
    if info.isMaybe then
      match (fieldByName info.fieldName fs).bind maybeValid with
      | none => .error .panic
      | some false => propNamesLoop fs rest
      | some true => (propNamesLoop fs rest).map (pname :: ·)
    else (propNamesLoop fs rest).map (pname :: ·)

/-- Property names of a struct value (object.go:180-193 without user hooks). -/
def structPropNames (fs : List (Field × GoVal)) : Except Abort (List GoStr) :=
  match extract fs with
  | none => .error .panic
  | some props => propNamesLoop fs props

end Jsval
