import Verif.Model.Validate
/-!
# Values with Go's types

`Model/Validate` knows plain values: scalars of predeclared types, `[]interface{}`, `map[string]interface{}`, and struct fields
whose static type is read off what they hold. Here values carry their types: defined types such as `type Color string`,
containers with other element and key types such as `[]string`, `map[string]int`, `map[Color]interface{}`, and struct fields with static types.
`reflect` shows the validator the kind of a value, which is that of the plain one. The functions below are those of
`Model/Validate` once more; they differ where the code asks for a type: comparison with `==`, keys and elements of maps, and whether a
field or an element implements `Maybe`.

Enumerations and defaults of constraints are plain values, as a validator built from a schema has them.
-/
namespace Jsval

/-- A Go type. `struct id` is a defined struct type with that name; interface types other than `interface{}` are left out. -/
inductive GoType where
  | bool
  | int (k : IntKind)
  | uint (k : UintKind)
  | float (k : FloatKind)
  | str
  | any
  | slice (e : GoType)
  | map (k e : GoType)
  | struct (id : GoStr)
  | ptr (e : GoType)
  | maybe (k : MaybeKind)
  | time
  | other (k : OtherKind)
  /-- `type n u` -/
  | named (n : GoStr) (u : GoType)
deriving DecidableEq, Repr

/-- The type underneath (Go specification, "Underlying types"); struct types stand for themselves. -/
def GoType.under : GoType → GoType
  | .named _ u => u.under
  | t => t

/-- Type literals, which have no name. -/
def GoType.isLiteral : GoType → Bool
  | .any | .slice _ | .map _ _ | .ptr _ => true
  | _ => false

/-- Whether `assignTo` of reflect lets a value of type `t` into a place of type `u` (Go specification, "Assignability"). -/
def GoType.assignable (t u : GoType) : Bool :=
  t == u || u.under == .any || (t.under == u.under && (t.isLiteral || u.isLiteral))

/-- `t.Implements(maybeif) || reflect.PtrTo(t).Implements(maybeif)` (structinfo.go:139, object.go:384). A type defined from a Maybe type
has neither `Set` nor `Value`. -/
def GoType.isMaybe : GoType → Bool
  | .maybe _ => true
  | .ptr (.maybe _) => true
  | _ => false

/-- A struct field with its static type. -/
structure TField extends Field where
  type : GoType

/-- Go values with their types. A scalar, slice or map has the name of its type if that is a defined one. An element or field of type
`interface{}` is the value in it. -/
inductive TVal where
  | nil
  | bool (n : Option GoStr) (b : Bool)
  | int (n : Option GoStr) (k : IntKind) (i : Int)
  | uint (n : Option GoStr) (k : UintKind) (i : Nat)
  | float (n : Option GoStr) (k : FloatKind) (f : F64)
  | str (n : Option GoStr) (s : GoStr)
  | slice (n : Option GoStr) (e : GoType) (isNil : Bool) (xs : List TVal)
  /-- a map whose keys are strings: the key type `k` is `string`, a type defined from it, or `interface{}` -/
  | map (n : Option GoStr) (k e : GoType) (isNil : Bool) (kvs : List (GoStr × TVal))
  /-- a map with another key type, or with a key in it that is not a string -/
  | mapOther (isNil : Bool) (n : Nat)
  | struct (id : GoStr) (fs : List (TField × TVal))
  | ptr (e : GoType) (p : Option TVal)
  | iface (v : TVal)
  | maybe (valid : Bool) (p : MaybeVal)
  | time (t : GoTime)
  | other (k : OtherKind) (isNil : Bool)

/-- The fields of a struct value. -/
abbrev TFields := List (TField × TVal)

/-- `n u` if there is a name, else `u`. -/
def GoType.called (u : GoType) : Option GoStr → GoType
  | none => u
  | some n => .named n u

/-- `reflect.TypeOf`; `mapOther` stands for several types, of which one is named here. -/
def TVal.typeOf : TVal → GoType
  | .nil => .any
  | .bool n _ => GoType.bool.called n
  | .int n k _ => (GoType.int k).called n
  | .uint n k _ => (GoType.uint k).called n
  | .float n k _ => (GoType.float k).called n
  | .str n _ => GoType.str.called n
  | .slice n e _ _ => (GoType.slice e).called n
  | .map n k e _ _ => (GoType.map k e).called n
  | .mapOther _ _ => .map (.int .int) .any
  | .struct id _ => .struct id
  | .ptr e _ => .ptr e
  | .iface _ => .any
  | .maybe _ p => .maybe p.kind
  | .time _ => .time
  | .other k _ => .other k

mutual
/-- What a value contains, without its types. -/
def TVal.content : TVal → GoVal
  | .nil => .nil
  | .bool _ b => .bool b
  | .int _ k i => .int k i
  | .uint _ k i => .uint k i
  | .float _ k f => .float k f
  | .str _ s => .str s
  | .slice _ _ n xs => .slice n (contentList xs)
  | .map _ _ _ n kvs => .map n (contentEntries kvs)
  | .mapOther n c => .mapOther n c
  | .struct _ fs => .struct (contentFields fs)
  | .ptr _ p => .ptr (contentOpt p)
  | .iface v => .iface v.content
  | .maybe b p => .maybe b p
  | .time t => .time t
  | .other k n => .other k n
def contentList : List TVal → List GoVal
  | [] => []
  | x :: xs => x.content :: contentList xs
def contentEntries : List (GoStr × TVal) → List (GoStr × GoVal)
  | [] => []
  | (k, x) :: l => (k, x.content) :: contentEntries l
def contentFields : List (TField × TVal) → List (Field × GoVal)
  | [] => []
  | (f, x) :: l => (f.toField, x.content) :: contentFields l
def contentOpt : Option TVal → Option GoVal
  | none => none
  | some x => some x.content
end

mutual
/-- A plain value with its types: predeclared ones, `[]interface{}`, `map[string]interface{}`. -/
def TVal.ofPlain : GoVal → TVal
  | .nil => .nil
  | .bool b => .bool none b
  | .int k i => .int none k i
  | .uint k i => .uint none k i
  | .float k f => .float none k f
  | .str s => .str none s
  | .slice n xs => .slice none .any n (plainElems xs)
  | .map n kvs => .map none .str .any n (plainEntries kvs)
  | .mapOther n c => .mapOther n c
  | .struct fs => .struct [] (plainFields fs)
  | .ptr p => plainPtr p
  | .iface v => .iface (TVal.ofPlain v)
  | .maybe b p => .maybe b p
  | .time t => .time t
  | .other k n => .other k n
def plainElems : List GoVal → List TVal
  | [] => []
  | x :: xs => TVal.ofPlain x :: plainElems xs
def plainEntries : List (GoStr × GoVal) → List (GoStr × TVal)
  | [] => []
  | (k, x) :: l => (k, TVal.ofPlain x) :: plainEntries l
def plainFields : List (Field × GoVal) → List (TField × TVal)
  | [] => []
  | (f, x) :: l => ({ f with type := (TVal.ofPlain x).typeOf }, TVal.ofPlain x) :: plainFields l
/-- A pointer to nothing may be of any pointer type but those to Maybes. -/
def plainPtr : Option GoVal → TVal
  | none => .ptr .any none
  | some x => .ptr (TVal.ofPlain x).typeOf (some (TVal.ofPlain x))
end

/-- `rv.Elem()` when the kind is Ptr or Interface, else `rv`; `none` is the zero Value. -/
def TVal.indirect : TVal → Option TVal
  | .nil => none
  | .ptr _ p => p
  | .iface .nil => none
  | .iface v => some v
  | v => some v

/-- The type is the one `ofPlain` gives, as far as `==` can tell scalars, slices and maps apart by it. -/
def TVal.isPlain : TVal → Bool
  | .bool n _ | .int n _ _ | .uint n _ _ | .float n _ _ | .str n _ => n == none
  | .slice n e _ _ => n == none && e == .any
  | .map n k e _ _ => n == none && k == .str && e == .any
  | _ => true

/-- `e == v` for a plain value `e` (enum.go:27): values of different types are not equal. -/
def goEqT (e : GoVal) (v : TVal) : Except Abort Bool :=
  if v.isPlain then goEq e v.content else .ok false

/-- `EnumConstraint.Validate` (enum.go:21-32). -/
def enumCheckT : List GoVal → TVal → Res
  | [], _ => .err .notInEnum
  | e :: es, v =>
    match goEqT e v with
    | .error a => .abort a
    | .ok true => .ok
    | .ok false => enumCheckT es v

/-- A `Validate` method on typed values. -/
abbrev ValidatorT := Sched → TVal → Res × TVal

/-- What callers can see of a constraint. -/
structure SemT where
  dflt : Dflt
  val : ValidatorT

/-- `AnyConstraint.Validate` (combinations.go:49-60). -/
def anyLoopT : Nat → List SemT → ValidatorT
  | _, [] => fun _ v => (.err .anyNone, v)
  | i, c :: cs => fun σ v =>
    match c.val (σ.sub i) v with
    | (.ok, v') => (.ok, v')
    | (.err _, v') => anyLoopT (i + 1) cs σ v'
    | (.abort a, v') => (.abort a, v')

/-- `AllConstraint.Validate` (combinations.go:82-94). -/
def allLoopT : Nat → List SemT → ValidatorT
  | _, [] => fun _ v => (.ok, v)
  | i, c :: cs => fun σ v =>
    match c.val (σ.sub i) v with
    | (.ok, v') => allLoopT (i + 1) cs σ v'
    | (.err e, v') => (.err e, v')
    | (.abort a, v') => (.abort a, v')

/-- `OneOfConstraint.Validate` (combinations.go:116-135). -/
def oneOfLoopT : Nat → Nat → List SemT → ValidatorT
  | _, count, [] => fun _ v =>
    if count = 0 then (.err .oneOfNone, v)
    else if count > 1 then (.err .oneOfMany, v)
    else (.ok, v)
  | i, count, c :: cs => fun σ v =>
    match c.val (σ.sub i) v with
    | (.ok, v') => oneOfLoopT (i + 1) (count + 1) cs σ v'
    | (.err _, v') => oneOfLoopT (i + 1) count cs σ v'
    | (.abort a, v') => (.abort a, v')

/-- `NotConstraint.Validate` (basic.go:76-90). -/
def notVT : Option SemT → ValidatorT
  | none => fun _ v => (.err .notNoChild, v)
  | some c => fun σ v =>
    match c.val (σ.sub 0) v with
    | (.ok, v') => (.err .notFailed, v')
    | (.err _, v') => (.ok, v')
    | (.abort a, v') => (.abort a, v')

/-- The uniqueness loop (array.go:59-68); `text` is `fmt.Sprintf("%s", v)`, which may well depend on types (`String` methods). -/
def uniqueLoopT (text : TVal → GoStr) : List GoStr → List TVal → Bool
  | _, [] => true
  | seen, x :: xs =>
    if text x ∈ seen then false
    else uniqueLoopT text (text x :: seen) xs

/-- array.go:77-82 and 106-111; `Index(i).Interface()` is the element, out of its interface if it is in one. -/
def runItemsT (c : SemT) (σ : Sched) : Nat → List TVal → Res × List TVal
  | _, [] => (.ok, [])
  | i, x :: xs =>
    match c.val (σ.sub i) x with
    | (.ok, x') => let r := runItemsT c σ (i + 1) xs; (r.1, x' :: r.2)
    | (r, x') => (r, x' :: xs)

/-- The positional loop (array.go:87-98). -/
def runPosT (σ : Sched) : Nat → List SemT → List TVal → Res × List TVal
  | _, [], xs => (.ok, xs)
  | _, _ :: _, [] => (.ok, [])
  | i, c :: cs, x :: xs =>
    match c.val (σ.sub i) x with
    | (.ok, x') => let r := runPosT σ (i + 1) cs xs; (r.1, x' :: r.2)
    | (r, x') => (r, x' :: xs)

/-- The additional items part (array.go:100-112). -/
def runAdditionalT (c : ArrC SemT) (σ : Sched) (xs : List TVal) : Res × List TVal :=
  let lp := c.positional.length
  if lp > 0 ∧ xs.length > lp then
    match c.additional with
    | none => (.err .addlItems, xs)
    | some cadd =>
      let r := runItemsT cadd σ (lp - 1) (xs.drop (lp - 1))
      (r.1, xs.take (lp - 1) ++ r.2)
  else (.ok, xs)

/-- The element checks (array.go:71-113). -/
def arrayElemsT (c : ArrC SemT) (σ : Sched) (xs : List TVal) : Res × List TVal :=
  match c.items with
  | some celem => runItemsT celem (σ.sub 0) 0 xs
  | none =>
    match runPosT (σ.sub 1) 0 c.positional xs with
    | (.ok, xs') => runAdditionalT c (σ.sub 2) xs'
    | r => r

/-- `ArrayConstraint.Validate` (array.go:21-115). -/
def arrayVT (text : TVal → GoStr) (c : ArrC SemT) : ValidatorT := fun σ v =>
  match v with
  | .slice n e z xs =>
    if c.minItems > -1 ∧ (xs.length : Int) < c.minItems then (.err .fewItems, v)
    else if c.maxItems > -1 ∧ (xs.length : Int) > c.maxItems then (.err .manyItems, v)
    else if c.unique ∧ uniqueLoopT text [] xs = false then (.err .dupItem, v)
    else
      let r := arrayElemsT c σ xs
      (r.1, .slice n e z r.2)
  | _ => (.err .notSlice, v)

/-! ## Structs -/

mutual
/-- `extract` (structinfo.go:114-165): whether a field is a Maybe is asked of its static type (139). -/
def extractIntoT (props : List (GoStr × PropInfo)) : List (TField × TVal) → Option (List (GoStr × PropInfo))
  | [] => some props
  | p :: rest => (extractFieldT props p).bind (fun props' => extractIntoT props' rest)
/-- The loop body (structinfo.go:117-163); `NumField` of an embedded interface panics. -/
def extractFieldT (props : List (GoStr × PropInfo)) : TField × TVal → Option (List (GoStr × PropInfo))
  | (f, v) =>
    if f.anonymous then (if f.type = .any then none else extractEmbT props v)
    else if f.exported then
      match jsonName f.name f.tag with
      | none => some props
      | some n => some (ainsert n ⟨f.name, f.type.isMaybe⟩ props)
    else some props
/-- An embedded field (structinfo.go:118-124). -/
def extractEmbT (props : List (GoStr × PropInfo)) : TVal → Option (List (GoStr × PropInfo))
  | .struct _ fs => (extractIntoT [] fs).map (fun info => info.foldl (fun acc kv => ainsert kv.1 kv.2 acc) props)
  | .time _ => some props
  | _ => none
end

/-- `extract(t)` for the type of this struct (structinfo.go:114). -/
def extractT (fs : TFields) : Option (List (GoStr × PropInfo)) := extractIntoT [] fs

/-- All fields named `fn` at embedding depth exactly `d`, with their static types. -/
def fieldsAtT (fn : GoStr) : Nat → TFields → List (GoType × TVal)
  | 0, fs => (fs.filter (fun p => decide (p.1.name = fn))).map (fun p => (p.1.type, p.2))
  | d + 1, fs => fs.flatMap (fun p =>
      if p.1.anonymous then
        match p.2 with
        | .struct _ fs' => fieldsAtT fn d fs'
        | _ => []
      else [])

/-- `reflect.Value.FieldByName(fn)` with the type of the field. At which depth it finds the field depends on names and nesting only, and so
is read off the contents (`fieldDepth`). -/
def fieldByNameT (fn : GoStr) (fs : TFields) : Option (GoType × TVal) :=
  (fieldDepth fn (contentFields fs)).bind (fun d => (fieldsAtT fn d fs).head?)

/-- Overwrite the fields named `fn` at depth `d`. -/
def fieldsSetT (fn : GoStr) (x : TVal) : Nat → TFields → TFields
  | 0, fs => fs.map (fun p => if p.1.name = fn then (p.1, x) else p)
  | d + 1, fs => fs.map (fun p =>
      if p.1.anonymous then
        match p.2 with
        | .struct id fs' => (p.1, .struct id (fieldsSetT fn x d fs'))
        | _ => p
      else p)

/-- Store `x` in the field found by `FieldByName(fn)`. -/
def setFieldT (fn : GoStr) (x : TVal) (fs : TFields) : TFields :=
  match fieldDepth fn (contentFields fs) with
  | none => fs
  | some d => fieldsSetT fn x d fs

/-- `MethodByName("Valid").Call(nil)` (structinfo.go:48-50): `Valid` is promoted from the embedded `ValidFlag`, so a nil
pointer panics. -/
def maybeValidT : TVal → Option Bool
  | .maybe b _ => some b
  | .ptr _ (some (.maybe b _)) => some b
  | _ => none

/-- `StructInfo.PropNames` (structinfo.go:41-59). -/
def propNamesLoopT (fs : TFields) : List (GoStr × PropInfo) → Except Abort (List GoStr)
  | [] => .ok []
  | (pname, info) :: rest =>
    if info.isMaybe then
      match (fieldByNameT info.fieldName fs).bind (fun p => maybeValidT p.2) with
      | none => .error .panic
      | some false => propNamesLoopT fs rest
      | some true => (propNamesLoopT fs rest).map (pname :: ·)
    else (propNamesLoopT fs rest).map (pname :: ·)

/-- Property names of a struct value (object.go:180-193). -/
def structPropNamesT (fs : TFields) : Except Abort (List GoStr) :=
  match extractT fs with
  | none => .error .panic
  | some props => propNamesLoopT fs props

/-! ## Objects -/

/-- `getPropNames(rv)` (object.go:163-199): the keys of a map with keys in interfaces have kind Interface, not String. -/
def getPropNamesT (rv : Option TVal) : Except Stop (List GoStr) :=
  match rv.bind TVal.indirect with
  | some (.map _ k _ _ kvs) =>
    if k.under = .str then .ok (kvs.map (·.1))
    else if kvs.isEmpty then .ok [] else .error (.err .mapKeys)
  | some (.mapOther _ n) => if n = 0 then .ok [] else .error (.err .mapKeys)
  | some (.struct _ fs) =>
    match structPropNamesT fs with
    | .ok l => .ok l
    | .error a => .error (.abort a)
  | some (.time _) => .ok []
  | some (.maybe _ _) => .error (.abort .panic)
  | _ => .error (.err .noPropNames)

/-- `getProp(rv, pname)` (object.go:291-321) with the static type of the result. `MapIndex` panics unless a string can be assigned to the key type. -/
def getPropT (rv : Option TVal) (pname : GoStr) : Except Abort (Option (GoType × TVal)) :=
  match rv with
  | some (.map _ k e _ kvs) => if GoType.str.assignable k then .ok ((alookup pname kvs).map (e, ·)) else .error .panic
  | some (.mapOther _ _) => .error .panic
  | some (.struct _ fs) =>
    match extractT fs with
    | none => .error .panic
    | some props =>
      match alookup pname props with
      | none => .ok none
      | some info => .ok (fieldByNameT info.fieldName fs)
  | some (.maybe _ _) => .error .panic
  | _ => .ok none

/-- `setProp` on a struct (object.go:245-285). Only Maybe fields can be absent; setting others is outside the model, as in `setPropStruct`. -/
def setPropStructT (ext : Ext) (addressable : Bool) (fs : TFields) (pname : GoStr) (val : GoVal) : Except Stop TFields :=
  match extractT fs with
  | none => .error (.abort .panic)
  | some props =>
    match (alookup pname props).bind (fun info => (fieldByNameT info.fieldName fs).map (info.fieldName, ·)) with
    | none => .error (.err (.noField pname))
    | some (fn, .maybe _, .maybe b p) =>
      match coerce p.kind val with
      | none => .error (.abort .panic)
      | some dv =>
        if addressable then
          match (MaybeSt.mk b p).Set ext dv with
          | (none, m') => .ok (setFieldT fn (.maybe m'.valid m'.p) fs)
          | (some e, _) => .error (.err e)
        else .error (.abort .panic)
    | some (fn, .ptr (.maybe k), .ptr _ (some (.maybe b p))) =>
      match val with
      | .nil => .error (.abort .panic)
      | dv =>
        match (MaybeSt.mk b p).Set ext dv with
        | (none, m') => .ok (setFieldT fn (.ptr (.maybe k) (some (.maybe m'.valid m'.p))) fs)
        | (some e, _) => .error (.err e)
    | some (_, .ptr (.maybe _), .ptr _ none) => .error (.abort .panic)
    | some _ => .error (.abort .outside)

/-- `setProp` after its own dereference (object.go:241-288). `SetMapIndex` panics if the key or the value cannot be assigned to the
types the map has for them. -/
def setPropAtT (ext : Ext) (addressable : Bool) (x : TVal) (pname : GoStr) (val : GoVal) : Except Stop TVal :=
  match x with
  | .map n k e z kvs =>
    if GoType.str.assignable k then
      match val with
      | .nil => .ok (.map n k e z (adelete pname kvs))
      | _ =>
        if z then .error (.abort .panic)
        else if (TVal.ofPlain val).typeOf.assignable e then .ok (.map n k e z (ainsert pname (.ofPlain val) kvs))
        else .error (.abort .panic)
    else .error (.abort .panic)
  | .mapOther _ _ => .error (.abort .panic)
  | .struct id fs => (setPropStructT ext addressable fs pname val).map (.struct id)
  | .time _ => .error (.err (.noField pname))
  | .maybe _ _ => .error (.abort .panic)
  | _ => .error (.err .setPropKind)

/-- `setProp(rv, pname, val)` with its dereference (object.go:235-239). -/
def setPropRVT (ext : Ext) (addressable : Bool) (rv : TVal) (pname : GoStr) (val : GoVal) : Except Stop TVal :=
  match rv with
  | .ptr e (some y) => (setPropAtT ext true y pname val).map (fun y' => .ptr e (some y'))
  | .iface y => (setPropAtT ext false y pname val).map .iface
  | x => setPropAtT ext addressable x pname val

/-- `setProp` as called from `Validate` (object.go:336-340, 418). -/
def setPropT (ext : Ext) (v : TVal) (pname : GoStr) (val : GoVal) : Except Stop TVal :=
  match v with
  | .ptr e (some x) => (setPropRVT ext true x pname val).map (fun x' => .ptr e (some x'))
  | .iface y => (setPropRVT ext false y pname val).map .iface
  | x => setPropAtT ext false x pname val

/-- The object after a child validation changed the value of property `pname` to `x`. -/
def putAtT (t : TVal) (pname : GoStr) (x : TVal) : TVal :=
  match t with
  | .map n k e z kvs => .map n k e z (ainsert pname x kvs)
  | .struct id fs =>
    match (extractT fs).bind (alookup pname) with
    | some info => .struct id (setFieldT info.fieldName x fs)
    | none => .struct id fs
  | t => t

/-- `putAtT` on the object `v` points to. -/
def putPropT (v : TVal) (pname : GoStr) (x : TVal) : TVal :=
  match v with
  | .ptr e (some t) => .ptr e (some (putAtT t pname x))
  | .iface t => .iface (putAtT t pname x)
  | t => putAtT t pname x

/-- Variables of `ObjectConstraint.Validate` that change during the loops. -/
structure ObjStT where
  v : TVal
  premain : List GoStr
  pseen : List GoStr

/-- Outcome of the existence switch (object.go:381-398). -/
inductive PropViewT where
  | absent
  | present (x : TVal) (stored : Bool)

/-- object.go:378-398: elements of maps can be Maybes as well as fields, if that is their static type. -/
def viewPropT (rv : Option TVal) (pname : GoStr) : Except Abort PropViewT :=
  match getPropT rv pname with
  | .error a => .error a
  | .ok none => .ok .absent
  | .ok (some (t, x)) =>
    if t.isMaybe then
      match x with
      | .maybe b p => .ok (if b then .present (.ofPlain p.toGo) false else .absent)
      | .ptr _ (some (.maybe b p)) => .ok (if b then .present (.ofPlain p.toGo) false else .absent)
      | _ => .error .panic
    else .ok (.present x true)

/-- Body of the loop over declared properties (object.go:373-435). -/
def propStepT (ext : Ext) (o : ObjC SemT) (σ : Sched) (i : Nat) (pc : GoStr × SemT) (st : ObjStT) : Res × ObjStT :=
  match viewPropT st.v.indirect pc.1 with
  | .error a => (.abort a, st)
  | .ok .absent =>
    if pc.1 ∈ o.required then (.err (.required pc.1), st)
    else
      match pc.2.dflt with
      | .abort a => (.abort a, st)
      | .none => (.ok, st)
      | .some dv =>
        match setPropT ext st.v pc.1 dv with
        | .error (.err e) => (.err (.setDefault pc.1 e), st)
        | .error (.abort a) => (.abort a, st)
        | .ok v' => (.ok, { st with v := v' })
  | .ok (.present x stored) =>
    let premain := st.premain.filter (fun k => decide (k ≠ pc.1))
    let pseen := addName pc.1 st.pseen
    match pc.2.val (σ.sub i) x with
    | (r, x') =>
      let v' := if stored then putPropT st.v pc.1 x' else st.v
      match r with
      | .ok => (.ok, ⟨v', premain, pseen⟩)
      | .err e => (.err (.prop pc.1 e), ⟨v', premain, pseen⟩)
      | .abort a => (.abort a, ⟨v', premain, pseen⟩)

/-- Body of the inner pattern loop (object.go:441-460). -/
def patStepT (ext : Ext) (src : GoStr) (c : SemT) (σ : Sched) (i : Nat) (pname : GoStr) (st : ObjStT) : Res × ObjStT :=
  if ext.reMatch src pname = false then (.ok, st)
  else
    match getPropT st.v.indirect pname with
    | .error a => (.abort a, st)
    | .ok none => (.abort .panic, st)
    | .ok (some (_, x)) =>
      let premain := st.premain.filter (fun k => decide (k ≠ pname))
      let pseen := addName pname st.pseen
      match c.val (σ.sub i) x with
      | (r, x') =>
        let v' := putPropT st.v pname x'
        match r with
        | .ok => (.ok, ⟨v', premain, pseen⟩)
        | .err e => (.err (.prop pname e), ⟨v', premain, pseen⟩)
        | .abort a => (.abort a, ⟨v', premain, pseen⟩)

/-- Body of the outer pattern loop (object.go:437-461). -/
def patOuterT (ext : Ext) (σ : Sched) (j : Nat) (p : Nat × GoStr × SemT) (st : ObjStT) : Res × ObjStT :=
  forLoop (patStepT ext p.2.1 p.2.2 ((σ.sub 4).sub j)) 0
    (shuffle ((σ.sub 3).sub j).key st.premain) st

/-- Body of the additional properties loop (object.go:469-474). -/
def addlStepT (c : SemT) (σ : Sched) (i : Nat) (pname : GoStr) (st : ObjStT) : Res × ObjStT :=
  match getPropT st.v.indirect pname with
  | .error a => (.abort a, st)
  | .ok none => (.abort .panic, st)
  | .ok (some (_, x)) =>
    match c.val (σ.sub i) x with
    | (r, x') =>
      let st' := { st with v := putPropT st.v pname x' }
      match r with
      | .ok => (.ok, st')
      | .err e => (.err (.addlProp pname e), st')
      | .abort a => (.abort a, st')

/-- object.go:463-475. -/
def addlPhaseT (o : ObjC SemT) (σ : Sched) (st : ObjStT) : Res × ObjStT :=
  if st.premain.length > 0 then
    match o.additional with
    | none => (.err .addlNotAllowed, st)
    | some c => forLoop (addlStepT c (σ.sub 6)) 0 (shuffle (σ.sub 5).key st.premain) st
  else (.ok, st)

/-- Body of the dependencies loop (object.go:477-497). -/
def depStepT (o : ObjC SemT) (σ : Sched) (i : Nat) (pname : GoStr) (st : ObjStT) : Res × ObjStT :=
  if o.GetPropDependencies pname ≠ [] then
    (depsCheck st.pseen (o.GetPropDependencies pname), st)
  else
    match o.GetSchemaDependency pname with
    | none => (.ok, st)
    | some depc =>
      match depc.val (σ.sub i) st.v with
      | (r, v') => (r, { st with v := v' })

/-- `r; then k` on loop results. -/
def seqStT (r : Res × ObjStT) (k : ObjStT → Res × ObjStT) : Res × ObjStT :=
  match r with
  | (.ok, st) => k st
  | r => r

/-- The four loops of `ObjectConstraint.Validate` (object.go:366-499). -/
def objLoopsT (ext : Ext) (o : ObjC SemT) (σ : Sched) (st : ObjStT) : Res × ObjStT :=
  seqStT (forLoop (propStepT ext o (σ.sub 1)) 0 (shuffle (σ.sub 0).key o.props) st) fun st =>
  seqStT (forLoop (patOuterT ext σ) 0 (shuffle (σ.sub 2).key o.patterns) st) fun st =>
  seqStT (addlPhaseT o σ st) fun st =>
  forLoop (depStepT o (σ.sub 8)) 0 (shuffle (σ.sub 7).key st.pseen) st

/-- `ObjectConstraint.Validate` (object.go:324-500). -/
def objectVT (ext : Ext) (o : ObjC SemT) : ValidatorT := fun σ v =>
  match getPropNamesT v.indirect with
  | .error s => (s.toRes, v)
  | .ok fields =>
    let lf : Int := fields.length
    if o.minProps > -1 ∧ lf < o.minProps then (.err .fewProps, v)
    else if o.maxProps > -1 ∧ lf > o.maxProps then (.err .manyProps, v)
    else
      let r := objLoopsT ext o σ ⟨v, nameSet fields, []⟩
      (r.1, r.2.v)

/-! ## Tying the knot -/

/-- Interpretation of references. -/
abbrev RefSemT := Nat → GoStr → SemT

/-- A validator that only looks at its argument. -/
def pureVT (f : TVal → Res) : ValidatorT := fun _ v => (f v, v)

mutual
/-- Behaviour of a constraint tree on typed values. The checks of scalars look at kinds (`rv.Kind()`) and read the value with
`rv.String()`, `rv.Int()`, `rv.Float()` (basic.go:44-56, bool.go:22-28, string.go:41-53, number.go:77-88, 209-228), so they are those of the contents. -/
def denoteT (ext : Ext) (text : TVal → GoStr) (ρ : RefSemT) : Constraint → SemT
  | .empty => ⟨.none, fun _ v => (.ok, v)⟩
  | .null => ⟨.none, pureVT fun v => nullCheck v.content⟩
  | .boolean d => ⟨.ofOption d, pureVT fun v => boolCheck v.content⟩
  | .string c => ⟨.ofOption c.dflt, pureVT fun v => strCheck ext c v.content⟩
  | .number c => ⟨.ofOption c.dflt, pureVT fun v => numCheck c v.content⟩
  | .integer c => ⟨.ofOption c.dflt, pureVT fun v => intCheck c v.content⟩
  | .enum vals => ⟨.none, pureVT (enumCheckT vals)⟩
  | .array c => ⟨.none, arrayVT text (denoteArrT ext text ρ c)⟩
  | .object c => ⟨.none, objectVT ext (denoteObjT ext text ρ c)⟩
  | .any cs => ⟨.none, anyLoopT 0 (denoteListT ext text ρ cs)⟩
  | .all cs => ⟨.none, allLoopT 0 (denoteListT ext text ρ cs)⟩
  | .oneOf cs => ⟨.none, oneOfLoopT 0 0 (denoteListT ext text ρ cs)⟩
  | .not c => ⟨.none, notVT (denoteOptT ext text ρ c)⟩
  | .ref m n => ρ m n

def denoteArrT (ext : Ext) (text : TVal → GoStr) (ρ : RefSemT) : ArrC Constraint → ArrC SemT
  | ⟨i, p, a, mn, mx, u⟩ => ⟨denoteOptT ext text ρ i, denoteListT ext text ρ p, denoteOptT ext text ρ a, mn, mx, u⟩

def denoteObjT (ext : Ext) (text : TVal → GoStr) (ρ : RefSemT) : ObjC Constraint → ObjC SemT
  | ⟨ps, pats, a, req, pd, sd, mn, mx⟩ =>
    ⟨denotePropsT ext text ρ ps, denotePatsT ext text ρ pats, denoteOptT ext text ρ a, req, pd, denotePropsT ext text ρ sd, mn, mx⟩

def denoteOptT (ext : Ext) (text : TVal → GoStr) (ρ : RefSemT) : Option Constraint → Option SemT
  | none => none
  | some c => some (denoteT ext text ρ c)

def denoteListT (ext : Ext) (text : TVal → GoStr) (ρ : RefSemT) : List Constraint → List SemT
  | [] => []
  | c :: cs => denoteT ext text ρ c :: denoteListT ext text ρ cs

def denotePropsT (ext : Ext) (text : TVal → GoStr) (ρ : RefSemT) : List (GoStr × Constraint) → List (GoStr × SemT)
  | [] => []
  | (n, c) :: cs => (n, denoteT ext text ρ c) :: denotePropsT ext text ρ cs

def denotePatsT (ext : Ext) (text : TVal → GoStr) (ρ : RefSemT) : List (Nat × GoStr × Constraint) → List (Nat × GoStr × SemT)
  | [] => []
  | (i, s, c) :: cs => (i, s, denoteT ext text ρ c) :: denotePatsT ext text ρ cs
end

/-- A reference against fixed maps (reference.go:116-153), as `refSem`. -/
def refSemT (ext : Ext) (text : TVal → GoStr) (env : Env) : Nat → RefSemT
  | 0 => fun _ _ => ⟨.abort .diverge, fun _ v => (.abort .diverge, v)⟩
  | k + 1 => fun m n =>
    match env m n with
    | none => ⟨.none, fun _ v => (.err (.refNotFound n), v)⟩
    | some c => denoteT ext text (refSemT ext text env k) c

/-- Behaviour of a constraint on typed values. -/
def semT (ext : Ext) (text : TVal → GoStr) (env : Env) (fuel : Nat) (c : Constraint) : SemT :=
  denoteT ext text (refSemT ext text env fuel) c

end Jsval
