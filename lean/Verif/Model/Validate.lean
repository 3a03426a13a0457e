import Verif.Model.Constraint
import Verif.Model.Domain
import Verif.Model.Maybe
/-!
# `Validate`, `HasDefault`, `DefaultValue`

Every method is a Lean function of the same shape.  Children are given by their semantics (`Sem`), so the
bodies below are not recursive; `denote` ties them together over the constraint tree and `sem` interprets
references.  `pdebug` calls are omitted throughout (they are no-ops unless built with a debug tag).
-/
namespace Jsval

/-- A `Validate` method: given the map-iteration schedule and the argument, its result and the argument
after the call (defaults are written into the argument). -/
abbrev Validator := Sched → GoVal → Res × GoVal

/-- `HasDefault()`/`DefaultValue()` combined: no default, a default, or the call does not return. -/
inductive Dflt where
  | none
  | some (v : GoVal)
  | abort (a : Abort)

/-- What callers can see of a constraint (interface.go:32-36). -/
structure Sem where
  dflt : Dflt
  val : Validator

/-- `defaultValue.HasDefault`/`DefaultValue` (basic.go:10-16). -/
def Dflt.ofOption : Option GoVal → Dflt
  | .none => .none
  | .some v => .some v

/-! ## Scalars -/

/-- `nullConstraint.Validate` (basic.go:38-56). `Array`/`UnsafePointer`/`Complex` kinds are not in the switch. -/
def nullCheck (v : GoVal) : Res :=
  match valueOf v with
  | none => .ok
  | some (.map true _) => .ok
  | some (.mapOther true _) => .ok
  | some (.slice true _) => .ok
  | some (.ptr none) => .ok
  | some (.iface .nil) => .ok
  | some (.other .chan true) => .ok
  | some (.other .func true) => .ok
  | _ => .err .notNull

/-- `BooleanConstraint.Validate` (bool.go:21-29). -/
def boolCheck (v : GoVal) : Res :=
  match valueOf v with
  | some (.bool _) => .ok
  | _ => .err .notBool

/-- `EnumConstraint.Validate` (enum.go:21-32). -/
def enumCheck : List GoVal → GoVal → Res
  | [], _ => .err .notInEnum
  | e :: es, v =>
    match goEq e v with
    | .error a => .abort a
    | .ok true => .ok
    | .ok false => enumCheck es v

/-- Run the next check only if this one passed (`if err … { return err }`). -/
def Res.andThen (r : Res) (k : Res) : Res :=
  match r with
  | .ok => k
  | r => r

/-- The minimum check (number.go:90-104). -/
def minCheck (c : NumC) (f : F64) : Res :=
  match c.minimum with
  | none => .ok
  | some m =>
    if c.exclMin then (if F64.le f m then .err .belowMinExcl else .ok)
    else (if F64.lt f m then .err .belowMin else .ok)

/-- The maximum check (number.go:106-119). -/
def maxCheck (c : NumC) (f : F64) : Res :=
  match c.maximum with
  | none => .ok
  | some m =>
    if c.exclMax then (if F64.le m f then .err .aboveMaxExcl else .ok)
    else (if F64.lt m f then .err .aboveMax else .ok)

/-- The multipleOf check (number.go:121-131). -/
def multCheck (c : NumC) (f : F64) : Res :=
  match c.multipleOf with
  | none => .ok
  | some m =>
    if !F64.eq m F64.zero then
      if !F64.eq (F64.mod f m) F64.zero then .err .notMultiple else .ok
    else .ok

/-- The enumeration check (number.go:133-137, string.go:125-129). -/
def enumOptCheck (e : Option (List GoVal)) (v : GoVal) : Res :=
  match e with
  | none => .ok
  | some l => enumCheck l v

/-- number.go:89-139, the checks on the float value. -/
def numCheckF (c : NumC) (f : F64) : Res :=
  (minCheck c f).andThen ((maxCheck c f).andThen ((multCheck c f).andThen
    (enumOptCheck c.enums (.float .f64 f))))

/-- `NumberConstraint.Validate` (number.go:65-140). -/
def numCheck (c : NumC) (v : GoVal) : Res :=
  match (valueOf v).indirect with
  | some (.float _ f) => numCheckF c f
  | _ => .err .notFloat

/-- `IntegerConstraint.Validate` (number.go:197-229). -/
def intCheck (c : NumC) (v : GoVal) : Res :=
  match (valueOf v).indirect with
  | some (.int _ n) => numCheck c (.float .f64 (F64.ofInt n))
  | some (.uint _ n) => numCheck c (.float .f64 (F64.ofInt n))
  | some (.float _ f) =>
    if !F64.eq (F64.floor f) f then .err .notIntegral
    else numCheck c (.float .f64 f)
  | _ => .err .notNumeric

/-- The maxLength check (string.go:55-62). -/
def maxLenCheck (c : StrC) (s : GoStr) : Res :=
  if c.maxLength > -1 ∧ (s.length : Int) > c.maxLength then .err (.tooLong c.maxLength) else .ok

/-- The minLength check (string.go:64-71). -/
def minLenCheck (c : StrC) (s : GoStr) : Res :=
  if c.minLength > -1 ∧ (s.length : Int) < c.minLength then .err (.tooShort c.minLength) else .ok

/-- The loop at string.go:88-94. Ranging over runes or over bytes makes no difference here: bytes of
multi-byte runes are above 0x7F and rejected just as the runes are. -/
def ipv4Chars (s : GoStr) : Bool := s.all (fun r => r == 0x2E || (0x30 ≤ r && r ≤ 0x39))

/-- The loop at string.go:100-106. -/
def ipv6Chars (s : GoStr) : Bool := s.all (fun r => r == 0x3A || (0x30 ≤ r && r ≤ 0x39))

/-- The format switch (string.go:73-114). -/
def formatCheck (ext : Ext) (fmt s : GoStr) : Res :=
  if fmt = b! "datetime" then (if (ext.timeParse s).isSome then .ok else .err .badDatetime)
  else if fmt = b! "email" then (if ext.mailOk s then .ok else .err .badEmail)
  else if fmt = b! "hostname" then (if isDomainName s then .ok else .err .badHostname)
  else if fmt = b! "ipv4" then
    (if !ipv4Chars s then .err .badIPv4 else if ext.ipOk s then .ok else .err .badIPv4)
  else if fmt = b! "ipv6" then
    (if !ipv6Chars s then .err .badIPv6 else if ext.ipOk s then .ok else .err .badIPv6)
  else if fmt = b! "uri" then (if ext.urlOk s then .ok else .err .badURI)
  else .ok

/-- The regular expression check (string.go:116-123). -/
def regexpCheck (ext : Ext) (c : StrC) (s : GoStr) : Res :=
  match c.regexp with
  | none => .ok
  | some rx => if ext.reMatch rx s then .ok else .err (.badRegexp s rx)

/-- string.go:53-131. -/
def strCheckS (ext : Ext) (c : StrC) (s : GoStr) : Res :=
  (maxLenCheck c s).andThen ((minLenCheck c s).andThen ((formatCheck ext c.format s).andThen
    ((regexpCheck ext c s).andThen (enumOptCheck c.enums (.str s)))))

/-- `StringConstraint.Validate` (string.go:30-132). -/
def strCheck (ext : Ext) (c : StrC) (v : GoVal) : Res :=
  match (valueOf v).indirect with
  | some (.str s) => strCheckS ext c s
  | _ => .err .notString

/-! ## Combinators -/

/-- `AnyConstraint.Validate` (combinations.go:49-60), from child number `i` on. -/
def anyLoop : Nat → List Sem → Validator
  | _, [] => fun _ v => (.err .anyNone, v)
  | i, c :: cs => fun σ v =>
    match c.val (σ.sub i) v with
    | (.ok, v') => (.ok, v')
    | (.err _, v') => anyLoop (i + 1) cs σ v'
    | (.abort a, v') => (.abort a, v')

/-- `AllConstraint.Validate` (combinations.go:82-94), from child number `i` on. -/
def allLoop : Nat → List Sem → Validator
  | _, [] => fun _ v => (.ok, v)
  | i, c :: cs => fun σ v =>
    match c.val (σ.sub i) v with
    | (.ok, v') => allLoop (i + 1) cs σ v'
    | (.err e, v') => (.err e, v')
    | (.abort a, v') => (.abort a, v')

/-- `OneOfConstraint.Validate` (combinations.go:116-135), from child number `i` on with this `count`. -/
def oneOfLoop : Nat → Nat → List Sem → Validator
  | _, count, [] => fun _ v =>
    if count = 0 then (.err .oneOfNone, v)
    else if count > 1 then (.err .oneOfMany, v)
    else (.ok, v)
  | i, count, c :: cs => fun σ v =>
    match c.val (σ.sub i) v with
    | (.ok, v') => oneOfLoop (i + 1) (count + 1) cs σ v'
    | (.err _, v') => oneOfLoop (i + 1) count cs σ v'
    | (.abort a, v') => (.abort a, v')

/-- `NotConstraint.Validate` (basic.go:76-90). -/
def notV : Option Sem → Validator
  | none => fun _ v => (.err .notNoChild, v)
  | some c => fun σ v =>
    match c.val (σ.sub 0) v with
    | (.ok, v') => (.err .notFailed, v')
    | (.err _, v') => (.ok, v')
    | (.abort a, v') => (.abort a, v')

/-! ## Arrays -/

/-- The uniqueness loop (array.go:59-68), with the renderings seen so far. -/
def uniqueLoop (ext : Ext) : List GoStr → List GoVal → Bool
  | _, [] => true
  | seen, x :: xs =>
    if ext.sprint x ∈ seen then false
    else uniqueLoop ext (ext.sprint x :: seen) xs

/-- Validate every element, in order, with one constraint (array.go:77-82 and 106-111), from index `i` on;
returns the elements after the calls. -/
def runItems (c : Sem) (σ : Sched) : Nat → List GoVal → Res × List GoVal
  | _, [] => (.ok, [])
  | i, x :: xs =>
    match c.val (σ.sub i) x with
    | (.ok, x') => let r := runItems c σ (i + 1) xs; (r.1, x' :: r.2)
    | (r, x') => (r, x' :: xs)

/-- The positional loop (array.go:87-98), from index `i` on. -/
def runPos (σ : Sched) : Nat → List Sem → List GoVal → Res × List GoVal
  | _, [], xs => (.ok, xs)
  | _, _ :: _, [] => (.ok, [])
  | i, c :: cs, x :: xs =>
    match c.val (σ.sub i) x with
    | (.ok, x') => let r := runPos σ (i + 1) cs xs; (r.1, x' :: r.2)
    | (r, x') => (r, x' :: xs)

/-- The additional items part (array.go:100-112). The loop really starts at `lp - 1`. -/
def runAdditional (c : ArrC Sem) (σ : Sched) (xs : List GoVal) : Res × List GoVal :=
  let lp := c.positional.length
  if lp > 0 ∧ xs.length > lp then
    match c.additional with
    | none => (.err .addlItems, xs)
    | some cadd =>
      let r := runItems cadd σ (lp - 1) (xs.drop (lp - 1))
      (r.1, xs.take (lp - 1) ++ r.2)
  else (.ok, xs)

/-- The element checks (array.go:71-113). -/
def arrayElems (c : ArrC Sem) (σ : Sched) (xs : List GoVal) : Res × List GoVal :=
  match c.items with
  | some celem => runItems celem (σ.sub 0) 0 xs
  | none =>
    match runPos (σ.sub 1) 0 c.positional xs with
    | (.ok, xs') => runAdditional c (σ.sub 2) xs'
    | r => r

/-- `ArrayConstraint.Validate` (array.go:21-115). -/
def arrayV (ext : Ext) (c : ArrC Sem) : Validator := fun σ v =>
  match valueOf v with
  | some (.slice n xs) =>
    if c.minItems > -1 ∧ (xs.length : Int) < c.minItems then (.err .fewItems, v)
    else if c.maxItems > -1 ∧ (xs.length : Int) > c.maxItems then (.err .manyItems, v)
    else if c.unique ∧ uniqueLoop ext [] xs = false then (.err .dupItem, v)
    else
      let r := arrayElems c σ xs
      (r.1, .slice n r.2)
  | _ => (.err .notSlice, v)

/-! ## Objects -/

/-- `getPropNames(rv)` (object.go:163-199). The registry lookup is a cache of `extract` (see
`Model/Registry.lean`). -/
def getPropNames (rv : RV) : Except Stop (List GoStr) :=
  match rv.indirect with
  | some (.map _ kvs) => .ok (kvs.map (·.1))
  | some (.mapOther _ n) => if n = 0 then .ok [] else .error (.err .mapKeys)
  | some (.struct fs) =>
    match structPropNames fs with
    | .ok l => .ok l
    | .error a => .error (.abort a)
  | some (.time _) => .ok []
  | some (.maybe _ _) => .error (.abort .panic)
  | _ => .error (.err .noPropNames)

/-- `getProp(rv, pname)` (object.go:291-321); `.ok none` is `zeroval`. -/
def getProp (rv : RV) (pname : GoStr) : Except Abort RV :=
  match rv with
  | some (.map _ kvs) => .ok (alookup pname kvs)
  | some (.mapOther _ _) => .error .panic
  | some (.struct fs) =>
    match extract fs with
    | none => .error .panic
    | some props =>
      match alookup pname props with
      | none => .ok none
      | some info => .ok (fieldByName info.fieldName fs)
  | some (.maybe _ _) => .error .panic
  | _ => .ok none

/-- `uint64` to `int64` conversion. -/
def wrapInt64 (n : Nat) : Int := if n < 2 ^ 63 then (n : Int) else (n : Int) - 2 ^ 64

/-- `coerceValue(val, f.Type())` (object.go:208-227) for a field of Maybe type `k`, by value. Only
`MaybeFloat` and `MaybeInt` have conversion targets; `none` is the panic of `vv.Type()` on nil. -/
def coerce (k : MaybeKind) (val : GoVal) : Option GoVal :=
  match k, val with
  | _, .nil => none
  | .float, .int _ n => some (.float .f64 (F64.ofInt n))
  | .float, .uint _ n => some (.float .f64 (F64.ofInt n))
  | .float, .float _ f => some (.float .f64 f)
  | .int, .int _ n => some (.int .int64 n)
  | .int, .uint _ n => some (.int .int64 (wrapInt64 n))
  | .int, .float _ f => some (.int .int64 f.truncInt)
  | _, v => some v

/-- `setProp` on a struct (object.go:245-285): `addressable` is `f.CanAddr()`. Setting a field that is not
a Maybe only happens behind a double indirection and is outside the model. -/
def setPropStruct (ext : Ext) (addressable : Bool) (fs : List (Field × GoVal)) (pname : GoStr) (val : GoVal) :
    Except Stop (List (Field × GoVal)) :=
  match extract fs with
  | none => .error (.abort .panic)
  | some props =>
    match (alookup pname props).bind (fun info => (fieldByName info.fieldName fs).map (info.fieldName, ·)) with
    | none => .error (.err (.noField pname))
    | some (fn, .maybe b p) =>
      match coerce p.kind val with
      | none => .error (.abort .panic)
      | some dv =>
        if addressable then
          match (MaybeSt.mk b p).Set ext dv with
          | (none, m') => .ok (setField fn (.maybe m'.valid m'.p) fs)
          | (some e, _) => .error (.err e)
        else .error (.abort .panic)
    | some (fn, .ptr (some (.maybe b p))) =>
      match val with
      | .nil => .error (.abort .panic)
      | dv =>
        match (MaybeSt.mk b p).Set ext dv with
        | (none, m') => .ok (setField fn (.ptr (some (.maybe m'.valid m'.p))) fs)
        | (some e, _) => .error (.err e)
    | some _ => .error (.abort .outside)

/-- `setProp` after its own dereference (object.go:241-288). -/
def setPropAt (ext : Ext) (addressable : Bool) (x : GoVal) (pname : GoStr) (val : GoVal) : Except Stop GoVal :=
  match x with
  | .map n kvs =>
    match val with
    | .nil => .ok (.map n (adelete pname kvs))
    | _ => if n then .error (.abort .panic) else .ok (.map n (ainsert pname val kvs))
  | .mapOther _ _ => .error (.abort .panic)
  | .struct fs => (setPropStruct ext addressable fs pname val).map .struct
  | .time _ => .error (.err (.noField pname))
  | .maybe _ _ => .error (.abort .panic)
  | _ => .error (.err .setPropKind)

/-- `setProp(rv, pname, val)` with its dereference (object.go:235-239). -/
def setPropRV (ext : Ext) (addressable : Bool) (rv : GoVal) (pname : GoStr) (val : GoVal) : Except Stop GoVal :=
  match rv with
  | .ptr (some y) => (setPropAt ext true y pname val).map (fun y' => .ptr (some y'))
  | .iface y => (setPropAt ext false y pname val).map .iface
  | x => setPropAt ext addressable x pname val

/-- `setProp` as called from `Validate`, where `rv` is `v` dereferenced once (object.go:336-340, 418). -/
def setProp (ext : Ext) (v : GoVal) (pname : GoStr) (val : GoVal) : Except Stop GoVal :=
  match v with
  | .ptr (some x) => (setPropRV ext true x pname val).map (fun x' => .ptr (some x'))
  | .iface y => (setPropRV ext false y pname val).map .iface
  | x => setPropAt ext false x pname val

/-- The value of property `pname` after a child validation mutated it to `x`. -/
def putAt (t : GoVal) (pname : GoStr) (x : GoVal) : GoVal :=
  match t with
  | .map n kvs => .map n (ainsert pname x kvs)
  | .struct fs =>
    match (extract fs).bind (alookup pname) with
    | some info => .struct (setField info.fieldName x fs)
    | none => .struct fs
  | t => t

/-- `putAt` on the object `v` points to. -/
def putProp (v : GoVal) (pname : GoStr) (x : GoVal) : GoVal :=
  match v with
  | .ptr (some t) => .ptr (some (putAt t pname x))
  | .iface t => .iface (putAt t pname x)
  | t => putAt t pname x

/-- Variables of `ObjectConstraint.Validate` that change during the loops. -/
structure ObjSt where
  v : GoVal
  premain : List GoStr
  pseen : List GoStr

/-- `for i, a := range l { … }` with early return. -/
def forLoop {α S : Type} (step : Nat → α → S → Res × S) : Nat → List α → S → Res × S
  | _, [], s => (.ok, s)
  | i, a :: l, s =>
    match step i a s with
    | (.ok, s') => forLoop step (i + 1) l s'
    | r => r

/-- Outcome of the existence switch (object.go:381-398): absent, or present with the value to validate and
whether that value is stored in the object (as opposed to a `Maybe.Value()` copy). -/
inductive PropView where
  | absent
  | present (x : GoVal) (stored : Bool)

/-- object.go:378-398. Entries of a map have static type `interface{}` and are never Maybes; struct fields
are. -/
def viewProp (rv : RV) (pname : GoStr) : Except Abort PropView :=
  match getProp rv pname with
  | .error a => .error a
  | .ok none => .ok .absent
  | .ok (some pval) =>
    match rv with
    | some (.struct _) =>
      match pval with
      | .maybe b p => .ok (if b then .present p.toGo false else .absent)
      | .ptr (some (.maybe b p)) => .ok (if b then .present p.toGo false else .absent)
      | x => .ok (.present x true)
    | _ => .ok (.present pval true)

/-- Body of the loop over declared properties (object.go:373-435). -/
def propStep (ext : Ext) (o : ObjC Sem) (σ : Sched) (i : Nat) (pc : GoStr × Sem) (st : ObjSt) : Res × ObjSt :=
  match viewProp (valueOf st.v).indirect pc.1 with
  | .error a => (.abort a, st)
  | .ok .absent =>
    if pc.1 ∈ o.required then (.err (.required pc.1), st)
    else
      match pc.2.dflt with
      | .abort a => (.abort a, st)
      | .none => (.ok, st)
      | .some dv =>
        match setProp ext st.v pc.1 dv with
        | .error (.err e) => (.err (.setDefault pc.1 e), st)
        | .error (.abort a) => (.abort a, st)
        | .ok v' => (.ok, { st with v := v' })
  | .ok (.present x stored) =>
    let premain := st.premain.filter (fun k => decide (k ≠ pc.1))
    let pseen := addName pc.1 st.pseen
    match pc.2.val (σ.sub i) x with
    | (r, x') =>
      let v' := if stored then putProp st.v pc.1 x' else st.v
      match r with
      | .ok => (.ok, ⟨v', premain, pseen⟩)
      | .err e => (.err (.prop pc.1 e), ⟨v', premain, pseen⟩)
      | .abort a => (.abort a, ⟨v', premain, pseen⟩)

/-- Body of the inner pattern loop (object.go:441-460). A missing value makes `pval.Interface()` panic. -/
def patStep (ext : Ext) (src : GoStr) (c : Sem) (σ : Sched) (i : Nat) (pname : GoStr) (st : ObjSt) : Res × ObjSt :=
  if ext.reMatch src pname = false then (.ok, st)
  else
    match getProp (valueOf st.v).indirect pname with
    | .error a => (.abort a, st)
    | .ok none => (.abort .panic, st)
    | .ok (some x) =>
      let premain := st.premain.filter (fun k => decide (k ≠ pname))
      let pseen := addName pname st.pseen
      match c.val (σ.sub i) x with
      | (r, x') =>
        let v' := putProp st.v pname x'
        match r with
        | .ok => (.ok, ⟨v', premain, pseen⟩)
        | .err e => (.err (.prop pname e), ⟨v', premain, pseen⟩)
        | .abort a => (.abort a, ⟨v', premain, pseen⟩)

/-- Body of the outer pattern loop (object.go:437-461): an inner loop over the remaining names. -/
def patOuter (ext : Ext) (σ : Sched) (j : Nat) (p : Nat × GoStr × Sem) (st : ObjSt) : Res × ObjSt :=
  forLoop (patStep ext p.2.1 p.2.2 ((σ.sub 4).sub j)) 0
    (shuffle ((σ.sub 3).sub j).key st.premain) st

/-- Body of the additional properties loop (object.go:469-474). -/
def addlStep (c : Sem) (σ : Sched) (i : Nat) (pname : GoStr) (st : ObjSt) : Res × ObjSt :=
  match getProp (valueOf st.v).indirect pname with
  | .error a => (.abort a, st)
  | .ok none => (.abort .panic, st)
  | .ok (some x) =>
    match c.val (σ.sub i) x with
    | (r, x') =>
      let st' := { st with v := putProp st.v pname x' }
      match r with
      | .ok => (.ok, st')
      | .err e => (.err (.addlProp pname e), st')
      | .abort a => (.abort a, st')

/-- object.go:463-475. -/
def addlPhase (o : ObjC Sem) (σ : Sched) (st : ObjSt) : Res × ObjSt :=
  if st.premain.length > 0 then
    match o.additional with
    | none => (.err .addlNotAllowed, st)
    | some c => forLoop (addlStep c (σ.sub 6)) 0 (shuffle (σ.sub 5).key st.premain) st
  else (.ok, st)

/-- The inner loop over `deps` (object.go:482-486). -/
def depsCheck (pseen : List GoStr) : List GoStr → Res
  | [] => .ok
  | d :: ds => if d ∈ pseen then depsCheck pseen ds else .err (.depMissing d)

/-- Body of the dependencies loop (object.go:477-497). -/
def depStep (o : ObjC Sem) (σ : Sched) (i : Nat) (pname : GoStr) (st : ObjSt) : Res × ObjSt :=
  if o.GetPropDependencies pname ≠ [] then
    (depsCheck st.pseen (o.GetPropDependencies pname), st)
  else
    match o.GetSchemaDependency pname with
    | none => (.ok, st)
    | some depc =>
      match depc.val (σ.sub i) st.v with
      | (r, v') => (r, { st with v := v' })

/-- `r; then k` on loop results. -/
def seqSt (r : Res × ObjSt) (k : ObjSt → Res × ObjSt) : Res × ObjSt :=
  match r with
  | (.ok, st) => k st
  | r => r

/-- The four loops of `ObjectConstraint.Validate` (object.go:366-499). -/
def objLoops (ext : Ext) (o : ObjC Sem) (σ : Sched) (st : ObjSt) : Res × ObjSt :=
  seqSt (forLoop (propStep ext o (σ.sub 1)) 0 (shuffle (σ.sub 0).key o.props) st) fun st =>
  seqSt (forLoop (patOuter ext σ) 0 (shuffle (σ.sub 2).key o.patterns) st) fun st =>
  seqSt (addlPhase o σ st) fun st =>
  forLoop (depStep o (σ.sub 8)) 0 (shuffle (σ.sub 7).key st.pseen) st

/-- The set of the names in `fields` (object.go:358-362). -/
def nameSet (fields : List GoStr) : List GoStr := fields.foldl (fun acc k => addName k acc) []

/-- `ObjectConstraint.Validate` (object.go:324-500). -/
def objectV (ext : Ext) (o : ObjC Sem) : Validator := fun σ v =>
  match getPropNames (valueOf v).indirect with
  | .error s => (s.toRes, v)
  | .ok fields =>
    let lf : Int := fields.length
    if o.minProps > -1 ∧ lf < o.minProps then (.err .fewProps, v)
    else if o.maxProps > -1 ∧ lf > o.maxProps then (.err .manyProps, v)
    else
      let r := objLoops ext o σ ⟨v, nameSet fields, []⟩
      (r.1, r.2.v)

/-! ## Tying the knot -/

/-- Interpretation of references: map number and name to behaviour. -/
abbrev RefSem := Nat → GoStr → Sem

/-- A validator that only looks at its argument. -/
def pureV (f : GoVal → Res) : Validator := fun _ v => (f v, v)

mutual
/-- Behaviour of a constraint tree, given the behaviour of references. `EnumConstraint` and the combinators
inherit "no default" from `emptyConstraint` (interface.go:142-171, basic.go:22-28). -/
def denote (ext : Ext) (ρ : RefSem) : Constraint → Sem
  | .empty => ⟨.none, fun _ v => (.ok, v)⟩                              -- basic.go:18-28
  | .null => ⟨.none, pureV nullCheck⟩
  | .boolean d => ⟨.ofOption d, pureV boolCheck⟩
  | .string c => ⟨.ofOption c.dflt, pureV (strCheck ext c)⟩
  | .number c => ⟨.ofOption c.dflt, pureV (numCheck c)⟩
  | .integer c => ⟨.ofOption c.dflt, pureV (intCheck c)⟩
  | .enum vals => ⟨.none, pureV (enumCheck vals)⟩
  | .array c => ⟨.none, arrayV ext (denoteArr ext ρ c)⟩
  | .object c => ⟨.none, objectV ext (denoteObj ext ρ c)⟩
  | .any cs => ⟨.none, anyLoop 0 (denoteList ext ρ cs)⟩
  | .all cs => ⟨.none, allLoop 0 (denoteList ext ρ cs)⟩
  | .oneOf cs => ⟨.none, oneOfLoop 0 0 (denoteList ext ρ cs)⟩
  | .not c => ⟨.none, notV (denoteOpt ext ρ c)⟩                          -- basic.go:65-72
  | .ref m n => ρ m n

/-- Children of an array constraint. -/
def denoteArr (ext : Ext) (ρ : RefSem) : ArrC Constraint → ArrC Sem
  | ⟨i, p, a, mn, mx, u⟩ => ⟨denoteOpt ext ρ i, denoteList ext ρ p, denoteOpt ext ρ a, mn, mx, u⟩

/-- Children of an object constraint. -/
def denoteObj (ext : Ext) (ρ : RefSem) : ObjC Constraint → ObjC Sem
  | ⟨ps, pats, a, req, pd, sd, mn, mx⟩ =>
    ⟨denoteProps ext ρ ps, denotePats ext ρ pats, denoteOpt ext ρ a, req, pd, denoteProps ext ρ sd, mn, mx⟩

/-- Optional child. -/
def denoteOpt (ext : Ext) (ρ : RefSem) : Option Constraint → Option Sem
  | none => none
  | some c => some (denote ext ρ c)

/-- List of children. -/
def denoteList (ext : Ext) (ρ : RefSem) : List Constraint → List Sem
  | [] => []
  | c :: cs => denote ext ρ c :: denoteList ext ρ cs

/-- Named children. -/
def denoteProps (ext : Ext) (ρ : RefSem) : List (GoStr × Constraint) → List (GoStr × Sem)
  | [] => []
  | (n, c) :: cs => (n, denote ext ρ c) :: denoteProps ext ρ cs

/-- Pattern children. -/
def denotePats (ext : Ext) (ρ : RefSem) : List (Nat × GoStr × Constraint) → List (Nat × GoStr × Sem)
  | [] => []
  | (i, s, c) :: cs => (i, s, denote ext ρ c) :: denotePats ext ρ cs
end

/-- The contents of the constraint maps. -/
abbrev Env := Nat → GoStr → Option Constraint

/-- Behaviour of a reference whose name is not in its map (reference.go:116-132, 148-151). -/
def unresolved (n : GoStr) : Sem := ⟨.none, fun _ v => (.err (.refNotFound n), v)⟩

/-- A reference followed too often: the call is still running. -/
def running : Sem := ⟨.abort .diverge, fun _ v => (.abort .diverge, v)⟩

/-- `ReferenceConstraint` (reference.go:116-153) against fixed maps, following at most `fuel` references along any
call chain. The caching of the resolved constraint is modelled in `Model/Reference.lean`. -/
def refSem (ext : Ext) (env : Env) : Nat → RefSem
  | 0 => fun _ _ => running
  | k + 1 => fun m n =>
    match env m n with
    | none => unresolved n
    | some c => denote ext (refSem ext env k) c

/-- Behaviour of a constraint against fixed maps, with this much fuel for references. -/
def sem (ext : Ext) (env : Env) (fuel : Nat) (c : Constraint) : Sem := denote ext (refSem ext env fuel) c

/-- The call returns `r` and leaves the argument as `v'`: it does so with some amount of fuel (and then with
any larger amount, `sem_mono` in `Lemmas/Refine.lean`). -/
def Returns (ext : Ext) (env : Env) (c : Constraint) (σ : Sched) (v : GoVal) (r : Res) (v' : GoVal) : Prop :=
  r ≠ .abort .diverge ∧ ∃ fuel, (sem ext env fuel c).val σ v = (r, v')

/-! ## `JSVal` -/

/-- A `JSVal` (interface.go:14-24); `root` is nil until `SetRoot`. -/
structure JSVal where
  name : GoStr
  root : Option Constraint

/-- How the error of `JSVal.Validate` names its validator: by name or by pointer. -/
inductive Who where
  | byName (n : GoStr)
  | byPointer
deriving DecidableEq, Repr

/-- Outcome of `JSVal.Validate`: `errors.Wrapf` of the root's error. -/
inductive JRes where
  | ok
  | err (w : Who) (e : Err)
  | abort (a : Abort)
deriving DecidableEq, Repr

/-- `JSVal.Validate` (jsval.go:22-28); `errors.Wrapf(nil, …)` is nil. A nil root panics. -/
def JSVal.validate (ext : Ext) (env : Env) (fuel : Nat) (j : JSVal) (σ : Sched) (v : GoVal) : JRes × GoVal :=
  match j.root with
  | none => (.abort .panic, v)
  | some c =>
    match (sem ext env fuel c).val σ v with
    | (.ok, v') => (.ok, v')
    | (.err e, v') => (.err (if j.name.length = 0 then .byPointer else .byName j.name) e, v')
    | (.abort a, v') => (.abort a, v')

end Jsval
