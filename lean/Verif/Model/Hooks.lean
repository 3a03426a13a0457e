import Verif.Model.Validate
/-!
# Structs with property methods

A struct type may come with methods `GetPropNames`, `GetPropValue`, `SetPropValue` (object.go:11-18, 229-231); then
`ObjectConstraint.Validate` asks them instead of the fields. `Model/Validate` treats structs without such methods; here is
the same validation with them. Everything but the three accessors is as there, and without methods the two agree
(`C90_conservative`).

The methods belong to the method set of the struct type itself, not of the pointer to it: the package asks
`rv.Interface()` and `rv.MethodByName` on the struct, where methods with pointer receivers are not found.
-/
namespace Jsval

/-- The fields of a struct value. -/
abbrev Fields := List (Field × GoVal)

/-- What the methods of struct types do. They may look at and change what the fields hold (through maps and pointers in
them); other state is not modelled. -/
structure Hooks where
  /-- `GetPropNames()`: `none` if there is no such method, `some none` if it returns an error -/
  names : Fields → Option (Option (List GoStr))
  /-- `GetPropValue(pname)`, likewise; `some (some .nil)` is `nil, nil` -/
  value : Fields → GoStr → Option (Option GoVal)
  /-- `SetPropValue(pname, val)` if there is such a method: its error and the fields after the call. The method has the
  type `func(string, interface{}) error`; with another one the call may panic. -/
  set : Fields → Option (GoStr → GoVal → Option Err × Fields)
  /-- the fields after the value handed out by `GetPropValue(pname)` has been changed to `x` by a nested validation -/
  put : Fields → GoStr → GoVal → Fields

/-- No struct type has any of the methods. -/
def noHooks : Hooks := ⟨fun _ => none, fun _ _ => none, fun _ => none, fun fs _ _ => fs⟩

variable (hk : Hooks)

/-- `getPropNames(rv)` (object.go:163-199); an error from the method falls back to the fields (181-186). -/
def getPropNamesH (rv : RV) : Except Stop (List GoStr) :=
  match rv.indirect with
  | some (.struct fs) =>
    match hk.names fs with
    | some (some l) => .ok l
    | _ => getPropNames rv
  | _ => getPropNames rv

/-- `getProp(rv, pname)` (object.go:291-321); an error from the method falls back to the fields (298-303), and
`reflect.ValueOf(nil)` is `zeroval`. -/
def getPropH (rv : RV) (pname : GoStr) : Except Abort RV :=
  match rv with
  | some (.struct fs) =>
    match hk.value fs pname with
    | some (some x) => .ok (valueOf x)
    | _ => getProp rv pname
  | _ => getProp rv pname

/-- `setProp` on a struct (object.go:245-285): the result and the fields afterwards. `Call` panics on the zero Value, that
is on a nil default. Without `SetPropValue` the field is what `getProp` gives, hence what `GetPropValue` returns: a copy,
which only a pointer to a Maybe lets through. -/
def setPropStructH (ext : Ext) (addressable : Bool) (fs : Fields) (pname : GoStr) (val : GoVal) : Option Stop × Fields :=
  match hk.set fs with
  | some f =>
    match val with
    | .nil => (some (.abort .panic), fs)
    | _ =>
      match f pname val with
      | (none, fs') => (none, fs')
      | (some e, fs') => (some (.err e), fs')
  | none =>
    match hk.value fs pname with
    | some (some x) =>
      match x with
      | .nil => (some (.err (.noField pname)), fs)
      | .maybe _ _ => (some (.abort .panic), fs)
      | .ptr (some (.maybe b p)) =>
        match val with
        | .nil => (some (.abort .panic), fs)
        | dv =>
          match (MaybeSt.mk b p).Set ext dv with
          | (none, m') => (none, hk.put fs pname (.ptr (some (.maybe m'.valid m'.p))))
          | (some e, _) => (some (.err e), fs)
      | _ => (some (.abort .outside), fs)
    | _ =>
      match setPropStruct ext addressable fs pname val with
      | .ok fs' => (none, fs')
      | .error s => (some s, fs)

/-- `setProp` after its own dereference (object.go:241-288). -/
def setPropAtH (ext : Ext) (addressable : Bool) (x : GoVal) (pname : GoStr) (val : GoVal) : Option Stop × GoVal :=
  match x with
  | .struct fs => let r := setPropStructH hk ext addressable fs pname val; (r.1, .struct r.2)
  | x =>
    match setPropAt ext addressable x pname val with
    | .ok x' => (none, x')
    | .error s => (some s, x)

/-- `setProp(rv, pname, val)` with its dereference (object.go:235-239). -/
def setPropRVH (ext : Ext) (addressable : Bool) (rv : GoVal) (pname : GoStr) (val : GoVal) : Option Stop × GoVal :=
  match rv with
  | .ptr (some y) => let r := setPropAtH hk ext true y pname val; (r.1, .ptr (some r.2))
  | .iface y => let r := setPropAtH hk ext false y pname val; (r.1, .iface r.2)
  | x => setPropAtH hk ext addressable x pname val

/-- `setProp` as called from `Validate`, where `rv` is `v` dereferenced once (object.go:336-340, 418). -/
def setPropH (ext : Ext) (v : GoVal) (pname : GoStr) (val : GoVal) : Option Stop × GoVal :=
  match v with
  | .ptr (some x) => let r := setPropRVH hk ext true x pname val; (r.1, .ptr (some r.2))
  | .iface y => let r := setPropRVH hk ext false y pname val; (r.1, .iface r.2)
  | x => setPropAtH hk ext false x pname val

/-- The object after a child validation changed the value of property `pname` to `x`. -/
def putAtH (t : GoVal) (pname : GoStr) (x : GoVal) : GoVal :=
  match t with
  | .struct fs =>
    match hk.value fs pname with
    | some (some _) => .struct (hk.put fs pname x)
    | _ => putAt (.struct fs) pname x
  | t => putAt t pname x

/-- `putAtH` on the object `v` points to. -/
def putPropH (v : GoVal) (pname : GoStr) (x : GoVal) : GoVal :=
  match v with
  | .ptr (some t) => .ptr (some (putAtH hk t pname x))
  | .iface t => .iface (putAtH hk t pname x)
  | t => putAtH hk t pname x

/-- object.go:378-398; what `GetPropValue` returns may be a Maybe, just as a field. -/
def viewPropH (rv : RV) (pname : GoStr) : Except Abort PropView :=
  match getPropH hk rv pname with
  | .error a => .error a
  | .ok none => .ok .absent
  | .ok (some pval) =>
    match rv with
    | some (.struct _) =>
      match pval with
      | .maybe b p => .ok (if b then .present p.toGo false else .absent)
      | .ptr (some (.maybe b p)) => .ok (if b then .present p.toGo false else .absent)
      | x => .ok (.present x true)
    | _ => .ok (.present pval true)

/-- Body of the loop over declared properties (object.go:373-435). -/
def propStepH (ext : Ext) (o : ObjC Sem) (σ : Sched) (i : Nat) (pc : GoStr × Sem) (st : ObjSt) : Res × ObjSt :=
  match viewPropH hk (valueOf st.v).indirect pc.1 with
  | .error a => (.abort a, st)
  | .ok .absent =>
    if pc.1 ∈ o.required then (.err (.required pc.1), st)
    else
      match pc.2.dflt with
      | .abort a => (.abort a, st)
      | .none => (.ok, st)
      | .some dv =>
        match setPropH hk ext st.v pc.1 dv with
        | (some (.err e), v') => (.err (.setDefault pc.1 e), { st with v := v' })
        | (some (.abort a), v') => (.abort a, { st with v := v' })
        | (none, v') => (.ok, { st with v := v' })
  | .ok (.present x stored) =>
    let premain := st.premain.filter (fun k => decide (k ≠ pc.1))
    let pseen := addName pc.1 st.pseen
    match pc.2.val (σ.sub i) x with
    | (r, x') =>
      let v' := if stored then putPropH hk st.v pc.1 x' else st.v
      match r with
      | .ok => (.ok, ⟨v', premain, pseen⟩)
      | .err e => (.err (.prop pc.1 e), ⟨v', premain, pseen⟩)
      | .abort a => (.abort a, ⟨v', premain, pseen⟩)

/-- Body of the inner pattern loop (object.go:441-460). A missing value makes `pval.Interface()` panic. -/
def patStepH (ext : Ext) (src : GoStr) (c : Sem) (σ : Sched) (i : Nat) (pname : GoStr) (st : ObjSt) : Res × ObjSt :=
  if ext.reMatch src pname = false then (.ok, st)
  else
    match getPropH hk (valueOf st.v).indirect pname with
    | .error a => (.abort a, st)
    | .ok none => (.abort .panic, st)
    | .ok (some x) =>
      let premain := st.premain.filter (fun k => decide (k ≠ pname))
      let pseen := addName pname st.pseen
      match c.val (σ.sub i) x with
      | (r, x') =>
        let v' := putPropH hk st.v pname x'
        match r with
        | .ok => (.ok, ⟨v', premain, pseen⟩)
        | .err e => (.err (.prop pname e), ⟨v', premain, pseen⟩)
        | .abort a => (.abort a, ⟨v', premain, pseen⟩)

/-- Body of the outer pattern loop (object.go:437-461): an inner loop over the remaining names. -/
def patOuterH (ext : Ext) (σ : Sched) (j : Nat) (p : Nat × GoStr × Sem) (st : ObjSt) : Res × ObjSt :=
  forLoop (patStepH hk ext p.2.1 p.2.2 ((σ.sub 4).sub j)) 0
    (shuffle ((σ.sub 3).sub j).key st.premain) st

/-- Body of the additional properties loop (object.go:469-474). -/
def addlStepH (c : Sem) (σ : Sched) (i : Nat) (pname : GoStr) (st : ObjSt) : Res × ObjSt :=
  match getPropH hk (valueOf st.v).indirect pname with
  | .error a => (.abort a, st)
  | .ok none => (.abort .panic, st)
  | .ok (some x) =>
    match c.val (σ.sub i) x with
    | (r, x') =>
      let st' := { st with v := putPropH hk st.v pname x' }
      match r with
      | .ok => (.ok, st')
      | .err e => (.err (.addlProp pname e), st')
      | .abort a => (.abort a, st')

/-- object.go:463-475. -/
def addlPhaseH (o : ObjC Sem) (σ : Sched) (st : ObjSt) : Res × ObjSt :=
  if st.premain.length > 0 then
    match o.additional with
    | none => (.err .addlNotAllowed, st)
    | some c => forLoop (addlStepH hk c (σ.sub 6)) 0 (shuffle (σ.sub 5).key st.premain) st
  else (.ok, st)

/-- The four loops of `ObjectConstraint.Validate` (object.go:366-499); the last one does not ask for properties. -/
def objLoopsH (ext : Ext) (o : ObjC Sem) (σ : Sched) (st : ObjSt) : Res × ObjSt :=
  seqSt (forLoop (propStepH hk ext o (σ.sub 1)) 0 (shuffle (σ.sub 0).key o.props) st) fun st =>
  seqSt (forLoop (patOuterH hk ext σ) 0 (shuffle (σ.sub 2).key o.patterns) st) fun st =>
  seqSt (addlPhaseH hk o σ st) fun st =>
  forLoop (depStep o (σ.sub 8)) 0 (shuffle (σ.sub 7).key st.pseen) st

/-- `ObjectConstraint.Validate` (object.go:324-500). -/
def objectVH (ext : Ext) (o : ObjC Sem) : Validator := fun σ v =>
  match getPropNamesH hk (valueOf v).indirect with
  | .error s => (s.toRes, v)
  | .ok fields =>
    let lf : Int := fields.length
    if o.minProps > -1 ∧ lf < o.minProps then (.err .fewProps, v)
    else if o.maxProps > -1 ∧ lf > o.maxProps then (.err .manyProps, v)
    else
      let r := objLoopsH hk ext o σ ⟨v, nameSet fields, []⟩
      (r.1, r.2.v)

mutual
/-- Behaviour of a constraint tree on values with property methods; `denote` but for objects. -/
def denoteH (ext : Ext) (ρ : RefSem) : Constraint → Sem
  | .empty => ⟨.none, fun _ v => (.ok, v)⟩
  | .null => ⟨.none, pureV nullCheck⟩
  | .boolean d => ⟨.ofOption d, pureV boolCheck⟩
  | .string c => ⟨.ofOption c.dflt, pureV (strCheck ext c)⟩
  | .number c => ⟨.ofOption c.dflt, pureV (numCheck c)⟩
  | .integer c => ⟨.ofOption c.dflt, pureV (intCheck c)⟩
  | .enum vals => ⟨.none, pureV (enumCheck vals)⟩
  | .array ⟨i, p, a, mn, mx, u⟩ =>
    ⟨.none, arrayV ext ⟨denoteOptH ext ρ i, denoteListH ext ρ p, denoteOptH ext ρ a, mn, mx, u⟩⟩
  | .object ⟨ps, pats, a, req, pd, sd, mn, mx⟩ =>
    ⟨.none, objectVH hk ext ⟨denotePropsH ext ρ ps, denotePatsH ext ρ pats, denoteOptH ext ρ a, req, pd,
      denotePropsH ext ρ sd, mn, mx⟩⟩
  | .any cs => ⟨.none, anyLoop 0 (denoteListH ext ρ cs)⟩
  | .all cs => ⟨.none, allLoop 0 (denoteListH ext ρ cs)⟩
  | .oneOf cs => ⟨.none, oneOfLoop 0 0 (denoteListH ext ρ cs)⟩
  | .not c => ⟨.none, notV (denoteOptH ext ρ c)⟩
  | .ref m n => ρ m n

/-- Optional child. -/
def denoteOptH (ext : Ext) (ρ : RefSem) : Option Constraint → Option Sem
  | none => none
  | some c => some (denoteH ext ρ c)

/-- List of children. -/
def denoteListH (ext : Ext) (ρ : RefSem) : List Constraint → List Sem
  | [] => []
  | c :: cs => denoteH ext ρ c :: denoteListH ext ρ cs

/-- Named children. -/
def denotePropsH (ext : Ext) (ρ : RefSem) : List (GoStr × Constraint) → List (GoStr × Sem)
  | [] => []
  | (n, c) :: cs => (n, denoteH ext ρ c) :: denotePropsH ext ρ cs

/-- Pattern children. -/
def denotePatsH (ext : Ext) (ρ : RefSem) : List (Nat × GoStr × Constraint) → List (Nat × GoStr × Sem)
  | [] => []
  | (i, s, c) :: cs => (i, s, denoteH ext ρ c) :: denotePatsH ext ρ cs
end

/-- `ReferenceConstraint` (reference.go:116-153), as `refSem`. -/
def refSemH (ext : Ext) (env : Env) : Nat → RefSem
  | 0 => fun _ _ => running
  | k + 1 => fun m n =>
    match env m n with
    | none => unresolved n
    | some c => denoteH hk ext (refSemH ext env k) c

/-- Behaviour of a constraint on values with property methods, against fixed maps. -/
def semH (ext : Ext) (env : Env) (fuel : Nat) (c : Constraint) : Sem := denoteH hk ext (refSemH hk ext env fuel) c

end Jsval
