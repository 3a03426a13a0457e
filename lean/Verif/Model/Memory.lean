import Verif.Model.Validate
/-!
# Validation of documents in memory

In `Model/Validate` values are trees. Here maps are objects in a memory, so a map can occur at several places of a
document, inside itself, in several documents and in the defaults of a validator. Covered are documents of the kind
`encoding/json` makes: scalars, slices and maps with string keys. `Validate` becomes a program of map operations: what
`reflect` does on one map (`MapIndex`, `MapKeys`, `SetMapIndex`) is one step, so is a call of `fmt.Sprintf` (which reads
a whole value). The bodies below are those of `Model/Validate`, at the same lines of the Go code.
-/
namespace Jsval

/-- A value in an `interface{}`. The validator never writes to slices, so they need no address. -/
inductive MVal where
  /-- anything that is neither a slice nor a map with string keys -/
  | atom (a : GoVal)
  | slice (isNil : Bool) (xs : List MVal)
  /-- a map, by address; `none` is the nil map -/
  | map (addr : Option Nat)

/-- The entries of every map. -/
abbrev Memory := Nat → List (GoStr × MVal)

/-- A program of map operations. -/
inductive Prog (α : Type) where
  | ret (a : α)
  /-- `rv.MapIndex(p)` -/
  | look (l : Nat) (p : GoStr) (k : Option MVal → Prog α)
  /-- `rv.MapKeys()` -/
  | keys (l : Nat) (k : List GoStr → Prog α)
  /-- `rv.SetMapIndex(p, x)`; `none` is the zero Value, which deletes -/
  | set (l : Nat) (p : GoStr) (x : Option MVal) (k : Prog α)
  /-- `fmt.Sprintf("%s", h)` -/
  | sprint (h : MVal) (k : GoStr → Prog α)

namespace Prog
variable {α β : Type}

/-- One program after another. -/
def bind : Prog α → (α → Prog β) → Prog β
  | .ret a, f => f a
  | .look l p k, f => .look l p fun o => (k o).bind f
  | .keys l k, f => .keys l fun ks => (k ks).bind f
  | .set l p x k, f => .set l p x (k.bind f)
  | .sprint h k, f => .sprint h fun s => (k s).bind f

instance : Monad Prog where
  pure := .ret
  bind := bind

end Prog

/-- The memory after `rv.SetMapIndex(p, x)`. -/
def Memory.put (H : Memory) (l : Nat) (p : GoStr) (x : Option MVal) : Memory := fun l' =>
  if l' = l then
    match x with
    | some x => ainsert p x (H l)
    | none => adelete p (H l)
  else H l'

/-- Running a program alone; `show_` is `fmt.Sprintf("%s", …)`. -/
def Prog.run {α : Type} (show_ : Memory → MVal → GoStr) : Prog α → Memory → α × Memory
  | .ret a, H => (a, H)
  | .look l p k, H => (k (alookup p (H l))).run show_ H
  | .keys l k, H => (k ((H l).map (·.1))).run show_ H
  | .set l p x k, H => k.run show_ (H.put l p x)
  | .sprint h k, H => (k (show_ H h)).run show_ H

/-- What a check of scalars sees of a value: its kind and, if it is a scalar, its contents. -/
def MVal.face : MVal → GoVal
  | .atom a => a
  | .slice n _ => .slice n []
  | .map none => .map true []
  | .map (some _) => .map false []

/-- A `Validate` method. -/
abbrev MValidator := Sched → MVal → Prog Res

/-- What callers can see of a constraint (interface.go:32-36). -/
structure MSem where
  dflt : Dflt
  val : MValidator

/-! ## Combinators -/

/-- combinations.go:49-60 -/
def anyLoopM : Nat → List MSem → MValidator
  | _, [] => fun _ _ => .ret (.err .anyNone)
  | i, c :: cs => fun σ h => do
    match ← c.val (σ.sub i) h with
    | .ok => .ret .ok
    | .err _ => anyLoopM (i + 1) cs σ h
    | .abort a => .ret (.abort a)

/-- combinations.go:82-94 -/
def allLoopM : Nat → List MSem → MValidator
  | _, [] => fun _ _ => .ret .ok
  | i, c :: cs => fun σ h => do
    match ← c.val (σ.sub i) h with
    | .ok => allLoopM (i + 1) cs σ h
    | .err e => .ret (.err e)
    | .abort a => .ret (.abort a)

/-- combinations.go:116-135 -/
def oneOfLoopM : Nat → Nat → List MSem → MValidator
  | _, count, [] => fun _ _ =>
    if count = 0 then .ret (.err .oneOfNone)
    else if count > 1 then .ret (.err .oneOfMany)
    else .ret .ok
  | i, count, c :: cs => fun σ h => do
    match ← c.val (σ.sub i) h with
    | .ok => oneOfLoopM (i + 1) (count + 1) cs σ h
    | .err _ => oneOfLoopM (i + 1) count cs σ h
    | .abort a => .ret (.abort a)

/-- basic.go:76-90 -/
def notM : Option MSem → MValidator
  | none => fun _ _ => .ret (.err .notNoChild)
  | some c => fun σ h => do
    match ← c.val (σ.sub 0) h with
    | .ok => .ret (.err .notFailed)
    | .err _ => .ret .ok
    | .abort a => .ret (.abort a)

/-! ## Arrays -/

/-- array.go:59-68 -/
def uniqueLoopM : List GoStr → List MVal → Prog Bool
  | _, [] => .ret true
  | seen, x :: xs => .sprint x fun s => if s ∈ seen then .ret false else uniqueLoopM (s :: seen) xs

/-- array.go:77-82 and 106-111 -/
def runItemsM (c : MSem) (σ : Sched) : Nat → List MVal → Prog Res
  | _, [] => .ret .ok
  | i, x :: xs => do
    match ← c.val (σ.sub i) x with
    | .ok => runItemsM c σ (i + 1) xs
    | r => .ret r

/-- array.go:87-98 -/
def runPosM (σ : Sched) : Nat → List MSem → List MVal → Prog Res
  | _, [], _ => .ret .ok
  | _, _ :: _, [] => .ret .ok
  | i, c :: cs, x :: xs => do
    match ← c.val (σ.sub i) x with
    | .ok => runPosM σ (i + 1) cs xs
    | r => .ret r

/-- array.go:100-112 -/
def runAdditionalM (c : ArrC MSem) (σ : Sched) (xs : List MVal) : Prog Res :=
  let lp := c.positional.length
  if lp > 0 ∧ xs.length > lp then
    match c.additional with
    | none => .ret (.err .addlItems)
    | some cadd => runItemsM cadd σ (lp - 1) (xs.drop (lp - 1))
  else .ret .ok

/-- array.go:71-113 -/
def arrayElemsM (c : ArrC MSem) (σ : Sched) (xs : List MVal) : Prog Res :=
  match c.items with
  | some celem => runItemsM celem (σ.sub 0) 0 xs
  | none => do
    match ← runPosM (σ.sub 1) 0 c.positional xs with
    | .ok => runAdditionalM c (σ.sub 2) xs
    | r => .ret r

/-- array.go:57-69: the uniqueness check, if asked for. -/
def uniqueM (c : ArrC MSem) (xs : List MVal) : Prog Bool := if c.unique then uniqueLoopM [] xs else .ret true

/-- array.go:21-115 -/
def arrayM (c : ArrC MSem) : MValidator := fun σ h =>
  match h with
  | .slice _ xs =>
    if c.minItems > -1 ∧ (xs.length : Int) < c.minItems then .ret (.err .fewItems)
    else if c.maxItems > -1 ∧ (xs.length : Int) > c.maxItems then .ret (.err .manyItems)
    else do
      match ← uniqueM c xs with
      | false => .ret (.err .dupItem)
      | true => arrayElemsM c σ xs
  | _ => .ret (.err .notSlice)

/-! ## Objects -/

/-- object.go:163-199 -/
def getPropNamesM : MVal → Prog (Except Stop (List GoStr))
  | .map none => .ret (.ok [])
  | .map (some l) => .keys l fun ks => .ret (.ok ks)
  | .slice _ _ => .ret (.error (.err .noPropNames))
  | .atom a => .ret (getPropNames (valueOf a).indirect)

/-- object.go:291-321 -/
def getPropM (p : GoStr) : MVal → Prog (Except Abort (Option MVal))
  | .map none => .ret (.ok none)
  | .map (some l) => .look l p fun o => .ret (.ok o)
  | .slice _ _ => .ret (.ok none)
  | .atom a => .ret ((getProp (valueOf a).indirect p).map (·.map .atom))

/-- object.go:229-289. Setting properties of atoms other than `time.Time` does not occur where they are no objects. -/
def setPropM (ext : Ext) (p : GoStr) (dv : MVal) : MVal → Prog (Except Stop Unit)
  | .map none =>
    match dv with
    | .atom .nil => .ret (.ok ())
    | _ => .ret (.error (.abort .panic))
  | .map (some l) =>
    match dv with
    | .atom .nil => .set l p none (.ret (.ok ()))
    | dv => .set l p (some dv) (.ret (.ok ()))
  | .slice _ _ => .ret (.error (.err .setPropKind))
  | .atom a =>
    match setProp ext a p dv.face with
    | .error s => .ret (.error s)
    | .ok _ => .ret (.error (.abort .outside))

/-- Variables of `ObjectConstraint.Validate` that change during the loops. -/
structure MSt where
  premain : List GoStr
  pseen : List GoStr

/-- `for i, a := range l { … }` with early return. -/
def forLoopM {α S : Type} (step : Nat → α → S → Prog (Res × S)) : Nat → List α → S → Prog (Res × S)
  | _, [], s => .ret (.ok, s)
  | i, a :: l, s => do
    match ← step i a s with
    | (.ok, s') => forLoopM step (i + 1) l s'
    | r => .ret r

/-- `premain` and `pseen` after a property was looked at (object.go:424-428, 452-453). -/
def MSt.saw (st : MSt) (p : GoStr) : MSt := ⟨st.premain.filter (fun k => decide (k ≠ p)), addName p st.pseen⟩

/-- object.go:373-435; `mem` is where the defaults are. -/
def propStepM (ext : Ext) (mem : GoVal → MVal) (o : ObjC MSem) (h : MVal) (σ : Sched) (i : Nat) (pc : GoStr × MSem) (st : MSt) : Prog (Res × MSt) := do
  match ← getPropM pc.1 h with
  | .error a => .ret (.abort a, st)
  | .ok none =>
    if pc.1 ∈ o.required then .ret (.err (.required pc.1), st)
    else
      match pc.2.dflt with
      | .abort a => .ret (.abort a, st)
      | .none => .ret (.ok, st)
      | .some dv => do
        match ← setPropM ext pc.1 (mem dv) h with
        | .error (.err e) => .ret (.err (.setDefault pc.1 e), st)
        | .error (.abort a) => .ret (.abort a, st)
        | .ok () => .ret (.ok, st)
  | .ok (some x) => do
    match ← pc.2.val (σ.sub i) x with
    | .ok => .ret (.ok, st.saw pc.1)
    | .err e => .ret (.err (.prop pc.1 e), st.saw pc.1)
    | .abort a => .ret (.abort a, st.saw pc.1)

/-- object.go:441-460 -/
def patStepM (ext : Ext) (h : MVal) (src : GoStr) (c : MSem) (σ : Sched) (i : Nat) (pname : GoStr) (st : MSt) : Prog (Res × MSt) :=
  if ext.reMatch src pname = false then .ret (.ok, st)
  else do
    match ← getPropM pname h with
    | .error a => .ret (.abort a, st)
    | .ok none => .ret (.abort .panic, st)
    | .ok (some x) => do
      match ← c.val (σ.sub i) x with
      | .ok => .ret (.ok, st.saw pname)
      | .err e => .ret (.err (.prop pname e), st.saw pname)
      | .abort a => .ret (.abort a, st.saw pname)

/-- object.go:437-461 -/
def patOuterM (ext : Ext) (h : MVal) (σ : Sched) (j : Nat) (p : Nat × GoStr × MSem) (st : MSt) : Prog (Res × MSt) :=
  forLoopM (patStepM ext h p.2.1 p.2.2 ((σ.sub 4).sub j)) 0 (shuffle ((σ.sub 3).sub j).key st.premain) st

/-- object.go:469-474 -/
def addlStepM (h : MVal) (c : MSem) (σ : Sched) (i : Nat) (pname : GoStr) (st : MSt) : Prog (Res × MSt) := do
  match ← getPropM pname h with
  | .error a => .ret (.abort a, st)
  | .ok none => .ret (.abort .panic, st)
  | .ok (some x) => do
    match ← c.val (σ.sub i) x with
    | .ok => .ret (.ok, st)
    | .err e => .ret (.err (.addlProp pname e), st)
    | .abort a => .ret (.abort a, st)

/-- object.go:463-475 -/
def addlPhaseM (o : ObjC MSem) (h : MVal) (σ : Sched) (st : MSt) : Prog (Res × MSt) :=
  if st.premain.length > 0 then
    match o.additional with
    | none => .ret (.err .addlNotAllowed, st)
    | some c => forLoopM (addlStepM h c (σ.sub 6)) 0 (shuffle (σ.sub 5).key st.premain) st
  else .ret (.ok, st)

/-- object.go:477-497 -/
def depStepM (o : ObjC MSem) (h : MVal) (σ : Sched) (i : Nat) (pname : GoStr) (st : MSt) : Prog (Res × MSt) :=
  if o.GetPropDependencies pname ≠ [] then .ret (depsCheck st.pseen (o.GetPropDependencies pname), st)
  else
    match o.GetSchemaDependency pname with
    | none => .ret (.ok, st)
    | some depc => do
      let r ← depc.val (σ.sub i) h
      .ret (r, st)

/-- `r; then k` on loop results. -/
def seqM (r : Prog (Res × MSt)) (k : MSt → Prog (Res × MSt)) : Prog (Res × MSt) := do
  match ← r with
  | (.ok, st) => k st
  | r => .ret r

/-- object.go:366-499 -/
def objLoopsM (ext : Ext) (mem : GoVal → MVal) (o : ObjC MSem) (h : MVal) (σ : Sched) (st : MSt) : Prog (Res × MSt) :=
  seqM (forLoopM (propStepM ext mem o h (σ.sub 1)) 0 (shuffle (σ.sub 0).key o.props) st) fun st =>
  seqM (forLoopM (patOuterM ext h σ) 0 (shuffle (σ.sub 2).key o.patterns) st) fun st =>
  seqM (addlPhaseM o h σ st) fun st =>
  forLoopM (depStepM o h (σ.sub 8)) 0 (shuffle (σ.sub 7).key st.pseen) st

/-- object.go:324-500 -/
def objectM (ext : Ext) (mem : GoVal → MVal) (o : ObjC MSem) : MValidator := fun σ h => do
  match ← getPropNamesM h with
  | .error s => .ret s.toRes
  | .ok fields =>
    let lf : Int := fields.length
    if o.minProps > -1 ∧ lf < o.minProps then .ret (.err .fewProps)
    else if o.maxProps > -1 ∧ lf > o.maxProps then .ret (.err .manyProps)
    else do
      let r ← objLoopsM ext mem o h σ ⟨nameSet fields, []⟩
      .ret r.1

/-! ## Tying the knot -/

/-- Interpretation of references. -/
abbrev MRefSem := Nat → GoStr → MSem

/-- A validator that only looks at the face of its argument. -/
def faceM (f : GoVal → Res) : MValidator := fun _ h => .ret (f h.face)

mutual
/-- Behaviour of a constraint tree, given the behaviour of references and the place of each default value. Defaults that are
equal as values are one object here; for scalars this makes no difference. -/
def denoteM (ext : Ext) (mem : GoVal → MVal) (ρ : MRefSem) : Constraint → MSem
  | .empty => ⟨.none, fun _ _ => .ret .ok⟩
  | .null => ⟨.none, faceM nullCheck⟩
  | .boolean d => ⟨.ofOption d, faceM boolCheck⟩
  | .string c => ⟨.ofOption c.dflt, faceM (strCheck ext c)⟩
  | .number c => ⟨.ofOption c.dflt, faceM (numCheck c)⟩
  | .integer c => ⟨.ofOption c.dflt, faceM (intCheck c)⟩
  | .enum vals => ⟨.none, faceM (enumCheck vals)⟩
  | .array c => ⟨.none, arrayM (denoteArrM ext mem ρ c)⟩
  | .object c => ⟨.none, objectM ext mem (denoteObjM ext mem ρ c)⟩
  | .any cs => ⟨.none, anyLoopM 0 (denoteListM ext mem ρ cs)⟩
  | .all cs => ⟨.none, allLoopM 0 (denoteListM ext mem ρ cs)⟩
  | .oneOf cs => ⟨.none, oneOfLoopM 0 0 (denoteListM ext mem ρ cs)⟩
  | .not c => ⟨.none, notM (denoteOptM ext mem ρ c)⟩
  | .ref m n => ρ m n

/-- Children of an array constraint. -/
def denoteArrM (ext : Ext) (mem : GoVal → MVal) (ρ : MRefSem) : ArrC Constraint → ArrC MSem
  | ⟨i, p, a, mn, mx, u⟩ => ⟨denoteOptM ext mem ρ i, denoteListM ext mem ρ p, denoteOptM ext mem ρ a, mn, mx, u⟩

/-- Children of an object constraint. -/
def denoteObjM (ext : Ext) (mem : GoVal → MVal) (ρ : MRefSem) : ObjC Constraint → ObjC MSem
  | ⟨ps, pats, a, req, pd, sd, mn, mx⟩ =>
    ⟨denotePropsM ext mem ρ ps, denotePatsM ext mem ρ pats, denoteOptM ext mem ρ a, req, pd, denotePropsM ext mem ρ sd, mn, mx⟩

/-- Optional child. -/
def denoteOptM (ext : Ext) (mem : GoVal → MVal) (ρ : MRefSem) : Option Constraint → Option MSem
  | none => none
  | some c => some (denoteM ext mem ρ c)

/-- List of children. -/
def denoteListM (ext : Ext) (mem : GoVal → MVal) (ρ : MRefSem) : List Constraint → List MSem
  | [] => []
  | c :: cs => denoteM ext mem ρ c :: denoteListM ext mem ρ cs

/-- Named children. -/
def denotePropsM (ext : Ext) (mem : GoVal → MVal) (ρ : MRefSem) : List (GoStr × Constraint) → List (GoStr × MSem)
  | [] => []
  | (n, c) :: cs => (n, denoteM ext mem ρ c) :: denotePropsM ext mem ρ cs

/-- Pattern children. -/
def denotePatsM (ext : Ext) (mem : GoVal → MVal) (ρ : MRefSem) : List (Nat × GoStr × Constraint) → List (Nat × GoStr × MSem)
  | [] => []
  | (i, s, c) :: cs => (i, s, denoteM ext mem ρ c) :: denotePatsM ext mem ρ cs
end

/-- References against fixed tables (reference.go:116-153), followed at most `fuel` times along any call chain. -/
def refSemM (ext : Ext) (mem : GoVal → MVal) (env : Env) : Nat → MRefSem
  | 0 => fun _ _ => ⟨.abort .diverge, fun _ _ => .ret (.abort .diverge)⟩
  | k + 1 => fun m n =>
    match env m n with
    | none => ⟨.none, fun _ _ => .ret (.err (.refNotFound n))⟩
    | some c => denoteM ext mem (refSemM ext mem env k) c

/-- Behaviour of a constraint against fixed tables, with this much fuel for references. -/
def semM (ext : Ext) (mem : GoVal → MVal) (env : Env) (fuel : Nat) (c : Constraint) : MSem := denoteM ext mem (refSemM ext mem env fuel) c

end Jsval
