import Verif.Model.Memory
import Verif.Model.Reference
/-!
# Validators shared by goroutines

`Model/Memory` has documents in a memory and references in fixed tables; `Model/Reference` has the tables, the caches and the
locks. Here they are put together: `Validate` is a program that operates on maps and calls `Resolved()` on reference objects, any number of
goroutines run such programs, and others call `SetReference` meanwhile. The bodies are those of `Model/Memory`.

In a constraint `.ref r n` is the reference object number `r`; in which map it looks up which name is given by `cfg r`. The mutexes of object
constraints are left out (C86: they never block for good, and nothing here depends on what they guard).
-/
namespace Jsval

/-- A program of map operations and calls of `Resolved()`. -/
inductive SProg (α : Type) where
  | ret (a : α)
  /-- `rv.MapIndex(p)` -/
  | look (l : Nat) (p : GoStr) (k : Option MVal → SProg α)
  /-- `rv.MapKeys()` -/
  | keys (l : Nat) (k : List GoStr → SProg α)
  /-- `rv.SetMapIndex(p, x)` -/
  | set (l : Nat) (p : GoStr) (x : Option MVal) (k : SProg α)
  /-- `fmt.Sprintf("%s", h)` -/
  | sprint (h : MVal) (k : GoStr → SProg α)
  /-- `Resolved()` of reference number `r` (reference.go:75-102) -/
  | resolve (r : Nat) (k : Out Constraint → SProg α)

namespace SProg
variable {α β : Type}

/-- One program after another. -/
def bind : SProg α → (α → SProg β) → SProg β
  | .ret a, f => f a
  | .look l p k, f => .look l p fun o => (k o).bind f
  | .keys l k, f => .keys l fun ks => (k ks).bind f
  | .set l p x k, f => .set l p x (k.bind f)
  | .sprint h k, f => .sprint h fun s => (k s).bind f
  | .resolve r k, f => .resolve r fun o => (k o).bind f

instance : Monad SProg where
  pure := .ret
  bind := bind

/-- A program that resolves nothing. -/
def lift : Prog α → SProg α
  | .ret a => .ret a
  | .look l p k => .look l p fun o => lift (k o)
  | .keys l k => .keys l fun ks => lift (k ks)
  | .set l p x k => .set l p x (lift k)
  | .sprint h k => .sprint h fun s => lift (k s)

end SProg

/-- A `Validate` method. -/
abbrev SValidator := Sched → MVal → SProg Res

/-- What callers can see of a constraint (interface.go:32-36): `HasDefault()`, `DefaultValue()`, `Validate(v)`. The first two may call
`Resolved()` and so are programs too. -/
structure SSem where
  has : SProg (Except Abort Bool)
  dv : SProg (Except Abort GoVal)
  val : SValidator

/-! ## Combinators -/

/-- combinations.go:49-60 -/
def anyLoopS : Nat → List SSem → SValidator
  | _, [] => fun _ _ => .ret (.err .anyNone)
  | i, c :: cs => fun σ h => do
    match ← c.val (σ.sub i) h with
    | .ok => .ret .ok
    | .err _ => anyLoopS (i + 1) cs σ h
    | .abort a => .ret (.abort a)

/-- combinations.go:82-94 -/
def allLoopS : Nat → List SSem → SValidator
  | _, [] => fun _ _ => .ret .ok
  | i, c :: cs => fun σ h => do
    match ← c.val (σ.sub i) h with
    | .ok => allLoopS (i + 1) cs σ h
    | .err e => .ret (.err e)
    | .abort a => .ret (.abort a)

/-- combinations.go:116-135 -/
def oneOfLoopS : Nat → Nat → List SSem → SValidator
  | _, count, [] => fun _ _ =>
    if count = 0 then .ret (.err .oneOfNone)
    else if count > 1 then .ret (.err .oneOfMany)
    else .ret .ok
  | i, count, c :: cs => fun σ h => do
    match ← c.val (σ.sub i) h with
    | .ok => oneOfLoopS (i + 1) (count + 1) cs σ h
    | .err _ => oneOfLoopS (i + 1) count cs σ h
    | .abort a => .ret (.abort a)

/-- basic.go:76-90 -/
def notS : Option SSem → SValidator
  | none => fun _ _ => .ret (.err .notNoChild)
  | some c => fun σ h => do
    match ← c.val (σ.sub 0) h with
    | .ok => .ret (.err .notFailed)
    | .err _ => .ret .ok
    | .abort a => .ret (.abort a)

/-! ## Arrays -/

/-- array.go:77-82 and 106-111 -/
def runItemsS (c : SSem) (σ : Sched) : Nat → List MVal → SProg Res
  | _, [] => .ret .ok
  | i, x :: xs => do
    match ← c.val (σ.sub i) x with
    | .ok => runItemsS c σ (i + 1) xs
    | r => .ret r

/-- array.go:87-98 -/
def runPosS (σ : Sched) : Nat → List SSem → List MVal → SProg Res
  | _, [], _ => .ret .ok
  | _, _ :: _, [] => .ret .ok
  | i, c :: cs, x :: xs => do
    match ← c.val (σ.sub i) x with
    | .ok => runPosS σ (i + 1) cs xs
    | r => .ret r

/-- array.go:100-112 -/
def runAdditionalS (c : ArrC SSem) (σ : Sched) (xs : List MVal) : SProg Res :=
  let lp := c.positional.length
  if lp > 0 ∧ xs.length > lp then
    match c.additional with
    | none => .ret (.err .addlItems)
    | some cadd => runItemsS cadd σ (lp - 1) (xs.drop (lp - 1))
  else .ret .ok

/-- array.go:71-113 -/
def arrayElemsS (c : ArrC SSem) (σ : Sched) (xs : List MVal) : SProg Res :=
  match c.items with
  | some celem => runItemsS celem (σ.sub 0) 0 xs
  | none => do
    match ← runPosS (σ.sub 1) 0 c.positional xs with
    | .ok => runAdditionalS c (σ.sub 2) xs
    | r => .ret r

/-- array.go:57-69: the uniqueness check, if asked for. -/
def uniqueS (c : ArrC SSem) (xs : List MVal) : SProg Bool := if c.unique then .lift (uniqueLoopM [] xs) else .ret true

/-- array.go:21-115 -/
def arrayS (c : ArrC SSem) : SValidator := fun σ h =>
  match h with
  | .slice _ xs =>
    if c.minItems > -1 ∧ (xs.length : Int) < c.minItems then .ret (.err .fewItems)
    else if c.maxItems > -1 ∧ (xs.length : Int) > c.maxItems then .ret (.err .manyItems)
    else do
      match ← uniqueS c xs with
      | false => .ret (.err .dupItem)
      | true => arrayElemsS c σ xs
  | _ => .ret (.err .notSlice)

/-! ## Objects -/

/-- `for i, a := range l { … }` with early return. -/
def forLoopS {α S : Type} (step : Nat → α → S → SProg (Res × S)) : Nat → List α → S → SProg (Res × S)
  | _, [], s => .ret (.ok, s)
  | i, a :: l, s => do
    match ← step i a s with
    | (.ok, s') => forLoopS step (i + 1) l s'
    | r => .ret r

/-- object.go:373-435; `mem` is where the defaults are. `HasDefault` and `DefaultValue` are two calls (object.go:411, 416). -/
def propStepS (ext : Ext) (mem : GoVal → MVal) (o : ObjC SSem) (h : MVal) (σ : Sched) (i : Nat) (pc : GoStr × SSem) (st : MSt) : SProg (Res × MSt) := do
  match ← SProg.lift (getPropM pc.1 h) with
  | .error a => .ret (.abort a, st)
  | .ok none =>
    if pc.1 ∈ o.required then .ret (.err (.required pc.1), st)
    else do
      match ← pc.2.has with
      | .error a => .ret (.abort a, st)
      | .ok false => .ret (.ok, st)
      | .ok true => do
        match ← pc.2.dv with
        | .error a => .ret (.abort a, st)
        | .ok dv => do
          match ← SProg.lift (setPropM ext pc.1 (mem dv) h) with
          | .error (.err e) => .ret (.err (.setDefault pc.1 e), st)
          | .error (.abort a) => .ret (.abort a, st)
          | .ok () => .ret (.ok, st)
  | .ok (some x) => do
    match ← pc.2.val (σ.sub i) x with
    | .ok => .ret (.ok, st.saw pc.1)
    | .err e => .ret (.err (.prop pc.1 e), st.saw pc.1)
    | .abort a => .ret (.abort a, st.saw pc.1)

/-- object.go:441-460 -/
def patStepS (ext : Ext) (h : MVal) (src : GoStr) (c : SSem) (σ : Sched) (i : Nat) (pname : GoStr) (st : MSt) : SProg (Res × MSt) :=
  if ext.reMatch src pname = false then .ret (.ok, st)
  else do
    match ← SProg.lift (getPropM pname h) with
    | .error a => .ret (.abort a, st)
    | .ok none => .ret (.abort .panic, st)
    | .ok (some x) => do
      match ← c.val (σ.sub i) x with
      | .ok => .ret (.ok, st.saw pname)
      | .err e => .ret (.err (.prop pname e), st.saw pname)
      | .abort a => .ret (.abort a, st.saw pname)

/-- object.go:437-461 -/
def patOuterS (ext : Ext) (h : MVal) (σ : Sched) (j : Nat) (p : Nat × GoStr × SSem) (st : MSt) : SProg (Res × MSt) :=
  forLoopS (patStepS ext h p.2.1 p.2.2 ((σ.sub 4).sub j)) 0 (shuffle ((σ.sub 3).sub j).key st.premain) st

/-- object.go:469-474 -/
def addlStepS (h : MVal) (c : SSem) (σ : Sched) (i : Nat) (pname : GoStr) (st : MSt) : SProg (Res × MSt) := do
  match ← SProg.lift (getPropM pname h) with
  | .error a => .ret (.abort a, st)
  | .ok none => .ret (.abort .panic, st)
  | .ok (some x) => do
    match ← c.val (σ.sub i) x with
    | .ok => .ret (.ok, st)
    | .err e => .ret (.err (.addlProp pname e), st)
    | .abort a => .ret (.abort a, st)

/-- object.go:463-475 -/
def addlPhaseS (o : ObjC SSem) (h : MVal) (σ : Sched) (st : MSt) : SProg (Res × MSt) :=
  if st.premain.length > 0 then
    match o.additional with
    | none => .ret (.err .addlNotAllowed, st)
    | some c => forLoopS (addlStepS h c (σ.sub 6)) 0 (shuffle (σ.sub 5).key st.premain) st
  else .ret (.ok, st)

/-- object.go:477-497 -/
def depStepS (o : ObjC SSem) (h : MVal) (σ : Sched) (i : Nat) (pname : GoStr) (st : MSt) : SProg (Res × MSt) :=
  if o.GetPropDependencies pname ≠ [] then .ret (depsCheck st.pseen (o.GetPropDependencies pname), st)
  else
    match o.GetSchemaDependency pname with
    | none => .ret (.ok, st)
    | some depc => do
      let r ← depc.val (σ.sub i) h
      .ret (r, st)

/-- `r; then k` on loop results. -/
def seqS (r : SProg (Res × MSt)) (k : MSt → SProg (Res × MSt)) : SProg (Res × MSt) := do
  match ← r with
  | (.ok, st) => k st
  | r => .ret r

/-- object.go:366-499 -/
def objLoopsS (ext : Ext) (mem : GoVal → MVal) (o : ObjC SSem) (h : MVal) (σ : Sched) (st : MSt) : SProg (Res × MSt) :=
  seqS (forLoopS (propStepS ext mem o h (σ.sub 1)) 0 (shuffle (σ.sub 0).key o.props) st) fun st =>
  seqS (forLoopS (patOuterS ext h σ) 0 (shuffle (σ.sub 2).key o.patterns) st) fun st =>
  seqS (addlPhaseS o h σ st) fun st =>
  forLoopS (depStepS o h (σ.sub 8)) 0 (shuffle (σ.sub 7).key st.pseen) st

/-- object.go:324-500 -/
def objectS (ext : Ext) (mem : GoVal → MVal) (o : ObjC SSem) : SValidator := fun σ h => do
  match ← SProg.lift (getPropNamesM h) with
  | .error s => .ret s.toRes
  | .ok fields =>
    let lf : Int := fields.length
    if o.minProps > -1 ∧ lf < o.minProps then .ret (.err .fewProps)
    else if o.maxProps > -1 ∧ lf > o.maxProps then .ret (.err .manyProps)
    else do
      let r ← objLoopsS ext mem o h σ ⟨nameSet fields, []⟩
      .ret r.1

/-! ## Tying the knot -/

/-- A constraint that has no default. -/
def plainS (v : SValidator) : SSem := ⟨.ret (.ok false), .ret (.ok .nil), v⟩

/-- A constraint with its own default (basic.go:10-20). -/
def ownS (d : Option GoVal) (v : SValidator) : SSem := ⟨.ret (.ok d.isSome), .ret (.ok (d.getD .nil)), v⟩

/-- A validator that only looks at the face of its argument. -/
def faceS (f : GoVal → Res) : SValidator := fun _ h => .ret (f h.face)

mutual
/-- Behaviour of a constraint tree, given the behaviour of reference objects and the place of each default value. -/
def denoteS (ext : Ext) (mem : GoVal → MVal) (ρ : Nat → SSem) : Constraint → SSem
  | .empty => plainS fun _ _ => .ret .ok
  | .null => plainS (faceS nullCheck)
  | .boolean d => ownS d (faceS boolCheck)
  | .string c => ownS c.dflt (faceS (strCheck ext c))
  | .number c => ownS c.dflt (faceS (numCheck c))
  | .integer c => ownS c.dflt (faceS (intCheck c))
  | .enum vals => plainS (faceS (enumCheck vals))
  | .array c => plainS (arrayS (denoteArrS ext mem ρ c))
  | .object c => plainS (objectS ext mem (denoteObjS ext mem ρ c))
  | .any cs => plainS (anyLoopS 0 (denoteListS ext mem ρ cs))
  | .all cs => plainS (allLoopS 0 (denoteListS ext mem ρ cs))
  | .oneOf cs => plainS (oneOfLoopS 0 0 (denoteListS ext mem ρ cs))
  | .not c => plainS (notS (denoteOptS ext mem ρ c))
  | .ref r _ => ρ r

/-- Children of an array constraint. -/
def denoteArrS (ext : Ext) (mem : GoVal → MVal) (ρ : Nat → SSem) : ArrC Constraint → ArrC SSem
  | ⟨i, p, a, mn, mx, u⟩ => ⟨denoteOptS ext mem ρ i, denoteListS ext mem ρ p, denoteOptS ext mem ρ a, mn, mx, u⟩

/-- Children of an object constraint. -/
def denoteObjS (ext : Ext) (mem : GoVal → MVal) (ρ : Nat → SSem) : ObjC Constraint → ObjC SSem
  | ⟨ps, pats, a, req, pd, sd, mn, mx⟩ =>
    ⟨denotePropsS ext mem ρ ps, denotePatsS ext mem ρ pats, denoteOptS ext mem ρ a, req, pd, denotePropsS ext mem ρ sd, mn, mx⟩

/-- Optional child. -/
def denoteOptS (ext : Ext) (mem : GoVal → MVal) (ρ : Nat → SSem) : Option Constraint → Option SSem
  | none => none
  | some c => some (denoteS ext mem ρ c)

/-- List of children. -/
def denoteListS (ext : Ext) (mem : GoVal → MVal) (ρ : Nat → SSem) : List Constraint → List SSem
  | [] => []
  | c :: cs => denoteS ext mem ρ c :: denoteListS ext mem ρ cs

/-- Named children. -/
def denotePropsS (ext : Ext) (mem : GoVal → MVal) (ρ : Nat → SSem) : List (GoStr × Constraint) → List (GoStr × SSem)
  | [] => []
  | (n, c) :: cs => (n, denoteS ext mem ρ c) :: denotePropsS ext mem ρ cs

/-- Pattern children. -/
def denotePatsS (ext : Ext) (mem : GoVal → MVal) (ρ : Nat → SSem) : List (Nat × GoStr × Constraint) → List (Nat × GoStr × SSem)
  | [] => []
  | (i, s, c) :: cs => (i, s, denoteS ext mem ρ c) :: denotePatsS ext mem ρ cs
end

/-- `HasDefault`, `DefaultValue` and `Validate` of reference number `r` (reference.go:116-153), given the behaviour of constraints: each calls
`Resolved()`; a nil target is a nil dereference. -/
def refS (cfg : Nat → Nat × GoStr) (S : Constraint → SSem) (r : Nat) : SSem where
  has := .resolve r fun
    | none => .ret (.ok false)
    | some none => .ret (.error .panic)
    | some (some c) => (S c).has
  dv := .resolve r fun
    | none => .ret (.ok .nil)
    | some none => .ret (.error .panic)
    | some (some c) => (S c).dv
  val := fun σ h => .resolve r fun
    | none => .ret (.err (.refNotFound (cfg r).2))
    | some none => .ret (.abort .panic)
    | some (some c) => (S c).val σ h

/-- References, followed at most `fuel` times along any call chain. -/
def refSemS (ext : Ext) (mem : GoVal → MVal) (cfg : Nat → Nat × GoStr) : Nat → Nat → SSem
  | 0 => fun _ => ⟨.ret (.error .diverge), .ret (.error .diverge), fun _ _ => .ret (.abort .diverge)⟩
  | k + 1 => refS cfg (denoteS ext mem (refSemS ext mem cfg k))

/-- Behaviour of a constraint, with this much fuel for references. -/
def semS (ext : Ext) (mem : GoVal → MVal) (cfg : Nat → Nat × GoStr) (fuel : Nat) (c : Constraint) : SSem :=
  denoteS ext mem (refSemS ext mem cfg fuel) c

/-! ## Goroutines -/

/-- One map operation of a program. -/
def SProg.step {α : Type} (show_ : Memory → MVal → GoStr) : SProg α → Memory → Option (SProg α × Memory)
  | .ret _, _ => none
  | .look l p k, H => some (k (alookup p (H l)), H)
  | .keys l k, H => some (k ((H l).map (·.1)), H)
  | .set l p x k, H => some (k, H.put l p x)
  | .sprint h k, H => some (k (show_ H h), H)
  | .resolve _ _, _ => none

/-- The programs of the goroutines, the documents, and the reference objects and constraint maps. -/
structure Shared where
  progs : Nat → SProg Res
  docs : Memory
  refs : RState Constraint

/-- A step. A goroutine does a map operation; or it starts a call of `Resolved()`, does a step of a call on references or
maps (`Model/Reference`), or returns from one; a goroutine whose validation has returned may call `SetReference`, `GetReference`, `Len` and
`Resolved` too. -/
inductive SharedStep (show_ : Memory → MVal → GoStr) (cfg : Nat → Nat × GoStr) : Shared → Option (REvent Constraint) → Shared → Prop where
  | op {s : Shared} {i p' H'} : (s.progs i).step show_ s.docs = some (p', H') →
      SharedStep show_ cfg s none { s with progs := upd s.progs i p', docs := H' }
  | ask {s : Shared} {i r k R'} : s.progs i = .resolve r k → RStep cfg s.refs (.begin i (.resolve r)) R' →
      SharedStep show_ cfg s (some (.begin i (.resolve r))) { s with refs := R' }
  | answer {s : Shared} {i r k out R'} : s.progs i = .resolve r k → RStep cfg s.refs (.resolved i r out) R' →
      SharedStep show_ cfg s (some (.resolved i r out)) { s with progs := upd s.progs i (k out), refs := R' }
  | inside {s : Shared} {e R'} : RStep cfg s.refs e R' → (∀ i call, e ≠ .begin i call) → (∀ i r out, e ≠ .resolved i r out) →
      SharedStep show_ cfg s (some e) { s with refs := R' }
  | call {s : Shared} {i a call R'} : s.progs i = .ret a → RStep cfg s.refs (.begin i call) R' →
      SharedStep show_ cfg s (some (.begin i call)) { s with refs := R' }
  | back {s : Shared} {i a r out R'} : s.progs i = .ret a → RStep cfg s.refs (.resolved i r out) R' →
      SharedStep show_ cfg s (some (.resolved i r out)) { s with refs := R' }

/-- Executions, with the events on references and maps. -/
inductive SharedRun (show_ : Memory → MVal → GoStr) (cfg : Nat → Nat × GoStr) (s : Shared) : List (REvent Constraint) → Shared → Prop where
  | nil : SharedRun show_ cfg s [] s
  | op {es s' s''} : SharedRun show_ cfg s es s' → SharedStep show_ cfg s' none s'' → SharedRun show_ cfg s es s''
  | event {es s' e s''} : SharedRun show_ cfg s es s' → SharedStep show_ cfg s' (some e) s'' → SharedRun show_ cfg s (es ++ [e]) s''

/-- Goroutine `i` validates `h i` with `c i`. -/
def callsS (ext : Ext) (mem : GoVal → MVal) (cfg : Nat → Nat × GoStr) (fuel : Nat → Nat) (c : Nat → Constraint) (σ : Nat → Sched) (h : Nat → MVal) :
    Nat → SProg Res := fun i => (semS ext mem cfg (fuel i) (c i)).val (σ i) (h i)

end Jsval
