import Verif.Lemmas.Basic
/-!
# Counting calls

How many calls of `Validate` methods a call makes, itself included. The functions below follow those of `Model/Validate` and
take the results of the calls from there; they only add up. Calls of `HasDefault` and `DefaultValue` are not counted.
-/
namespace Jsval

/-- A constraint with the number of calls it makes. -/
structure Counted where
  sem : Sem
  calls : Sched → GoVal → Nat

/-- combinations.go:49-60: the loop goes on after an error. -/
def anyCalls : Nat → List Counted → Sched → GoVal → Nat
  | _, [], _, _ => 0
  | i, c :: cs, σ, v =>
    c.calls (σ.sub i) v +
      match c.sem.val (σ.sub i) v with
      | (.err _, v') => anyCalls (i + 1) cs σ v'
      | _ => 0

/-- combinations.go:82-94: the loop goes on while there is no error. -/
def allCalls : Nat → List Counted → Sched → GoVal → Nat
  | _, [], _, _ => 0
  | i, c :: cs, σ, v =>
    c.calls (σ.sub i) v +
      match c.sem.val (σ.sub i) v with
      | (.ok, v') => allCalls (i + 1) cs σ v'
      | _ => 0

/-- combinations.go:116-135: the loop always goes on. -/
def oneOfCalls : Nat → List Counted → Sched → GoVal → Nat
  | _, [], _, _ => 0
  | i, c :: cs, σ, v =>
    c.calls (σ.sub i) v +
      match c.sem.val (σ.sub i) v with
      | (.abort _, _) => 0
      | (_, v') => oneOfCalls (i + 1) cs σ v'

/-- basic.go:76-90. -/
def notCalls : Option Counted → Sched → GoVal → Nat
  | none, _, _ => 0
  | some c, σ, v => c.calls (σ.sub 0) v

/-- array.go:77-82 and 106-111. -/
def itemsCalls (c : Counted) (σ : Sched) : Nat → List GoVal → Nat
  | _, [] => 0
  | i, x :: xs =>
    c.calls (σ.sub i) x +
      match c.sem.val (σ.sub i) x with
      | (.ok, _) => itemsCalls c σ (i + 1) xs
      | _ => 0

/-- array.go:87-98. -/
def posCalls (σ : Sched) : Nat → List Counted → List GoVal → Nat
  | _, [], _ => 0
  | _, _ :: _, [] => 0
  | i, c :: cs, x :: xs =>
    c.calls (σ.sub i) x +
      match c.sem.val (σ.sub i) x with
      | (.ok, _) => posCalls σ (i + 1) cs xs
      | _ => 0

/-- array.go:100-112. -/
def additionalCalls (c : ArrC Counted) (σ : Sched) (xs : List GoVal) : Nat :=
  let lp := c.positional.length
  if lp > 0 ∧ xs.length > lp then
    match c.additional with
    | none => 0
    | some cadd => itemsCalls cadd σ (lp - 1) (xs.drop (lp - 1))
  else 0

/-- array.go:71-113. -/
def elemsCalls (c : ArrC Counted) (σ : Sched) (xs : List GoVal) : Nat :=
  match c.items with
  | some celem => itemsCalls celem (σ.sub 0) 0 xs
  | none =>
    posCalls (σ.sub 1) 0 c.positional xs +
      match runPos (σ.sub 1) 0 (c.positional.map Counted.sem) xs with
      | (.ok, xs') => additionalCalls c (σ.sub 2) xs'
      | _ => 0

/-- array.go:21-115. -/
def arrayCalls (ext : Ext) (c : ArrC Counted) (σ : Sched) (v : GoVal) : Nat :=
  match valueOf v with
  | some (.slice _ xs) =>
    if c.minItems > -1 ∧ (xs.length : Int) < c.minItems then 0
    else if c.maxItems > -1 ∧ (xs.length : Int) > c.maxItems then 0
    else if c.unique ∧ uniqueLoop ext [] xs = false then 0
    else elemsCalls c σ xs
  | _ => 0

/-- A loop whose steps make `cost` calls. -/
def forCalls {α S : Type} (step : Nat → α → S → Res × S) (cost : Nat → α → S → Nat) : Nat → List α → S → Nat
  | _, [], _ => 0
  | i, a :: l, s =>
    cost i a s +
      match step i a s with
      | (.ok, s') => forCalls step cost (i + 1) l s'
      | _ => 0

/-- object.go:373-435. -/
def propCalls (σ : Sched) (i : Nat) (pc : GoStr × Counted) (st : ObjSt) : Nat :=
  match viewProp (valueOf st.v).indirect pc.1 with
  | .ok (.present x _) => pc.2.calls (σ.sub i) x
  | _ => 0

/-- object.go:441-460. -/
def patCalls (ext : Ext) (src : GoStr) (c : Counted) (σ : Sched) (i : Nat) (pname : GoStr) (st : ObjSt) : Nat :=
  if ext.reMatch src pname = false then 0
  else
    match getProp (valueOf st.v).indirect pname with
    | .ok (some x) => c.calls (σ.sub i) x
    | _ => 0

/-- object.go:437-461. -/
def patOuterCalls (ext : Ext) (σ : Sched) (j : Nat) (p : Nat × GoStr × Counted) (st : ObjSt) : Nat :=
  forCalls (patStep ext p.2.1 p.2.2.sem ((σ.sub 4).sub j)) (patCalls ext p.2.1 p.2.2 ((σ.sub 4).sub j)) 0
    (shuffle ((σ.sub 3).sub j).key st.premain) st

/-- object.go:469-474. -/
def addlCalls (c : Counted) (σ : Sched) (i : Nat) (pname : GoStr) (st : ObjSt) : Nat :=
  match getProp (valueOf st.v).indirect pname with
  | .ok (some x) => c.calls (σ.sub i) x
  | _ => 0

/-- object.go:463-475. -/
def addlPhaseCalls (o : ObjC Counted) (σ : Sched) (st : ObjSt) : Nat :=
  if st.premain.length > 0 then
    match o.additional with
    | none => 0
    | some c => forCalls (addlStep c.sem (σ.sub 6)) (addlCalls c (σ.sub 6)) 0 (shuffle (σ.sub 5).key st.premain) st
  else 0

/-- object.go:477-497. -/
def depCalls (o : ObjC Counted) (σ : Sched) (i : Nat) (pname : GoStr) (st : ObjSt) : Nat :=
  if o.GetPropDependencies pname ≠ [] then 0
  else
    match o.GetSchemaDependency pname with
    | none => 0
    | some depc => depc.calls (σ.sub i) st.v

/-- What a phase and the phases after it call. -/
def seqCalls (n : Nat) (r : Res × ObjSt) (k : ObjSt → Nat) : Nat :=
  n + match r with
    | (.ok, st) => k st
    | _ => 0

/-- object.go:366-499. -/
def loopsCalls (ext : Ext) (o : ObjC Counted) (σ : Sched) (st : ObjSt) : Nat :=
  let s := o.map Counted.sem
  let prop := fun i (pc : GoStr × Counted) => propStep ext s (σ.sub 1) i (pc.1, pc.2.sem)
  let pat := fun j (p : Nat × GoStr × Counted) => patOuter ext σ j (p.1, p.2.1, p.2.2.sem)
  let props := shuffle (σ.sub 0).key o.props
  let pats := shuffle (σ.sub 2).key o.patterns
  seqCalls (forCalls prop (propCalls (σ.sub 1)) 0 props st) (forLoop prop 0 props st) fun st =>
  seqCalls (forCalls pat (patOuterCalls ext σ) 0 pats st) (forLoop pat 0 pats st) fun st =>
  seqCalls (addlPhaseCalls o σ st) (addlPhase s σ st) fun st =>
  forCalls (depStep s (σ.sub 8)) (depCalls o (σ.sub 8)) 0 (shuffle (σ.sub 7).key st.pseen) st

/-- object.go:324-500. -/
def objectCalls (ext : Ext) (o : ObjC Counted) (σ : Sched) (v : GoVal) : Nat :=
  match getPropNames (valueOf v).indirect with
  | .error _ => 0
  | .ok fields =>
    let lf : Int := fields.length
    if o.minProps > -1 ∧ lf < o.minProps then 0
    else if o.maxProps > -1 ∧ lf > o.maxProps then 0
    else loopsCalls ext o σ ⟨v, nameSet fields, []⟩

mutual
/-- The calls a constraint makes, given the behaviour of references and the calls these make. -/
def callsOf (ext : Ext) (ρ : RefSem) (κ : Nat → GoStr → Sched → GoVal → Nat) : Constraint → Sched → GoVal → Nat
  | .array c, σ, v => 1 + arrayCalls ext (countArr ext ρ κ c) σ v
  | .object c, σ, v => 1 + objectCalls ext (countObj ext ρ κ c) σ v
  | .any cs, σ, v => 1 + anyCalls 0 (countList ext ρ κ cs) σ v
  | .all cs, σ, v => 1 + allCalls 0 (countList ext ρ κ cs) σ v
  | .oneOf cs, σ, v => 1 + oneOfCalls 0 (countList ext ρ κ cs) σ v
  | .not c, σ, v => 1 + notCalls (countOpt ext ρ κ c) σ v
  | .ref m n, σ, v => κ m n σ v
  | _, _, _ => 1

/-- Children of an array constraint. -/
def countArr (ext : Ext) (ρ : RefSem) (κ : Nat → GoStr → Sched → GoVal → Nat) : ArrC Constraint → ArrC Counted
  | ⟨i, p, a, mn, mx, u⟩ => ⟨countOpt ext ρ κ i, countList ext ρ κ p, countOpt ext ρ κ a, mn, mx, u⟩

/-- Children of an object constraint. -/
def countObj (ext : Ext) (ρ : RefSem) (κ : Nat → GoStr → Sched → GoVal → Nat) : ObjC Constraint → ObjC Counted
  | ⟨ps, pats, a, req, pd, sd, mn, mx⟩ =>
    ⟨countProps ext ρ κ ps, countPats ext ρ κ pats, countOpt ext ρ κ a, req, pd, countProps ext ρ κ sd, mn, mx⟩

/-- Optional child. -/
def countOpt (ext : Ext) (ρ : RefSem) (κ : Nat → GoStr → Sched → GoVal → Nat) : Option Constraint → Option Counted
  | none => none
  | some c => some ⟨denote ext ρ c, callsOf ext ρ κ c⟩

/-- List of children. -/
def countList (ext : Ext) (ρ : RefSem) (κ : Nat → GoStr → Sched → GoVal → Nat) : List Constraint → List Counted
  | [] => []
  | c :: cs => ⟨denote ext ρ c, callsOf ext ρ κ c⟩ :: countList ext ρ κ cs

/-- Named children. -/
def countProps (ext : Ext) (ρ : RefSem) (κ : Nat → GoStr → Sched → GoVal → Nat) : List (GoStr × Constraint) → List (GoStr × Counted)
  | [] => []
  | (n, c) :: cs => (n, ⟨denote ext ρ c, callsOf ext ρ κ c⟩) :: countProps ext ρ κ cs

/-- Pattern children. -/
def countPats (ext : Ext) (ρ : RefSem) (κ : Nat → GoStr → Sched → GoVal → Nat) :
    List (Nat × GoStr × Constraint) → List (Nat × GoStr × Counted)
  | [] => []
  | (i, s, c) :: cs => (i, s, ⟨denote ext ρ c, callsOf ext ρ κ c⟩) :: countPats ext ρ κ cs
end

/-- The calls of a reference (reference.go:136-152), with this much fuel: its own, and those of what it stands for. -/
def refCalls (ext : Ext) (env : Env) : Nat → Nat → GoStr → Sched → GoVal → Nat
  | 0, _, _, _, _ => 1
  | k + 1, m, n, σ, v =>
    match env m n with
    | none => 1
    | some c => 1 + callsOf ext (refSem ext env k) (refCalls ext env k) c σ v

/-- The calls of `Validate` methods that `sem ext env fuel c` makes on `v`, itself included. -/
def callCount (ext : Ext) (env : Env) (fuel : Nat) (c : Constraint) (σ : Sched) (v : GoVal) : Nat :=
  callsOf ext (refSem ext env fuel) (refCalls ext env fuel) c σ v

end Jsval
