import Verif.Model.Reference
/-!
# Object constraints used by several goroutines (object.go)

An `ObjectConstraint` guards its maps with three mutexes. This is a machine for any number of goroutines that validate with and
configure any number of object constraints. Steps are the operations on the mutexes and the accesses to the fields between them.

What a goroutine reads decides how often it loops and which constraint it calls next. The machine does not follow this: loops
may run any number of times, `Validate` may be called on any object from where children are called, and may return wherever the code
has a `return`. So every execution of the code is an execution of the machine, and more. Constraints of other kinds between two objects are
skipped; they take no object mutex.
-/
namespace Jsval

/-- The fields of an `ObjectConstraint` (interface.go:108-120). -/
inductive OField where
  | required | properties | patterns | propdeps | schemadeps | minProps | maxProps | additional
deriving DecidableEq, Repr

/-- The mutexes of an `ObjectConstraint` (interface.go:108-120). -/
inductive OLock where
  | req | prop | dep
deriving DecidableEq, Repr

/-- The configuring methods and the field each writes: `Required`, `AddProp`, `PatternProperties`, `PropDependency`, `SchemaDependency` take
a mutex (object.go:36-127), `MinProperties`, `MaxProperties`, `AdditionalProperties` do not (object.go:58-75). -/
def OField.setterLock : OField → Option OLock
  | .required => some .req
  | .properties | .patterns => some .prop
  | .propdeps | .schemadeps => some .dep
  | .minProps | .maxProps | .additional => none

/-- Where a call is. -/
inductive OPc where
  /- `Validate` (object.go:324-500) -/
  | vMin                 -- 348, minProperties is read
  | vMax                 -- 351, maxProperties is read
  | vWant                -- 367, `proplock.Lock`
  | vCopy                -- 368-370, properties are copied
  | vRel                 -- 371, `proplock.Unlock`
  | vProps               -- 373, the loop over the copy
  | qWant | qRead | qRel -- 405, `IsPropRequired` (object.go:48-54)
  | vPats                -- 437, the loop over patternProperties, which is read here
  | vAddl                -- 464, additionalProperties is read
  | vAddls               -- 469, the loop over the other properties
  | vDeps                -- 477, the loop over the properties seen
  | dWant | dRead | dRel -- 478, `GetPropDependencies` (object.go:130-140)
  | vDep                 -- 478-490
  | sWant | sRead | sRel -- 492, `GetSchemaDependency` (object.go:144-154)
  | vDepCall             -- 493
  /- a configuring method -/
  | cWant (f : OField) (l : OLock)
  | cWrite (f : OField) (l : Option OLock)
  | cRel (f : OField) (l : OLock)
deriving DecidableEq, Repr

/-- The mutex that is waited for here, and where the call is when it has it. -/
inductive OPc.Locks : OPc → OLock → OPc → Prop where
  | v : Locks .vWant .prop .vCopy
  | q : Locks .qWant .req .qRead
  | d : Locks .dWant .dep .dRead
  | s : Locks .sWant .dep .sRead
  | c (f l) : Locks (.cWant f l) l (.cWrite f (some l))

/-- The mutex that is released here, and where the call goes on (`none`: it returns). -/
inductive OPc.Unlocks : OPc → OLock → Option OPc → Prop where
  | v : Unlocks .vRel .prop (some .vProps)
  | q : Unlocks .qRel .req (some .vProps)
  | d : Unlocks .dRel .dep (some .vDep)
  | s : Unlocks .sRel .dep (some .vDepCall)
  | c (f l) : Unlocks (.cRel f l) l none

/-- Steps that are not on a mutex and call nothing. -/
inductive OPc.Goes : OPc → OPc → Prop where
  | min : Goes .vMin .vMax
  | max : Goes .vMax .vWant
  | copy : Goes .vCopy .vRel
  | missing : Goes .vProps .qWant                 -- a property does not exist
  | required : Goes .qRead .qRel
  | propsEnd : Goes .vProps .vPats
  | pattern : Goes .vPats .vPats                  -- the next pattern
  | patsEnd : Goes .vPats .vAddl                  -- properties remain
  | patsEnd' : Goes .vPats .vDeps                 -- none remain
  | addl : Goes .vAddl .vAddls
  | addlsEnd : Goes .vAddls .vDeps
  | seen : Goes .vDeps .dWant
  | depRead : Goes .dRead .dRel
  | depNext : Goes .vDep .vDeps                   -- there were property dependencies
  | depSchema : Goes .vDep .sWant                 -- there were none
  | schemaRead : Goes .sRead .sRel
  | depCallEnd : Goes .vDepCall .vDeps
  | write (f l) : Goes (.cWrite f (some l)) (.cRel f l)

/-- Where `Validate` of a child may be called: 432, 457, 471, 493. -/
def OPc.Calls (p : OPc) : Prop := p = .vProps ∨ p = .vPats ∨ p = .vAddls ∨ p = .vDepCall

/-- Where the call may return: 343-353, 406-419, 433, 458, 466-472, 484, 494-499; and configuring methods without a mutex. -/
def OPc.Returns (p : OPc) : Prop :=
  p = .vMin ∨ p = .vMax ∨ p = .vProps ∨ p = .vPats ∨ p = .vAddl ∨ p = .vAddls ∨ p = .vDep ∨ p = .vDepCall ∨ p = .vDeps ∨
    ∃ f, p = .cWrite f none

/-- What the call is about to access: a field, and whether it writes. -/
def OPc.access : OPc → Option (OField × Bool)
  | .vMin => some (.minProps, false)
  | .vMax => some (.maxProps, false)
  | .vCopy => some (.properties, false)
  | .qRead => some (.required, false)
  | .vPats => some (.patterns, false)
  | .vAddl => some (.additional, false)
  | .dRead => some (.propdeps, false)
  | .sRead => some (.schemadeps, false)
  | .cWrite f _ => some (f, true)
  | _ => none

/-- A call in progress: on which object, and where it is. -/
structure OFrame where
  obj : Nat
  pc : OPc

/-- The machine state: who holds which mutex of which object, and the call stack of each goroutine, innermost call first. -/
structure OState where
  holder : Nat → OLock → Option Nat
  stack : Nat → List OFrame

def OState.init : OState := ⟨fun _ _ => none, fun _ => []⟩

/-- Set one mutex. -/
def OState.setHolder (s : OState) (o : Nat) (l : OLock) (h : Option Nat) : Nat → OLock → Option Nat :=
  fun o' l' => if o' = o ∧ l' = l then h else s.holder o' l'

/-- A call from outside. -/
inductive OCall where
  | validate (o : Nat)
  | configure (o : Nat) (f : OField)

/-- The first frame of a call. -/
def OCall.frame : OCall → OFrame
  | .validate o => ⟨o, .vMin⟩
  | .configure o f =>
    match f.setterLock with
    | some l => ⟨o, .cWant f l⟩
    | none => ⟨o, .cWrite f none⟩

inductive OEvent where
  | start (th : Nat) (c : OCall)
  | step (th : Nat)

inductive OStep : OState → OEvent → OState → Prop where
  | start {s th} (c) : s.stack th = [] → OStep s (.start th c) { s with stack := upd s.stack th [c.frame] }
  | lock {s th o p l p' rest} : s.stack th = ⟨o, p⟩ :: rest → p.Locks l p' → s.holder o l = none →
      OStep s (.step th) ⟨s.setHolder o l (some th), upd s.stack th (⟨o, p'⟩ :: rest)⟩
  | unlock {s th o p l p' rest} : s.stack th = ⟨o, p⟩ :: rest → p.Unlocks l p' →
      OStep s (.step th) ⟨s.setHolder o l none, upd s.stack th ((p'.map (OFrame.mk o)).toList ++ rest)⟩
  | go {s th o p p' rest} : s.stack th = ⟨o, p⟩ :: rest → p.Goes p' →
      OStep s (.step th) { s with stack := upd s.stack th (⟨o, p'⟩ :: rest) }
  | call {s th o p rest} (o') : s.stack th = ⟨o, p⟩ :: rest → p.Calls →
      OStep s (.step th) { s with stack := upd s.stack th (⟨o', .vMin⟩ :: ⟨o, p⟩ :: rest) }
  | ret {s th o p rest} : s.stack th = ⟨o, p⟩ :: rest → p.Returns →
      OStep s (.step th) { s with stack := upd s.stack th rest }

inductive ORun : OState → List OEvent → OState → Prop where
  | nil (s) : ORun s [] s
  | snoc {s es s' e s''} : ORun s es s' → OStep s' e s'' → ORun s (es ++ [e]) s''

end Jsval
