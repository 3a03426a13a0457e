import Verif.Model.Sharing
import Verif.Spec.Memory
import Verif.Spec.Reference
/-!
# Validators shared by goroutines

Tables for references whose targets are known, and what is asked of the time before and of registrations meanwhile.
-/
namespace Jsval

/-- The table in which reference object `r` has target `T r`. -/
def targetEnv (T : Nat → Constraint) : Env := fun r _ => some (T r)

/-- What happened before the goroutines started: some calls, all of which have returned, after which every reference finds a
constraint under its name. -/
structure Prepared (cfg : Nat → Nat × GoStr) (es : List (REvent Constraint)) (R : RState Constraint) : Prop where
  run : RRun cfg .init es R
  done : R.AllDone
  registered : ∀ r, ∃ c, alookup (cfg r).2 (R.tbl (cfg r).1) = some (some c)

/-- No nil is registered under the name of a reference. -/
def NoNil (cfg : Nat → Nat × GoStr) (es : List (REvent Constraint)) : Prop := ∀ r, .wrote (cfg r).1 (cfg r).2 none ∉ es

/-- Nothing is registered under the name of a reference. -/
def Untouched (cfg : Nat → Nat × GoStr) (es : List (REvent Constraint)) : Prop := ∀ r c, .wrote (cfg r).1 (cfg r).2 c ∉ es

/-- `T r` is what reference `r` refers to: the constraint it has found already, or else the one under its name. -/
def Targets (cfg : Nat → Nat × GoStr) (R : RState Constraint) (T : Nat → Constraint) : Prop :=
  ∀ r, R.cache r = some (T r) ∨ R.cache r = none ∧ alookup (cfg r).2 (R.tbl (cfg r).1) = some (some (T r))

/-- All constraints registered in these events have a property. -/
def AllRegistered (P : Constraint → Prop) (es : List (REvent Constraint)) : Prop := ∀ m n d, .wrote m n (some d) ∈ es → P d

/-- The step is not the start of a call other than those of the validators. -/
def OwnStep (s : Shared) (l : Option (REvent Constraint)) : Prop := ∀ i call, l = some (.begin i call) → ∃ r k, s.progs i = .resolve r k

/-- The next operation reads or writes this map. -/
def SProg.Touches {α : Type} (H : Memory) (l : Nat) : SProg α → Prop
  | .look l' _ _ => l' = l
  | .keys l' _ => l' = l
  | .set l' _ _ _ => l' = l
  | .sprint h _ => CanReach H h l
  | _ => False

/-- The next operation writes this map. -/
def SProg.Writes {α : Type} (l : Nat) : SProg α → Prop
  | .set l' _ _ _ => l' = l
  | _ => False

/-- Two goroutines are about to use one map of a document, one of them for writing. -/
def Shared.Racing (s : Shared) : Prop := ∃ i j l, i ≠ j ∧ (s.progs i).Touches s.docs l ∧ (s.progs j).Writes l

end Jsval
