import Verif.Model.ObjectLocks
/-!
# Vocabulary for object constraints used by several goroutines
-/
namespace Jsval

/-- The goroutine is about to access this field of this object; the flag says whether it writes. -/
def OState.Accesses (s : OState) (th o : Nat) (f : OField) (write : Bool) : Prop :=
  ∃ p rest, s.stack th = ⟨o, p⟩ :: rest ∧ p.access = some (f, write)

/-- A data race: two goroutines are about to access the field, and one of them writes. -/
def OState.Races (s : OState) (o : Nat) (f : OField) : Prop :=
  ∃ th th' w, th ≠ th' ∧ s.Accesses th o f true ∧ s.Accesses th' o f w

/-- No configuring method is called. -/
def OnlyValidates (es : List OEvent) : Prop := ∀ th o f, OEvent.start th (.configure o f) ∉ es

/-- The step is one of a call in progress. -/
def OEvent.Continues : OEvent → Prop
  | .step _ => True
  | _ => False

/-- How many steps the goroutine takes. -/
def stepsOf (th : Nat) (es : List OEvent) : Nat := es.countP (fun | .step t => decide (t = th) | _ => false)

end Jsval
