import Verif.Spec.Basic
import Verif.Spec.Graph
/-!
# Replacing a part of a validator by another one

Written for C116. Parts are marked by a reference `h`: `c.fill h d` (Spec/Graph.lean) is the validator `c` with `d` at the places
marked `h`.
-/
namespace Jsval

/-- Nobody who calls the two can tell them apart, but for the text of errors: the same default, and on every value the same possible
verdicts, leaving the same behind. -/
def Sem.Equivalent (s t : Sem) : Prop := s.dflt = t.dflt ∧ s.SameVerdicts t

/-- Maps of constraints with `d` at the places marked `h`. -/
def Env.fill (env : Env) (h : Nat × GoStr) (d : Constraint) : Env := fun m n => (env m n).map (·.fill h d)

end Jsval
