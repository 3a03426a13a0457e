import Verif.Model.Validators
import Verif.Spec.Calls
/-!
# What a reference stands for, by the calls so far
-/
namespace Jsval
variable {C : Type}

def VCall.newMap? (j : Nat) : VCall C → Option (Option Nat) | .setConstraintMap i k => if i = j then some k else none | _ => none
def VCall.newName? (r : Nat) : VCall C → Option GoStr | .refersTo i n => if i = r then some n else none | _ => none

/-- The map a resolver has after these calls: a map is itself, a validator has the one of the last `SetConstraintMap`, or its
own. -/
def MapAfter (own : Nat → Option Nat) (h : List (VCall C)) : RefSource → Option Nat
  | .map k => some k
  | .jsval j => (Latest (VCall.newMap? j) h).getD (own j)

/-- The call, made after `h`, registers `c` under the name `n` in map `k`. -/
def Registers (own : Nat → Option Nat) (h : List (VCall C)) (call : VCall C) (k : Nat) (n : GoStr) (c : Option C) : Prop :=
  ∃ d, call = .setReference d n c ∧ MapAfter own h d = some k

/-- `c` is what was registered last. -/
def LastIn (own : Nat → Option Nat) (h : List (VCall C)) (k : Nat) (n : GoStr) (c : Option C) : Prop :=
  ∃ h1 call h2, h = h1 ++ call :: h2 ∧ Registers own h1 call k n c ∧
    ∀ h3 call' h4, h2 = h3 ++ call' :: h4 → ∀ c', ¬ Registers own (h1 ++ call :: h3) call' k n c'

/-- The name a reference has after these calls. -/
def NameAfter (h : List (VCall C)) (r : Nat) : GoStr := (Latest (VCall.newName? r) h).getD []

/-- Looked up now, reference `r` stands for `c`. -/
def Finds (res : Nat → RefSource) (own : Nat → Option Nat) (h : List (VCall C)) (r : Nat) (c : Option C) : Prop :=
  ∃ k, MapAfter own h (res r) = some k ∧ LastIn own h k (NameAfter h r) c

end Jsval
