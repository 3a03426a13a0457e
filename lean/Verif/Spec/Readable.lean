import Verif.Spec.Faults
import Verif.Model.Messages
/-!
# Messages that can be read

Names stand between single quotes in messages, as they are. A name that has such a quote in it can make a message read as another one.
-/
namespace Jsval

/-- Without single quotes. -/
def Unquoted (s : GoStr) : Prop := (0x27 : UInt8) ∉ s

/-- No single quotes in what the message of this error quotes before it goes on. -/
def Err.Clear : Err → Prop
  | .prop p e => Unquoted p ∧ e.Clear
  | .addlProp p e => Unquoted p ∧ e.Clear
  | .setDefault p e => Unquoted p ∧ e.Clear
  | .required p => Unquoted p
  | .badRegexp s _ => Unquoted s
  | _ => True

/-- A name that has no spaces and does not look like an address. -/
def Who.ClearName : Who → Prop
  | .byName n => (0x20 : UInt8) ∉ n ∧ ¬ b! "0x" <+: n
  | .byPointer => True

/-- No single quotes in property names and strings of this value. -/
def ClearValue (v : GoVal) : Prop := ∀ ks x, At v ks x → (∀ k ∈ ks, Unquoted k) ∧ ∀ s, Target x (.str s) → Unquoted s

/-- No single quotes in the names this validator requires. -/
def ClearRequired (env : Env) (c : Constraint) : Prop := ∀ o, ReachedFrom env c (.object o) → ∀ p ∈ o.required, Unquoted p

end Jsval
