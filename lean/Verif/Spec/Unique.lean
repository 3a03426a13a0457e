import Verif.Model.Fmt
import Verif.Spec.JsonSchema
import Verif.Spec.OrderDefaults

/-!
When printing tells documents apart (C125).
-/

namespace Jsval

/-- A decoded document all of whose strings and property names are words, without negative zeros. -/
inductive Wordy : GoVal → Prop where
  | null : Wordy .nil
  | bool (b) : Wordy (.bool b)
  | num (neg m) : (m = 0 → neg = false) → Wordy (.float .f64 (.fin neg m))
  | str (s) : Word s → Wordy (.str s)
  | arr (xs) : (∀ x, x ∈ xs → Wordy x) → Wordy (.slice false xs)
  | obj (kvs : List (GoStr × GoVal)) : (kvs.map (·.1)).Nodup → (∀ k x, (k, x) ∈ kvs → Word k) →
      (∀ k x, (k, x) ∈ kvs → Wordy x) → Wordy (.map false kvs)

/-- A decoded document without negative zeros (which JSON can write, as `-0`). -/
inductive NoNegZero : GoVal → Prop where
  | null : NoNegZero .nil
  | bool (b) : NoNegZero (.bool b)
  | num (neg m) : (m = 0 → neg = false) → NoNegZero (.float .f64 (.fin neg m))
  | str (s) : NoNegZero (.str s)
  | arr (xs) : (∀ x, x ∈ xs → NoNegZero x) → NoNegZero (.slice false xs)
  | obj (kvs : List (GoStr × GoVal)) : (kvs.map (·.1)).Nodup → (∀ k x, (k, x) ∈ kvs → NoNegZero x) →
      NoNegZero (.map false kvs)

end Jsval
