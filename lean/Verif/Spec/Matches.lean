import Verif.Spec.Reference
import Verif.Lemmas.Basic
import Verif.Model.Builder
/-!
# The same constraints under other names

Two validators, each with its own maps of named constraints. They match when they are built alike, except that a name of one may stand where the
other has another name for a constraint that matches, or where the other has the constraint itself.
-/
namespace Jsval

/-- `c`, with names in `env`, and `d`, with names in `env'`, are built alike; `R` says which names are taken for each other. -/
inductive BuiltAlike (env env' : Env) (R : Nat × GoStr → Nat × GoStr → Prop) : Constraint → Constraint → Prop where
  | leaf {c} : (∀ d, ¬ c.Child d) → (∀ m n, c ≠ .ref m n) → BuiltAlike env env' R c c
  | array {a : ArrC (Constraint × Constraint)} : (∀ p, a.Child p → BuiltAlike env env' R p.1 p.2) →
      BuiltAlike env env' R (.array (a.map Prod.fst)) (.array (a.map Prod.snd))
  | object {o : ObjC (Constraint × Constraint)} : (∀ p, o.Child p → BuiltAlike env env' R p.1 p.2) →
      BuiltAlike env env' R (.object (o.map Prod.fst)) (.object (o.map Prod.snd))
  | any {l : List (Constraint × Constraint)} : (∀ p ∈ l, BuiltAlike env env' R p.1 p.2) →
      BuiltAlike env env' R (.any (l.map Prod.fst)) (.any (l.map Prod.snd))
  | all {l : List (Constraint × Constraint)} : (∀ p ∈ l, BuiltAlike env env' R p.1 p.2) →
      BuiltAlike env env' R (.all (l.map Prod.fst)) (.all (l.map Prod.snd))
  | oneOf {l : List (Constraint × Constraint)} : (∀ p ∈ l, BuiltAlike env env' R p.1 p.2) →
      BuiltAlike env env' R (.oneOf (l.map Prod.fst)) (.oneOf (l.map Prod.snd))
  | not {c d} : BuiltAlike env env' R c d → BuiltAlike env env' R (.not (some c)) (.not (some d))
  /-- A name for a name. -/
  | ref {m n m' n'} : R (m, n) (m', n') → BuiltAlike env env' R (.ref m n) (.ref m' n')
  /-- A name where the other has the constraint itself. -/
  | left {m n c d} : env m n = some c → BuiltAlike env env' R c d → BuiltAlike env env' R (.ref m n) d
  | right {m n c d} : env' m n = some d → BuiltAlike env env' R c d → BuiltAlike env env' R c (.ref m n)

/-- Names taken for each other stand for constraints that match, or both for none (and then they are the same word, which the error shows). -/
structure Corresponds (env env' : Env) (R : Nat × GoStr → Nat × GoStr → Prop) : Prop where
  found : ∀ {m n m' n' c d}, R (m, n) (m', n') → env m n = some c → env' m' n' = some d → BuiltAlike env env' R c d
  both : ∀ {m n m' n'}, R (m, n) (m', n') → (env m n = none ↔ env' m' n' = none)
  missing : ∀ {m n m' n'}, R (m, n) (m', n') → env m n = none → n = n'

/-- The constraint with its references renamed. -/
def Constraint.rename (f : Nat → GoStr → Nat × GoStr) (c : Constraint) : Constraint := c.inline fun m n => .ref (f m n).1 (f m n).2

/-- `(m, n)` is a reference in `c`, or in a constraint that stands under such a name, and so on. -/
inductive Mentioned (env : Env) (c : Constraint) : Nat → GoStr → Prop where
  | here {m n} : (Constraint.ref m n).In c → Mentioned env c m n
  | there {m n m' n' d} : Mentioned env c m n → env m n = some d → (Constraint.ref m' n').In d → Mentioned env c m' n'

/-- The schema with the names after `$ref` changed. -/
def Schema.rename (ρ : GoStr → GoStr) : Schema → Schema := Schema.fold .nil fun s => .mk { s with reference := ρ s.reference }

/-- What a reference resolves to, with the names after `$ref` changed. -/
def Resolved.rename (ρ : GoStr → GoStr) : Resolved → Resolved
  | .schema s => .schema (s.rename ρ)
  | .object (some s) => .object (some { s.map (Schema.rename ρ) with reference := ρ s.reference })
  | r => r

end Jsval
