import Verif.Model.Validate
/-!
# Vocabulary for stating properties

Independent of how the validators work: only the observable result of `Validate` and the argument after it.
-/
namespace Jsval

/-- The call returned an error. -/
def Res.Rejects (r : Res) : Prop := ∃ e, r = .err e

/-- The call came back (with nil or an error). -/
def Res.Normal (r : Res) : Prop := ∀ a, r ≠ .abort a

/-- The behaviour does not modify this argument. -/
def Sem.ReadOnlyOn (s : Sem) (v : GoVal) : Prop := ∀ σ, (s.val σ v).2 = v

/-- The call returns normally under every iteration order. -/
def Sem.NormalOn (s : Sem) (v : GoVal) : Prop := ∀ σ, (s.val σ v).1.Normal

/-- Accepts under every iteration order. -/
def Sem.Accepts (s : Sem) (v : GoVal) : Prop := ∀ σ, (s.val σ v).1 = .ok

/-- Accepts under this iteration order. -/
def Sem.AcceptsBy (s : Sem) (σ : Sched) (v : GoVal) : Prop := (s.val σ v).1 = .ok

/-- The verdict does not depend on the iteration order. -/
def Sem.DeterminedOn (s : Sem) (v : GoVal) : Prop :=
  ∀ σ σ', (s.val σ v).1 = .ok ↔ (s.val σ' v).1 = .ok

/-- The argument as the `j`-th of a list of children run in order finds it (`i` numbers the first one). -/
def argAt (σ : Sched) : Nat → List Sem → GoVal → Nat → GoVal
  | _, [], v, _ => v
  | _, _ :: _, v, 0 => v
  | i, c :: cs, v, j + 1 => argAt σ (i + 1) cs (c.val (σ.sub i) v).2 j

/-- What the `j`-th child returns when the children before it have run. -/
def resAt (σ : Sched) (cs : List Sem) (v : GoVal) (j : Nat) : Option (Res × GoVal) :=
  cs[j]?.map (fun c => c.val (σ.sub j) (argAt σ 0 cs v j))

/-- Outcomes of the children of a `OneOf`, run in order. -/
def outcomes (σ : Sched) : Nat → List Sem → GoVal → List Res
  | _, [], _ => []
  | i, c :: cs, v => (c.val (σ.sub i) v).1 :: outcomes σ (i + 1) cs (c.val (σ.sub i) v).2

/-- The trivial iteration order. -/
def sched0 : Sched := fun _ => 0

/-- A small concrete environment for examples: patterns match as prefixes, `%s` shows strings and small
integers, mail addresses contain `@`, IP addresses a `.` or `:`. -/
def demoExt : Ext where
  reMatch := fun rx s => rx.isPrefixOf s
  timeParse := fun s => if s.length = 20 then some s.length else none
  timeFormat := fun _ => b! "2020-01-01T00:00:00Z"
  mailOk := fun s => s.contains 64
  ipOk := fun s => s.contains 46 || s.contains 58
  urlOk := fun s => !s.contains 37
  sprint := fun
    | .str s => s
    | .int _ n => b! "%!s(int=" ++ [UInt8.ofNat n.toNat] ++ b! ")"
    | .bool b => if b then b! "%!s(bool=true)" else b! "%!s(bool=false)"
    | .nil => b! "%!s(<nil>)"
    | _ => b! "?"

/-- No constraint map has any entry. -/
def env0 : Env := fun _ _ => none

/-- Behaviour of a reference-free constraint. -/
abbrev sem0 (c : Constraint) : Sem := sem demoExt env0 0 c

/-- A whole number as float64. -/
abbrev fl (n : Int) : GoVal := .float .f64 (F64.exactInt n)

end Jsval

namespace Jsval
/-! Possible outcomes over all iteration orders. -/

/-- Some iteration order makes the call return nil, leaving the argument as `v'`. -/
def Sem.MayAccept (s : Sem) (v v' : GoVal) : Prop := ∃ σ, s.val σ v = (.ok, v')

/-- Some iteration order makes the call return an error, leaving the argument as `v'`. -/
def Sem.MayReject (s : Sem) (v v' : GoVal) : Prop := ∃ σ e, s.val σ v = (.err e, v')

/-- Some iteration order makes the call panic or not return. -/
def Sem.MayAbort (s : Sem) (v : GoVal) (a : Abort) : Prop := ∃ σ, (s.val σ v).1 = .abort a

/-- Same possible verdicts and effects on every value. -/
def Sem.SameVerdicts (s t : Sem) : Prop :=
  ∀ v v', (s.MayAccept v v' ↔ t.MayAccept v v') ∧ (s.MayReject v v' ↔ t.MayReject v v') ∧
    ∀ a, s.MayAbort v a ↔ t.MayAbort v a

end Jsval
