import Verif.Model.Reference
/-!
# Validators, constraint maps and references of a program

`JSVal` embeds `*ConstraintMap` (interface.go:14-24), so a `*JSVal` is a resolver, too: the builder makes references that are
resolved by the validator (builder/builder.go:158), generated code makes references that are resolved by a map (generator.go:237).
Here are programs that share maps between validators and exchange the map of a validator. One goroutine; for several of them see
`Reference.lean`.
-/
namespace Jsval

/-- What a reference asks (reference.go:60, 67-71): a constraint map or a validator. -/
inductive RefSource where
  | map (k : Nat)
  | jsval (j : Nat)
deriving DecidableEq

/-- A `ReferenceConstraint` (reference.go:59-64). -/
structure VRef (C : Type) where
  resolver : RefSource
  reference : GoStr := []
  resolved : Option C := none

/-- All maps, validators and references of a program. A validator has a pointer to a map, or nil. -/
structure VState (C : Type) where
  maps : Nat → CMap C
  jsvals : Nat → Option Nat
  refs : Nat → VRef C

/-- Calls. A nil constraint is `none`. -/
inductive VCall (C : Type) where
  | setConstraintMap (j : Nat) (k : Option Nat)
  | setReference (to : RefSource) (name : GoStr) (c : Option C)
  | refersTo (r : Nat) (name : GoStr)
  | resolved (r : Nat)

/-- What a call comes to. -/
inductive VOut (C : Type) where
  | done
  | found (c : Option C)
  | notFound
  | panic
deriving DecidableEq

variable {C : Type}

/-- The map behind a resolver. -/
def VState.mapOf (s : VState C) : RefSource → Option Nat
  | .map k => some k
  | .jsval j => s.jsvals j

/-- One call: `SetConstraintMap` (jsval.go:52-55), `SetReference` (reference.go:36-42), `RefersTo` (reference.go:105-108),
`Resolved` (reference.go:75-102) with `GetReference` (reference.go:45-55). Methods of a nil map panic when they take its lock; the
lock of the reference is given back by a deferred call. -/
def VState.exec (s : VState C) : VCall C → VOut C × VState C
  | .setConstraintMap j k => (.done, { s with jsvals := fun i => if i = j then k else s.jsvals i })
  | .setReference d n c =>
    match s.mapOf d with
    | none => (.panic, s)
    | some k => (.done, { s with maps := fun i => if i = k then (s.maps k).SetReference n c else s.maps i })
  | .refersTo r n => (.done, { s with refs := fun i => if i = r then { s.refs r with reference := n } else s.refs i })
  | .resolved r =>
    match (s.refs r).resolved with
    | some c => (.found (some c), s)
    | none =>
      match s.mapOf (s.refs r).resolver with
      | none => (.panic, s)
      | some k =>
        match (s.maps k).GetReference (s.refs r).reference with
        | (.error _, cm) => (.notFound, { s with maps := fun i => if i = k then cm else s.maps i })
        | (.ok c, cm) =>
          (.found c, { s with maps := fun i => if i = k then cm else s.maps i,
                              refs := fun i => if i = r then { s.refs r with resolved := c } else s.refs i })

/-- A program: references with their resolvers, validators with their maps (`New` makes one for each, jsval.go:14-18), and calls. -/
def VState.start (res : Nat → RefSource) (own : Nat → Option Nat) : VState C :=
  ⟨fun _ => {}, own, fun r => { resolver := res r }⟩

/-- The calls one after the other. -/
def VState.run (s : VState C) (h : List (VCall C)) : VState C := h.foldl (fun s c => (s.exec c).2) s

end Jsval
