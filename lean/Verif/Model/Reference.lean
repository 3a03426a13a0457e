import Verif.Model.Validate
/-!
# Constraint maps and references

`denote` interprets references against fixed tables. Here are the objects that hold the tables: `ConstraintMap` and
`ReferenceConstraint` with its cache, first as sequential objects, then as a machine whose steps are the lock
operations and the accesses between them.

`C` is the type of (non-nil) constraints; `Option C` is the interface type, `none` being a nil interface.
-/
namespace Jsval

/-! ## Sequential objects -/

/-- `ConstraintMap` (reference.go:18-21) without its lock; `refs = none` is the nil map. -/
structure CMap (C : Type) where
  refs : Option (List (GoStr × Option C)) := none

variable {C : Type}

/-- `refmap` (reference.go:28-33): the table, allocated on first use. -/
def CMap.refmap (cm : CMap C) : List (GoStr × Option C) × CMap C :=
  match cm.refs with
  | none => ([], ⟨some []⟩)
  | some l => (l, cm)

/-- `SetReference` (reference.go:36-42). -/
def CMap.SetReference (cm : CMap C) (name : GoStr) (c : Option C) : CMap C :=
  let (refs, _) := cm.refmap
  ⟨some (ainsert name c refs)⟩

/-- `GetReference` (reference.go:45-55). -/
def CMap.GetReference (cm : CMap C) (name : GoStr) : Except Err (Option C) × CMap C :=
  let (refs, cm) := cm.refmap
  match alookup name refs with
  | none => (.error (.refNotFound name), cm)
  | some c => (.ok c, cm)

/-- `Len` (reference.go:24-26): a value receiver, so the allocation is lost. -/
def CMap.Len (cm : CMap C) : Nat := cm.refmap.1.length

/-- `ReferenceConstraint` (reference.go:59-64): resolver (by number), name and cache. -/
structure RefObj (C : Type) where
  resolver : Nat
  reference : GoStr := []
  resolved : Option C := none

/-- All constraint maps and references of a program. -/
structure RefStore (C : Type) where
  maps : Nat → CMap C
  refs : Nat → RefObj C

/-- `ReferenceConstraint.Resolved` (reference.go:75-102) on reference number `r`. -/
def RefStore.Resolved (s : RefStore C) (r : Nat) : Except Err (Option C) × RefStore C :=
  match (s.refs r).resolved with
  | some c => (.ok (some c), s)
  | none =>
    let m := (s.refs r).resolver
    match (s.maps m).GetReference (s.refs r).reference with
    | (.error e, cm) => (.error e, { s with maps := fun k => if k = m then cm else s.maps k })
    | (.ok c, cm) =>
      (.ok c, { maps := fun k => if k = m then cm else s.maps k,
                refs := fun k => if k = r then { s.refs r with resolved := c } else s.refs k })

/-- `SetReference` on map number `m`. -/
def RefStore.SetReference (s : RefStore C) (m : Nat) (n : GoStr) (c : Option C) : RefStore C :=
  { s with maps := fun k => if k = m then (s.maps m).SetReference n c else s.maps k }

/-- `ReferenceConstraint.Validate`, `HasDefault`, `DefaultValue` (reference.go:116-153): resolve, then call the
target, whose behaviour is `beh`; a nil target is a nil dereference. -/
def RefStore.behave (s : RefStore C) (beh : C → Sem) (r : Nat) : Sem :=
  match (s.Resolved r).1 with
  | .error _ => unresolved (s.refs r).reference
  | .ok (some c) => beh c
  | .ok none => ⟨.abort .panic, fun _ v => (.abort .panic, v)⟩

/-! ## The machine -/

/-- What a `GetReference`/`Resolved` call returns: a possibly nil constraint, or the "not found" error. -/
abbrev Out (C : Type) := Option (Option C)

/-- Where a goroutine is. `Want` states wait for a lock, `Have` states own it and are about to access the data. -/
inductive Pc (C : Type) where
  | idle
  /- `Resolved` of reference `r` -/
  | rWantR (r : Nat)                    -- reference.go:86
  | rHaveR (r : Nat)                    -- reference.go:89
  | rWantM (r : Nat)                    -- reference.go:96 → 46
  | rHaveM (r : Nat)                    -- reference.go:49-50
  | rRelM (r : Nat) (out : Out C)       -- reference.go:47
  | rStore (r : Nat) (out : Out C)      -- reference.go:97-100
  | rRelR (r : Nat) (out : Out C)       -- reference.go:87
  /- `SetReference` on map `m` -/
  | sWantM (m : Nat) (n : GoStr) (c : Option C)   -- reference.go:37
  | sHaveM (m : Nat) (n : GoStr) (c : Option C)   -- reference.go:40-41
  | sRelM (m : Nat) (n : GoStr) (c : Option C)    -- reference.go:38
  /- `GetReference` on map `m` -/
  | gWantM (m : Nat) (n : GoStr)                  -- reference.go:46
  | gHaveM (m : Nat) (n : GoStr)                  -- reference.go:49-50
  | gRelM (m : Nat) (n : GoStr) (out : Out C)     -- reference.go:47
  /- `Len` of map `m`: no lock -/
  | lRead (m : Nat)                               -- reference.go:25

/-- The calls. -/
inductive RCall (C : Type) where
  | resolve (r : Nat)
  | set (m : Nat) (n : GoStr) (c : Option C)
  | get (m : Nat) (n : GoStr)
  | len (m : Nat)

/-- Where a call starts. -/
def RCall.start : RCall C → Pc C
  | .resolve r => .rWantR r
  | .set m n c => .sWantM m n c
  | .get m n => .gWantM m n
  | .len m => .lRead m

/-- Machine state: tables, caches, lock owners, goroutines. -/
structure RState (C : Type) where
  tbl : Nat → List (GoStr × Option C)
  cache : Nat → Option C
  mlock : Nat → Option Nat
  rlock : Nat → Option Nat
  pc : Nat → Pc C

/-- What an observer sees of a step. -/
inductive REvent (C : Type) where
  | begin (t : Nat) (call : RCall C)
  /-- the write of a `SetReference` -/
  | wrote (m : Nat) (n : GoStr) (c : Option C)
  /-- a `Resolved()` call returns -/
  | resolved (t : Nat) (r : Nat) (out : Out C)
  /-- a `GetReference` call returns -/
  | got (t : Nat) (m : Nat) (n : GoStr) (out : Out C)
  /-- a `SetReference` call returns -/
  | didSet (t : Nat) (m : Nat) (n : GoStr) (c : Option C)
  /-- a `Len` call returns -/
  | len (t : Nat) (m : Nat) (n : Nat)
  | internal (t : Nat)

/-- Function update. -/
def upd {β : Type} (f : Nat → β) (i : Nat) (x : β) : Nat → β := fun j => if j = i then x else f j

/-- Steps of the machine; `cfg r` is the resolver and the name of reference `r`. -/
inductive RStep (cfg : Nat → Nat × GoStr) : RState C → REvent C → RState C → Prop where
  | begin {s t} (call) : s.pc t = .idle → RStep cfg s (.begin t call) { s with pc := upd s.pc t call.start }
  | rLockR {s t r} : s.pc t = .rWantR r → s.rlock r = none →
      RStep cfg s (.internal t) { s with rlock := upd s.rlock r (some t), pc := upd s.pc t (.rHaveR r) }
  | rCached {s t r c} : s.pc t = .rHaveR r → s.cache r = some c →
      RStep cfg s (.internal t) { s with pc := upd s.pc t (.rRelR r (some (some c))) }
  | rMiss {s t r} : s.pc t = .rHaveR r → s.cache r = none → RStep cfg s (.internal t) { s with pc := upd s.pc t (.rWantM r) }
  | rLockM {s t r} : s.pc t = .rWantM r → s.mlock (cfg r).1 = none →
      RStep cfg s (.internal t) { s with mlock := upd s.mlock (cfg r).1 (some t), pc := upd s.pc t (.rHaveM r) }
  | rLook {s t r} : s.pc t = .rHaveM r →
      RStep cfg s (.internal t) { s with pc := upd s.pc t (.rRelM r (alookup (cfg r).2 (s.tbl (cfg r).1))) }
  | rUnlockM {s t r out} : s.pc t = .rRelM r out →
      RStep cfg s (.internal t) { s with mlock := upd s.mlock (cfg r).1 none, pc := upd s.pc t (.rStore r out) }
  | rStoreErr {s t r} : s.pc t = .rStore r none → RStep cfg s (.internal t) { s with pc := upd s.pc t (.rRelR r none) }
  | rStoreOk {s t r c} : s.pc t = .rStore r (some c) →
      RStep cfg s (.internal t) { s with cache := upd s.cache r c, pc := upd s.pc t (.rRelR r (some c)) }
  | rUnlockR {s t r out} : s.pc t = .rRelR r out →
      RStep cfg s (.resolved t r out) { s with rlock := upd s.rlock r none, pc := upd s.pc t .idle }
  | sLockM {s t m n c} : s.pc t = .sWantM m n c → s.mlock m = none →
      RStep cfg s (.internal t) { s with mlock := upd s.mlock m (some t), pc := upd s.pc t (.sHaveM m n c) }
  | sWrite {s t m n c} : s.pc t = .sHaveM m n c →
      RStep cfg s (.wrote m n c) { s with tbl := upd s.tbl m (ainsert n c (s.tbl m)), pc := upd s.pc t (.sRelM m n c) }
  | sUnlockM {s t m n c} : s.pc t = .sRelM m n c →
      RStep cfg s (.didSet t m n c) { s with mlock := upd s.mlock m none, pc := upd s.pc t .idle }
  | gLockM {s t m n} : s.pc t = .gWantM m n → s.mlock m = none →
      RStep cfg s (.internal t) { s with mlock := upd s.mlock m (some t), pc := upd s.pc t (.gHaveM m n) }
  | gLook {s t m n} : s.pc t = .gHaveM m n →
      RStep cfg s (.internal t) { s with pc := upd s.pc t (.gRelM m n (alookup n (s.tbl m))) }
  | gUnlockM {s t m n out} : s.pc t = .gRelM m n out →
      RStep cfg s (.got t m n out) { s with mlock := upd s.mlock m none, pc := upd s.pc t .idle }
  | lRead {s t m} : s.pc t = .lRead m → RStep cfg s (.len t m (s.tbl m).length) { s with pc := upd s.pc t .idle }

/-- Executions with their event sequence. -/
inductive RRun (cfg : Nat → Nat × GoStr) : RState C → List (REvent C) → RState C → Prop where
  | nil (s) : RRun cfg s [] s
  | snoc {s es s' e s''} : RRun cfg s es s' → RStep cfg s' e s'' → RRun cfg s (es ++ [e]) s''

/-- Nothing registered, nothing resolved, nothing running. -/
def RState.init : RState C := ⟨fun _ => [], fun _ => none, fun _ => none, fun _ => none, fun _ => .idle⟩

end Jsval
