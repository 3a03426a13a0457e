import Verif.Model.Reference
/-!
# The struct registry (structinfo.go:22-110) as a machine

Steps are the operations on the registry's `sync.RWMutex` and the accesses between them. `T` stands for struct types,
`I` for their infos, and `ex t` for what `extract(t)` computes, `none` being its panic. Debug output is left out.
The `StructInfo` that is returned is a copy of the stored one, and shares its `props` map, which nothing writes to
after `extract` built it.
-/
namespace Jsval

variable {T I : Type}

/-- Where a goroutine is. -/
inductive GPc (T I : Type) where
  | idle
  /- `Lookup(t)` -/
  | lWant (t : T)                    -- structinfo.go:67
  | lHave (t : T)                    -- structinfo.go:68
  | lRel (t : T) (out : Option I)    -- structinfo.go:69
  /- `Register(t)` -/
  | rWant (t : T)                    -- structinfo.go:85
  | rHave (t : T)                    -- structinfo.go:86
  | rRel (t : T) (out : Option I)    -- structinfo.go:87
  | rExtract (t : T)                 -- structinfo.go:93
  | wWant (t : T) (i : I)            -- structinfo.go:106, before the call
  | wWait (t : T) (i : I)            -- structinfo.go:106, announced, waiting for the readers
  | wHave (t : T) (i : I)            -- structinfo.go:107
  | wRel (t : T) (i : I)             -- structinfo.go:108

/-- Machine state. The RWMutex is its set of readers and the writer that holds or has announced itself
(which keeps new readers out, as in Go). -/
structure GState (T I : Type) where
  reg : T → Option I
  readers : Nat → Bool
  writer : Option Nat
  pc : Nat → GPc T I

/-- What an observer sees of a step. -/
inductive GEvent (T I : Type) where
  | beginLookup (th : Nat) (t : T)
  | beginRegister (th : Nat) (t : T)
  | looked (th : Nat) (t : T) (out : Option I)
  | registered (th : Nat) (t : T) (i : I)
  | panicked (th : Nat) (t : T)
  | internal (th : Nat)

open Classical in
/-- `m[t] = i`. -/
noncomputable def regSet (f : T → Option I) (t : T) (i : I) : T → Option I := fun t' => if t' = t then some i else f t'

/-- The steps. -/
inductive GStep (ex : T → Option I) : GState T I → GEvent T I → GState T I → Prop where
  | beginLookup {s th} (t) : s.pc th = .idle →
      GStep ex s (.beginLookup th t) { s with pc := upd s.pc th (.lWant t) }
  | beginRegister {s th} (t) : s.pc th = .idle →
      GStep ex s (.beginRegister th t) { s with pc := upd s.pc th (.rWant t) }
  | lLock {s th t} : s.pc th = .lWant t → s.writer = none →
      GStep ex s (.internal th) { s with readers := upd s.readers th true, pc := upd s.pc th (.lHave t) }
  | lRead {s th t} : s.pc th = .lHave t → GStep ex s (.internal th) { s with pc := upd s.pc th (.lRel t (s.reg t)) }
  | lUnlock {s th t out} : s.pc th = .lRel t out →
      GStep ex s (.looked th t out) { s with readers := upd s.readers th false, pc := upd s.pc th .idle }
  | rLock {s th t} : s.pc th = .rWant t → s.writer = none →
      GStep ex s (.internal th) { s with readers := upd s.readers th true, pc := upd s.pc th (.rHave t) }
  | rRead {s th t} : s.pc th = .rHave t → GStep ex s (.internal th) { s with pc := upd s.pc th (.rRel t (s.reg t)) }
  | rHit {s th t i} : s.pc th = .rRel t (some i) →
      GStep ex s (.registered th t i) { s with readers := upd s.readers th false, pc := upd s.pc th .idle }
  | rMiss {s th t} : s.pc th = .rRel t none →
      GStep ex s (.internal th) { s with readers := upd s.readers th false, pc := upd s.pc th (.rExtract t) }
  | rExtract {s th t i} : s.pc th = .rExtract t → ex t = some i →
      GStep ex s (.internal th) { s with pc := upd s.pc th (.wWant t i) }
  | rPanic {s th t} : s.pc th = .rExtract t → ex t = none →
      GStep ex s (.panicked th t) { s with pc := upd s.pc th .idle }
  | wAnnounce {s th t i} : s.pc th = .wWant t i → s.writer = none →
      GStep ex s (.internal th) { s with writer := some th, pc := upd s.pc th (.wWait t i) }
  | wLock {s th t i} : s.pc th = .wWait t i → (∀ th', s.readers th' = false) →
      GStep ex s (.internal th) { s with pc := upd s.pc th (.wHave t i) }
  | wWrite {s th t i} : s.pc th = .wHave t i →
      GStep ex s (.internal th) { s with reg := regSet s.reg t i, pc := upd s.pc th (.wRel t i) }
  | wUnlock {s th t i} : s.pc th = .wRel t i →
      GStep ex s (.registered th t i) { s with writer := none, pc := upd s.pc th .idle }

/-- Executions with their event sequence. -/
inductive GRun (ex : T → Option I) : GState T I → List (GEvent T I) → GState T I → Prop where
  | nil (s) : GRun ex s [] s
  | snoc {s es s' e s''} : GRun ex s es s' → GStep ex s' e s'' → GRun ex s (es ++ [e]) s''

/-- An empty registry (object.go:156-158), nothing running. -/
def GState.init : GState T I := ⟨fun _ => none, fun _ => false, none, fun _ => .idle⟩

end Jsval
