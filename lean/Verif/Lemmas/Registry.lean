import Verif.Model.Registry
/-!
# Invariants of the registry machine
-/
namespace Jsval
variable {T I : Type} {ex : T → Option I}

/-- Holds the lock for reading. -/
def GPc.reading : GPc T I → Bool
  | .lHave _ | .lRel _ _ | .rHave _ | .rRel _ _ => true
  | _ => false
/-- Holds the lock for writing, or has announced itself. -/
def GPc.writing : GPc T I → Bool
  | .wWait _ _ | .wHave _ _ | .wRel _ _ => true
  | _ => false
/-- Has the lock for writing. -/
def GPc.exclusive : GPc T I → Bool
  | .wHave _ _ | .wRel _ _ => true
  | _ => false
/-- An info it is carrying. -/
def GPc.carries : GPc T I → Option (T × I)
  | .lRel t out | .rRel t out => out.map fun i => (t, i)
  | .wWant t i | .wWait t i | .wHave t i | .wRel t i => some (t, i)
  | _ => none

/-- The invariant. -/
structure GInv (ex : T → Option I) (s : GState T I) : Prop where
  rd : ∀ th, s.readers th = (s.pc th).reading
  wr : ∀ th, s.writer = some th ↔ (s.pc th).writing = true
  excl : ∀ th th', (s.pc th).exclusive = true → s.readers th' = false
  reg : ∀ t i, s.reg t = some i → ex t = some i
  car : ∀ th t i, (s.pc th).carries = some (t, i) → ex t = some i
  done : ∀ th t i, s.pc th = .wRel t i → s.reg t = some i
  hit : ∀ th t i, s.pc th = .rRel t (some i) → s.reg t = some i

theorem gInv_init : GInv ex (GState.init : GState T I) := by
  constructor <;> simp [GState.init, GPc.reading, GPc.writing, GPc.exclusive, GPc.carries]

theorem gInv_step {s s' : GState T I} {e : GEvent T I} (h : GInv ex s) (hs : GStep ex s e s') : GInv ex s' := by
  have hu : ∀ th th', (s.pc th).writing = true → (s.pc th').writing = true → th = th' := by
    intro th th' a b
    have a := (h.wr th).2 a
    rw [(h.wr th').2 b] at a
    cases a; rfl
  have hx : ∀ th, (s.pc th).exclusive = true → s.writer = some th := by
    intro th he
    refine (h.wr th).2 ?_
    cases hp : s.pc th <;> simp_all [GPc.exclusive, GPc.writing]
  obtain ⟨h1, h2, h3, h4, h5, h6, h7⟩ := h
  cases hs with
  | @lRead th0 t0 hp =>
    constructor
    case car =>
      intro th t i hc
      by_cases ht : th = th0
      · subst ht
        simp only [upd, if_true] at hc
        cases hr : s.reg t0 with
        | none => simp [hr, GPc.carries] at hc
        | some j =>
          simp only [hr, GPc.carries, Option.map_some, Option.some.injEq, Prod.mk.injEq] at hc
          obtain ⟨rfl, rfl⟩ := hc
          exact h4 _ _ hr
      · simp only [upd, if_neg ht] at hc
        exact h5 _ _ _ hc
    all_goals grind [upd, GPc.reading, GPc.writing, GPc.exclusive]
  | @rRead th0 t0 hp =>
    constructor
    case car =>
      intro th t i hc
      by_cases ht : th = th0
      · subst ht
        simp only [upd, if_true] at hc
        cases hr : s.reg t0 with
        | none => simp [hr, GPc.carries] at hc
        | some j =>
          simp only [hr, GPc.carries, Option.map_some, Option.some.injEq, Prod.mk.injEq] at hc
          obtain ⟨rfl, rfl⟩ := hc
          exact h4 _ _ hr
      · simp only [upd, if_neg ht] at hc
        exact h5 _ _ _ hc
    all_goals grind [upd, GPc.reading, GPc.writing, GPc.exclusive]
  | @wWrite th0 t0 i0 hp =>
    have hy := h5 th0 t0 i0 (by rw [hp]; rfl)
    have hz : ∀ th t i, s.pc th = .rRel t (some i) → ex t = some i := fun th t i h => h5 th t i (by rw [h]; rfl)
    constructor <;> grind [upd, regSet, GPc.reading, GPc.writing, GPc.exclusive, GPc.carries]
  | _ => constructor <;> grind [upd, GPc.reading, GPc.writing, GPc.exclusive, GPc.carries]

theorem gInv_run {s s' : GState T I} {es : List (GEvent T I)} (h : GInv ex s) (hr : GRun ex s es s') : GInv ex s' := by
  induction hr with
  | nil => exact h
  | snoc _ hs ih => exact gInv_step ih hs

end Jsval
