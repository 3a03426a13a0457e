import Verif.Lemmas.Sharing
/-!
# Executions of one call without interruption
-/
namespace Jsval

variable {cfg : Nat → Nat × GoStr} {sh : Memory → MVal → GoStr}

/-- The events of a `SetReference` call. -/
def setEvents (t m : Nat) (n : GoStr) (c : Option Constraint) : List (REvent Constraint) :=
  [.begin t (.set m n c), .internal t, .wrote m n c, .didSet t m n c]

/-- The events of a `Resolved()` call that looks the name up. -/
def lookEvents (t r : Nat) (out : Out Constraint) : List (REvent Constraint) :=
  [.begin t (.resolve r), .internal t, .internal t, .internal t, .internal t, .internal t, .internal t, .resolved t r out]

theorem upd_same {β : Type} (f : Nat → β) (i : Nat) (x y : β) : upd (upd f i x) i y = upd f i y := by
  funext j; simp only [upd]; split <;> rfl

theorem upd_back {β : Type} {f : Nat → β} {i : Nat} {x : β} (h : f i = x) : upd f i x = f := by
  funext j; simp only [upd]; split
  · rename_i e; rw [e, h]
  · rfl

theorem RRun.sets {s R : RState Constraint} {es : List (REvent Constraint)} (hr : RRun cfg s es R) {t : Nat} (ht : R.pc t = .idle) (m : Nat) (hm : R.mlock m = none)
    (n : GoStr) (c : Option Constraint) : RRun cfg s (es ++ setEvents t m n c) { R with tbl := upd R.tbl m (ainsert n c (R.tbl m)) } := by
  have h1 := hr.snoc (.begin (.set m n c) ht)
  have h2 := h1.snoc (.sLockM (t := t) (m := m) (n := n) (c := c) (by simp [upd, RCall.start]) hm)
  have h3 := h2.snoc (.sWrite (t := t) (m := m) (n := n) (c := c) (by simp [upd]))
  have h4 := h3.snoc (.sUnlockM (t := t) (m := m) (n := n) (c := c) (by simp [upd]))
  simp only [upd_same, upd_back ht, upd_back hm] at h4
  simpa [setEvents] using h4

theorem SharedRun.sets {s s' : Shared} {es : List (REvent Constraint)} (hr : SharedRun sh cfg s es s') {t : Nat} {a : Res} (hp : s'.progs t = .ret a)
    (ht : s'.refs.pc t = .idle) (m : Nat) (hm : s'.refs.mlock m = none) (n : GoStr) (c : Option Constraint) :
    SharedRun sh cfg s (es ++ setEvents t m n c) { s' with refs := { s'.refs with tbl := upd s'.refs.tbl m (ainsert n c (s'.refs.tbl m)) } } := by
  have h1 := hr.event (.call hp (.begin (.set m n c) ht))
  have h2 := h1.event (.inside (.sLockM (t := t) (m := m) (n := n) (c := c) (by simp [upd, RCall.start]) hm) (by simp) (by simp))
  have h3 := h2.event (.inside (.sWrite (t := t) (m := m) (n := n) (c := c) (by simp [upd])) (by simp) (by simp))
  have h4 := h3.event (.inside (.sUnlockM (t := t) (m := m) (n := n) (c := c) (by simp [upd])) (by simp) (by simp))
  simp only [upd_same, upd_back ht, upd_back hm] at h4
  simpa [setEvents] using h4

/-- What the cache is after a lookup. -/
def cachedAfter (cache : Nat → Option Constraint) (r : Nat) : Out Constraint → Nat → Option Constraint
  | none => cache
  | some c => upd cache r c

theorem SharedRun.looks {s s' : Shared} {es : List (REvent Constraint)} (hr : SharedRun sh cfg s es s') {t r : Nat} {k : Out Constraint → SProg Res}
    (hp : s'.progs t = .resolve r k) (ht : s'.refs.pc t = .idle) (hl : s'.refs.rlock r = none) (hm : s'.refs.mlock (cfg r).1 = none) (hc : s'.refs.cache r = none)
    {out : Out Constraint} (ho : alookup (cfg r).2 (s'.refs.tbl (cfg r).1) = out) :
    SharedRun sh cfg s (es ++ lookEvents t r out)
      { s' with progs := upd s'.progs t (k out), refs := { s'.refs with cache := cachedAfter s'.refs.cache r out } } := by
  have h1 := hr.event (.ask hp (.begin (.resolve r) ht))
  have h2 := h1.event (.inside (.rLockR (t := t) (r := r) (by simp [upd, RCall.start]) hl) (by simp) (by simp))
  have h3 := h2.event (.inside (.rMiss (t := t) (r := r) (by simp [upd]) hc) (by simp) (by simp))
  have h4 := h3.event (.inside (.rLockM (t := t) (r := r) (by simp [upd]) hm) (by simp) (by simp))
  have h5 := h4.event (.inside (.rLook (t := t) (r := r) (by simp [upd])) (by simp) (by simp))
  have h6 := h5.event (.inside (.rUnlockM (t := t) (r := r) (out := out) (by simp [upd, ho])) (by simp) (by simp))
  cases out with
  | none =>
    have h7 := h6.event (.inside (.rStoreErr (t := t) (r := r) (by simp [upd])) (by simp) (by simp))
    have h8 := h7.event (.answer (i := t) (r := r) (out := none) hp (.rUnlockR (by simp [upd])))
    simp only [upd_same, upd_back ht, upd_back hm, upd_back hl] at h8
    simpa [lookEvents, cachedAfter] using h8
  | some c =>
    have h7 := h6.event (.inside (.rStoreOk (t := t) (r := r) (c := c) (by simp [upd])) (by simp) (by simp))
    have h8 := h7.event (.answer (i := t) (r := r) (out := some c) hp (.rUnlockR (by simp [upd])))
    simp only [upd_same, upd_back ht, upd_back hm, upd_back hl] at h8
    simpa [lookEvents, cachedAfter] using h8

end Jsval
