import Verif.Spec.Reference
import Mathlib.Algebra.BigOperators.Group.Finset.Basic
import Mathlib.Algebra.Order.BigOperators.Group.Finset
import Verif.Lemmas.Assoc
/-!
# Invariants of the reference machine
-/
namespace Jsval
variable {C : Type} {cfg : Nat → Nat × GoStr}

/-- The reference lock a goroutine owns. -/
def Pc.ownR : Pc C → Option Nat
  | .rHaveR r => some r
  | .rWantM r => some r
  | .rHaveM r => some r
  | .rRelM r _ => some r
  | .rStore r _ => some r
  | .rRelR r _ => some r
  | _ => none

/-- The map lock a goroutine owns. -/
def Pc.ownM (cfg : Nat → Nat × GoStr) : Pc C → Option Nat
  | .rHaveM r => some (cfg r).1
  | .rRelM r _ => some (cfg r).1
  | .sHaveM m _ _ => some m
  | .sRelM m _ _ => some m
  | .gHaveM m _ => some m
  | .gRelM m _ _ => some m
  | _ => none

/-- Between the cache miss and the store. -/
def Pc.missed : Pc C → Option Nat
  | .rWantM r => some r
  | .rHaveM r => some r
  | .rRelM r _ => some r
  | .rStore r _ => some r
  | _ => none

/-- A looked-up constraint on its way to the cache. -/
def Pc.found : Pc C → Option (Nat × Option C)
  | .rRelM r out => out.map fun c => (r, c)
  | .rStore r out => out.map fun c => (r, c)
  | _ => none

theorem Pc.missed_own {p : Pc C} {r : Nat} (h : p.missed = some r) : p.ownR = some r := by
  cases p <;> simp_all [Pc.missed, Pc.ownR]

/-- The lock owners are the goroutines that believe so. -/
structure LockInv (cfg : Nat → Nat × GoStr) (s : RState C) : Prop where
  rl : ∀ r t, s.rlock r = some t ↔ (s.pc t).ownR = some r
  ml : ∀ m t, s.mlock m = some t ↔ (s.pc t).ownM cfg = some m

theorem lockInv_init : LockInv cfg (RState.init : RState C) :=
  ⟨fun r t => by simp [RState.init, Pc.ownR], fun r t => by simp [RState.init, Pc.ownM]⟩

theorem LockInv.uniqR {s : RState C} (h : LockInv cfg s) {r t t' : Nat} (h1 : (s.pc t).ownR = some r)
    (h2 : (s.pc t').ownR = some r) : t = t' := by
  have a := (h.rl r t).2 h1
  rw [(h.rl r t').2 h2] at a
  cases a; rfl

theorem LockInv.uniqM {s : RState C} (h : LockInv cfg s) {r t t' : Nat} (h1 : (s.pc t).ownM cfg = some r)
    (h2 : (s.pc t').ownM cfg = some r) : t = t' := by
  have a := (h.ml r t).2 h1
  rw [(h.ml r t').2 h2] at a
  cases a; rfl

theorem lockInv_step {s s' : RState C} {e : REvent C} (h : LockInv cfg s) (hs : RStep cfg s e s') : LockInv cfg s' := by
  have u1 := fun r t t' => h.uniqR (r := r) (t := t) (t' := t')
  have u2 := fun r t t' => h.uniqM (r := r) (t := t) (t' := t')
  obtain ⟨h1, h2⟩ := h
  cases hs with
  | begin call hp => cases call <;> constructor <;> intro r t <;> have a1 := h1 r t <;> have a2 := h2 r t <;> grind [upd, Pc.ownR, Pc.ownM, RCall.start]
  | _ => constructor <;> intro r t <;> have a1 := h1 r t <;> have a2 := h2 r t <;> grind [upd, Pc.ownR, Pc.ownM]

/-- What the cache and the log say about each other. -/
structure CacheInv (cfg : Nat → Nat × GoStr) (es : List (REvent C)) (s : RState C) : Prop where
  fresh : ∀ t r, (s.pc t).missed = some r → s.cache r = none
  rel : ∀ t r out, s.pc t = .rRelR r out → s.cache r = out.join
  tbl : ∀ m n c, alookup n (s.tbl m) = some c → .wrote m n c ∈ es
  cache : ∀ r c, s.cache r = some c → .wrote (cfg r).1 (cfg r).2 (some c) ∈ es
  found : ∀ t r c, (s.pc t).found = some (r, c) → .wrote (cfg r).1 (cfg r).2 c ∈ es
  back : ∀ t r c, .resolved t r (some (some c)) ∈ es → s.cache r = some c

theorem cacheInv_init : CacheInv cfg [] (RState.init : RState C) := by
  constructor <;> simp [RState.init, Pc.missed, Pc.found, alookup]

theorem cacheInv_step {s s' : RState C} {es : List (REvent C)} {e : REvent C} (hl : LockInv cfg s) (h : CacheInv cfg es s)
    (hs : RStep cfg s e s') : CacheInv cfg (es ++ [e]) s' := by
  have u1 := fun r t t' => hl.uniqR (r := r) (t := t) (t' := t')
  obtain ⟨h1, h2, h3, h4, h5, h6⟩ := h
  cases hs with
  | begin call hp =>
    cases call <;> constructor <;> grind [upd, Pc.missed, Pc.found, RCall.start]
  | sWrite hp =>
    constructor <;> grind [upd, Pc.missed, Pc.found, alookup_ainsert]
  | @rLook t0 r0 hp =>
    constructor
    case found =>
      intro t r c hf
      by_cases ht : t = t0
      · subst ht
        simp only [upd, if_pos rfl] at hf
        cases ha : alookup (cfg r0).2 (s.tbl (cfg r0).1) with
        | none => simp [ha, Pc.found] at hf
        | some c' =>
          simp only [ha, Pc.found, Option.map_some, Option.some.injEq, Prod.mk.injEq, if_true] at hf
          obtain ⟨rfl, rfl⟩ := hf
          exact List.mem_append_left _ (h3 _ _ _ ha)
      · simp only [upd, if_neg ht] at hf
        exact List.mem_append_left _ (h5 _ _ _ hf)
    all_goals grind [upd, Pc.missed, Pc.found]
  | @rStoreOk t0 r0 c0 hp =>
    have hx := h1 t0 r0 (by rw [hp]; rfl)
    constructor <;> grind [upd, Pc.missed, Pc.found, Pc.ownR, Pc.missed_own]
  | @rStoreErr t0 r0 hp =>
    have hx := h1 t0 r0 (by rw [hp]; rfl)
    constructor <;> grind [upd, Pc.missed, Pc.found, Pc.ownR, Pc.missed_own]
  | _ => constructor <;> grind [upd, Pc.missed, Pc.found]

theorem inv_run {es : List (REvent C)} {s : RState C} (h : RRun cfg RState.init es s) : LockInv cfg s ∧ CacheInv cfg es s := by
  generalize hi : (RState.init : RState C) = s0 at h
  induction h with
  | nil => subst hi; exact ⟨lockInv_init, cacheInv_init⟩
  | snoc _ hs ih => exact ⟨lockInv_step ih.1 hs, cacheInv_step ih.1 ih.2 hs⟩

/-! ## Lookups are atomic -/

theorem lastWrite_snoc (m : Nat) (n : GoStr) (es : List (REvent C)) (e : REvent C) :
    lastWrite m n (es ++ [e]) = (e.writes m n).or (lastWrite m n es) := by
  unfold lastWrite
  rw [List.filterMap_append]
  cases h : e.writes m n <;> simp [h, List.filterMap_cons, List.filterMap_nil]

theorem lastWrite_snoc_of {m : Nat} {n : GoStr} {es : List (REvent C)} {e : REvent C} (h : e.writes m n = none) :
    lastWrite m n (es ++ [e]) = lastWrite m n es := by
  rw [lastWrite_snoc, h]; simp

theorem lastWrite_mono (m : Nat) (n : GoStr) (a b : List (REvent C)) (h : lastWrite m n (a ++ b) = none) :
    lastWrite m n a = none := by
  unfold lastWrite at *
  rw [List.filterMap_append, List.getLast?_append] at h
  cases hb : (List.filterMap (REvent.writes m n) b).getLast? <;> simp_all

theorem SeenBy.snoc {t m : Nat} {n : GoStr} {out : Out C} {es : List (REvent C)} {e : REvent C}
    (h : SeenBy t m n out es) (he : ∀ call, e ≠ .begin t call) : SeenBy t m n out (es ++ [e]) := by
  obtain ⟨a, b, rfl, h1, h2⟩ := h
  refine ⟨a, b ++ [e], by simp, h1, fun call hm => ?_⟩
  rcases List.mem_append.1 hm with hm | hm
  · exact h2 call hm
  · simp only [List.mem_singleton] at hm
    exact he call hm.symm

/-- The result a goroutine carries is what the map held at some moment of its call. -/
def Carries (cfg : Nat → Nat × GoStr) (es : List (REvent C)) (t : Nat) : Pc C → Prop
  | .gRelM m n out => SeenBy t m n out es
  | .rRelM r out => SeenBy t (cfg r).1 (cfg r).2 out es
  | .rStore r out => SeenBy t (cfg r).1 (cfg r).2 out es
  | .rRelR r none => SeenBy t (cfg r).1 (cfg r).2 none es
  | _ => True

theorem Carries.snoc {es : List (REvent C)} {e : REvent C} {t : Nat} {p : Pc C} (h : Carries cfg es t p)
    (he : ∀ call, e ≠ .begin t call) : Carries cfg (es ++ [e]) t p := by
  unfold Carries at *
  split <;> first | exact SeenBy.snoc h he | trivial

structure LinInv (cfg : Nat → Nat × GoStr) (es : List (REvent C)) (s : RState C) : Prop where
  tbl : ∀ m n, alookup n (s.tbl m) = lastWrite m n es
  pc : ∀ t, Carries cfg es t (s.pc t)

theorem linInv_init : LinInv cfg [] (RState.init : RState C) :=
  ⟨fun m n => rfl, fun t => trivial⟩

theorem linInv_quiet {s s' : RState C} {es : List (REvent C)} {e : REvent C} {t : Nat} {p : Pc C} (h : LinInv cfg es s)
    (ht : s'.tbl = s.tbl) (hw : ∀ m n, e.writes m n = none) (hpc : s'.pc = upd s.pc t p)
    (he : ∀ t' call, t' ≠ t → e ≠ .begin t' call) (hp : Carries cfg (es ++ [e]) t p) : LinInv cfg (es ++ [e]) s' := by
  refine ⟨fun m n => ?_, fun t' => ?_⟩
  · rw [ht, h.tbl, lastWrite_snoc_of (hw m n)]
  · rw [hpc]
    by_cases htt : t' = t
    · subst htt; simpa [upd] using hp
    · simp only [upd, if_neg htt]
      exact (h.pc t').snoc (fun call => he t' call htt)

theorem linInv_step {s s' : RState C} {es : List (REvent C)} {e : REvent C} (h : LinInv cfg es s) (hs : RStep cfg s e s') :
    LinInv cfg (es ++ [e]) s' := by
  have now : ∀ (t m : Nat) (n : GoStr) (e : REvent C), e.writes m n = none →
      SeenBy t m n (alookup n (s.tbl m)) (es ++ [e]) := fun t m n e hw =>
    ⟨es ++ [e], [], by simp, by rw [h.tbl, lastWrite_snoc_of hw], fun call hm => by simp at hm⟩
  have keep : ∀ {t : Nat} {p : Pc C} (e : REvent C), s.pc t = p → (∀ call, e ≠ .begin t call) → Carries cfg (es ++ [e]) t p :=
    fun e hp he => by have := (h.pc _).snoc he; rwa [hp] at this
  cases hs with
  | begin call hp =>
    refine linInv_quiet h rfl (fun _ _ => rfl) rfl (fun t' c hne heq => ?_) ?_
    · cases heq; exact hne rfl
    · cases call <;> exact trivial
  | rLook hp => exact linInv_quiet h rfl (fun _ _ => rfl) rfl (fun _ _ _ heq => by cases heq) (now _ _ _ _ rfl)
  | gLook hp => exact linInv_quiet h rfl (fun _ _ => rfl) rfl (fun _ _ _ heq => by cases heq) (now _ _ _ _ rfl)
  | @rUnlockM t r out hp =>
    have hk := keep (.internal t) hp (fun _ heq => by cases heq)
    exact linInv_quiet h rfl (fun _ _ => rfl) rfl (fun _ _ _ heq => by cases heq) hk
  | @rStoreErr t r hp =>
    have hk := keep (.internal t) hp (fun _ heq => by cases heq)
    exact linInv_quiet h rfl (fun _ _ => rfl) rfl (fun _ _ _ heq => by cases heq) hk
  | @sWrite t m n c hp =>
    refine ⟨fun m' n' => ?_, fun t' => ?_⟩
    · rw [lastWrite_snoc]
      by_cases hm : m' = m
      · subst hm
        simp only [upd, if_true, alookup_ainsert, REvent.writes, true_and]
        by_cases hn : n' = n
        · simp [hn]
        · rw [if_neg hn, if_neg (Ne.symm hn), h.tbl]; simp
      · simp only [upd, if_neg hm, REvent.writes, if_neg (show ¬ (m = m' ∧ n = n') from fun hh => hm hh.1.symm)]
        rw [h.tbl]; simp
    · by_cases htt : t' = t
      · subst htt; simp [upd, Carries]
      · simp only [upd, if_neg htt]
        exact (h.pc t').snoc (fun call heq => by cases heq)
  | _ => exact linInv_quiet h rfl (fun _ _ => rfl) rfl (fun _ _ _ heq => by cases heq) trivial

theorem lin_run {es : List (REvent C)} {s : RState C} (h : RRun cfg RState.init es s) : LinInv cfg es s := by
  generalize hi : (RState.init : RState C) = s0 at h
  induction h with
  | nil => subst hi; exact linInv_init
  | snoc _ hs ih => exact linInv_step ih hs

/-! ## Progress -/

/-- Steps a call still has to take. -/
def Pc.rank : Pc C → Nat
  | .idle => 0
  | .rWantR _ => 7
  | .rHaveR _ => 6
  | .rWantM _ => 5
  | .rHaveM _ => 4
  | .rRelM _ _ => 3
  | .rStore _ _ => 2
  | .rRelR _ _ => 1
  | .sWantM _ _ _ => 3
  | .sHaveM _ _ _ => 2
  | .sRelM _ _ _ => 1
  | .gWantM _ _ => 3
  | .gHaveM _ _ => 2
  | .gRelM _ _ _ => 1
  | .lRead _ => 1

theorem step_rank {s s' : RState C} {e : REvent C} (hs : RStep cfg s e s') (he : e.Continues) :
    ∃ t p, s'.pc = upd s.pc t p ∧ p.rank < (s.pc t).rank := by
  cases hs with
  | begin call hp => exact absurd rfl (he _ _)
  | rLockR hp => exact ⟨_, _, rfl, by rw [hp]; simp [Pc.rank]⟩
  | rCached hp => exact ⟨_, _, rfl, by rw [hp]; simp [Pc.rank]⟩
  | rMiss hp => exact ⟨_, _, rfl, by rw [hp]; simp [Pc.rank]⟩
  | rLockM hp => exact ⟨_, _, rfl, by rw [hp]; simp [Pc.rank]⟩
  | rLook hp => exact ⟨_, _, rfl, by rw [hp]; simp [Pc.rank]⟩
  | rUnlockM hp => exact ⟨_, _, rfl, by rw [hp]; simp [Pc.rank]⟩
  | rStoreErr hp => exact ⟨_, _, rfl, by rw [hp]; simp [Pc.rank]⟩
  | rStoreOk hp => exact ⟨_, _, rfl, by rw [hp]; simp [Pc.rank]⟩
  | rUnlockR hp => exact ⟨_, _, rfl, by rw [hp]; simp [Pc.rank]⟩
  | sLockM hp => exact ⟨_, _, rfl, by rw [hp]; simp [Pc.rank]⟩
  | sWrite hp => exact ⟨_, _, rfl, by rw [hp]; simp [Pc.rank]⟩
  | sUnlockM hp => exact ⟨_, _, rfl, by rw [hp]; simp [Pc.rank]⟩
  | gLockM hp => exact ⟨_, _, rfl, by rw [hp]; simp [Pc.rank]⟩
  | gLook hp => exact ⟨_, _, rfl, by rw [hp]; simp [Pc.rank]⟩
  | gUnlockM hp => exact ⟨_, _, rfl, by rw [hp]; simp [Pc.rank]⟩
  | lRead hp => exact ⟨_, _, rfl, by rw [hp]; simp [Pc.rank]⟩

/-- Some step other than the start of a call is possible. -/
def CanGo (cfg : Nat → Nat × GoStr) (s : RState C) : Prop := ∃ e s', RStep cfg s e s' ∧ e.Continues

/-- The owner of a map lock can go on. -/
theorem canGo_of_ownM {s : RState C} {t m : Nat} (h : (s.pc t).ownM cfg = some m) : CanGo cfg s := by
  cases hp : s.pc t <;> rw [hp] at h <;> simp only [Pc.ownM] at h <;> try cases h
  · exact ⟨_, _, .rLook hp, fun _ _ => by simp⟩
  · exact ⟨_, _, .rUnlockM hp, fun _ _ => by simp⟩
  · exact ⟨_, _, .sWrite hp, fun _ _ => by simp⟩
  · exact ⟨_, _, .sUnlockM hp, fun _ _ => by simp⟩
  · exact ⟨_, _, .gLook hp, fun _ _ => by simp⟩
  · exact ⟨_, _, .gUnlockM hp, fun _ _ => by simp⟩

/-- Nobody waits for a map lock in vain. -/
theorem canGo_mlock {s : RState C} (hl : LockInv cfg s) {m : Nat} (h : s.mlock m = none → CanGo cfg s) : CanGo cfg s := by
  cases hm : s.mlock m with
  | none => exact h hm
  | some t => exact canGo_of_ownM ((hl.ml m t).1 hm)

/-- The owner of a reference lock can go on, or waits for a map lock. -/
theorem canGo_of_ownR {s : RState C} (hl : LockInv cfg s) {t r : Nat} (h : (s.pc t).ownR = some r) : CanGo cfg s := by
  cases hp : s.pc t with
  | rHaveR r' =>
    cases hc : s.cache r' with
    | none => exact ⟨_, _, .rMiss hp hc, fun _ _ => by simp⟩
    | some c => exact ⟨_, _, .rCached hp hc, fun _ _ => by simp⟩
  | rWantM r' => exact canGo_mlock hl fun hm => ⟨_, _, .rLockM hp hm, fun _ _ => by simp⟩
  | rHaveM r' => exact ⟨_, _, .rLook hp, fun _ _ => by simp⟩
  | rRelM r' out => exact ⟨_, _, .rUnlockM hp, fun _ _ => by simp⟩
  | rStore r' out =>
    cases out with
    | none => exact ⟨_, _, .rStoreErr hp, fun _ _ => by simp⟩
    | some c => exact ⟨_, _, .rStoreOk hp, fun _ _ => by simp⟩
  | rRelR r' out => exact ⟨_, _, .rUnlockR hp, fun _ _ => by simp⟩
  | _ => rw [hp] at h; cases h

theorem canGo {s : RState C} (hl : LockInv cfg s) {t : Nat} (h : s.pc t ≠ .idle) : CanGo cfg s := by
  cases hp : s.pc t with
  | idle => exact absurd hp h
  | rWantR r =>
    cases hr : s.rlock r with
    | none => exact ⟨_, _, .rLockR hp hr, fun _ _ => by simp⟩
    | some t' => exact canGo_of_ownR hl ((hl.rl r t').1 hr)
  | sWantM m n c => exact canGo_mlock hl fun hm => ⟨_, _, .sLockM hp hm, fun _ _ => by simp⟩
  | gWantM m n => exact canGo_mlock hl fun hm => ⟨_, _, .gLockM hp hm, fun _ _ => by simp⟩
  | lRead m => exact ⟨_, _, .lRead hp, fun _ _ => by simp⟩
  | sHaveM m n c => exact canGo_of_ownM (t := t) (m := m) (by rw [hp]; rfl)
  | sRelM m n c => exact canGo_of_ownM (t := t) (m := m) (by rw [hp]; rfl)
  | gHaveM m n => exact canGo_of_ownM (t := t) (m := m) (by rw [hp]; rfl)
  | gRelM m n c => exact canGo_of_ownM (t := t) (m := m) (by rw [hp]; rfl)
  | rHaveR r => exact canGo_of_ownR hl (t := t) (r := r) (by rw [hp]; rfl)
  | rWantM r => exact canGo_of_ownR hl (t := t) (r := r) (by rw [hp]; rfl)
  | rHaveM r => exact canGo_of_ownR hl (t := t) (r := r) (by rw [hp]; rfl)
  | rRelM r out => exact canGo_of_ownR hl (t := t) (r := r) (by rw [hp]; rfl)
  | rStore r out => exact canGo_of_ownR hl (t := t) (r := r) (by rw [hp]; rfl)
  | rRelR r out => exact canGo_of_ownR hl (t := t) (r := r) (by rw [hp]; rfl)

/-- Only finitely many goroutines have ever run. -/
theorem finite_run {es : List (REvent C)} {s : RState C} (h : RRun cfg RState.init es s) : ∃ K, ∀ t, K ≤ t → s.pc t = .idle := by
  generalize hi : (RState.init : RState C) = s0 at h
  induction h with
  | nil => subst hi; exact ⟨0, fun t _ => rfl⟩
  | @snoc es s' e s'' _ hs ih =>
    obtain ⟨K, hK⟩ := ih
    have : ∃ t p, s''.pc = upd s'.pc t p := by cases hs <;> exact ⟨_, _, rfl⟩
    obtain ⟨t, p, hp⟩ := this
    refine ⟨max K (t + 1), fun t' ht' => ?_⟩
    rw [hp]
    simp only [upd]
    rw [if_neg (by omega)]
    exact hK t' (by omega)

/-- All steps that calls in progress still have to take. -/
def work (K : Nat) (s : RState C) : Nat := ∑ t ∈ Finset.range K, (s.pc t).rank

theorem work_step {K : Nat} {s s' : RState C} {e : REvent C} (hK : ∀ t, K ≤ t → s.pc t = .idle) (hs : RStep cfg s e s')
    (he : e.Continues) : work K s' < work K s ∧ ∀ t, K ≤ t → s'.pc t = .idle := by
  obtain ⟨t, p, hp, hr⟩ := step_rank hs he
  have ht : t < K := by
    by_contra h
    rw [hK t (by omega)] at hr
    simp [Pc.rank] at hr
  refine ⟨Finset.sum_lt_sum (fun t' _ => ?_) ⟨t, by simpa using ht, ?_⟩, fun t' ht' => ?_⟩
  · rw [hp]; simp only [upd]; split
    · next h => subst h; omega
    · exact Nat.le_refl _
  · rw [hp]; simpa [upd] using hr
  · rw [hp]; simp only [upd]; rw [if_neg (by omega)]; exact hK t' ht'

theorem work_run {K : Nat} {s s' : RState C} {es : List (REvent C)} (hK : ∀ t, K ≤ t → s.pc t = .idle) (h : RRun cfg s es s')
    (he : ∀ e ∈ es, e.Continues) : es.length + work K s' ≤ work K s ∧ ∀ t, K ≤ t → s'.pc t = .idle := by
  induction h with
  | nil => simpa using hK
  | snoc hr hs ih =>
    have h1 := ih (fun e hm => he e (by simp [hm]))
    have h2 := work_step h1.2 hs (he _ (by simp))
    exact ⟨by simp only [List.length_append, List.length_singleton]; omega, h2.2⟩

theorem RRun.trans {s s' s'' : RState C} {es es' : List (REvent C)} (h : RRun cfg s es s') (h' : RRun cfg s' es' s'') :
    RRun cfg s (es ++ es') s'' := by
  induction h' with
  | nil => simpa using h
  | snoc _ hs ih => rw [← List.append_assoc]; exact .snoc ih hs

/-- A run can be cut at any of its events. -/
theorem RRun.cut {s s' : RState C} {es : List (REvent C)} (h : RRun cfg s es s') : ∀ {a b : List (REvent C)} {e : REvent C},
    es = a ++ e :: b → ∃ s1 s2, RRun cfg s a s1 ∧ RStep cfg s1 e s2 ∧ RRun cfg s2 b s' := by
  induction h with
  | nil => intro a b e he; simp at he
  | @snoc es s1 e1 s2 hr hs ih =>
    intro a b e he
    rcases List.eq_nil_or_concat b with rfl | ⟨b', e', rfl⟩
    · have := List.append_inj' he rfl
      obtain ⟨rfl, h2⟩ := this
      cases h2
      exact ⟨_, _, hr, hs, .nil _⟩
    · rw [List.concat_eq_append, ← List.cons_append, ← List.append_assoc] at he
      obtain ⟨h1, h2⟩ := List.append_inj' he rfl
      cases h2
      obtain ⟨s3, s4, h3, h4, h5⟩ := ih h1
      exact ⟨s3, s4, h3, h4, by rw [List.concat_eq_append]; exact .snoc h5 hs⟩

end Jsval
