import Verif.Lemmas.Sharing
import Verif.Props.Memory
import Verif.Lemmas.SharingRuns
/-!
# C106: goroutines that share validators with references
-/
namespace Jsval

section
variable {ext : Ext} {sh : Memory → MVal → GoStr} {mem : GoVal → MVal} {cfg : Nat → Nat × GoStr} {fuel : Nat → Nat} {c : Nat → Constraint} {σ : Nat → Sched}
  {h : Nat → MVal} {W : Nat → Prop} {H : Memory} {es₀ es : List (REvent Constraint)} {R : RState Constraint} {s : Shared}

theorem erased_racing {T : Nat → Constraint} (h : s.Racing) : Racing (fun i => (s.progs i).erase T, s.docs) := by
  obtain ⟨i, j, l, hij, h1, h2⟩ := h
  refine ⟨i, j, l, hij, ?_, ?_⟩
  · revert h1
    show (s.progs i).Touches s.docs l → ((s.progs i).erase T).Touches s.docs l
    cases s.progs i with
    | ret a => exact fun h => h
    | look l p k => exact fun h => h
    | keys l k => exact fun h => h
    | set l p x k => exact fun h => h
    | sprint x k => exact fun h => h
    | resolve r k => exact fun h => h.elim
  · revert h2
    show (s.progs j).Writes l → ((s.progs j).erase T).Writes l
    cases s.progs j with
    | ret a => exact fun h => h
    | look l p k => exact fun h => h
    | keys l k => exact fun h => h
    | set l p x k => exact fun h => h
    | sprint x k => exact fun h => h
    | resolve r k => exact fun h => h.elim

/-- C106: goroutines validate documents at once with validators they share. The references in them look their targets up when they are first
used, under names that were registered before and are registered again meanwhile; other goroutines look up and register too. No map of a
document validated with defaults (`W`) is reached from another document. Then, however all their steps interleave, there is
no data race on the documents, and every reference can be given one constraint, registered under its name and the only one ever found
for it, such that each validation that has returned gave what it gives alone with those targets, and left its document
as it does alone. -/
theorem C106_separate (hs : Shows ext sh) (hm : HoldsAtoms mem) (hp : Prepared cfg es₀ R) (hc : ∀ i, (c i).Every (DefaultIn fun dv => W i ∧ IsAtom dv))
    (hreg : AllRegistered (fun d => ∀ i, d.Every (DefaultIn fun dv => W i ∧ IsAtom dv)) (es₀ ++ es))
    (hd : ∀ i j l, i ≠ j → W j → CanReach H (h i) l → ¬ CanReach H (h j) l)
    (hr : SharedRun sh cfg ⟨callsS ext mem cfg fuel c σ h, H, R⟩ es s) (hn : NoNil cfg es) :
    ¬ s.Racing ∧ ∃ T : Nat → Constraint,
      (∀ r, .wrote (cfg r).1 (cfg r).2 (some (T r)) ∈ es₀ ++ es) ∧
      (∀ i r d, .resolved i r (some (some d)) ∈ es₀ ++ es → d = T r) ∧
      (∀ i r, s.progs i = .ret r → r = ((calls ext mem (fun _ => targetEnv T) fuel c σ h i).run sh H).1 ∧
        ∀ l, CanReach H (h i) l → s.docs l = ((calls ext mem (fun _ => targetEnv T) fuel c σ h i).run sh H).2 l) ∧
      ∀ l, (∀ i, W i → ¬ CanReach H (h i) l) → s.docs l = H l := by
  have hi := sharedInv_run hp hr hn
  obtain ⟨T, hT, hw⟩ := hi.targets
  have hst := hi.erased T hT
  rw [callsS_erase] at hst
  obtain ⟨h1, h2, h3⟩ := C98_separate hs hm (fun i m n d e => by cases e; exact hreg _ _ _ (hw m) i) hc hd hst
  refine ⟨fun hrace => h1 (erased_racing hrace), T, hw, fun i r d hmem => (hT r d (hi.cache.back i r d hmem)).symm, fun i r hret => ?_, h3⟩
  exact h2 i r (by show (s.progs i).erase T = _; rw [hret]; rfl)

/-- C106: documents in which no map occurs twice, and which have no map in common, are validated as if each were validated as a value on its own
with references that have those targets. -/
theorem C106_tree (hs : Shows ext sh) (hm : HoldsAtoms mem) (hp : Prepared cfg es₀ R) (hc : ∀ i, (c i).Every (DefaultIn IsAtom))
    (hreg : AllRegistered (fun d => d.Every (DefaultIn IsAtom)) (es₀ ++ es)) {v : Nat → GoVal} (hh : ∀ i, HoldsTree H (h i) (v i))
    (hd : ∀ i j l, i ≠ j → CanReach H (h i) l → ¬ CanReach H (h j) l)
    (hr : SharedRun sh cfg ⟨callsS ext mem cfg fuel c σ h, H, R⟩ es s) (hn : NoNil cfg es) :
    ∃ T : Nat → Constraint, (∀ r, .wrote (cfg r).1 (cfg r).2 (some (T r)) ∈ es₀ ++ es) ∧
      ∀ i r, s.progs i = .ret r → r ≠ .abort .diverge → ∃ v', Returns ext (targetEnv T) (c i) (σ i) (v i) r v' ∧ HoldsTree s.docs (h i) v' := by
  have hi := sharedInv_run hp hr hn
  obtain ⟨T, hT, hw⟩ := hi.targets
  have hst := hi.erased T hT
  rw [callsS_erase] at hst
  refine ⟨T, hw, fun i r hret hne => ?_⟩
  obtain ⟨h1, h2⟩ := C98_tree hs hm (fun i m n d e => by cases e; exact hreg _ _ _ (hw m)) hc hh hd hst i r
    (by show (s.progs i).erase T = _; rw [hret]; rfl)
  exact ⟨_, ⟨hne, fuel i, Prod.ext h1.symm rfl⟩, h2⟩

/-- C106: if nothing is registered under the names of references while the goroutines run, the targets are known when they start: what a
reference has found already, or else what its name stands for then. -/
theorem C106_fixed (hs : Shows ext sh) (hm : HoldsAtoms mem) (hp : Prepared cfg es₀ R) (hc : ∀ i, (c i).Every (DefaultIn IsAtom))
    {T : Nat → Constraint} (hT : Targets cfg R T) (hreg : ∀ r, (T r).Every (DefaultIn IsAtom)) {v : Nat → GoVal} (hh : ∀ i, HoldsTree H (h i) (v i))
    (hd : ∀ i j l, i ≠ j → CanReach H (h i) l → ¬ CanReach H (h j) l)
    (hr : SharedRun sh cfg ⟨callsS ext mem cfg fuel c σ h, H, R⟩ es s) (hn : Untouched cfg es) (i : Nat) (r : Res) (hret : s.progs i = .ret r)
    (hne : r ≠ .abort .diverge) : ∃ v', Returns ext (targetEnv T) (c i) (σ i) (v i) r v' ∧ HoldsTree s.docs (h i) v' := by
  have hi := sharedInv_run hp hr fun r => hn r none
  have hst := hi.erased T (aims_run hp hT hr hn).cache
  rw [callsS_erase] at hst
  obtain ⟨h1, h2⟩ := C98_tree hs hm (fun i m n d e => by cases e; exact hreg m) hc hh hd hst i r
    (by show (s.progs i).erase T = _; rw [hret]; rfl)
  exact ⟨_, ⟨hne, fuel i, Prod.ext h1.symm rfl⟩, h2⟩

/-- C106: no deadlock. While some validation has not returned, some goroutine can go on with what it is doing. -/
theorem C106_progress (hr₀ : RRun cfg .init es₀ R) (hd₀ : R.AllDone) {ps : Nat → SProg Res} (hr : SharedRun sh cfg ⟨ps, H, R⟩ es s) {i : Nat}
    (h : ∀ a, s.progs i ≠ .ret a) : ∃ l s', SharedStep sh cfg s l s' ∧ OwnStep s l :=
  (liveInv_run (liveInv_start hr₀ hd₀ ps H) hr).goes h

/-- C106: no livelock. If finitely many goroutines validate, and from some time on there are no calls but theirs, the execution comes
to an end. -/
theorem C106_ends (hr₀ : RRun cfg .init es₀ R) (hd₀ : R.AllDone) {n : Nat} (hfin : ∀ i, n ≤ i → c i = .empty)
    (hr : SharedRun sh cfg ⟨callsS ext mem cfg fuel c σ h, H, R⟩ es s) :
    ¬ ∃ f : Nat → Shared, f 0 = s ∧ ∀ k, ∃ l, SharedStep sh cfg (f k) l (f (k + 1)) ∧ OwnStep (f k) l := by
  rintro ⟨f, rfl, hf⟩
  refine shared_ends f (liveInv_run (liveInv_start hr₀ hd₀ _ H) hr) (shared_finite hr ⟨n, fun i hi => ⟨⟨.ok, ?_⟩, hd₀ i⟩⟩) hf
  show (semS ext mem cfg (fuel i) (c i)).val (σ i) (h i) = _
  rw [hfin i hi]
  rfl

end

/-! ## A shared validator -/

/-- all references are to `x` in map 0 -/
def exRefs : Nat → Nat × GoStr := fun _ => (0, b! "x")

/-- `x` is registered -/
def exRegistered (d : Constraint) : RState Constraint := { RState.init with tbl := upd (fun _ => []) 0 [(b! "x", some d)] }

/-- the events of that -/
def exRegister (d : Constraint) : List (REvent Constraint) := setEvents 0 0 (b! "x") (some d)

theorem exPrepared (d : Constraint) : Prepared exRefs (exRegister d) (exRegistered d) := by
  refine ⟨?_, fun t => rfl, fun r => ⟨d, rfl⟩⟩
  have := RRun.sets (cfg := exRefs) (t := 0) (.nil .init) rfl 0 rfl (b! "x") (some d)
  exact this

/-- two goroutines validate with `Reference("x")`, which they share -/
def exShared : Nat → Constraint := fun i => if i < 2 then .ref 0 (b! "x") else .empty

theorem exShared_every (i : Nat) : (exShared i).Every (DefaultIn IsAtom) := by
  unfold exShared
  split
  · exact .intro (fun dv h => (by cases h)) fun d hd => (nomatch hd)
  · exact .intro (fun dv h => (by cases h)) fun d hd => (nomatch hd)

theorem exDocs_tree (i : Nat) : HoldsTree exMemApart (exDocs i) (if i < 2 then .map false [] else .nil) := by
  unfold exDocs
  split
  · exact ⟨[i + 1], by simp, .map (i + 1) _ [] .nil⟩
  · exact ⟨[], by simp, .atom _ trivial⟩

/-- whatever the interleaving, and whoever of the two looks `x` up, both documents come out as `{"x": "1"}` -/
example {es : List (REvent Constraint)} {s : Shared}
    (hr : SharedRun (printing demoExt) exRefs ⟨callsS demoExt exPlace exRefs (fun _ => 1) exShared (fun _ => sched0) exDocs, exMemApart, exRegistered exMemFills⟩ es s)
    (hn : Untouched exRefs es) (h0 : s.progs 0 = .ret .ok) (h1 : s.progs 1 = .ret .ok) :
    HoldsTree s.docs (.map (some 1)) (.map false [(b! "x", .str (b! "1"))]) ∧ HoldsTree s.docs (.map (some 2)) (.map false [(b! "x", .str (b! "1"))]) := by
  have h := C106_fixed (T := fun _ => exMemFills) (printing_shows demoExt) exPlace_atoms (exPrepared exMemFills) exShared_every (fun r => .inr ⟨rfl, rfl⟩)
    (fun _ => exMemFills_every) exDocs_tree
    (fun i j l hij hi hj => hij (by have := (exDocs_reaches hi).2; have := (exDocs_reaches hj).2; omega)) hr hn
  have one : ∀ {v'}, Returns demoExt (targetEnv fun _ => exMemFills) (.ref 0 (b! "x")) sched0 (.map false []) .ok v' → v' = .map false [(b! "x", .str (b! "1"))] := by
    rintro v' ⟨_, k, hk⟩
    have h1 : (sem demoExt (targetEnv fun _ => exMemFills) 1 (.ref 0 (b! "x"))).val sched0 (.map false []) = (.ok, .map false [(b! "x", .str (b! "1"))]) := rfl
    have := (sem_mono (Nat.le_max_left k 1) hk (by simp)).symm.trans (sem_mono (Nat.le_max_right k 1) h1 (by simp))
    exact congrArg Prod.snd this
  obtain ⟨v0, r0, t0⟩ := h 0 _ h0 (by simp)
  obtain ⟨v1, r1, t1⟩ := h 1 _ h1 (by simp)
  rw [one r0] at t0
  rw [one r1] at t1
  exact ⟨t0, t1⟩

/-- the same, filling in "2" -/
def exMemFills2 : Constraint := .object ((Object'.AddProp (b! "x") (.string (String'.Default (.str (b! "2"))))).AdditionalProperties (some .empty))

theorem exMemFills2_every : exMemFills2.Every (DefaultIn IsAtom) := by
  refine .intro (fun dv h => (by cases h)) fun d hd => ?_
  have hd : d ∈ [.string (String'.Default (.str (b! "2"))), .empty] := hd
  simp only [List.mem_cons, List.not_mem_nil, or_false] at hd
  rcases hd with rfl | rfl
  · exact .intro (fun dv h => (by cases h; trivial)) fun d hd => (nomatch hd)
  · exact .intro (fun dv h => (by cases h)) fun d hd => (nomatch hd)

/-- while the two run, `x` may be registered again, to fill in "2"; the documents still come out filled in, both by the same constraint, since there
is one reference -/
example {es : List (REvent Constraint)} {s : Shared}
    (hr : SharedRun (printing demoExt) exRefs ⟨callsS demoExt exPlace exRefs (fun _ => 1) exShared (fun _ => sched0) exDocs, exMemApart, exRegistered exMemFills⟩ es s)
    (hn : ∀ m n d, .wrote m n d ∈ es → d = some exMemFills ∨ d = some exMemFills2) (h0 : s.progs 0 = .ret .ok) (h1 : s.progs 1 = .ret .ok) :
    ∃ d, (d = b! "1" ∨ d = b! "2") ∧ HoldsTree s.docs (.map (some 1)) (.map false [(b! "x", .str d)]) ∧
      HoldsTree s.docs (.map (some 2)) (.map false [(b! "x", .str d)]) := by
  have hw0 : ∀ m n d, .wrote m n (some d) ∈ exRegister exMemFills ++ es → d = exMemFills ∨ d = exMemFills2 := by
    intro m n d hm
    rcases List.mem_append.1 hm with hm | hm
    · simp [exRegister, setEvents] at hm; exact .inl hm.2.2
    · simpa using hn m n _ hm
  obtain ⟨T, hw, h⟩ := C106_tree (printing_shows demoExt) exPlace_atoms (exPrepared exMemFills) exShared_every
    (fun m n d hm => by rcases hw0 m n d hm with rfl | rfl; exacts [exMemFills_every, exMemFills2_every]) exDocs_tree
    (fun i j l hij hi hj => hij (by have := (exDocs_reaches hi).2; have := (exDocs_reaches hj).2; omega)) hr
    (fun r hm => by rcases hn _ _ _ hm with h | h <;> cases h)
  have hT : ∃ d, (d = b! "1" ∨ d = b! "2") ∧
      (sem demoExt (targetEnv T) 1 (.ref 0 (b! "x"))).val sched0 (.map false []) = (.ok, .map false [(b! "x", .str d)]) := by
    have hv : (sem demoExt (targetEnv T) 1 (.ref 0 (b! "x"))).val sched0 (.map false []) = (denote demoExt (refSem demoExt (targetEnv T) 0) (T 0)).val sched0 (.map false []) := rfl
    rw [hv]
    rcases hw0 _ _ _ (hw 0) with e | e <;> rw [e]
    · exact ⟨_, .inl rfl, rfl⟩
    · exact ⟨_, .inr rfl, rfl⟩
  obtain ⟨d, hd, hT⟩ := hT
  have one : ∀ {v'}, Returns demoExt (targetEnv T) (.ref 0 (b! "x")) sched0 (.map false []) .ok v' → v' = .map false [(b! "x", .str d)] := by
    rintro v' ⟨_, k, hk⟩
    have := (sem_mono (Nat.le_max_left k 1) hk (by simp)).symm.trans (sem_mono (Nat.le_max_right k 1) hT (by simp))
    exact congrArg Prod.snd this
  obtain ⟨v0, r0, t0⟩ := h 0 _ h0 (by simp)
  obtain ⟨v1, r1, t1⟩ := h 1 _ h1 (by simp)
  rw [one r0] at t0
  rw [one r1] at t1
  exact ⟨d, hd, t0, t1⟩

/-- both can reach the end: goroutine 0 looks `x` up and fills its document in, then goroutine 1 finds the target in the reference -/
example : ∃ es s, SharedRun (printing demoExt) exRefs
    ⟨callsS demoExt exPlace exRefs (fun _ => 1) exShared (fun _ => sched0) exDocs, exMemApart, exRegistered exMemFills⟩ es s ∧
    s.progs 0 = .ret .ok ∧ s.progs 1 = .ret .ok ∧ s.docs 1 = [(b! "x", .atom (.str (b! "1")))] ∧ s.docs 2 = [(b! "x", .atom (.str (b! "1")))] := by
  have h1 := SharedRun.looks (t := 0) (r := 0) (out := some (some exMemFills)) (SharedRun.nil (show_ := printing demoExt) (cfg := exRefs)
    (s := ⟨callsS demoExt exPlace exRefs (fun _ => 1) exShared (fun _ => sched0) exDocs, exMemApart, exRegistered exMemFills⟩)) rfl rfl rfl rfl rfl rfl
  have h2 := ((h1.op (.op (i := 0) rfl)).op (.op (i := 0) rfl)).op (.op (i := 0) rfl)
  have h3 := h2.event (.ask (i := 1) (r := 0) rfl (.begin (.resolve 0) rfl))
  have h4 := h3.event (.inside (.rLockR (t := 1) (r := 0) rfl rfl) (by simp) (by simp))
  have h5 := h4.event (.inside (.rCached (t := 1) (r := 0) (c := exMemFills) rfl rfl) (by simp) (by simp))
  have h6 := h5.event (.answer (i := 1) (r := 0) (out := some (some exMemFills)) rfl (.rUnlockR rfl))
  have h7 := ((h6.op (.op (i := 1) rfl)).op (.op (i := 1) rfl)).op (.op (i := 1) rfl)
  exact ⟨_, _, h7, rfl, rfl, rfl, rfl⟩

/-- before that, neither is stuck -/
example {es : List (REvent Constraint)} {s : Shared}
    (hr : SharedRun (printing demoExt) exRefs ⟨callsS demoExt exPlace exRefs (fun _ => 1) exShared (fun _ => sched0) exDocs, exMemApart, exRegistered exMemFills⟩ es s)
    (h : ∀ a, s.progs 1 ≠ .ret a) : ∃ l s', SharedStep (printing demoExt) exRefs s l s' ∧ OwnStep s l :=
  C106_progress (exPrepared exMemFills).run (exPrepared exMemFills).done hr h

/-- and they do not go on for ever -/
example {es : List (REvent Constraint)} {s : Shared}
    (hr : SharedRun (printing demoExt) exRefs ⟨callsS demoExt exPlace exRefs (fun _ => 1) exShared (fun _ => sched0) exDocs, exMemApart, exRegistered exMemFills⟩ es s) :
    ¬ ∃ f : Nat → Shared, f 0 = s ∧ ∀ k, ∃ l, SharedStep (printing demoExt) exRefs (f k) l (f (k + 1)) ∧ OwnStep (f k) l :=
  C106_ends (exPrepared exMemFills).run (exPrepared exMemFills).done (n := 2) (fun i hi => if_neg (by omega)) hr

/-- no race on the documents -/
example {es : List (REvent Constraint)} {s : Shared}
    (hr : SharedRun (printing demoExt) exRefs ⟨callsS demoExt exPlace exRefs (fun _ => 1) exShared (fun _ => sched0) exDocs, exMemApart, exRegistered exMemFills⟩ es s)
    (hn : ∀ m n d, .wrote m n d ∈ es → d = some exMemFills2) : ¬ s.Racing := by
  refine (C106_separate (W := fun _ => True) (printing_shows demoExt) exPlace_atoms (exPrepared exMemFills) (fun i d hd dv e => ⟨trivial, exShared_every i d hd dv e⟩) ?_
    (fun i j l hij _ hi hj => hij (by have := (exDocs_reaches hi).2; have := (exDocs_reaches hj).2; omega)) hr fun r hm => by cases hn _ _ _ hm).1
  intro m n d hm i d' hd dv e
  refine ⟨trivial, ?_⟩
  rcases List.mem_append.1 hm with hm | hm
  · simp [exRegister, setEvents] at hm
    rw [hm.2.2] at hd
    exact exMemFills_every d' hd dv e
  · cases hn _ _ _ hm
    exact exMemFills2_every d' hd dv e

/-! ## Names registered late, and references to one name -/

/-- not what `x` is, and what `x` is -/
def exNever : Constraint := .all [.not (some (.ref 0 (b! "x"))), .ref 0 (b! "x")]

/-- C106 needs the names to be registered beforehand: `All(Not(x), x)` refuses `nil` when `x` is not registered, and when it is registered as
the constraint that accepts everything; but it accepts `nil` if `x` is registered meanwhile. -/
theorem C106_late :
    ((sem demoExt (fun _ _ => none) 1 exNever).val sched0 .nil).1 ≠ .ok ∧
    ((sem demoExt (targetEnv fun _ => .empty) 1 exNever).val sched0 .nil).1 ≠ .ok ∧
    ∃ es s, SharedRun (printing demoExt) exRefs
      ⟨callsS demoExt exPlace exRefs (fun _ => 1) (fun i => if i = 0 then exNever else .empty) (fun _ => sched0) (fun _ => .atom .nil), fun _ => [], .init⟩ es s ∧
      (∀ m n d, .wrote m n d ∈ es → d = some .empty) ∧ s.progs 0 = .ret .ok := by
  refine ⟨by decide +kernel, by decide +kernel, ?_⟩
  have h1 := SharedRun.looks (t := 0) (r := 0) (out := none) (SharedRun.nil (show_ := printing demoExt) (cfg := exRefs)
    (s := ⟨callsS demoExt exPlace exRefs (fun _ => 1) (fun i => if i = 0 then exNever else .empty) (fun _ => sched0) (fun _ => .atom .nil), fun _ => [], .init⟩))
    rfl rfl rfl rfl rfl rfl
  have h2 := h1.sets (t := 1) (a := .ok) rfl rfl 0 rfl (b! "x") (some .empty)
  have h3 := h2.looks (t := 0) (r := 0) (out := some (some .empty)) rfl rfl rfl rfl rfl rfl
  refine ⟨_, _, h3, fun m n d hm => ?_, rfl⟩
  simp only [lookEvents, setEvents, List.nil_append, List.cons_append, List.mem_cons, List.not_mem_nil, reduceCtorEq, REvent.wrote.injEq, false_or, or_false] at hm
  exact hm.2.2

/-- what `x` is, and not what `x` is, by another reference -/
def exBothWays : Constraint := .all [.ref 0 (b! "x"), .not (some (.ref 1 (b! "x")))]

/-- C106 speaks of one target for each reference, not for each name: two references to `x` get different targets if `x` is registered again between
their first uses. `All(x, Not(x))` refuses `nil` with either registration, but accepts it then. -/
theorem C106_names :
    ((sem demoExt (targetEnv fun _ => .empty) 1 exBothWays).val sched0 .nil).1 ≠ .ok ∧
    ((sem demoExt (targetEnv fun _ => .not (some .empty)) 1 exBothWays).val sched0 .nil).1 ≠ .ok ∧
    Prepared exRefs (exRegister .empty) (exRegistered .empty) ∧
    ∃ es s, SharedRun (printing demoExt) exRefs
      ⟨callsS demoExt exPlace exRefs (fun _ => 1) (fun i => if i = 0 then exBothWays else .empty) (fun _ => sched0) (fun _ => .atom .nil), fun _ => [], exRegistered .empty⟩ es s ∧
      (∀ m n d, .wrote m n d ∈ es → d = some (.not (some .empty))) ∧ s.progs 0 = .ret .ok := by
  refine ⟨by decide +kernel, by decide +kernel, exPrepared .empty, ?_⟩
  have h1 := SharedRun.looks (t := 0) (r := 0) (out := some (some .empty)) (SharedRun.nil (show_ := printing demoExt) (cfg := exRefs)
    (s := ⟨callsS demoExt exPlace exRefs (fun _ => 1) (fun i => if i = 0 then exBothWays else .empty) (fun _ => sched0) (fun _ => .atom .nil), fun _ => [], exRegistered .empty⟩))
    rfl rfl rfl rfl rfl rfl
  have h2 := h1.sets (t := 1) (a := .ok) rfl rfl 0 rfl (b! "x") (some (.not (some .empty)))
  have h3 := h2.looks (t := 0) (r := 1) (out := some (some (.not (some .empty)))) rfl rfl rfl rfl rfl rfl
  refine ⟨_, _, h3, fun m n d hm => ?_, rfl⟩
  simp only [lookEvents, setEvents, List.nil_append, List.cons_append, List.mem_cons, List.not_mem_nil, reduceCtorEq, REvent.wrote.injEq, false_or, or_false] at hm
  exact hm.2.2

/-- an object that may have an `a`, which is what `x` is -/
def exMayHave : Constraint := .object (Object'.AddProp (b! "a") (.ref 0 (b! "x")))

/-- C106 needs that nil is not registered: with the constraint that `x` stands for, the empty object is accepted, but if `x` is registered again as nil
meanwhile, asking the reference for a default panics. -/
theorem C106_nil :
    (sem demoExt (targetEnv fun _ => .empty) 1 exMayHave).val sched0 (.map false []) = (.ok, .map false []) ∧
    Prepared exRefs (exRegister .empty) (exRegistered .empty) ∧
    ∃ es s, SharedRun (printing demoExt) exRefs
      ⟨callsS demoExt exPlace exRefs (fun _ => 1) (fun i => if i = 0 then exMayHave else .empty) (fun _ => sched0) (fun _ => .map (some 1)), fun _ => [], exRegistered .empty⟩ es s ∧
      (∀ m n d, .wrote m n d ∈ es → d = none) ∧ s.progs 0 = .ret (.abort .panic) := by
  refine ⟨rfl, exPrepared .empty, ?_⟩
  have h0 := SharedRun.nil (show_ := printing demoExt) (cfg := exRefs)
    (s := ⟨callsS demoExt exPlace exRefs (fun _ => 1) (fun i => if i = 0 then exMayHave else .empty) (fun _ => sched0) (fun _ => .map (some 1)), fun _ => [], exRegistered .empty⟩)
  have h1 := h0.sets (t := 1) (a := .ok) rfl rfl 0 rfl (b! "x") none
  have h2 := (h1.op (.op (i := 0) rfl)).op (.op (i := 0) rfl)
  have h3 := h2.looks (t := 0) (r := 0) (out := some none) rfl rfl rfl rfl rfl rfl
  refine ⟨_, _, h3, fun m n d hm => ?_, rfl⟩
  simp only [lookEvents, setEvents, List.nil_append, List.cons_append, List.mem_cons, List.not_mem_nil, reduceCtorEq, REvent.wrote.injEq, false_or, or_false] at hm
  exact hm.2.2

end Jsval
