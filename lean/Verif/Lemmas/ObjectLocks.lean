import Verif.Spec.ObjectLocks
import Mathlib.Tactic.SplitIfs
/-!
# Invariants of the machine of object constraints
-/
namespace Jsval

/-- The mutex held here. -/
def OPc.holds : OPc → Option OLock
  | .vCopy | .vRel => some .prop
  | .qRead | .qRel => some .req
  | .dRead | .dRel | .sRead | .sRel => some .dep
  | .cWrite _ l => l
  | .cRel _ l => some l
  | _ => none

/-- Steps until the mutex is released. -/
def OPc.left : OPc → Nat
  | .vCopy | .qRead | .dRead | .sRead => 2
  | .cWrite _ (some _) => 2
  | .vRel | .qRel | .dRel | .sRel => 1
  | .cRel _ _ => 1
  | _ => 0

/-- Configuring methods use the mutex of their field. -/
def OPc.Fits : OPc → Prop
  | .cWant f l | .cRel f l => f.setterLock = some l
  | .cWrite f l => f.setterLock = l
  | _ => True

/-- The call is in `Validate`. -/
def OPc.inValidate : OPc → Bool
  | .cWant _ _ | .cWrite _ _ | .cRel _ _ => false
  | _ => true

structure OInv (s : OState) : Prop where
  hold : ∀ o l th, s.holder o l = some th ↔ ∃ p rest, s.stack th = ⟨o, p⟩ :: rest ∧ p.holds = some l
  below : ∀ th f rest, s.stack th = f :: rest → ∀ g ∈ rest, g.pc.Calls
  fits : ∀ th, ∀ f ∈ s.stack th, f.pc.Fits

theorem OPc.Calls.free {p : OPc} (h : p.Calls) : p.holds = none := by rcases h with rfl | rfl | rfl | rfl <;> rfl
theorem OPc.Calls.fits {p : OPc} (h : p.Calls) : p.Fits := by rcases h with rfl | rfl | rfl | rfl <;> trivial
theorem OPc.Returns.free {p : OPc} (h : p.Returns) : p.holds = none := by
  rcases h with rfl | rfl | rfl | rfl | rfl | rfl | rfl | rfl | rfl | ⟨f, rfl⟩ <;> rfl
theorem OPc.Locks.before {p p' : OPc} {l : OLock} (h : p.Locks l p') : p.holds = none := by cases h <;> rfl
theorem OPc.Locks.after {p p' : OPc} {l : OLock} (h : p.Locks l p') : p'.holds = some l := by cases h <;> rfl
theorem OPc.Unlocks.before {p : OPc} {l : OLock} {p' : Option OPc} (h : p.Unlocks l p') : p.holds = some l := by cases h <;> rfl
theorem OPc.Unlocks.after {p p' : OPc} {l : OLock} (h : p.Unlocks l (some p')) : p'.holds = none := by cases h <;> rfl
theorem OPc.Goes.holds {p p' : OPc} (h : p.Goes p') : p'.holds = p.holds := by cases h <;> rfl
theorem OPc.Locks.fits {p p' : OPc} {l : OLock} (h : p.Locks l p') (hf : p.Fits) : p'.Fits := by cases h <;> first | trivial | exact hf
theorem OPc.Unlocks.fits {p p' : OPc} {l : OLock} (h : p.Unlocks l (some p')) : p'.Fits := by cases h <;> trivial
theorem OPc.Goes.fits {p p' : OPc} (h : p.Goes p') (hf : p.Fits) : p'.Fits := by cases h <;> first | trivial | exact hf

theorem OCall.frame_free (c : OCall) : c.frame.pc.holds = none ∧ c.frame.pc.Fits := by
  cases c with
  | validate o => exact ⟨rfl, trivial⟩
  | configure o f => cases f <;> exact ⟨rfl, rfl⟩

theorem oInv_init : OInv .init := by
  constructor <;> simp [OState.init]

theorem oInv_step {s s' : OState} {e : OEvent} (h : OInv s) (hs : OStep s e s') : OInv s' := by
  obtain ⟨h1, h2, h3⟩ := h
  -- replacing the top frame of one goroutine by a stack that holds the same (namely nothing)
  have same : ∀ th st, (∀ o l, (∃ p rest, s.stack th = ⟨o, p⟩ :: rest ∧ p.holds = some l) ↔ ∃ p rest, st = ⟨o, p⟩ :: rest ∧ p.holds = some l) →
      ∀ o l th', s.holder o l = some th' ↔ ∃ p rest, upd s.stack th st th' = ⟨o, p⟩ :: rest ∧ p.holds = some l := by
    intro th st hst o l th'
    rw [h1]
    by_cases ht : th' = th
    · subst ht; simp only [upd, if_true]; exact hst o l
    · simp only [upd, if_neg ht]
  have others : ∀ {th st} {P : Nat → List OFrame → Prop}, (∀ t, P t (s.stack t)) → P th st → ∀ t, P t (upd s.stack th st t) := by
    intro th st P hP hst t
    by_cases ht : t = th
    · subst ht; simpa [upd] using hst
    · simpa [upd, ht] using hP t
  have B : ∀ {th st}, (∀ f rest, st = f :: rest → ∀ g ∈ rest, g.pc.Calls) →
      ∀ t f rest, upd s.stack th st t = f :: rest → ∀ g ∈ rest, g.pc.Calls :=
    fun hst => others (P := fun _ st => ∀ f rest, st = f :: rest → ∀ g ∈ rest, g.pc.Calls) h2 hst
  have F : ∀ {th st}, (∀ f ∈ st, f.pc.Fits) → ∀ t, ∀ f ∈ upd s.stack th st t, f.pc.Fits :=
    fun hst => others (P := fun _ st => ∀ f ∈ st, f.pc.Fits) h3 hst
  have top : ∀ {th o p rest l}, s.stack th = ⟨o, p⟩ :: rest → p.holds = none → ∀ o', ¬ ∃ p rest, s.stack th = ⟨o', p⟩ :: rest ∧ p.holds = some l := by
    rintro th o p rest l hst hp o' ⟨p', rest', hst', hp'⟩
    rw [hst] at hst'
    cases hst'
    rw [hp] at hp'; cases hp'
  cases hs with
  | @start th c h0 =>
    refine ⟨same th _ (fun o l => ?_), B ?_, F ?_⟩
    · rw [h0]
      simp only [List.cons.injEq]
      refine ⟨fun ⟨_, _, h, _⟩ => (nomatch h), fun ⟨p, rest, ⟨h, _⟩, hp⟩ => ?_⟩
      have := c.frame_free.1
      rw [h] at this
      simp only at this
      rw [this] at hp; cases hp
    · intro f rest hf g hg
      cases hf
      simp at hg
    · intro f hf
      rw [List.mem_singleton.1 hf]
      exact c.frame_free.2
  | @lock th o p l p' rest h0 hl hn =>
    refine ⟨fun o' l' th' => ?_, B ?_, F ?_⟩
    · simp only [OState.setHolder]
      by_cases hol : o' = o ∧ l' = l
      · obtain ⟨rfl, rfl⟩ := hol
        simp only [and_self, if_true, Option.some.injEq]
        by_cases ht : th' = th
        · subst ht
          simp only [upd, if_true, true_iff]
          exact ⟨p', rest, rfl, hl.after⟩
        · simp only [upd, if_neg ht]
          refine ⟨fun h => absurd h.symm ht, fun h => ?_⟩
          rw [← h1, hn] at h
          cases h
      · rw [if_neg hol]
        by_cases ht : th' = th
        · subst ht
          rw [h1]
          simp only [upd, if_true]
          refine ⟨fun h => absurd h (top h0 hl.before _), ?_⟩
          rintro ⟨p2, rest2, h, hp⟩
          cases h
          rw [hl.after] at hp
          cases hp
          exact absurd ⟨rfl, rfl⟩ hol
        · rw [h1]; simp only [upd, if_neg ht]
    · intro f r hf g hg
      cases hf
      exact h2 th _ _ h0 g hg
    · intro f hf
      rcases List.mem_cons.1 hf with rfl | hf
      · exact hl.fits (h3 th ⟨o, p⟩ (by rw [h0]; simp))
      · exact h3 th f (by rw [h0]; simp [hf])
  | @unlock th o p l p' rest h0 hu =>
    have hpst : ∀ f r, (p'.map (OFrame.mk o)).toList ++ rest = f :: r → f.pc.holds = none := by
      intro f r hf
      cases p' with
      | none =>
        simp only [Option.map_none, Option.toList_none, List.nil_append] at hf
        exact (h2 th _ _ h0 f (by rw [hf]; simp)).free
      | some p' =>
        simp only [Option.map_some, Option.toList_some, List.cons_append, List.nil_append, List.cons.injEq] at hf
        rw [← hf.1]
        exact hu.after
    refine ⟨fun o' l' th' => ?_, B ?_, F ?_⟩
    · simp only [OState.setHolder]
      by_cases ht : th' = th
      · subst ht
        have hr : ¬ ∃ p2 rest2, upd s.stack th' ((p'.map (OFrame.mk o)).toList ++ rest) th' = ⟨o', p2⟩ :: rest2 ∧ p2.holds = some l' := by
          rintro ⟨p2, rest2, h, hp⟩
          simp only [upd, if_true] at h
          have := hpst _ _ h
          simp only at this
          rw [this] at hp; cases hp
        refine ⟨fun h => ?_, fun h => absurd h hr⟩
        split_ifs at h with hol
        · rw [h1, h0] at h
          obtain ⟨p2, rest2, h, hp⟩ := h
          cases h
          rw [hu.before] at hp
          cases hp
          exact absurd ⟨rfl, rfl⟩ hol
      · simp only [upd, if_neg ht]
        rw [← h1]
        by_cases hol : o' = o ∧ l' = l
        · rw [if_pos hol]
          refine ⟨fun h => (nomatch h), fun h => ?_⟩
          have : s.holder o l = some th := (h1 o l th).2 ⟨p, rest, h0, hu.before⟩
          rw [hol.1, hol.2, this] at h
          cases h
          exact absurd rfl ht
        · rw [if_neg hol]
    · intro f r hf g hg
      cases p' with
      | none =>
        simp only [Option.map_none, Option.toList_none, List.nil_append] at hf
        exact h2 th _ _ h0 g (by rw [hf]; simp [hg])
      | some p' =>
        simp only [Option.map_some, Option.toList_some, List.cons_append, List.nil_append, List.cons.injEq] at hf
        exact h2 th _ _ h0 g (by rw [hf.2]; exact hg)
    · intro f hf
      rcases List.mem_append.1 hf with hf | hf
      · cases p' with
        | none => simp at hf
        | some p' =>
          simp only [Option.map_some, Option.toList_some, List.mem_singleton] at hf
          subst hf
          exact hu.fits
      · exact h3 th f (by rw [h0]; simp [hf])
  | @go th o p p' rest h0 hg =>
    refine ⟨same th _ (fun o' l => ?_), B ?_, F ?_⟩
    · rw [h0]
      simp only [List.cons.injEq, OFrame.mk.injEq]
      constructor
      · rintro ⟨p2, rest2, ⟨⟨rfl, rfl⟩, rfl⟩, hp⟩
        exact ⟨_, _, ⟨⟨rfl, rfl⟩, rfl⟩, by rw [hg.holds]; exact hp⟩
      · rintro ⟨p2, rest2, ⟨⟨rfl, rfl⟩, rfl⟩, hp⟩
        exact ⟨_, _, ⟨⟨rfl, rfl⟩, rfl⟩, by rw [← hg.holds]; exact hp⟩
    · intro f r hf g hg'
      cases hf
      exact h2 th _ _ h0 g hg'
    · intro f hf
      rcases List.mem_cons.1 hf with rfl | hf
      · exact hg.fits (h3 th ⟨o, p⟩ (by rw [h0]; simp))
      · exact h3 th f (by rw [h0]; simp [hf])
  | @call th o p rest o2 h0 hc =>
    refine ⟨same th _ (fun o' l => ?_), B ?_, F ?_⟩
    · refine ⟨fun h => absurd h (top h0 hc.free _), ?_⟩
      rintro ⟨p2, rest2, h, hp⟩
      cases h
      cases hp
    · intro f r hf g hg
      cases hf
      rcases List.mem_cons.1 hg with rfl | hg
      · exact hc
      · exact h2 th _ _ h0 g hg
    · intro f hf
      rcases List.mem_cons.1 hf with rfl | hf
      · trivial
      · exact h3 th f (by rw [h0]; exact hf)
  | @ret th o p rest h0 hr =>
    refine ⟨same th _ (fun o' l => ?_), B ?_, F ?_⟩
    · refine ⟨fun h => absurd h (top h0 hr.free _), ?_⟩
      rintro ⟨p2, rest2, h, hp⟩
      have := (h2 th _ _ h0 ⟨o', p2⟩ (by rw [h]; simp)).free
      simp only at this
      rw [this] at hp; cases hp
    · intro f r hf g hg
      exact h2 th _ _ h0 g (by rw [hf]; simp [hg])
    · intro f hf
      exact h3 th f (by rw [h0]; simp [hf])

theorem oInv_run {s s' : OState} {es : List OEvent} (h : OInv s) (hr : ORun s es s') : OInv s' := by
  induction hr with
  | nil => exact h
  | snoc _ hs ih => exact oInv_step ih hs

/-- A goroutine whose top frame does not wait for a mutex that is taken can go on. -/
theorem oCanGo {s : OState} {th o : Nat} {p : OPc} {rest : List OFrame} (h : s.stack th = ⟨o, p⟩ :: rest)
    (hw : ∀ l p', p.Locks l p' → s.holder o l = none) : ∃ s', OStep s (.step th) s' := by
  cases p with
  | vMin => exact ⟨_, .go h .min⟩
  | vMax => exact ⟨_, .go h .max⟩
  | vWant => exact ⟨_, .lock h .v (hw _ _ .v)⟩
  | vCopy => exact ⟨_, .go h .copy⟩
  | vRel => exact ⟨_, .unlock h .v⟩
  | vProps => exact ⟨_, .go h .propsEnd⟩
  | qWant => exact ⟨_, .lock h .q (hw _ _ .q)⟩
  | qRead => exact ⟨_, .go h .required⟩
  | qRel => exact ⟨_, .unlock h .q⟩
  | vPats => exact ⟨_, .go h .patsEnd⟩
  | vAddl => exact ⟨_, .go h .addl⟩
  | vAddls => exact ⟨_, .go h .addlsEnd⟩
  | vDeps => exact ⟨_, .go h .seen⟩
  | dWant => exact ⟨_, .lock h .d (hw _ _ .d)⟩
  | dRead => exact ⟨_, .go h .depRead⟩
  | dRel => exact ⟨_, .unlock h .d⟩
  | vDep => exact ⟨_, .go h .depNext⟩
  | sWant => exact ⟨_, .lock h .s (hw _ _ .s)⟩
  | sRead => exact ⟨_, .go h .schemaRead⟩
  | sRel => exact ⟨_, .unlock h .s⟩
  | vDepCall => exact ⟨_, .go h .depCallEnd⟩
  | cWant f l => exact ⟨_, .lock h (.c f l) (hw _ _ (.c f l))⟩
  | cWrite f l =>
    cases l with
    | none => exact ⟨_, .ret h (by simp [OPc.Returns])⟩
    | some l => exact ⟨_, .go h (.write f l)⟩
  | cRel f l => exact ⟨_, .unlock h (.c f l)⟩

end Jsval
