import Verif.Lemmas.ObjectLocks
import Mathlib.Data.List.Basic
/-!
# C86, C87: object constraints used by several goroutines
-/
namespace Jsval

/-! ## C86: the mutexes never block for good -/

/-- The goroutine that holds a mutex can take its next step, whatever the others do. -/
theorem holder_goes {s : OState} (hi : OInv s) {o th : Nat} {l : OLock} (h : s.holder o l = some th) :
    ∃ s', OStep s (.step th) s' := by
  obtain ⟨p, rest, hst, hp⟩ := (hi.hold o l th).1 h
  exact oCanGo hst (fun l' p' hl => by rw [hl.before] at hp; cases hp)

/-- Whatever calls to `Validate` and to the configuring methods goroutines have made on whatever objects — nested to any depth, recursive ones
included — as long as a call is in progress some goroutine can take a step. -/
theorem C86_no_deadlock {es : List OEvent} {s : OState} (hr : ORun .init es s) {th : Nat} (hth : s.stack th ≠ []) :
    ∃ th' s', OStep s (.step th') s' := by
  have hi := oInv_run oInv_init hr
  obtain ⟨⟨o, p⟩, rest, hst⟩ := List.exists_cons_of_ne_nil hth
  by_cases hw : ∀ l p', p.Locks l p' → s.holder o l = none
  · exact ⟨th, oCanGo hst hw⟩
  · push Not at hw
    obtain ⟨l, p', _, hn⟩ := hw
    obtain ⟨th', h'⟩ := Option.ne_none_iff_exists'.1 hn
    exact ⟨th', holder_goes hi h'⟩

/-- A goroutine that cannot take a step waits for a mutex of the object its innermost call is on; another goroutine holds it. In particular a goroutine never waits for a mutex
that it holds itself. -/
theorem C86_waits {es : List OEvent} {s : OState} (hr : ORun .init es s) {th : Nat} (hth : s.stack th ≠ [])
    (hb : ¬ ∃ s', OStep s (.step th) s') :
    ∃ o p rest l p' th', s.stack th = ⟨o, p⟩ :: rest ∧ p.Locks l p' ∧ s.holder o l = some th' ∧ th' ≠ th ∧ ∃ s', OStep s (.step th') s' := by
  have hi := oInv_run oInv_init hr
  obtain ⟨⟨o, p⟩, rest, hst⟩ := List.exists_cons_of_ne_nil hth
  by_cases hw : ∀ l p', p.Locks l p' → s.holder o l = none
  · exact absurd (oCanGo hst hw) hb
  · push Not at hw
    obtain ⟨l, p', hl, hn⟩ := hw
    obtain ⟨th', h'⟩ := Option.ne_none_iff_exists'.1 hn
    refine ⟨o, p, rest, l, p', th', hst, hl, h', fun e => ?_, holder_goes hi h'⟩
    subst e
    exact hb (holder_goes hi h')

/-- How long the goroutine still holds its mutex. -/
def OState.left (s : OState) (th : Nat) : Nat :=
  match s.stack th with
  | [] => 0
  | f :: _ => f.pc.left

theorem left_pos {p : OPc} {l : OLock} (h : p.holds = some l) : 0 < p.left ∧ p.left ≤ 2 := by
  cases p <;> first | (simp [OPc.holds] at h; done) | (simp [OPc.left]; done) | skip
  case cWrite f l' =>
    simp only [OPc.holds] at h
    subst h
    simp [OPc.left]

theorem OPc.Goes.left {p p' : OPc} {l : OLock} (hg : p.Goes p') (h : p.holds = some l) : p'.left + 1 = p.left := by
  cases hg <;> first | rfl | (simp [OPc.holds] at h; done)

theorem left_step {s s' : OState} {e : OEvent} (hi : OInv s) (hs : OStep s e s') {o th : Nat} {l : OLock} (h : s.holder o l = some th)
    (h' : s'.holder o l = some th) :
    s'.left th + stepsOf th [e] = s.left th := by
  have keep : ∀ {t st}, t ≠ th → (upd s.stack t st th) = s.stack th := fun ht => by simp [upd, Ne.symm ht]
  obtain ⟨p, rest, hst, hp⟩ := (hi.hold o l th).1 h
  cases hs with
  | @start t c h0 =>
    have : t ≠ th := by rintro rfl; rw [hst] at h0; cases h0
    simp [OState.left, keep this, stepsOf]
  | @lock t o1 p1 l1 p1' rest1 h0 hl hn =>
    have : t ≠ th := by
      rintro rfl; rw [hst] at h0; cases h0
      rw [hl.before] at hp; cases hp
    simp [OState.left, keep this, stepsOf, this]
  | @unlock t o1 p1 l1 p1' rest1 h0 hu =>
    have : t ≠ th := by
      rintro rfl; rw [hst] at h0; cases h0
      rw [hu.before] at hp; cases hp
      simp [OState.setHolder] at h'
    simp [OState.left, keep this, stepsOf, this]
  | @go t o1 p1 p1' rest1 h0 hg =>
    by_cases ht : t = th
    · subst ht
      rw [hst] at h0; cases h0
      simp only [OState.left, upd, hst, stepsOf]
      simpa using hg.left hp
    · simp [OState.left, keep ht, stepsOf, ht]
  | @call t o1 p1 rest1 o2 h0 hc =>
    have : t ≠ th := by
      rintro rfl; rw [hst] at h0; cases h0
      rw [hc.free] at hp; cases hp
    simp [OState.left, keep this, stepsOf, this]
  | @ret t o1 p1 rest1 h0 hr =>
    have : t ≠ th := by
      rintro rfl; rw [hst] at h0; cases h0
      rw [hr.free] at hp; cases hp
    simp [OState.left, keep this, stepsOf, this]

/-- A mutex is held for at most two steps of its holder: in any continuation in which the holder takes two steps, there is a moment when it does not have the mutex any more.
So no mutex is held while a child is validated. -/
theorem C86_released {es es' : List OEvent} {s s' : OState} (hr : ORun .init es s) {o th : Nat} {l : OLock} (h : s.holder o l = some th)
    (hr' : ORun s es' s') (hn : 2 ≤ stepsOf th es') :
    ∃ es1 es2 s1, es' = es1 ++ es2 ∧ ORun s es1 s1 ∧ s1.holder o l ≠ some th := by
  have key : (∃ es1 es2 s1, es' = es1 ++ es2 ∧ ORun s es1 s1 ∧ s1.holder o l ≠ some th) ∨
      (s'.holder o l = some th ∧ s'.left th + stepsOf th es' = s.left th) := by
    clear hn
    have hi := oInv_run oInv_init hr
    clear hr
    induction hr' with
    | nil => exact .inr ⟨h, rfl⟩
    | @snoc es1 s1 e s2 hr1 hs ih =>
      rcases ih with ⟨a, b, t, e1, ht, hh⟩ | ⟨h1, h2⟩
      · exact .inl ⟨a, b ++ [e], t, by rw [e1, List.append_assoc], ht, hh⟩
      · by_cases h3 : s2.holder o l = some th
        · refine .inr ⟨h3, ?_⟩
          have := left_step (oInv_run hi hr1) hs h1 h3
          have hsum : stepsOf th (es1 ++ [e]) = stepsOf th es1 + stepsOf th [e] := List.countP_append ..
          omega
        · exact .inl ⟨es1 ++ [e], [], s2, by simp, .snoc hr1 hs, h3⟩
  rcases key with k | ⟨h1, h2⟩
  · exact k
  · have hi := oInv_run oInv_init hr
    obtain ⟨p, rest, hst, hp⟩ := (hi.hold o l th).1 h
    obtain ⟨p', rest', hst', hp'⟩ := ((oInv_run hi hr').hold o l th).1 h1
    have a := (left_pos hp).2
    have b := (left_pos hp').1
    simp only [OState.left, hst, hst'] at h2
    omega

/-! ## C87: data races -/

theorem access_guarded {p : OPc} {f : OField} {w : Bool} (hf : p.Fits) (h : p.access = some (f, w))
    (hw : w = true ∨ f = .required ∨ f = .properties ∨ f = .propdeps ∨ f = .schemadeps) : p.holds = f.setterLock := by
  cases p <;> simp only [OPc.access, reduceCtorEq, Option.some.injEq, Prod.mk.injEq] at h <;>
    obtain ⟨rfl, rfl⟩ := h <;> first
      | rfl
      | (simp at hw; done)
      | exact hf.symm

/-- Two goroutines never access the required properties, the properties, the property dependencies or the schema dependencies of an object at the same time
if one of them writes. -/
theorem C87_guarded_partial {es : List OEvent} {s : OState} (hr : ORun .init es s) (o : Nat) (f : OField)
    (hf : f = .required ∨ f = .properties ∨ f = .propdeps ∨ f = .schemadeps) : ¬ s.Races o f := by
  rintro ⟨th, th', w, hne, ⟨p, rest, h1, h2⟩, p', rest', h3, h4⟩
  have hi := oInv_run oInv_init hr
  have e1 := access_guarded (hi.fits th ⟨o, p⟩ (by rw [h1]; simp)) h2 (.inl rfl)
  have e2 := access_guarded (hi.fits th' ⟨o, p'⟩ (by rw [h3]; simp)) h4 (.inr hf)
  obtain ⟨l, hl⟩ : ∃ l, f.setterLock = some l := by rcases hf with rfl | rfl | rfl | rfl <;> exact ⟨_, rfl⟩
  have a := (hi.hold o l th).2 ⟨p, rest, h1, e1.trans hl⟩
  have b := (hi.hold o l th').2 ⟨p', rest', h3, e2.trans hl⟩
  rw [a] at b
  exact hne (Option.some.inj b)

/-- Two goroutines never write the pattern properties at the same time either. -/
theorem C87_writers {es : List OEvent} {s : OState} (hr : ORun .init es s) (o : Nat) (f f' : OField) (l : OLock) (hf : f.setterLock = some l) (hf' : f'.setterLock = some l)
    {th th' : Nat} (h1 : s.Accesses th o f true) (h2 : s.Accesses th' o f' true) : th = th' := by
  obtain ⟨p, rest, h1, h3⟩ := h1
  obtain ⟨p', rest', h2, h4⟩ := h2
  have hi := oInv_run oInv_init hr
  have e1 := access_guarded (hi.fits th ⟨o, p⟩ (by rw [h1]; simp)) h3 (.inl rfl)
  have e2 := access_guarded (hi.fits th' ⟨o, p'⟩ (by rw [h2]; simp)) h4 (.inl rfl)
  have a := (hi.hold o l th).2 ⟨p, rest, h1, e1.trans hf⟩
  have b := (hi.hold o l th').2 ⟨p', rest', h2, e2.trans hf'⟩
  rw [a] at b
  exact Option.some.inj b

theorem reads_step {s s' : OState} {e : OEvent} (h : ∀ th, ∀ f ∈ s.stack th, f.pc.inValidate = true) (he : ∀ th o f, e ≠ .start th (.configure o f))
    (hs : OStep s e s') : ∀ th, ∀ f ∈ s'.stack th, f.pc.inValidate = true := by
  have U : ∀ {t st}, (∀ f ∈ st, f.pc.inValidate = true) → ∀ th, ∀ f ∈ upd s.stack t st th, f.pc.inValidate = true := by
    intro t st hst th f hf
    by_cases ht : th = t
    · subst ht; simp only [upd, if_true] at hf; exact hst f hf
    · simp only [upd, if_neg ht] at hf; exact h th f hf
  cases hs with
  | @start t c h0 =>
    refine U (fun f hf => ?_)
    rw [List.mem_singleton.1 hf]
    cases c with
    | validate o => rfl
    | configure o f => exact absurd rfl (he t o f)
  | @lock t o p l p' rest h0 hl hn =>
    refine U (fun f hf => ?_)
    rcases List.mem_cons.1 hf with rfl | hf
    · have := h t ⟨o, p⟩ (by rw [h0]; simp)
      cases hl <;> first | rfl | (exact this)
    · exact h t f (by rw [h0]; simp [hf])
  | @unlock t o p l p' rest h0 hu =>
    refine U (fun f hf => ?_)
    rcases List.mem_append.1 hf with hf | hf
    · cases hu <;> simp at hf <;> subst hf <;> rfl
    · exact h t f (by rw [h0]; simp [hf])
  | @go t o p p' rest h0 hg =>
    refine U (fun f hf => ?_)
    rcases List.mem_cons.1 hf with rfl | hf
    · have := h t ⟨o, p⟩ (by rw [h0]; simp)
      cases hg <;> first | rfl | (exact this)
    · exact h t f (by rw [h0]; simp [hf])
  | @call t o p rest o2 h0 hc =>
    refine U (fun f hf => ?_)
    rcases List.mem_cons.1 hf with rfl | hf
    · rfl
    · exact h t f (by rw [h0]; exact hf)
  | @ret t o p rest h0 hr =>
    exact U (fun f hf => h t f (by rw [h0]; simp [hf]))

/-- Goroutines that only validate never race, on any field of any object. -/
theorem C87_readers {es : List OEvent} {s : OState} (hr : ORun .init es s) (hv : OnlyValidates es) (o : Nat) (f : OField) : ¬ s.Races o f := by
  have key : ∀ th, ∀ f ∈ s.stack th, f.pc.inValidate = true := by
    generalize hs0 : OState.init = s0 at hr
    induction hr with
    | nil => subst hs0; simp [OState.init]
    | snoc hr hs ih =>
      exact reads_step (ih (fun th o f h => hv th o f (by simp [h]))) (fun th o f h => hv th o f (by simp [h])) hs
  rintro ⟨th, th', w, -, ⟨p, rest, h1, h2⟩, -⟩
  have := key th ⟨o, p⟩ (by rw [h1]; simp)
  cases p <;> simp [OPc.access, OPc.inValidate] at h2 this

/-- A state with these stacks of the goroutines 0 and 1 is reachable, no mutex being held. -/
def OReach (st0 st1 : List OFrame) : Prop :=
  ∃ es s, ORun .init es s ∧ s.stack 0 = st0 ∧ s.stack 1 = st1 ∧ ∀ o l, s.holder o l = none

theorem OReach.start : OReach [⟨0, .vMin⟩] [] :=
  ⟨_, _, .snoc (.nil _) (.start (th := 0) (.validate 0) rfl), rfl, rfl, fun _ _ => rfl⟩

theorem OReach.go {o : Nat} {p p' : OPc} {rest st : List OFrame} (h : OReach (⟨o, p⟩ :: rest) st) (hg : p.Goes p') : OReach (⟨o, p'⟩ :: rest) st := by
  obtain ⟨es, s, hr, h0, h1, hh⟩ := h
  exact ⟨_, _, .snoc hr (.go h0 hg), by simp [upd], by simpa [upd] using h1, hh⟩

theorem OReach.call {o : Nat} {p : OPc} {rest st : List OFrame} (h : OReach (⟨o, p⟩ :: rest) st) (hc : p.Calls) (o' : Nat) :
    OReach (⟨o', .vMin⟩ :: ⟨o, p⟩ :: rest) st := by
  obtain ⟨es, s, hr, h0, h1, hh⟩ := h
  exact ⟨_, _, .snoc hr (.call o' h0 hc), by simp [upd], by simpa [upd] using h1, hh⟩

theorem OReach.copy {o : Nat} {rest st : List OFrame} (h : OReach (⟨o, .vWant⟩ :: rest) st) : OReach (⟨o, .vProps⟩ :: rest) st := by
  obtain ⟨es, s, hr, h0, h1, hh⟩ := h
  refine ⟨_, _, .snoc (.snoc (.snoc hr (.lock h0 .v (hh _ _))) (.go (th := 0) (o := o) (rest := rest) (by simp [upd]) .copy))
    (.unlock (th := 0) (o := o) (rest := rest) (by simp [upd]) .v), ?_, ?_, ?_⟩
  · simp [upd]
  · simpa [upd] using h1
  · intro o' l'
    simp only [OState.setHolder]
    split_ifs
    · rfl
    · exact hh _ _

theorem OReach.writes {st : List OFrame} (h : OReach st []) (o : Nat) (f : OField) :
    ∃ es s, ORun .init es s ∧ s.stack 0 = st ∧ s.stack 1 = [⟨o, .cWrite f f.setterLock⟩] ∧
      ∀ o' l, s.holder o' l = if o' = o ∧ some l = f.setterLock then some 1 else none := by
  obtain ⟨es, s, hr, h0, h1, hh⟩ := h
  cases hf : f.setterLock with
  | none =>
    refine ⟨_, _, .snoc hr (.start (th := 1) (.configure o f) h1), by simpa [upd] using h0, by simp [upd, OCall.frame, hf], ?_⟩
    intro o' l
    simp [hh]
  | some l =>
    have h2 : upd s.stack 1 [(OCall.configure o f).frame] 1 = [⟨o, .cWant f l⟩] := by simp [upd, OCall.frame, hf]
    refine ⟨_, _, .snoc (.snoc hr (.start (th := 1) (.configure o f) h1)) (.lock (th := 1) (o := o) (rest := []) h2 (.c f l) (hh _ _)), by simpa [upd] using h0, by simp [upd], ?_⟩
    intro o' l'
    simp only [OState.setHolder, Option.some.injEq, hh]

theorem OReach.vProps : OReach [⟨0, .vProps⟩] [] := ((OReach.start.go .min).go .max).copy

/-- `PatternProperties` may write while another goroutine's `Validate` of the same object reads the patterns, which it does without the mutex; so may the methods that set the
minimum, the maximum and the additional properties. -/
theorem C87_refuted (f : OField) (hf : f = .patterns ∨ f = .minProps ∨ f = .maxProps ∨ f = .additional) :
    ∃ es s, ORun .init es s ∧ s.Races 0 f := by
  obtain ⟨p, hp, ha⟩ : ∃ p, OReach [⟨0, p⟩] [] ∧ p.access = some (f, false) := by
    rcases hf with rfl | rfl | rfl | rfl
    · exact ⟨_, OReach.vProps.go .propsEnd, rfl⟩
    · exact ⟨_, OReach.start, rfl⟩
    · exact ⟨_, OReach.start.go .min, rfl⟩
    · exact ⟨_, (OReach.vProps.go .propsEnd).go .patsEnd, rfl⟩
  obtain ⟨es, s, hr, h0, h1, -⟩ := hp.writes 0 f
  exact ⟨es, s, hr, 1, 0, false, by decide, ⟨_, _, h1, rfl⟩, _, _, h0, ha⟩

/-! ## Concrete cases -/

/-- Goroutine 0 validates a recursive object: it is in the second, inner call on object 0 and wants the mutex of the properties. Goroutine 1 is adding a property to the same object and
holds that mutex. `C86_no_deadlock`, `C86_waits`, `C86_released` and `C87_writers` speak about this state. -/
theorem exLocks : ∃ es s, ORun .init es s ∧ s.stack 0 = [⟨0, .vWant⟩, ⟨0, .vProps⟩] ∧ s.holder 0 .prop = some 1 ∧
    s.Accesses 1 0 .properties true := by
  obtain ⟨es, s, hr, h0, h1, hh⟩ := (((OReach.vProps.call (.inl rfl) 0).go .min).go .max).writes 0 .properties
  exact ⟨es, s, hr, h0, by rw [hh]; rfl, _, _, h1, rfl⟩

/-- In it goroutine 0 cannot take a step, so `C86_waits` applies to it. -/
example : ∃ es s, ORun .init es s ∧ s.stack 0 ≠ [] ∧ ¬ ∃ s', OStep s (.step 0) s' := by
  obtain ⟨es, s, hr, h0, hh, -⟩ := exLocks
  refine ⟨es, s, hr, by rw [h0]; simp, ?_⟩
  rintro ⟨s', hs⟩
  cases hs with
  | lock h hl hn => rw [h0] at h; cases h; cases hl; rw [hh] at hn; cases hn
  | unlock h hu => rw [h0] at h; cases h; cases hu
  | go h hg => rw [h0] at h; cases h; cases hg
  | call o h hc => rw [h0] at h; cases h; simp [OPc.Calls] at hc
  | ret h hr => rw [h0] at h; cases h; simp [OPc.Returns] at hr

/-- And goroutine 1 can take the two steps that `C86_released` speaks about. -/
example : ∃ es s es' s', ORun .init es s ∧ s.holder 0 .prop = some 1 ∧ ORun s es' s' ∧ 2 ≤ stepsOf 1 es' := by
  obtain ⟨es, s, hr, h0, hh, p, rest, h1, h2⟩ := exLocks
  have hi := oInv_run oInv_init hr
  obtain ⟨s1, hs1⟩ := holder_goes hi hh
  obtain ⟨p', rest', h3, h4⟩ := (hi.hold _ _ _).1 hh
  have : s1.holder 0 .prop = some 1 := by
    rw [h1] at h3; cases h3
    cases hs1 with
    | lock h hl hn => rw [h1] at h; cases h; rw [hl.before] at h4; cases h4
    | unlock h hu => rw [h1] at h; cases h; cases hu <;> simp [OPc.access] at h2
    | go h hg => exact hh
    | call o h hc => exact hh
    | ret h hr => exact hh
  obtain ⟨s2, hs2⟩ := holder_goes (oInv_step hi hs1) this
  exact ⟨es, s, _, s2, hr, hh, .snoc (.snoc (.nil _) hs1) hs2, by simp [stepsOf]⟩

/-- `C87_readers`: two goroutines in `Validate` of the same object. -/
example : ∃ es s, ORun .init es s ∧ OnlyValidates es ∧ s.Accesses 0 0 .minProps false ∧ s.Accesses 1 0 .minProps false := by
  refine ⟨_, _, .snoc (.snoc (.nil _) (.start (th := 0) (.validate 0) rfl)) (.start (th := 1) (.validate 0) rfl), ?_, ⟨.vMin, [], rfl, rfl⟩, ⟨.vMin, [], rfl, rfl⟩⟩
  intro th o f h
  simp at h

end Jsval
