import Verif.Lemmas.Frame
import Verif.Lemmas.Basic
/-!
# The loops of object validation, one by one
-/
namespace Jsval

/-- The property is there. -/
def Present (t : GoVal) (k : GoStr) : Prop := ∃ x s, viewProp (some t) k = .ok (.present x s)

/-- What the loop over declared properties asks of one of them. -/
def PropOk (ext : Ext) (req : List GoStr) (b : Bool) (t : GoVal) (τ : Sched) (p : GoStr) (c : Sem) : Prop :=
  match viewProp (some t) p with
  | .error _ => False
  | .ok .absent => p ∉ req ∧ (c.dflt = .none ∨ ∃ dv, c.dflt = .some dv ∧ CanSet ext b t p dv)
  | .ok (.present x _) => (c.val τ x).1 = .ok

theorem UpdAt.propOk {ext : Ext} {req : List GoStr} {b : Bool} {q : GoStr} {t t' : GoVal} (h : UpdAt q t t')
    (hp : PlainT t) {p : GoStr} (hpq : p ≠ q) (τ : Sched) (c : Sem) :
    PropOk ext req b t' τ p c ↔ PropOk ext req b t τ p c := by
  unfold PropOk
  rw [h.viewProp hp hpq]
  split
  · rfl
  · simp only [h.canSet hp hpq]
  · rfl

theorem UpdAt.present {q : GoStr} {t t' : GoVal} (h : UpdAt q t t') (hp : PlainT t) {p : GoStr} (hpq : p ≠ q) :
    Present t' p ↔ Present t p := by
  unfold Present; rw [h.viewProp hp hpq]

/-- One step over a declared property. -/
theorem propStep_spec (ext : Ext) (o : ObjC Sem) (σ : Sched) (i : Nat) (p : GoStr) (c : Sem) (b : Bool) (t : GoVal)
    (premain pseen : List GoStr) (hp : PlainT t) :
    ((propStep ext o σ i (p, c) ⟨wrap b t, premain, pseen⟩).1 = .ok ↔ PropOk ext o.required b t (σ.sub i) p c) ∧
    ∃ t' premain' pseen', (propStep ext o σ i (p, c) ⟨wrap b t, premain, pseen⟩).2 = ⟨wrap b t', premain', pseen'⟩ ∧
      UpdAt p t t' ∧ (premain' = premain ∧ pseen' = pseen ∧ ¬ Present t p ∨
        premain' = premain.filter (fun k => decide (k ≠ p)) ∧ pseen' = addName p pseen ∧ Present t p) := by
  have hself : UpdAt p t t := by
    cases hp with
    | map n kvs => exact .map _ _ _ (fun _ _ => rfl)
    | struct fs hf => exact .same fs
  unfold propStep PropOk
  simp only [indirect_wrap hp, setProp_wrap ext hp]
  rcases hv : viewProp (some t) p with a | pv
  · simp only [reduceCtorEq, iff_self, true_and]
    exact ⟨t, premain, pseen, rfl, hself, Or.inl ⟨rfl, rfl, by rintro ⟨x, s, hx⟩; rw [hv] at hx; cases hx⟩⟩
  · cases pv with
    | absent =>
      have hnp : ¬ Present t p := by rintro ⟨x, s, hx⟩; rw [hv] at hx; cases hx
      simp only
      by_cases hr : p ∈ o.required
      · simp only [hr, if_true, reduceCtorEq, not_true_eq_false, false_and, true_and]
        exact ⟨t, premain, pseen, rfl, hself, Or.inl ⟨rfl, rfl, hnp⟩⟩
      · simp only [hr, if_false, not_false_eq_true, true_and]
        cases hd : c.dflt with
        | none => simp only [true_or, true_iff, true_and]; exact ⟨t, premain, pseen, rfl, hself, Or.inl ⟨rfl, rfl, hnp⟩⟩
        | abort a =>
          simp only [reduceCtorEq, false_and, exists_false, or_self, true_and]
          exact ⟨t, premain, pseen, rfl, hself, Or.inl ⟨rfl, rfl, hnp⟩⟩
        | some dv =>
          simp only [reduceCtorEq, Dflt.some.injEq, exists_eq_left', false_or]
          rcases hs : setPropAt ext b t p dv with e | t'
          · cases e with
            | err e =>
              simp only [Except.map, reduceCtorEq, CanSet, hs, exists_false, true_and]
              exact ⟨t, premain, pseen, rfl, hself, Or.inl ⟨rfl, rfl, hnp⟩⟩
            | abort e =>
              simp only [Except.map, reduceCtorEq, CanSet, hs, exists_false, true_and]
              exact ⟨t, premain, pseen, rfl, hself, Or.inl ⟨rfl, rfl, hnp⟩⟩
          · simp only [Except.map, CanSet, hs, Except.ok.injEq, exists_eq', true_and]
            exact ⟨t', premain, pseen, rfl, setPropAt_upd hp hs, Or.inl ⟨rfl, rfl, hnp⟩⟩
    | present x s =>
      have hpr : Present t p := ⟨x, s, hv⟩
      rcases hc : c.val (σ.sub i) x with ⟨r, x'⟩
      simp only [hc]
      have hv' : (if s = true then putProp (wrap b t) p x' else wrap b t) =
          wrap b (if s = true then putAt t p x' else t) := by
        split
        · exact putProp_wrap hp b p x'
        · rfl
      have hu : UpdAt p t (if s = true then putAt t p x' else t) := by
        split
        · exact putAt_upd hp p x'
        · exact hself
      simp only [hv']
      cases r with
      | ok => simp only [true_and]; exact ⟨_, _, _, rfl, hu, Or.inr ⟨rfl, rfl, hpr⟩⟩
      | err e => simp only [reduceCtorEq, true_and]; exact ⟨_, _, _, rfl, hu, Or.inr ⟨rfl, rfl, hpr⟩⟩
      | abort e => simp only [reduceCtorEq, true_and]; exact ⟨_, _, _, rfl, hu, Or.inr ⟨rfl, rfl, hpr⟩⟩

/-- The loop over declared properties. -/
theorem propLoop_spec (ext : Ext) (o : ObjC Sem) (σ : Sched) (b : Bool) : ∀ (l : List (GoStr × Sem)) (i : Nat) (t : GoVal)
    (premain pseen : List GoStr), PlainT t → (l.map (·.1)).Nodup →
    ((forLoop (propStep ext o σ) i l ⟨wrap b t, premain, pseen⟩).1 = .ok ↔
      ∀ (j : Nat) (p : GoStr) (c : Sem), l[j]? = some (p, c) → PropOk ext o.required b t (σ.sub (i + j)) p c) ∧
    ((forLoop (propStep ext o σ) i l ⟨wrap b t, premain, pseen⟩).1 = .ok →
      ∃ t' premain' pseen', (forLoop (propStep ext o σ) i l ⟨wrap b t, premain, pseen⟩).2 = ⟨wrap b t', premain', pseen'⟩ ∧
        PlainT t' ∧ (∀ q, q ∉ l.map (·.1) → getProp (some t') q = getProp (some t) q) ∧
        (∀ k, k ∈ premain' ↔ k ∈ premain ∧ ¬ (k ∈ l.map (·.1) ∧ Present t k)) ∧
        (premain.Nodup → premain'.Nodup) ∧
        (∀ k, k ∈ pseen' ↔ k ∈ pseen ∨ (k ∈ l.map (·.1) ∧ Present t k)) ∧
        (pseen.Nodup → pseen'.Nodup))
  | [], i, t, premain, pseen, hp, _ => by
    simp only [forLoop, List.getElem?_nil, reduceCtorEq, false_implies, implies_true, true_and, true_implies]
    exact ⟨t, premain, pseen, rfl, hp, by simp, by simp, by simp, by simp, by simp⟩
  | (p, c) :: l, i, t, premain, pseen, hp, hn => by
    simp only [List.map_cons, List.nodup_cons] at hn
    obtain ⟨h1, t1, pm1, ps1, h2, h3, h4⟩ := propStep_spec ext o σ i p c b t premain pseen hp
    have hp1 := h3.plain hp
    have ih := propLoop_spec ext o σ b l (i + 1) t1 pm1 ps1 hp1 hn.2
    have hne : ∀ {q d}, (q, d) ∈ l → q ≠ p := by
      rintro q d hq rfl
      exact hn.1 (List.mem_map.2 ⟨_, hq, rfl⟩)
    have hcons : (∀ (j : Nat) (q : GoStr) (d : Sem), ((p, c) :: l)[j]? = some (q, d) →
          PropOk ext o.required b t (σ.sub (i + j)) q d) ↔
        PropOk ext o.required b t (σ.sub i) p c ∧
        ∀ (j : Nat) (q : GoStr) (d : Sem), l[j]? = some (q, d) → PropOk ext o.required b t1 (σ.sub (i + 1 + j)) q d := by
      constructor
      · intro h
        refine ⟨by simpa using h 0 p c (by simp), fun j q d hj => ?_⟩
        have := h (j + 1) q d (by simpa using hj)
        rw [show i + (j + 1) = i + 1 + j by omega] at this
        exact (h3.propOk hp (hne (List.mem_of_getElem? hj)) _ d).2 this
      · rintro ⟨g1, g2⟩ j q d hj
        cases j with
        | zero => simp at hj; obtain ⟨rfl, rfl⟩ := hj; simpa using g1
        | succ j =>
          simp only [List.getElem?_cons_succ] at hj
          rw [show i + (j + 1) = i + 1 + j by omega]
          exact (h3.propOk hp (hne (List.mem_of_getElem? hj)) _ d).1 (g2 j q d hj)
    rcases hst : propStep ext o σ i (p, c) ⟨wrap b t, premain, pseen⟩ with ⟨r, s'⟩
    rw [hst] at h1 h2
    simp only at h1 h2
    subst h2
    rw [hcons, ← h1]
    cases r with
    | err e => simp [forLoop, hst]
    | abort e => simp [forLoop, hst]
    | ok =>
      simp only [forLoop, hst, true_and]
      refine ⟨ih.1, fun hok => ?_⟩
      obtain ⟨t', pm', ps', e, g1, g2, g3, g4, g5, g6⟩ := ih.2 hok
      refine ⟨t', pm', ps', e, g1, ?_, ?_, ?_, ?_, ?_⟩
      · intro q hq
        simp only [List.map_cons, List.mem_cons, not_or] at hq
        rw [g2 q hq.2, h3.getProp hp hq.1]
      · intro k
        rw [g3]
        by_cases hk : k = p
        · subst hk
          rcases h4 with ⟨rfl, rfl, hnp⟩ | ⟨rfl, rfl, hpr⟩
          · simp [hn.1, hnp]
          · simp [hpr]
        · have : Present t1 k ↔ Present t k := h3.present hp hk
          rcases h4 with ⟨rfl, rfl, hnp⟩ | ⟨rfl, rfl, hpr⟩ <;> simp [hk, this]
      · intro hnd
        apply g4
        rcases h4 with ⟨rfl, rfl, hnp⟩ | ⟨rfl, rfl, hpr⟩
        · exact hnd
        · exact hnd.filter _
      · intro k
        rw [g5]
        by_cases hk : k = p
        · subst hk
          rcases h4 with ⟨rfl, rfl, hnp⟩ | ⟨rfl, rfl, hpr⟩
          · simp [hn.1, hnp]
          · simp [hpr, mem_addName]
        · have : Present t1 k ↔ Present t k := h3.present hp hk
          rcases h4 with ⟨rfl, rfl, hnp⟩ | ⟨rfl, rfl, hpr⟩ <;> simp [hk, this, mem_addName]
      · intro hnd
        apply g6
        rcases h4 with ⟨rfl, rfl, hnp⟩ | ⟨rfl, rfl, hpr⟩
        · exact hnd
        · exact nodup_addName hnd

/-! ## Patterns -/

theorem PlainT.upd_self {t : GoVal} (hp : PlainT t) (p : GoStr) : UpdAt p t t := by
  cases hp with
  | map n kvs => exact .map _ _ _ (fun _ _ => rfl)
  | struct fs hf => exact .same fs

/-- What one child call on the raw property value must do. -/
def RawOk (t : GoVal) (τ : Sched) (k : GoStr) (c : Sem) : Prop :=
  ∃ x, getProp (some t) k = .ok (some x) ∧ (c.val τ x).1 = .ok

theorem UpdAt.rawOk {q : GoStr} {t t' : GoVal} (h : UpdAt q t t') (hp : PlainT t) {p : GoStr} (hpq : p ≠ q)
    (τ : Sched) (c : Sem) : RawOk t' τ p c ↔ RawOk t τ p c := by
  unfold RawOk; rw [h.getProp hp hpq]

/-- One step of the inner pattern loop. -/
theorem patStep_spec (ext : Ext) (src : GoStr) (c : Sem) (σ : Sched) (i : Nat) (k : GoStr) (b : Bool) (t : GoVal)
    (premain pseen : List GoStr) (hp : PlainT t) :
    ((patStep ext src c σ i k ⟨wrap b t, premain, pseen⟩).1 = .ok ↔
      (ext.reMatch src k = true → RawOk t (σ.sub i) k c)) ∧
    ∃ t' premain' pseen', (patStep ext src c σ i k ⟨wrap b t, premain, pseen⟩).2 = ⟨wrap b t', premain', pseen'⟩ ∧
      UpdAt k t t' ∧
      (ext.reMatch src k = false → t' = t ∧ premain' = premain ∧ pseen' = pseen) ∧
      (ext.reMatch src k = true → (patStep ext src c σ i k ⟨wrap b t, premain, pseen⟩).1 = .ok →
        premain' = premain.filter (fun k' => decide (k' ≠ k)) ∧ pseen' = addName k pseen) := by
  have hself := hp.upd_self k
  unfold patStep
  simp only [indirect_wrap hp]
  cases hm : ext.reMatch src k with
  | false => simp only [if_true, Bool.false_eq_true, false_implies, true_and]; exact ⟨t, premain, pseen, rfl, hself, by simp⟩
  | true =>
    simp only [Bool.true_eq_false, if_false, true_implies, RawOk]
    rcases hg : getProp (some t) k with a | rv
    · simp only [reduceCtorEq, false_and, exists_false, true_and]
      exact ⟨t, premain, pseen, rfl, hself, by simp⟩
    · cases rv with
      | none =>
        simp only [reduceCtorEq, Except.ok.injEq, false_and, exists_false, true_and]
        exact ⟨t, premain, pseen, rfl, hself, by simp⟩
      | some x =>
        rcases hc : c.val (σ.sub i) x with ⟨r, x'⟩
        simp only [hc, Except.ok.injEq, Option.some.injEq, exists_eq_left', putProp_wrap hp b k x']
        have hu := putAt_upd hp k x'
        cases r with
        | ok => simp only [true_and]; exact ⟨_, _, _, rfl, hu, by simp⟩
        | err e => simp only [reduceCtorEq, true_and]; exact ⟨_, _, _, rfl, hu, by simp⟩
        | abort e => simp only [reduceCtorEq, true_and]; exact ⟨_, _, _, rfl, hu, by simp⟩

/-- The inner pattern loop. -/
theorem patInner_spec (ext : Ext) (src : GoStr) (c : Sem) (σ : Sched) (b : Bool) : ∀ (names : List GoStr) (i : Nat)
    (t : GoVal) (premain pseen : List GoStr), PlainT t → names.Nodup →
    ((forLoop (patStep ext src c σ) i names ⟨wrap b t, premain, pseen⟩).1 = .ok ↔
      ∀ (j : Nat) (k : GoStr), names[j]? = some k → ext.reMatch src k = true → RawOk t (σ.sub (i + j)) k c) ∧
    ((forLoop (patStep ext src c σ) i names ⟨wrap b t, premain, pseen⟩).1 = .ok →
      ∃ t' premain' pseen', (forLoop (patStep ext src c σ) i names ⟨wrap b t, premain, pseen⟩).2 = ⟨wrap b t', premain', pseen'⟩ ∧
        PlainT t' ∧ (∀ q, ¬ (q ∈ names ∧ ext.reMatch src q = true) → getProp (some t') q = getProp (some t) q) ∧
        (∀ k, k ∈ premain' ↔ k ∈ premain ∧ ¬ (k ∈ names ∧ ext.reMatch src k = true)) ∧
        (premain.Nodup → premain'.Nodup) ∧
        (∀ k, k ∈ pseen' ↔ k ∈ pseen ∨ (k ∈ names ∧ ext.reMatch src k = true)) ∧
        (pseen.Nodup → pseen'.Nodup))
  | [], i, t, premain, pseen, hp, _ => by
    simp only [forLoop, List.getElem?_nil, reduceCtorEq, false_implies, implies_true, true_and, true_implies]
    exact ⟨t, premain, pseen, rfl, hp, by simp, by simp, by simp, by simp, by simp⟩
  | p :: l, i, t, premain, pseen, hp, hn => by
    simp only [List.nodup_cons] at hn
    obtain ⟨h1, t1, pm1, ps1, h2, h3, h4, h5⟩ := patStep_spec ext src c σ i p b t premain pseen hp
    have hp1 := h3.plain hp
    have ih := patInner_spec ext src c σ b l (i + 1) t1 pm1 ps1 hp1 hn.2
    have hne : ∀ {q}, q ∈ l → q ≠ p := by
      rintro q hq rfl
      exact hn.1 hq
    have hcons : (∀ (j : Nat) (q : GoStr), (p :: l)[j]? = some q → ext.reMatch src q = true →
          RawOk t (σ.sub (i + j)) q c) ↔
        (ext.reMatch src p = true → RawOk t (σ.sub i) p c) ∧
        ∀ (j : Nat) (q : GoStr), l[j]? = some q → ext.reMatch src q = true → RawOk t1 (σ.sub (i + 1 + j)) q c := by
      constructor
      · intro h
        refine ⟨by simpa using h 0 p (by simp), fun j q hj hm => ?_⟩
        have := h (j + 1) q (by simpa using hj) hm
        rw [show i + (j + 1) = i + 1 + j by omega] at this
        exact (h3.rawOk hp (hne (List.mem_of_getElem? hj)) _ c).2 this
      · rintro ⟨g1, g2⟩ j q hj hm
        cases j with
        | zero => simp at hj; subst hj; simpa using g1 hm
        | succ j =>
          simp only [List.getElem?_cons_succ] at hj
          rw [show i + (j + 1) = i + 1 + j by omega]
          exact (h3.rawOk hp (hne (List.mem_of_getElem? hj)) _ c).1 (g2 j q hj hm)
    rcases hst : patStep ext src c σ i p ⟨wrap b t, premain, pseen⟩ with ⟨r, s'⟩
    rw [hst] at h1 h2 h5
    simp only at h1 h2 h5
    subst h2
    rw [hcons, ← h1]
    cases r with
    | err e => simp [forLoop, hst]
    | abort e => simp [forLoop, hst]
    | ok =>
      simp only [forLoop, hst, true_and]
      refine ⟨ih.1, fun hok => ?_⟩
      obtain ⟨t', pm', ps', e, g1, g2, g3, g4, g5, g6⟩ := ih.2 hok
      refine ⟨t', pm', ps', e, g1, ?_, ?_, ?_, ?_, ?_⟩
      · intro q hq
        rw [g2 q (fun h => hq ⟨List.mem_cons_of_mem _ h.1, h.2⟩)]
        by_cases hqp : q = p
        · subst hqp
          cases hm : ext.reMatch src q with
          | false => rw [(h4 hm).1]
          | true => exact absurd ⟨List.mem_cons_self .., hm⟩ hq
        · exact h3.getProp hp hqp
      · intro k
        rw [g3]
        cases hm : ext.reMatch src p with
        | false =>
          obtain ⟨rfl, rfl, rfl⟩ := h4 hm
          by_cases hk : k = p
          · subst hk; simp [hm]
          · simp [hk]
        | true =>
          obtain ⟨rfl, rfl⟩ := h5 hm rfl
          by_cases hk : k = p
          · subst hk; simp [hm]
          · simp [hk]
      · intro hnd
        apply g4
        cases hm : ext.reMatch src p with
        | false => obtain ⟨rfl, rfl, rfl⟩ := h4 hm; exact hnd
        | true => obtain ⟨rfl, rfl⟩ := h5 hm rfl; exact hnd.filter _
      · intro k
        rw [g5]
        cases hm : ext.reMatch src p with
        | false =>
          obtain ⟨rfl, rfl, rfl⟩ := h4 hm
          by_cases hk : k = p
          · subst hk; simp [hm]
          · simp [hk]
        | true =>
          obtain ⟨rfl, rfl⟩ := h5 hm rfl
          by_cases hk : k = p
          · subst hk; simp [hm, mem_addName]
          · simp [hk, mem_addName]
      · intro hnd
        apply g6
        cases hm : ext.reMatch src p with
        | false => obtain ⟨rfl, rfl, rfl⟩ := h4 hm; exact hnd
        | true => obtain ⟨rfl, rfl⟩ := h5 hm rfl; exact nodup_addName hnd

/-- The constraint of the first pattern matching `k`. -/
def firstMatch (ext : Ext) (l : List (Nat × GoStr × Sem)) (k : GoStr) : Option Sem :=
  (l.find? (fun p => ext.reMatch p.2.1 k)).map (·.2.2)

/-- Some pattern matches `k`. -/
def Matched (ext : Ext) (l : List (Nat × GoStr × Sem)) (k : GoStr) : Prop := ∃ p ∈ l, ext.reMatch p.2.1 k = true

/-- The outer pattern loop. -/
theorem patLoop_spec (ext : Ext) (σ : Sched) (b : Bool) : ∀ (l : List (Nat × GoStr × Sem)) (j : Nat)
    (t : GoVal) (premain pseen : List GoStr), PlainT t → premain.Nodup →
    ∃ τ : GoStr → Sched, (∀ k, ∃ j i, τ k = ((σ.sub 4).sub j).sub i) ∧
    ((forLoop (patOuter ext σ) j l ⟨wrap b t, premain, pseen⟩).1 = .ok ↔
      ∀ k ∈ premain, ∀ c, firstMatch ext l k = some c → RawOk t (τ k) k c) ∧
    ((forLoop (patOuter ext σ) j l ⟨wrap b t, premain, pseen⟩).1 = .ok →
      ∃ t' premain' pseen', (forLoop (patOuter ext σ) j l ⟨wrap b t, premain, pseen⟩).2 = ⟨wrap b t', premain', pseen'⟩ ∧
        PlainT t' ∧ (∀ q, ¬ (q ∈ premain ∧ Matched ext l q) → getProp (some t') q = getProp (some t) q) ∧
        (∀ k, k ∈ premain' ↔ k ∈ premain ∧ ¬ Matched ext l k) ∧
        premain'.Nodup ∧
        (∀ k, k ∈ pseen' ↔ k ∈ pseen ∨ (k ∈ premain ∧ Matched ext l k)) ∧
        (pseen.Nodup → pseen'.Nodup))
  | [], j, t, premain, pseen, hp, hn => by
    refine ⟨fun _ => ((σ.sub 4).sub 0).sub 0, fun _ => ⟨0, 0, rfl⟩, by simp [forLoop, firstMatch], fun _ => ?_⟩
    exact ⟨t, premain, pseen, rfl, hp, by simp, by simp [Matched], hn, by simp [Matched], by simp⟩
  | (id, src, c) :: l, j, t, premain, pseen, hp, hn => by
    obtain ⟨h1, h2⟩ := patInner_spec ext src c ((σ.sub 4).sub j) b (shuffle ((σ.sub 3).sub j).key premain) 0 t premain pseen
      hp (shuffle_nodup.2 hn)
    have hstep : patOuter ext σ j (id, src, c) ⟨wrap b t, premain, pseen⟩ =
        forLoop (patStep ext src c ((σ.sub 4).sub j)) 0 (shuffle ((σ.sub 3).sub j).key premain) ⟨wrap b t, premain, pseen⟩ := rfl
    rw [← hstep] at h1 h2
    -- position of each name in the inner loop
    have hpos : ∀ k ∈ premain, ∃ i, (shuffle ((σ.sub 3).sub j).key premain)[i]? = some k := fun k hk =>
      List.getElem?_of_mem (mem_shuffle.2 hk)
    classical
    let pos : GoStr → Nat := fun k => if hk : k ∈ premain then (hpos k hk).choose else 0
    have hposs : ∀ k ∈ premain, (shuffle ((σ.sub 3).sub j).key premain)[pos k]? = some k := by
      intro k hk
      simp only [pos, hk, dif_pos]
      exact (hpos k hk).choose_spec
    have huniq : ∀ (i : Nat) (k : GoStr), (shuffle ((σ.sub 3).sub j).key premain)[i]? = some k → i = pos k := by
      intro i k hi
      have hk : k ∈ premain := mem_shuffle.1 (List.mem_of_getElem? hi)
      have hnd : (shuffle ((σ.sub 3).sub j).key premain).Nodup := shuffle_nodup.2 hn
      obtain ⟨a1, a2⟩ := List.getElem?_eq_some_iff.1 hi
      obtain ⟨b1, b2⟩ := List.getElem?_eq_some_iff.1 (hposs k hk)
      exact (hnd.getElem_inj_iff (hi := a1) (hj := b1)).1 (a2.trans b2.symm)
    have hin : (patOuter ext σ j (id, src, c) ⟨wrap b t, premain, pseen⟩).1 = .ok ↔
        ∀ k ∈ premain, ext.reMatch src k = true → RawOk t (((σ.sub 4).sub j).sub (pos k)) k c := by
      rw [h1]
      constructor
      · intro h k hk hm
        have := h (pos k) k (hposs k hk) hm
        rwa [Nat.zero_add] at this
      · intro h i k hi hm
        have hk : k ∈ premain := mem_shuffle.1 (List.mem_of_getElem? hi)
        rw [Nat.zero_add, huniq i k hi]
        exact h k hk hm
    rcases hst : patOuter ext σ j (id, src, c) ⟨wrap b t, premain, pseen⟩ with ⟨r, s'⟩
    by_cases hr : r = .ok
    · subst hr
      rw [hst] at h2 hin
      simp only [true_iff, true_implies] at h2 hin
      obtain ⟨t1, pm1, ps1, e, g1, g2, g3, g4, g5, g6⟩ := h2
      subst e
      obtain ⟨τ', hτ', i1, i2⟩ := patLoop_spec ext σ b l (j + 1) t1 pm1 ps1 g1 (g4 hn)
      simp only [mem_shuffle] at g2 g3 g5
      have hpm : ∀ k, k ∈ pm1 ↔ k ∈ premain ∧ ext.reMatch src k = false := by
        intro k
        rw [g3 k]
        constructor
        · rintro ⟨h, h'⟩
          exact ⟨h, by cases hm : ext.reMatch src k <;> simp_all⟩
        · rintro ⟨h, h'⟩
          exact ⟨h, by simp [h']⟩
      refine ⟨fun k => if ext.reMatch src k = true then ((σ.sub 4).sub j).sub (pos k) else τ' k, ?_, ?_, ?_⟩
      · intro k
        simp only
        split
        · exact ⟨j, pos k, rfl⟩
        · exact hτ' k
      · simp only [forLoop, hst]
        rw [i1]
        constructor
        · intro h k hk d hd
          cases hm : ext.reMatch src k with
          | true =>
            simp only [firstMatch, List.find?_cons, hm, Option.map_some, Option.some.injEq] at hd
            subst hd
            simp only [if_true]
            exact hin k hk hm
          | false =>
            simp only [Bool.false_eq_true, if_false]
            simp only [firstMatch, List.find?_cons, hm] at hd
            have := h k ((hpm k).2 ⟨hk, hm⟩) d hd
            unfold RawOk at this ⊢
            rwa [g2 k (by simp [hm])] at this
        · intro h k hk d hd
          obtain ⟨hk', hm⟩ := (hpm k).1 hk
          have := h k hk' d (by simpa only [firstMatch, List.find?_cons, hm] using hd)
          simp only [hm, Bool.false_eq_true, if_false] at this
          unfold RawOk at this ⊢
          rwa [g2 k (by simp [hm])]
      · simp only [forLoop, hst]
        intro hok
        obtain ⟨t', pm', ps', e, a1, a2, a3, a4, a5, a6⟩ := i2 hok
        have hmt : ∀ k, Matched ext ((id, src, c) :: l) k ↔ ext.reMatch src k = true ∨ Matched ext l k := by
          intro k; simp [Matched]
        refine ⟨t', pm', ps', e, a1, ?_, ?_, a4, ?_, fun h => a6 (g6 h)⟩
        · intro q hq
          rw [hmt] at hq
          rw [a2 q (by rw [hpm]; rintro ⟨⟨h, _⟩, h'⟩; exact hq ⟨h, Or.inr h'⟩),
            g2 q (by rintro ⟨h, h'⟩; exact hq ⟨h, Or.inl h'⟩)]
        · intro k
          rw [a3, hpm, hmt]
          cases hm : ext.reMatch src k <;> simp
        · intro k
          rw [a5, g5, hpm, hmt]
          cases hm : ext.reMatch src k <;> simp
    · have hne : (forLoop (patOuter ext σ) j ((id, src, c) :: l) ⟨wrap b t, premain, pseen⟩).1 ≠ .ok := by
        cases r with
        | ok => exact absurd rfl hr
        | err e => simp [forLoop, hst]
        | abort e => simp [forLoop, hst]
      refine ⟨fun k => ((σ.sub 4).sub j).sub (pos k), fun k => ⟨j, pos k, rfl⟩, ?_, fun h => absurd h hne⟩
      constructor
      · intro h; exact absurd h hne
      · intro h
        exfalso
        have : r = .ok := by
          have h' := hin.2 (fun k hk hm => h k hk c (by simp [firstMatch, hm]))
          rwa [hst] at h'
        exact hr this

/-! ## Additional properties -/

theorem addlStep_spec (c : Sem) (σ : Sched) (i : Nat) (k : GoStr) (b : Bool) (t : GoVal)
    (premain pseen : List GoStr) (hp : PlainT t) :
    ((addlStep c σ i k ⟨wrap b t, premain, pseen⟩).1 = .ok ↔ RawOk t (σ.sub i) k c) ∧
    ∃ t', (addlStep c σ i k ⟨wrap b t, premain, pseen⟩).2 = ⟨wrap b t', premain, pseen⟩ ∧ UpdAt k t t' := by
  have hself := hp.upd_self k
  unfold addlStep
  simp only [indirect_wrap hp, RawOk]
  rcases hg : getProp (some t) k with a | rv
  · simp only [reduceCtorEq, false_and, exists_false, true_and]
    exact ⟨t, rfl, hself⟩
  · cases rv with
    | none =>
      simp only [reduceCtorEq, Except.ok.injEq, false_and, exists_false, true_and]
      exact ⟨t, rfl, hself⟩
    | some x =>
      rcases hc : c.val (σ.sub i) x with ⟨r, x'⟩
      simp only [hc, Except.ok.injEq, Option.some.injEq, exists_eq_left', putProp_wrap hp b k x']
      have hu := putAt_upd hp k x'
      cases r with
      | ok => simp only [true_and]; exact ⟨_, rfl, hu⟩
      | err e => simp only [reduceCtorEq, true_and]; exact ⟨_, rfl, hu⟩
      | abort e => simp only [reduceCtorEq, true_and]; exact ⟨_, rfl, hu⟩

theorem addlLoop_spec (c : Sem) (σ : Sched) (b : Bool) (premain pseen : List GoStr) : ∀ (names : List GoStr) (i : Nat)
    (t : GoVal), PlainT t → names.Nodup →
    ((forLoop (addlStep c σ) i names ⟨wrap b t, premain, pseen⟩).1 = .ok ↔
      ∀ (j : Nat) (k : GoStr), names[j]? = some k → RawOk t (σ.sub (i + j)) k c) ∧
    ((forLoop (addlStep c σ) i names ⟨wrap b t, premain, pseen⟩).1 = .ok →
      ∃ t', (forLoop (addlStep c σ) i names ⟨wrap b t, premain, pseen⟩).2 = ⟨wrap b t', premain, pseen⟩ ∧ PlainT t' ∧
        ∀ q, q ∉ names → getProp (some t') q = getProp (some t) q)
  | [], i, t, hp, _ => by
    simp only [forLoop, List.getElem?_nil, reduceCtorEq, false_implies, implies_true, true_and, true_implies]
    exact ⟨t, rfl, hp, by simp⟩
  | p :: l, i, t, hp, hn => by
    simp only [List.nodup_cons] at hn
    obtain ⟨h1, t1, h2, h3⟩ := addlStep_spec c σ i p b t premain pseen hp
    have hp1 := h3.plain hp
    have ih := addlLoop_spec c σ b premain pseen l (i + 1) t1 hp1 hn.2
    have hne : ∀ {q}, q ∈ l → q ≠ p := by
      rintro q hq rfl
      exact hn.1 hq
    have hcons : (∀ (j : Nat) (q : GoStr), (p :: l)[j]? = some q → RawOk t (σ.sub (i + j)) q c) ↔
        RawOk t (σ.sub i) p c ∧
        ∀ (j : Nat) (q : GoStr), l[j]? = some q → RawOk t1 (σ.sub (i + 1 + j)) q c := by
      constructor
      · intro h
        refine ⟨by simpa using h 0 p (by simp), fun j q hj => ?_⟩
        have := h (j + 1) q (by simpa using hj)
        rw [show i + (j + 1) = i + 1 + j by omega] at this
        exact (h3.rawOk hp (hne (List.mem_of_getElem? hj)) _ c).2 this
      · rintro ⟨g1, g2⟩ j q hj
        cases j with
        | zero => simp at hj; subst hj; simpa using g1
        | succ j =>
          simp only [List.getElem?_cons_succ] at hj
          rw [show i + (j + 1) = i + 1 + j by omega]
          exact (h3.rawOk hp (hne (List.mem_of_getElem? hj)) _ c).1 (g2 j q hj)
    rcases hst : addlStep c σ i p ⟨wrap b t, premain, pseen⟩ with ⟨r, s'⟩
    rw [hst] at h1 h2
    simp only at h1 h2
    subst h2
    rw [hcons, ← h1]
    cases r with
    | err e => simp [forLoop, hst]
    | abort e => simp [forLoop, hst]
    | ok =>
      simp only [forLoop, hst, true_and]
      refine ⟨ih.1, fun hok => ?_⟩
      obtain ⟨t', e, g1, g2⟩ := ih.2 hok
      refine ⟨t', e, g1, ?_⟩
      intro q hq
      simp only [List.mem_cons, not_or] at hq
      rw [g2 q hq.2, h3.getProp hp hq.1]

/-- Positions in a shuffled list give each member its own schedule. -/
theorem pos_exists (key : Nat) (l : List GoStr) (hn : l.Nodup) :
    ∃ pos : GoStr → Nat, ∀ (i : Nat) (k : GoStr), (shuffle key l)[i]? = some k ↔ k ∈ l ∧ i = pos k := by
  classical
  have hpos : ∀ k ∈ l, ∃ i, (shuffle key l)[i]? = some k := fun k hk => List.getElem?_of_mem (mem_shuffle.2 hk)
  refine ⟨fun k => if hk : k ∈ l then (hpos k hk).choose else 0, fun i k => ⟨fun hi => ?_, ?_⟩⟩
  · have hk : k ∈ l := mem_shuffle.1 (List.mem_of_getElem? hi)
    refine ⟨hk, ?_⟩
    simp only [hk, dif_pos]
    have hnd : (shuffle key l).Nodup := shuffle_nodup.2 hn
    obtain ⟨a1, a2⟩ := List.getElem?_eq_some_iff.1 hi
    obtain ⟨b1, b2⟩ := List.getElem?_eq_some_iff.1 (hpos k hk).choose_spec
    exact (hnd.getElem_inj_iff (hi := a1) (hj := b1)).1 (a2.trans b2.symm)
  · rintro ⟨hk, rfl⟩
    simp only [hk, dif_pos]
    exact (hpos k hk).choose_spec

/-- The additional-properties phase. -/
theorem addlPhase_spec (o : ObjC Sem) (σ : Sched) (b : Bool) (t : GoVal) (premain pseen : List GoStr) (hp : PlainT t)
    (hn : premain.Nodup) :
    ∃ τ : GoStr → Sched, (∀ k, ∃ i, τ k = (σ.sub 6).sub i) ∧
    ((addlPhase o σ ⟨wrap b t, premain, pseen⟩).1 = .ok ↔
      ∀ k ∈ premain, ∃ c, o.additional = some c ∧ RawOk t (τ k) k c) ∧
    ((addlPhase o σ ⟨wrap b t, premain, pseen⟩).1 = .ok →
      ∃ t', (addlPhase o σ ⟨wrap b t, premain, pseen⟩).2 = ⟨wrap b t', premain, pseen⟩ ∧ PlainT t' ∧
        ∀ q, q ∉ premain → getProp (some t') q = getProp (some t) q) := by
  obtain ⟨pos, hpos⟩ := pos_exists (σ.sub 5).key premain hn
  refine ⟨fun k => (σ.sub 6).sub (pos k), fun k => ⟨pos k, rfl⟩, ?_⟩
  unfold addlPhase
  by_cases hl : premain = []
  · subst hl
    simp only [List.length_nil, gt_iff_lt, Nat.lt_irrefl, if_false, List.not_mem_nil, false_implies, implies_true, true_and]
    intro _
    exact ⟨t, rfl, hp, by simp⟩
  · have hlen : premain.length > 0 := List.length_pos_iff.2 hl
    simp only [hlen, if_true]
    cases ha : o.additional with
    | none =>
      simp only [reduceCtorEq, false_and, exists_false, false_iff, false_implies, and_true]
      intro h
      obtain ⟨k, hk⟩ := List.exists_mem_of_ne_nil _ hl
      exact h k hk
    | some c =>
      obtain ⟨h1, h2⟩ := addlLoop_spec c (σ.sub 6) b premain pseen (shuffle (σ.sub 5).key premain) 0 t hp
        (shuffle_nodup.2 hn)
      simp only [Option.some.injEq, exists_eq_left', mem_shuffle] at h1 h2 ⊢
      refine ⟨?_, h2⟩
      rw [h1]
      constructor
      · intro h k hk
        have := h (pos k) k ((hpos _ _).2 ⟨hk, rfl⟩)
        rwa [Nat.zero_add] at this
      · intro h j k hj
        obtain ⟨hk, rfl⟩ := (hpos _ _).1 hj
        rw [Nat.zero_add]
        exact h k hk

/-! ## Dependencies -/

/-- What the dependencies loop asks about a seen name. -/
def DepOk (o : ObjC Sem) (ps : List GoStr) (v : GoVal) (τ : Sched) (k : GoStr) : Prop :=
  (∀ d ∈ o.GetPropDependencies k, d ∈ ps) ∧
  (o.GetPropDependencies k = [] → ∀ depc, o.GetSchemaDependency k = some depc → (depc.val τ v).1 = .ok)

theorem depsCheck_ok (ps : List GoStr) : ∀ ds, depsCheck ps ds = .ok ↔ ∀ d ∈ ds, d ∈ ps
  | [] => by simp [depsCheck]
  | d :: ds => by
    by_cases h : d ∈ ps
    · simp [depsCheck, h, depsCheck_ok ps ds]
    · simp [depsCheck, h]

theorem depStep_spec (o : ObjC Sem) (σ : Sched) (i : Nat) (k : GoStr) (v : GoVal) (pm ps : List GoStr) :
    ((depStep o σ i k ⟨v, pm, ps⟩).1 = .ok ↔ DepOk o ps v (σ.sub i) k) ∧
    ∃ v', (depStep o σ i k ⟨v, pm, ps⟩).2 = ⟨v', pm, ps⟩ ∧
      (v' = v ∨ ∃ depc, o.GetPropDependencies k = [] ∧ o.GetSchemaDependency k = some depc ∧
        v' = (depc.val (σ.sub i) v).2) := by
  unfold depStep DepOk
  by_cases hd : o.GetPropDependencies k = []
  · simp only [hd, ne_eq, not_true_eq_false, if_false, List.not_mem_nil, false_implies, implies_true, true_and, true_implies]
    cases hs : o.GetSchemaDependency k with
    | none => simp only [reduceCtorEq, false_implies, implies_true, true_and]; exact ⟨v, rfl, Or.inl rfl⟩
    | some depc =>
      rcases hc : depc.val (σ.sub i) v with ⟨r, v'⟩
      simp only [Option.some.injEq, forall_eq', hc, true_and]
      exact ⟨v', rfl, Or.inr ⟨depc, rfl, by rw [hc]⟩⟩
  · simp only [hd, ne_eq, not_false_eq_true, if_true, depsCheck_ok, false_implies, and_true, true_and]
    exact ⟨v, rfl, Or.inl rfl⟩

/-- With read-only dependencies, the loop is a conjunction. -/
theorem depLoop_readOnly (o : ObjC Sem) (σ : Sched) (v : GoVal) (pm ps : List GoStr)
    (hro : ∀ k depc, o.GetSchemaDependency k = some depc → depc.ReadOnlyOn v) : ∀ (l : List GoStr) (i : Nat),
    ((forLoop (depStep o σ) i l ⟨v, pm, ps⟩).1 = .ok ↔
      ∀ (j : Nat) (k : GoStr), l[j]? = some k → DepOk o ps v (σ.sub (i + j)) k) ∧
    (forLoop (depStep o σ) i l ⟨v, pm, ps⟩).2 = ⟨v, pm, ps⟩
  | [], i => by simp [forLoop]
  | p :: l, i => by
    obtain ⟨h1, v', h2, h3⟩ := depStep_spec o σ i p v pm ps
    have hv : v' = v := by
      rcases h3 with h | ⟨depc, -, hs, h⟩
      · exact h
      · rw [h]; exact hro p depc hs _
    subst hv
    have ih := depLoop_readOnly o σ v' pm ps hro l (i + 1)
    have hcons : (∀ (j : Nat) (q : GoStr), (p :: l)[j]? = some q → DepOk o ps v' (σ.sub (i + j)) q) ↔
        DepOk o ps v' (σ.sub i) p ∧
        ∀ (j : Nat) (q : GoStr), l[j]? = some q → DepOk o ps v' (σ.sub (i + 1 + j)) q := by
      constructor
      · intro h
        refine ⟨by simpa using h 0 p (by simp), fun j q hj => ?_⟩
        have := h (j + 1) q (by simpa using hj)
        rwa [show i + (j + 1) = i + 1 + j by omega] at this
      · rintro ⟨g1, g2⟩ j q hj
        cases j with
        | zero => simp at hj; subst hj; simpa using g1
        | succ j =>
          simp only [List.getElem?_cons_succ] at hj
          rw [show i + (j + 1) = i + 1 + j by omega]
          exact g2 j q hj
    rcases hst : depStep o σ i p ⟨v', pm, ps⟩ with ⟨r, s'⟩
    rw [hst] at h1 h2
    simp only at h1 h2
    subst h2
    rw [hcons, ← h1]
    cases r with
    | err e => simp [forLoop, hst]
    | abort e => simp [forLoop, hst]
    | ok => simp only [forLoop, hst, true_and]; exact ih

/-- In general each seen name was checked against the object as earlier dependencies left it. -/
theorem depLoop_sound (o : ObjC Sem) (σ : Sched) (R : GoVal → GoVal → Prop) (hrefl : ∀ v, R v v)
    (htrans : ∀ {a b c}, R a b → R b c → R a c) (pm ps : List GoStr)
    (hR : ∀ k depc, o.GetSchemaDependency k = some depc → ∀ τ w, R w (depc.val τ w).2) : ∀ (l : List GoStr) (i : Nat)
    (v : GoVal), (forLoop (depStep o σ) i l ⟨v, pm, ps⟩).1 = .ok →
      (∀ k ∈ l, ∃ τ w, R v w ∧ DepOk o ps w τ k) ∧ R v (forLoop (depStep o σ) i l ⟨v, pm, ps⟩).2.v
  | [], i, v, _ => by simp [forLoop, hrefl]
  | p :: l, i, v, h => by
    obtain ⟨h1, v', h2, h3⟩ := depStep_spec o σ i p v pm ps
    have hv : R v v' := by
      rcases h3 with h | ⟨depc, -, hs, h⟩
      · rw [h]; exact hrefl v
      · rw [h]; exact hR p depc hs _ _
    rcases hst : depStep o σ i p ⟨v, pm, ps⟩ with ⟨r, s'⟩
    rw [hst] at h1 h2
    simp only at h1 h2
    subst h2
    cases r with
    | err e => simp [forLoop, hst] at h
    | abort e => simp [forLoop, hst] at h
    | ok =>
      simp only [forLoop, hst] at h ⊢
      obtain ⟨i1, i2⟩ := depLoop_sound o σ R hrefl htrans pm ps hR l (i + 1) v' h
      refine ⟨?_, htrans hv i2⟩
      intro k hk
      rcases List.mem_cons.1 hk with rfl | hk
      · exact ⟨_, v, hrefl v, h1.1 rfl⟩
      · obtain ⟨τ, w, g1, g2⟩ := i1 k hk
        exact ⟨τ, w, htrans hv g1, g2⟩

end Jsval
