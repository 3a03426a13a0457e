import Verif.Spec.Basic
import Verif.Lemmas.Sched
/-!
# Helper lemmas about the denotation
-/
namespace Jsval

theorem denoteList_eq (ext : Ext) (ρ : RefSem) : ∀ cs, denoteList ext ρ cs = cs.map (denote ext ρ)
  | [] => by simp [denoteList]
  | c :: cs => by simp [denoteList, denoteList_eq ext ρ cs]

theorem denoteOpt_eq (ext : Ext) (ρ : RefSem) : ∀ c, denoteOpt ext ρ c = c.map (denote ext ρ)
  | none => by simp [denoteOpt]
  | some c => by simp [denoteOpt]

theorem denoteProps_eq (ext : Ext) (ρ : RefSem) :
    ∀ cs, denoteProps ext ρ cs = cs.map (fun p => (p.1, denote ext ρ p.2))
  | [] => by simp [denoteProps]
  | (n, c) :: cs => by simp [denoteProps, denoteProps_eq ext ρ cs]

theorem denotePats_eq (ext : Ext) (ρ : RefSem) :
    ∀ cs, denotePats ext ρ cs = cs.map (fun p => (p.1, p.2.1, denote ext ρ p.2.2))
  | [] => by simp [denotePats]
  | (i, s, c) :: cs => by simp [denotePats, denotePats_eq ext ρ cs]

theorem denote_any (ext : Ext) (ρ : RefSem) (cs) :
    (denote ext ρ (.any cs)).val = anyLoop 0 (cs.map (denote ext ρ)) := by simp [denote, denoteList_eq]
theorem denote_all (ext : Ext) (ρ : RefSem) (cs) :
    (denote ext ρ (.all cs)).val = allLoop 0 (cs.map (denote ext ρ)) := by simp [denote, denoteList_eq]
theorem denote_oneOf (ext : Ext) (ρ : RefSem) (cs) :
    (denote ext ρ (.oneOf cs)).val = oneOfLoop 0 0 (cs.map (denote ext ρ)) := by simp [denote, denoteList_eq]
theorem denote_not (ext : Ext) (ρ : RefSem) (c) :
    (denote ext ρ (.not c)).val = notV (c.map (denote ext ρ)) := by simp [denote, denoteOpt_eq]

/-- Children of an array constraint, by their behaviour. -/
def ArrC.map {C D : Type} (f : C → D) (a : ArrC C) : ArrC D :=
  ⟨a.items.map f, a.positional.map f, a.additional.map f, a.minItems, a.maxItems, a.unique⟩

/-- Children of an object constraint, by their behaviour. -/
def ObjC.map {C D : Type} (f : C → D) (o : ObjC C) : ObjC D :=
  ⟨o.props.map (fun p => (p.1, f p.2)), o.patterns.map (fun p => (p.1, p.2.1, f p.2.2)), o.additional.map f,
    o.required, o.propdeps, o.schemadeps.map (fun p => (p.1, f p.2)), o.minProps, o.maxProps⟩

theorem denoteArr_eq (ext : Ext) (ρ : RefSem) (a : ArrC Constraint) :
    denoteArr ext ρ a = a.map (denote ext ρ) := by
  cases a; simp [denoteArr, ArrC.map, denoteOpt_eq, denoteList_eq]

theorem denoteObj_eq (ext : Ext) (ρ : RefSem) (o : ObjC Constraint) :
    denoteObj ext ρ o = o.map (denote ext ρ) := by
  cases o; simp [denoteObj, ObjC.map, denoteOpt_eq, denoteProps_eq, denotePats_eq]

theorem denote_array (ext : Ext) (ρ : RefSem) (a) :
    (denote ext ρ (.array a)).val = arrayV ext (a.map (denote ext ρ)) := by simp [denote, denoteArr_eq]
theorem denote_object (ext : Ext) (ρ : RefSem) (o) :
    (denote ext ρ (.object o)).val = objectV ext (o.map (denote ext ρ)) := by simp [denote, denoteObj_eq]

theorem Res.Normal_ok : Res.ok.Normal := by intro a h; cases h
theorem Res.Normal_err (e : Err) : (Res.err e).Normal := by intro a h; cases h

theorem Res.not_ok_iff {r : Res} (h : r.Normal) : r ≠ .ok ↔ r.Rejects := by
  cases r with
  | ok => simp [Res.Rejects]
  | err e => simp [Res.Rejects]
  | abort a => exact absurd rfl (h a)

/-! ## Combinator loops -/

theorem anyLoop_ok (σ : Sched) : ∀ (i : Nat) (cs : List Sem) (v v' : GoVal),
    anyLoop i cs σ v = (.ok, v') ↔
      ∃ (j : Nat) (c : Sem), cs[j]? = some c ∧ c.val (σ.sub (i + j)) (argAt σ i cs v j) = (.ok, v') ∧
        ∀ k < j, ∃ c' : Sem, cs[k]? = some c' ∧ (c'.val (σ.sub (i + k)) (argAt σ i cs v k)).1.Rejects
  | i, [], v, v' => by simp [anyLoop]
  | i, c :: cs, v, v' => by
    have ih := anyLoop_ok σ (i + 1) cs (c.val (σ.sub i) v).2 v'
    rcases hc : c.val (σ.sub i) v with ⟨r, w⟩
    simp only [hc] at ih
    constructor
    · intro h
      cases r with
      | ok =>
        simp only [anyLoop, hc] at h
        exact ⟨0, c, by simp, by simpa [argAt, hc] using h, by simp⟩
      | err e =>
        simp only [anyLoop, hc] at h
        obtain ⟨j, c', h1, h2, h3⟩ := ih.1 h
        refine ⟨j + 1, c', by simpa using h1, ?_, ?_⟩
        · rw [show i + (j + 1) = i + 1 + j by omega]; simpa [argAt, hc] using h2
        · intro k hk
          cases k with
          | zero => exact ⟨c, by simp, by simp [argAt, hc, Res.Rejects]⟩
          | succ k =>
            obtain ⟨c'', g1, g2⟩ := h3 k (by omega)
            refine ⟨c'', by simpa using g1, ?_⟩
            rw [show i + (k + 1) = i + 1 + k by omega]; simpa [argAt, hc] using g2
      | abort a => simp [anyLoop, hc] at h
    · rintro ⟨j, c', h1, h2, h3⟩
      cases j with
      | zero =>
        simp at h1; subst h1
        simp only [argAt, Nat.add_zero, hc] at h2
        rw [Prod.mk.injEq] at h2
        obtain ⟨rfl, rfl⟩ := h2
        simp [anyLoop, hc]
      | succ j =>
        obtain ⟨c0, g1, e, g2⟩ := h3 0 (by omega)
        simp at g1; subst g1
        simp only [argAt, Nat.add_zero, hc] at g2
        subst g2
        simp only [anyLoop, hc]
        apply ih.2
        refine ⟨j, c', by simpa using h1, ?_, ?_⟩
        · rw [show i + (j + 1) = i + 1 + j by omega] at h2; simpa [argAt, hc] using h2
        · intro k hk
          obtain ⟨c'', g1, g2⟩ := h3 (k + 1) (by omega)
          refine ⟨c'', by simpa using g1, ?_⟩
          rw [show i + (k + 1) = i + 1 + k by omega] at g2; simpa [argAt, hc] using g2

theorem anyLoop_err (σ : Sched) : ∀ (i : Nat) (cs : List Sem) (v : GoVal) (e : Err),
    (anyLoop i cs σ v).1 = .err e ↔
      e = .anyNone ∧ ∀ (k : Nat) (c : Sem), cs[k]? = some c → (c.val (σ.sub (i + k)) (argAt σ i cs v k)).1.Rejects
  | i, [], v, e => by simp [anyLoop, eq_comm]
  | i, c :: cs, v, e => by
    have ih := anyLoop_err σ (i + 1) cs (c.val (σ.sub i) v).2 e
    rcases hc : c.val (σ.sub i) v with ⟨r, w⟩
    simp only [hc] at ih
    cases r with
    | ok =>
      simp only [anyLoop, hc]
      constructor
      · intro h; cases h
      · rintro ⟨-, h⟩
        have := h 0 c (by simp)
        simp [argAt, hc, Res.Rejects] at this
    | err e' =>
      simp only [anyLoop, hc]
      rw [ih]
      refine and_congr_right fun _ => ⟨fun h k c' hk => ?_, fun h k c' hk => ?_⟩
      · cases k with
        | zero => simp at hk; subst hk; simp [argAt, hc, Res.Rejects]
        | succ k =>
          rw [show i + (k + 1) = i + 1 + k by omega]
          simpa [argAt, hc] using h k c' (by simpa using hk)
      · have := h (k + 1) c' (by simpa using hk)
        rw [show i + (k + 1) = i + 1 + k by omega] at this
        simpa [argAt, hc] using this
    | abort a =>
      simp only [anyLoop, hc]
      constructor
      · intro h; cases h
      · rintro ⟨-, h⟩
        have := h 0 c (by simp)
        simp [argAt, hc, Res.Rejects] at this

theorem allLoop_ok (σ : Sched) : ∀ (i : Nat) (cs : List Sem) (v : GoVal),
    (allLoop i cs σ v).1 = .ok ↔
      ∀ (k : Nat) (c : Sem), cs[k]? = some c → (c.val (σ.sub (i + k)) (argAt σ i cs v k)).1 = .ok
  | i, [], v => by simp [allLoop]
  | i, c :: cs, v => by
    have ih := allLoop_ok σ (i + 1) cs (c.val (σ.sub i) v).2
    rcases hc : c.val (σ.sub i) v with ⟨r, w⟩
    simp only [hc] at ih
    cases r with
    | ok =>
      simp only [allLoop, hc]
      rw [ih]
      refine ⟨fun h k c' hk => ?_, fun h k c' hk => ?_⟩
      · cases k with
        | zero => simp at hk; subst hk; simp [argAt, hc]
        | succ k =>
          rw [show i + (k + 1) = i + 1 + k by omega]
          simpa [argAt, hc] using h k c' (by simpa using hk)
      · have := h (k + 1) c' (by simpa using hk)
        rw [show i + (k + 1) = i + 1 + k by omega] at this
        simpa [argAt, hc] using this
    | err e' =>
      simp only [allLoop, hc]
      constructor
      · intro h; cases h
      · intro h
        have := h 0 c (by simp)
        simp [argAt, hc] at this
    | abort a =>
      simp only [allLoop, hc]
      constructor
      · intro h; cases h
      · intro h
        have := h 0 c (by simp)
        simp [argAt, hc] at this

theorem allLoop_stop (σ : Sched) : ∀ (i : Nat) (cs : List Sem) (v v' : GoVal) (r : Res), r ≠ .ok →
    (allLoop i cs σ v = (r, v') ↔
      ∃ (j : Nat) (c : Sem), cs[j]? = some c ∧ c.val (σ.sub (i + j)) (argAt σ i cs v j) = (r, v') ∧
        ∀ k < j, ∃ c' : Sem, cs[k]? = some c' ∧ (c'.val (σ.sub (i + k)) (argAt σ i cs v k)).1 = .ok)
  | i, [], v, v', r, hr => by simp [allLoop, Ne.symm hr]
  | i, c :: cs, v, v', r, hr => by
    have ih := allLoop_stop σ (i + 1) cs (c.val (σ.sub i) v).2 v' r hr
    rcases hc : c.val (σ.sub i) v with ⟨q, w⟩
    simp only [hc] at ih
    have hstop : ∀ (q' : Res), q' ≠ .ok → c.val (σ.sub i) v = (q', w) →
        (((q', w) = (r, v')) ↔ ∃ (j : Nat) (c' : Sem), (c :: cs)[j]? = some c' ∧ c'.val (σ.sub (i + j)) (argAt σ i (c :: cs) v j) = (r, v') ∧
        ∀ k < j, ∃ c'' : Sem, (c :: cs)[k]? = some c'' ∧ (c''.val (σ.sub (i + k)) (argAt σ i (c :: cs) v k)).1 = .ok) := by
      intro q' hq hcq
      constructor
      · intro h
        exact ⟨0, c, by simp, by simpa [argAt, hcq] using h, by simp⟩
      · rintro ⟨j, c', h1, h2, h3⟩
        cases j with
        | zero => simp at h1; subst h1; simpa [argAt, hcq] using h2
        | succ j =>
          obtain ⟨c0, g1, g2⟩ := h3 0 (by omega)
          simp at g1; subst g1
          simp [argAt, hcq] at g2
          exact absurd g2 hq
    cases q with
    | ok =>
      simp only [allLoop, hc]
      rw [ih]
      constructor
      · rintro ⟨j, c', h1, h2, h3⟩
        refine ⟨j + 1, c', by simpa using h1, ?_, ?_⟩
        · rw [show i + (j + 1) = i + 1 + j by omega]; simpa [argAt, hc] using h2
        · intro k hk
          cases k with
          | zero => exact ⟨c, by simp, by simp [argAt, hc]⟩
          | succ k =>
            obtain ⟨c'', g1, g2⟩ := h3 k (by omega)
            refine ⟨c'', by simpa using g1, ?_⟩
            rw [show i + (k + 1) = i + 1 + k by omega]; simpa [argAt, hc] using g2
      · rintro ⟨j, c', h1, h2, h3⟩
        cases j with
        | zero =>
          simp at h1; subst h1
          simp only [argAt, Nat.add_zero, hc] at h2
          simp at h2
          exact absurd h2.1.symm hr
        | succ j =>
          refine ⟨j, c', by simpa using h1, ?_, ?_⟩
          · rw [show i + (j + 1) = i + 1 + j by omega] at h2; simpa [argAt, hc] using h2
          · intro k hk
            obtain ⟨c'', g1, g2⟩ := h3 (k + 1) (by omega)
            refine ⟨c'', by simpa using g1, ?_⟩
            rw [show i + (k + 1) = i + 1 + k by omega] at g2; simpa [argAt, hc] using g2
    | err e' =>
      simp only [allLoop, hc]
      exact hstop _ (by simp) hc
    | abort a =>
      simp only [allLoop, hc]
      exact hstop _ (by simp) hc

theorem oneOfLoop_eq (σ : Sched) : ∀ (i n : Nat) (cs : List Sem) (v : GoVal),
    (∀ r ∈ outcomes σ i cs v, r.Normal) →
    (oneOfLoop i n cs σ v).1 =
      if n + (outcomes σ i cs v).count .ok = 0 then .err .oneOfNone
      else if n + (outcomes σ i cs v).count .ok > 1 then .err .oneOfMany else .ok
  | i, n, [], v, _ => by
    simp only [oneOfLoop, outcomes, List.count_nil, Nat.add_zero]
    by_cases h0 : n = 0
    · simp [h0]
    · by_cases h1 : n > 1 <;> simp [h0, h1]
  | i, n, c :: cs, v, h => by
    have ih := fun m => oneOfLoop_eq σ (i + 1) m cs (c.val (σ.sub i) v).2
      (fun r hr => h r (by simp [outcomes, hr]))
    have hh := h (c.val (σ.sub i) v).1 (by simp [outcomes])
    rcases hc : c.val (σ.sub i) v with ⟨r, w⟩
    simp only [hc] at ih hh
    cases r with
    | ok =>
      simp only [oneOfLoop, hc, outcomes, ih (n + 1), List.count_cons_self]
      rw [show n + 1 + (outcomes σ (i + 1) cs w).count .ok = n + ((outcomes σ (i + 1) cs w).count .ok + 1) by omega]
    | err e =>
      simp only [oneOfLoop, hc, outcomes, ih n]
      rw [List.count_cons_of_ne (by simp)]
    | abort a => exact absurd rfl (hh a)

theorem outcomes_readOnly (σ : Sched) (v : GoVal) : ∀ (i : Nat) (cs : List Sem),
    (∀ c ∈ cs, c.ReadOnlyOn v) → outcomes σ i cs v = cs.mapIdx (fun j c => (c.val (σ.sub (i + j)) v).1)
  | i, [], _ => rfl
  | i, c :: cs, h => by
    simp only [outcomes, List.mapIdx_cons, Nat.add_zero]
    rw [show (c.val (σ.sub i) v).2 = v from h c (by simp) _, outcomes_readOnly σ v (i + 1) cs (fun c hc => h c (by simp [hc]))]
    congr 2
    funext j c'
    rw [show i + (j + 1) = i + 1 + j by omega]

theorem argAt_readOnly (σ : Sched) (v : GoVal) : ∀ (i : Nat) (cs : List Sem) (j : Nat),
    (∀ c ∈ cs, c.ReadOnlyOn v) → argAt σ i cs v j = v
  | _, [], _, _ => by simp [argAt]
  | _, _ :: _, 0, _ => by simp [argAt]
  | i, c :: cs, j + 1, h => by
    simp only [argAt]
    rw [show (c.val (σ.sub i) v).2 = v from h c (by simp) _]
    exact argAt_readOnly σ v (i + 1) cs j (fun c hc => h c (by simp [hc]))

theorem Sched.sub_surj (i : Nat) (τ : Sched) : ∃ σ : Sched, σ.sub i = τ :=
  ⟨fun p => match p with | [] => 0 | _ :: q => τ q, by funext p; rfl⟩

theorem SameVerdicts.refl (s : Sem) : s.SameVerdicts s := fun _ _ => ⟨Iff.rfl, Iff.rfl, fun _ => Iff.rfl⟩

theorem sameVerdicts_of_sub {s t : Sem} (f : Err → Err)
    (h : ∀ σ v, s.val σ v = match t.val (σ.sub 0) v with
      | (.ok, w) => (.ok, w)
      | (.err e, w) => (.err (f e), w)
      | (.abort a, w) => (.abort a, w)) : s.SameVerdicts t := by
  intro v v'
  refine ⟨⟨?_, ?_⟩, ⟨?_, ?_⟩, fun a => ⟨?_, ?_⟩⟩
  · rintro ⟨σ, hh⟩
    rw [h] at hh
    refine ⟨σ.sub 0, ?_⟩
    rcases hc : t.val (σ.sub 0) v with ⟨r, w⟩
    rw [hc] at hh
    cases r <;> simp_all
  · rintro ⟨τ, hh⟩
    obtain ⟨σ, hσ⟩ := Sched.sub_surj 0 τ
    exact ⟨σ, by rw [h, hσ, hh]⟩
  · rintro ⟨σ, e, hh⟩
    rw [h] at hh
    rcases hc : t.val (σ.sub 0) v with ⟨r, w⟩
    rw [hc] at hh
    cases r with
    | ok => simp at hh
    | err e' => simp at hh; exact ⟨_, e', by rw [hc, hh.2]⟩
    | abort a => simp at hh
  · rintro ⟨τ, e, hh⟩
    obtain ⟨σ, hσ⟩ := Sched.sub_surj 0 τ
    exact ⟨σ, f e, by rw [h, hσ, hh]⟩
  · rintro ⟨σ, hh⟩
    rw [h] at hh
    refine ⟨σ.sub 0, ?_⟩
    rcases hc : t.val (σ.sub 0) v with ⟨r, w⟩
    rw [hc] at hh
    cases r <;> simp_all
  · rintro ⟨τ, hh⟩
    obtain ⟨σ, hσ⟩ := Sched.sub_surj 0 τ
    refine ⟨σ, ?_⟩
    rw [h, hσ]
    rcases hc : t.val τ v with ⟨r, w⟩
    rw [hc] at hh
    simp only at hh
    subst hh
    rfl

end Jsval
