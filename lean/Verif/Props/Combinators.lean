import Verif.Lemmas.Basic
/-!
# C01–C06: Any, All, OneOf, Not, Reduce

All statements are about the behaviour `denote ext ρ (…)` of the constraint, for every behaviour of the
external libraries (`ext`), of references (`ρ`) and every iteration order (`σ`). The children are arbitrary
constraints; child `j` runs with its own part `σ.sub j` of the schedule.
-/
namespace Jsval

variable (ext : Ext) (ρ : RefSem)

/-! ## C01 -/

/-- C01, general form: `Any` returns nil exactly when some child `j` returns nil on the argument left behind
by the earlier children, which all returned errors; the argument is then as child `j` left it, so later
children did not run. -/
theorem C01_any_exact (cs : List Constraint) (σ : Sched) (v v' : GoVal) :
    (denote ext ρ (.any cs)).val σ v = (.ok, v') ↔
      ∃ j, resAt σ (cs.map (denote ext ρ)) v j = some (.ok, v') ∧
        ∀ k < j, ∃ e w, resAt σ (cs.map (denote ext ρ)) v k = some (.err e, w) := by
  rw [denote_any, anyLoop_ok]
  constructor
  · rintro ⟨j, c, h1, h2, h3⟩
    refine ⟨j, by simpa [resAt, h1] using h2, fun k hk => ?_⟩
    obtain ⟨c', g1, e, g2⟩ := h3 k hk
    refine ⟨e, (c'.val (σ.sub k) (argAt σ 0 (cs.map (denote ext ρ)) v k)).2, ?_⟩
    simp only [Nat.zero_add] at g2
    rw [resAt, g1]
    simp [Prod.ext_iff, g2]
  · rintro ⟨j, h1, h2⟩
    unfold resAt at h1
    obtain ⟨c, g1, g2⟩ := Option.map_eq_some_iff.1 h1
    refine ⟨j, c, g1, by simpa using g2, fun k hk => ?_⟩
    obtain ⟨e, w, h⟩ := h2 k hk
    unfold resAt at h
    obtain ⟨c', g3, g4⟩ := Option.map_eq_some_iff.1 h
    exact ⟨c', g3, e, by simp [g4]⟩

/-- C01: with children that come back and leave the argument alone, `Any` accepts iff some child does. -/
theorem C01_any_accepts_iff (cs : List Constraint) (σ : Sched) (v : GoVal)
    (hro : ∀ c ∈ cs, (denote ext ρ c).ReadOnlyOn v) (hn : ∀ c ∈ cs, (denote ext ρ c).NormalOn v) :
    (denote ext ρ (.any cs)).AcceptsBy σ v ↔
      ∃ j, ∃ h : j < cs.length, (denote ext ρ cs[j]).AcceptsBy (σ.sub j) v := by
  have hro' : ∀ c ∈ cs.map (denote ext ρ), c.ReadOnlyOn v := by simpa using hro
  unfold Sem.AcceptsBy
  constructor
  · intro h
    rcases hc : (denote ext ρ (.any cs)).val σ v with ⟨r, v'⟩
    rw [hc] at h
    simp only at h
    subst h
    obtain ⟨j, h1, -⟩ := (C01_any_exact ext ρ cs σ v v').1 hc
    unfold resAt at h1
    obtain ⟨c, g1, g2⟩ := Option.map_eq_some_iff.1 h1
    rw [argAt_readOnly σ v 0 _ j hro'] at g2
    rw [List.getElem?_map] at g1
    obtain ⟨c', g3, rfl⟩ := Option.map_eq_some_iff.1 g1
    obtain ⟨hj, g4⟩ := List.getElem?_eq_some_iff.1 g3
    exact ⟨j, hj, by rw [g4, g2]⟩
  · rintro ⟨j, hj, h⟩
    by_contra hcon
    have hnorm : ∀ a, ((denote ext ρ (.any cs)).val σ v).1 ≠ .abort a := by
      intro a ha
      rw [denote_any] at ha
      have : ∀ (i : Nat) (l : List Sem), (∀ c ∈ l, c.ReadOnlyOn v) → (∀ c ∈ l, c.NormalOn v) →
          (anyLoop i l σ v).1 ≠ .abort a := by
        intro i l
        induction l generalizing i with
        | nil => intro _ _; simp [anyLoop]
        | cons c l ih =>
          intro h1 h2
          rcases hc : c.val (σ.sub i) v with ⟨r, w⟩
          have hw : w = v := by have := h1 c (by simp) (σ.sub i); rw [hc] at this; exact this
          subst hw
          have hn' := h2 c (by simp) (σ.sub i)
          rw [hc] at hn'
          cases r with
          | ok => simp [anyLoop, hc]
          | err e =>
            simp only [anyLoop, hc]
            exact ih (i + 1) (fun c hc => h1 c (by simp [hc])) (fun c hc => h2 c (by simp [hc]))
          | abort b => exact absurd rfl (hn' b)
      exact this 0 _ hro' (by simpa using hn) ha
    obtain ⟨e, he⟩ := (Res.not_ok_iff hnorm).1 hcon
    rw [denote_any] at he
    have := ((anyLoop_err σ 0 _ v e).1 he).2 j (denote ext ρ cs[j]) (by simp [hj])
    rw [argAt_readOnly σ v 0 _ j hro', Nat.zero_add, h] at this
    simp [Res.Rejects] at this

/-- C01: once some child accepts, further children (even ones that would panic or never return) do not
matter. -/
theorem C01_any_short_circuit (cs ds : List Constraint) (σ : Sched) (v v' : GoVal)
    (h : (denote ext ρ (.any cs)).val σ v = (.ok, v')) :
    (denote ext ρ (.any (cs ++ ds))).val σ v = (.ok, v') := by
  rw [denote_any] at h ⊢
  rw [List.map_append]
  generalize cs.map (denote ext ρ) = l at h
  generalize ds.map (denote ext ρ) = m
  revert h
  generalize 0 = i
  intro h
  induction l generalizing i v with
  | nil => simp [anyLoop] at h
  | cons c l ih =>
    rcases hc : c.val (σ.sub i) v with ⟨r, w⟩
    cases r with
    | ok => simpa [anyLoop, hc] using h
    | err e =>
      simp only [anyLoop, hc, List.cons_append] at h ⊢
      exact ih _ _ h
    | abort b => simp [anyLoop, hc] at h

/-- C01: `Any()` without children rejects everything. -/
theorem C01_any_empty (σ : Sched) (v : GoVal) : (denote ext ρ (.any [])).val σ v = (.err .anyNone, v) := by
  simp [denote_any, anyLoop]

/-- The second child accepts, the first does not. -/
example : (sem0 (.any [.string String', .integer Number', .null])).val sched0 (.int .int 3) =
    (.ok, .int .int 3) := rfl
example : ((sem0 (.any [.string String', .null])).val sched0 (.int .int 3)).1 = .err .anyNone := rfl
/-- hypotheses of `C01_any_accepts_iff` for scalar children -/
example : ∀ c ∈ [Constraint.string String', .integer Number', .null],
    (sem0 c).ReadOnlyOn (.int .int 3) ∧ (sem0 c).NormalOn (.int .int 3) := by
  intro c hc
  simp only [List.mem_cons, List.mem_nil_iff, or_false] at hc
  rcases hc with rfl | rfl | rfl
  · exact ⟨fun _ => rfl, fun _ => Res.Normal_err _⟩
  · exact ⟨fun _ => rfl, fun _ => Res.Normal_ok⟩
  · exact ⟨fun _ => rfl, fun _ => Res.Normal_err _⟩

/-! ## C02 -/

/-- C02: `All` returns nil exactly when every child does, each on the argument left by the ones before. -/
theorem C02_all_accepts_iff (cs : List Constraint) (σ : Sched) (v : GoVal) :
    (denote ext ρ (.all cs)).AcceptsBy σ v ↔
      ∀ j < cs.length, ∃ w, resAt σ (cs.map (denote ext ρ)) v j = some (.ok, w) := by
  unfold Sem.AcceptsBy
  rw [denote_all, allLoop_ok]
  constructor
  · intro h j hj
    have := h j (denote ext ρ cs[j]) (by simp [hj])
    refine ⟨((denote ext ρ cs[j]).val (σ.sub j) (argAt σ 0 (cs.map (denote ext ρ)) v j)).2, ?_⟩
    simp only [Nat.zero_add] at this
    simp [resAt, hj, Prod.ext_iff, this]
  · intro h k c hc
    have hk : k < cs.length := by
      have := (List.getElem?_eq_some_iff.1 hc).1; simpa using this
    obtain ⟨w, hw⟩ := h k hk
    rw [resAt, hc] at hw
    simp only [Option.map_some, Option.some.injEq] at hw
    simp [hw]

/-- C02: with children that leave the argument alone, `All` accepts iff every child does. -/
theorem C02_all_accepts_iff_readOnly (cs : List Constraint) (σ : Sched) (v : GoVal)
    (hro : ∀ c ∈ cs, (denote ext ρ c).ReadOnlyOn v) :
    (denote ext ρ (.all cs)).AcceptsBy σ v ↔
      ∀ j, ∀ h : j < cs.length, (denote ext ρ cs[j]).AcceptsBy (σ.sub j) v := by
  have hro' : ∀ c ∈ cs.map (denote ext ρ), c.ReadOnlyOn v := by simpa using hro
  unfold Sem.AcceptsBy
  rw [denote_all, allLoop_ok]
  constructor
  · intro h j hj
    have := h j (denote ext ρ cs[j]) (by simp [hj])
    rwa [argAt_readOnly σ v 0 _ j hro', Nat.zero_add] at this
  · intro h k c hc
    obtain ⟨hk, rfl⟩ := List.getElem?_eq_some_iff.1 hc
    rw [argAt_readOnly σ v 0 _ k hro', Nat.zero_add]
    simpa using h k (by simpa using hk)

/-- C02: `All` returns error `e` exactly when the first child not returning nil returns `e` — the very same
error, and later children have not run. -/
theorem C02_all_first_error (cs : List Constraint) (σ : Sched) (v v' : GoVal) (e : Err) :
    (denote ext ρ (.all cs)).val σ v = (.err e, v') ↔
      ∃ j, resAt σ (cs.map (denote ext ρ)) v j = some (.err e, v') ∧
        ∀ k < j, ∃ w, resAt σ (cs.map (denote ext ρ)) v k = some (.ok, w) := by
  rw [denote_all, allLoop_stop _ _ _ _ _ _ (by simp)]
  constructor
  · rintro ⟨j, c, h1, h2, h3⟩
    refine ⟨j, by simpa [resAt, h1] using h2, fun k hk => ?_⟩
    obtain ⟨c', g1, g2⟩ := h3 k hk
    refine ⟨(c'.val (σ.sub k) (argAt σ 0 (cs.map (denote ext ρ)) v k)).2, ?_⟩
    simp only [Nat.zero_add] at g2
    rw [resAt, g1]
    simp [Prod.ext_iff, g2]
  · rintro ⟨j, h1, h2⟩
    unfold resAt at h1
    obtain ⟨c, g1, g2⟩ := Option.map_eq_some_iff.1 h1
    refine ⟨j, c, g1, by simpa using g2, fun k hk => ?_⟩
    obtain ⟨w, h⟩ := h2 k hk
    unfold resAt at h
    obtain ⟨c', g3, g4⟩ := Option.map_eq_some_iff.1 h
    exact ⟨c', g3, by simp [g4]⟩

/-- C02: `All()` without children accepts everything. -/
theorem C02_all_empty (σ : Sched) (v : GoVal) : (denote ext ρ (.all [])).val σ v = (.ok, v) := by
  simp [denote_all, allLoop]

example : ((sem0 (.all [.integer Number', .null, .boolean none])).val sched0 (.int .int 3)).1 = .err .notNull := rfl
example : ((sem0 (.all [.integer Number', .integer (Number'.Minimum (F64.exactInt 0))])).val sched0 (.int .int 3)).1
    = .ok := by decide +kernel

/-! ## C03 -/

/-- C03: with children that come back and leave the argument alone, let `n` be the number of children that
accept; `OneOf` accepts iff `n = 1`, reports "none" iff `n = 0` and "more than 1" iff `n > 1`. -/
theorem C03_oneOf_exact (cs : List Constraint) (σ : Sched) (v : GoVal)
    (hro : ∀ c ∈ cs, (denote ext ρ c).ReadOnlyOn v) (hn : ∀ c ∈ cs, (denote ext ρ c).NormalOn v) :
    let n := (cs.mapIdx (fun j c => ((denote ext ρ c).val (σ.sub j) v).1)).count .ok
    let r := ((denote ext ρ (.oneOf cs)).val σ v).1
    (r = .ok ↔ n = 1) ∧ (r = .err .oneOfNone ↔ n = 0) ∧ (r = .err .oneOfMany ↔ 2 ≤ n) := by
  have hro' : ∀ c ∈ cs.map (denote ext ρ), c.ReadOnlyOn v := by simpa using hro
  have hout := outcomes_readOnly σ v 0 _ hro'
  have hnorm : ∀ r ∈ outcomes σ 0 (cs.map (denote ext ρ)) v, r.Normal := by
    rw [hout]
    intro r hr
    obtain ⟨i, hi, rfl⟩ := List.mem_mapIdx.1 hr
    simp only [List.getElem_map]
    exact hn _ (List.getElem_mem _) _
  intro n r
  have hr : r = if n = 0 then .err .oneOfNone else if n > 1 then .err .oneOfMany else .ok := by
    have := oneOfLoop_eq σ 0 0 (cs.map (denote ext ρ)) v hnorm
    rw [hout] at this
    simp only [Nat.zero_add] at this
    simp only [r, n, denote_oneOf]
    have hm : (cs.map (denote ext ρ)).mapIdx (fun j c => (c.val (σ.sub j) v).1) =
        cs.mapIdx (fun j c => ((denote ext ρ c).val (σ.sub j) v).1) := by
      apply List.ext_getElem <;> simp
    rw [this, hm]
  rw [hr]
  by_cases h0 : n = 0
  · simp [h0]
  · by_cases h1 : n > 1
    · simp [h0, h1]; omega
    · have : n = 1 := by omega
      simp [this]

/-- C03, general form: children run in order on the evolving argument; if all of them come back, the verdict
is determined by the number of acceptances. -/
theorem C03_oneOf_general (cs : List Constraint) (σ : Sched) (v : GoVal)
    (hn : ∀ r ∈ outcomes σ 0 (cs.map (denote ext ρ)) v, r.Normal) :
    (denote ext ρ (.oneOf cs)).AcceptsBy σ v ↔ (outcomes σ 0 (cs.map (denote ext ρ)) v).count .ok = 1 := by
  unfold Sem.AcceptsBy
  rw [denote_oneOf, oneOfLoop_eq σ 0 0 _ v hn, Nat.zero_add]
  generalize (outcomes σ 0 (cs.map (denote ext ρ)) v).count .ok = n
  by_cases h0 : n = 0
  · simp [h0]
  · by_cases h1 : n > 1
    · simp [h0, h1]; omega
    · have : n = 1 := by omega
      simp [this]

example : ((sem0 (.oneOf [.integer Number', .null, .number Number'])).val sched0 (fl 3)).1 = .err .oneOfMany := by
  decide +kernel
example : ((sem0 (.oneOf [.integer Number', .null, .string String'])).val sched0 (fl 3)).1 = .ok := by decide +kernel

/-! ## C04 -/

/-- C04: `Not(c)` accepts iff `c` returns an error. -/
theorem C04_not_exact (c : Constraint) (σ : Sched) (v : GoVal) :
    (denote ext ρ (.not (some c))).AcceptsBy σ v ↔ ((denote ext ρ c).val (σ.sub 0) v).1.Rejects := by
  unfold Sem.AcceptsBy
  rw [denote_not]
  simp only [Option.map_some, notV]
  rcases hc : (denote ext ρ c).val (σ.sub 0) v with ⟨r, w⟩
  cases r <;> simp [Res.Rejects]

/-- C04: `Not(c)` rejects iff `c` accepts. -/
theorem C04_not_rejects (c : Constraint) (σ : Sched) (v : GoVal) :
    ((denote ext ρ (.not (some c))).val σ v).1.Rejects ↔ (denote ext ρ c).AcceptsBy (σ.sub 0) v := by
  unfold Sem.AcceptsBy
  rw [denote_not]
  simp only [Option.map_some, notV]
  rcases hc : (denote ext ρ c).val (σ.sub 0) v with ⟨r, w⟩
  cases r <;> simp [Res.Rejects]

/-- C04: `Not(nil)` rejects everything. -/
theorem C04_not_nil (σ : Sched) (v : GoVal) : ((denote ext ρ (.not none)).val σ v).1.Rejects := by
  rw [denote_not]; exact ⟨_, rfl⟩

/-- C04: a doubly negated constraint has exactly the possible verdicts and effects of the constraint. -/
theorem C04_double_negation (c : Constraint) :
    (denote ext ρ (.not (some (.not (some c))))).SameVerdicts (denote ext ρ c) := by
  have key : ∀ σ v, (denote ext ρ (.not (some (.not (some c))))).val σ v =
      match (denote ext ρ c).val ((σ.sub 0).sub 0) v with
      | (.ok, w) => (.ok, w)
      | (.err _, w) => (.err .notFailed, w)
      | (.abort a, w) => (.abort a, w) := by
    intro σ v
    rw [denote_not]
    simp only [Option.map_some, notV, denote_not]
    rcases hc : (denote ext ρ c).val ((σ.sub 0).sub 0) v with ⟨r, w⟩
    cases r <;> simp
  have hs : ∀ τ : Sched, ∃ σ : Sched, (σ.sub 0).sub 0 = τ := by
    intro τ
    obtain ⟨a, ha⟩ := Sched.sub_surj 0 τ
    obtain ⟨b, hb⟩ := Sched.sub_surj 0 a
    exact ⟨b, by rw [hb, ha]⟩
  intro v v'
  refine ⟨⟨?_, ?_⟩, ⟨?_, ?_⟩, fun a => ⟨?_, ?_⟩⟩
  · rintro ⟨σ, h⟩
    rw [key] at h
    refine ⟨(σ.sub 0).sub 0, ?_⟩
    rcases hc : (denote ext ρ c).val ((σ.sub 0).sub 0) v with ⟨r, w⟩
    rw [hc] at h
    cases r <;> simp_all
  · rintro ⟨τ, h⟩
    obtain ⟨σ, hσ⟩ := hs τ
    exact ⟨σ, by rw [key, hσ, h]⟩
  · rintro ⟨σ, e, h⟩
    rw [key] at h
    rcases hc : (denote ext ρ c).val ((σ.sub 0).sub 0) v with ⟨r, w⟩
    rw [hc] at h
    cases r with
    | ok => simp at h
    | err e' => simp at h; exact ⟨_, e', by rw [hc, h.2]⟩
    | abort a => simp at h
  · rintro ⟨τ, e, h⟩
    obtain ⟨σ, hσ⟩ := hs τ
    exact ⟨σ, .notFailed, by rw [key, hσ, h]⟩
  · rintro ⟨σ, h⟩
    rw [key] at h
    refine ⟨(σ.sub 0).sub 0, ?_⟩
    rcases hc : (denote ext ρ c).val ((σ.sub 0).sub 0) v with ⟨r, w⟩
    rw [hc] at h
    cases r <;> simp_all
  · rintro ⟨τ, h⟩
    obtain ⟨σ, hσ⟩ := hs τ
    refine ⟨σ, ?_⟩
    rw [key, hσ]
    rcases hc : (denote ext ρ c).val τ v with ⟨r, w⟩
    rw [hc] at h
    simp only at h
    subst h
    rfl

example : ((sem0 (.not (some .null))).val sched0 (.bool true)).1 = .ok := rfl
example : ((sem0 (.not (some (.not (some .null))))).val sched0 (.bool true)).1 = .err .notFailed := rfl

/-! ## C05 -/

/-- C05: `Reduce` changes no verdict and no effect, for all three combinations. -/
theorem C05_reduce_preserves (cs : List Constraint) :
    (denote ext ρ (reduceAny cs)).SameVerdicts (denote ext ρ (.any cs)) ∧
    (denote ext ρ (reduceAll cs)).SameVerdicts (denote ext ρ (.all cs)) ∧
    (denote ext ρ (reduceOneOf cs)).SameVerdicts (denote ext ρ (.oneOf cs)) := by
  have symm : ∀ {s t : Sem}, s.SameVerdicts t → t.SameVerdicts s := fun h v v' =>
    ⟨(h v v').1.symm, (h v v').2.1.symm, fun a => ((h v v').2.2 a).symm⟩
  by_cases h : ∃ c, cs = [c]
  · obtain ⟨c, rfl⟩ := h
    simp only [reduceAny, reduceAll, reduceOneOf, reduceCombined]
    refine ⟨symm (sameVerdicts_of_sub (fun _ => .anyNone) ?_), symm (sameVerdicts_of_sub id ?_),
      symm (sameVerdicts_of_sub (fun _ => .oneOfNone) ?_)⟩ <;> intro σ v
    · rw [denote_any]
      rcases hc : (denote ext ρ c).val (σ.sub 0) v with ⟨r, w⟩
      cases r <;> simp [anyLoop, hc]
    · rw [denote_all]
      rcases hc : (denote ext ρ c).val (σ.sub 0) v with ⟨r, w⟩
      cases r <;> simp [allLoop, hc]
    · rw [denote_oneOf]
      rcases hc : (denote ext ρ c).val (σ.sub 0) v with ⟨r, w⟩
      cases r <;> simp [oneOfLoop, hc]
  · have : ∀ cc, reduceCombined cc cs = cc := by
      intro cc
      match cs, h with
      | [], _ => rfl
      | [c], h => exact absurd ⟨c, rfl⟩ h
      | _ :: _ :: _, _ => rfl
    simp only [reduceAny, reduceAll, reduceOneOf, this]
    exact ⟨SameVerdicts.refl _, SameVerdicts.refl _, SameVerdicts.refl _⟩

example : reduceAny [.null] = .null := rfl
example : reduceOneOf [.null, .empty] = .oneOf [.null, .empty] := rfl

end Jsval
