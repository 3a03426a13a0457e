import Verif.Lemmas.Pipeline
import Verif.Props.Generator
/-!
# C70: bounds of numbers

Bounds of numbers are written with six decimals. What is read back is the float64 closest to that decimal number.
-/
namespace Jsval

open Go

variable {isPrint : Nat → Bool}

/-- Rounded to six decimals, a moderate number is in the fragment, -/
theorem six_sixDec {f : F64} (h : f.Moderate) : SixDec f.six := by
  obtain ⟨neg, m, rfl, hlt, hz⟩ := h
  refine ⟨neg, _, ?_, Or.inl hlt⟩
  unfold decF64 F64.six
  dsimp only
  rw [if_pos (nearest_moderate hlt)]
  cases neg
  · rfl
  · have := nearest_ne_zero (hz rfl)
    simp only [Bool.true_and, decide_eq_true this]

/-- and is written the same. -/
theorem six_text {f : F64} (h : f.Moderate) : fltDec f.six = fltDec f := by
  have hs := six_sixDec h
  obtain ⟨neg, m, rfl, hlt, hz⟩ := h
  have hd : decF64 neg (divRound (m * 10 ^ 6) F64.unit) 6 = some (F64.six (.fin neg m)) := by
    unfold decF64 F64.six
    dsimp only
    rw [if_pos (nearest_moderate hlt)]
    cases neg
    · rfl
    · have := nearest_ne_zero (hz rfl)
      simp only [Bool.true_and, decide_eq_true this]
  have hr := sixDec_round hd (Or.inl hlt)
  unfold F64.six fltDec
  dsimp only
  have e : (1000000 : Nat) = 10 ^ 6 := by norm_num
  rw [e] at *
  rw [hr]

/-- The constraint with its bounds rounded. -/
def NumC.six (c : NumC) : NumC := { c with minimum := c.minimum.map F64.six, maximum := c.maximum.map F64.six }

theorem six_idem {f : F64} (h : SixDec f) : f.six = f := by
  obtain ⟨neg, n, hd, hs⟩ := h
  obtain ⟨neg', m, rfl⟩ : ∃ neg m, f = .fin neg m := by
    unfold decF64 at hd
    dsimp only at hd
    split at hd
    · cases hd; exact ⟨_, _, rfl⟩
    · cases hd
  have hr := sixDec_round hd (hs.imp_right (by rintro ⟨_, _, h, he⟩; cases h; exact he))
  unfold F64.six
  dsimp only
  rw [hr]
  unfold decF64 at hd
  dsimp only at hd
  split at hd
  · cases hd; rfl
  · cases hd

/-- The text of a number constraint without default builds the constraint with its bounds rounded to six decimals. -/
theorem C70_bounds_partial {c : NumC} (hm : c.multipleOf = none) (he : c.enums = none) (hd : c.dflt = none)
    (hmin : ∀ f, c.minimum = some f → f.Moderate) (hmax : ∀ f, c.maximum = some f → f.Moderate) (σ : Sched) :
    Generates isPrint (.number c) σ (.number c.six) := by
  have hg : c.six.GenNum := by
    refine ⟨fun f hf => ?_, fun f hf => ?_, hm, he, fun v hv => ?_⟩
    · obtain ⟨f', hf', rfl⟩ := Option.map_eq_some_iff.1 hf
      exact six_sixDec (hmin f' hf')
    · obtain ⟨f', hf', rfl⟩ := Option.map_eq_some_iff.1 hf
      exact six_sixDec (hmax f' hf')
    · have : c.dflt = some v := hv
      rw [hd] at this
      cases this
  have ht : genNumber c.six = genNumber c := by
    obtain ⟨d, mn, mx, mu, e1, e2, en⟩ := c
    dsimp only at *
    subst hm he hd
    unfold genNumber NumC.six
    have h1 : optCall (mn.map F64.six) (b! ".Minimum(") fltDec = optCall mn (b! ".Minimum(") fltDec := by
      cases mn with
      | none => rfl
      | some f => simp only [Option.map, optCall, six_text (hmin _ rfl)]
    have h2 : optCall (mx.map F64.six) (b! ".Maximum(") fltDec = optCall mx (b! ".Maximum(") fltDec := by
      cases mx with
      | none => rfl
      | some f => simp only [Option.map, optCall, six_text (hmax _ rfl)]
    dsimp only
    rw [h1, h2]
  have hev : (Constraint.number c.six).Every (Constraint.Gen false) := every_leaf hg (by rintro d ⟨⟩)
  obtain ⟨t, h1, hb⟩ := gen_builds (ρ := fun _ => none) (isPrint := isPrint) (cm := []) (refs := false) (m := 0) (by simp) _ hev σ
  obtain ⟨e, h2, hv⟩ := hb.parseExpr
  refine ⟨t, e, ?_, h2, hv⟩
  rw [← h1]
  show emitCode (genNumber c) = emitCode (genNumber c.six)
  rw [ht]

theorem lt_of_ne {f : F64} (h : f.Moderate) (hne : f.six ≠ f) : F64.lt f.six f = true ∨ F64.lt f f.six = true := by
  obtain ⟨neg, m, rfl, -, -⟩ := h
  unfold F64.six at hne ⊢
  dsimp only at hne ⊢
  generalize F64.nearest _ _ = x at *
  have : x ≠ m := fun h => hne (by rw [h])
  unfold F64.lt F64.signed
  cases neg <;> simp <;> omega

/-- A lower bound survives exactly if rounding to six decimals does not move it. -/
theorem C70_decimals_iff (ext : Ext) {f : F64} (h : f.Moderate) :
    Survives ext isPrint (.number { Number' with minimum := some f }) ↔ f.six = f := by
  constructor
  · intro hs
    by_contra hne
    have hg := C70_bounds_partial (isPrint := isPrint) (c := { Number' with minimum := some f }) rfl rfl rfl
      (fun g hg => by cases hg; exact h) (fun g hg => by cases hg) sched0
    obtain ⟨c', hg', ho⟩ := hs sched0 noMaps
    obtain rfl := hg.unique hg'
    have hrun : ∀ (c : NumC) (v : GoVal) (r : Res) (v' : GoVal), (∃ σ, Returns ext noMaps (.number c) σ v r v') → r = numCheck c v := by
      rintro c v r v' ⟨σ, _, fuel, h⟩
      exact (congrArg Prod.fst h).symm
    have hcheck : ∀ g x : F64, numCheck { Number' with minimum := some g } (.float .f64 x) = if F64.lt x g then .err .belowMin else .ok := by
      intro g x
      show numCheckF { Number' with minimum := some g } x = _
      unfold numCheckF minCheck maxCheck multCheck enumOptCheck
      simp only [Number', Bool.false_eq_true, if_false]
      split <;> rfl
    have hself : ∀ g : F64, F64.lt g g = false := by
      intro g
      cases g with
      | nan => rfl
      | inf n => cases n <;> rfl
      | fin n m => simp [F64.lt]
    have hex : ∀ x : F64, numCheck { Number' with minimum := some f.six } (.float .f64 x) = numCheck { Number' with minimum := some f } (.float .f64 x) := by
      intro x
      have hr : numCheck { Number' with minimum := some f.six } (.float .f64 x) ≠ .abort .diverge := by
        rw [hcheck]; split <;> simp
      exact hrun _ _ _ _ ((ho (.float .f64 x) _ (.float .f64 x)).1 ⟨sched0, hr, 0, rfl⟩)
    rcases lt_of_ne h hne with hlt | hlt
    · have := hex f.six
      rw [hcheck, hcheck, hself, hlt] at this
      simp at this
    · have := hex f
      rw [hcheck, hcheck, hself, hlt] at this
      simp at this
  · intro he
    have hsix := six_sixDec h
    rw [he] at hsix
    refine C69_constraint ext (every_leaf ?_ (by rintro d ⟨⟩))
    exact ⟨fun g hg => (by cases hg; exact hsix), fun g hg => (by cases hg), rfl, rfl, fun v hv => (by cases hv)⟩

/-- The float64 closest to 0.1, which is not 0.1, survives, -/
example (ext : Ext) : Survives ext isPrint (.number { Number' with minimum := some (exF 1 1) }) :=
  (C70_decimals_iff ext ⟨false, _, rfl, by decide +kernel, by simp⟩).2 (by decide +kernel)

example : F64.nearest (1 * F64.unit) (10 ^ 1) * 10 ≠ F64.unit := by decide +kernel

/-- while 0.0000015 does not. -/
example (ext : Ext) : ¬ Survives ext isPrint (.number { Number' with minimum := some (exF 15 7) }) := fun h =>
  absurd ((C70_decimals_iff ext ⟨false, _, rfl, by decide +kernel, by simp⟩).1 h) (by decide +kernel)

end Jsval
