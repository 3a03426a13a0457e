import Verif.Lemmas.Keep
import Verif.Lemmas.Rounding
/-!
# What is kept of numbers
-/
namespace Jsval

/-- Without its fraction, a float64 is a float64. -/
theorem mag_trunc {m : Nat} (h : F64.Mag m) : F64.Mag (m / F64.unit * F64.unit) := by
  obtain ⟨q, j, hq, rfl⟩ := h
  rw [unit_eq]
  by_cases hj : 1074 ≤ j
  · refine ⟨q, j, hq, ?_⟩
    have e : q * 2 ^ j = q * 2 ^ (j - 1074) * 2 ^ 1074 := by rw [mul_assoc, ← pow_add, Nat.sub_add_cancel hj]
    rw [e, Nat.mul_div_cancel _ (by positivity)]
  · refine ⟨_, 1074, ?_, rfl⟩
    refine (Nat.div_le_of_le_mul ?_ : _ ≤ _)
    calc q * 2 ^ j ≤ 2 ^ 53 * 2 ^ 1074 := Nat.mul_le_mul hq (Nat.pow_le_pow_right (by norm_num) (by omega))
      _ = _ := by rw [mul_comm]

theorem round53_exact {n : Nat} (h : F64.Mag (n * F64.unit)) : F64.round53 n = n := by
  have h1 := round53_nearest n
  have h2 := nearest_exact (b := 1) one_pos h
  rw [mul_one] at h2
  rw [h2] at h1
  exact Nat.eq_of_mul_eq_mul_right unit_pos h1

/-- The whole part of a float64 within the range of `int64` -/
theorem truncInt_fin {neg : Bool} {m : Nat} (h : m < 2 ^ 63 * F64.unit) : F64.truncInt (.fin neg m) = F64.signed neg (m / F64.unit) := by
  have : m / F64.unit < 2 ^ 63 := (Nat.div_lt_iff_lt_mul unit_pos).2 h
  unfold F64.truncInt
  dsimp only
  generalize m / F64.unit = q at *
  rw [if_pos]
  unfold F64.signed
  cases neg <;> simp <;> omega

/-- and outside of it. -/
theorem truncInt_far {neg : Bool} {m : Nat} (hr : ¬ m < 2 ^ 63 * F64.unit) : F64.truncInt (.fin neg m) = -(2 ^ 63) := by
  have : 2 ^ 63 ≤ m / F64.unit := (Nat.le_div_iff_mul_le unit_pos).2 (by omega)
  unfold F64.truncInt
  dsimp only
  unfold F64.signed
  cases neg
  · rw [if_neg]; simp only [Bool.false_eq_true, if_false]; omega
  · by_cases he : m / F64.unit = 2 ^ 63
    · rw [he]; norm_num
    · rw [if_neg]; simp only [if_true]; omega

/-- The whole part as a float64. -/
theorem ofInt_signed {neg : Bool} {m : Nat} (hm : F64.Mag m) :
    F64.ofInt (F64.signed neg (m / F64.unit)) = .fin (neg && decide (m / F64.unit ≠ 0)) (m / F64.unit * F64.unit) := by
  have e : (F64.signed neg (m / F64.unit)).natAbs = m / F64.unit := by
    generalize m / F64.unit = q
    unfold F64.signed; cases neg <;> simp
  unfold F64.ofInt
  rw [e, round53_exact (mag_trunc hm)]
  congr 1
  unfold F64.signed
  generalize m / F64.unit = q
  cases neg
  · simp
  · simp only [if_true, Bool.true_and, decide_eq_decide]
    omega

theorem six_twice {m : Nat} (hm : F64.Mag m) :
    divRound (F64.nearest (divRound (m * 10 ^ 6) F64.unit * F64.unit) (10 ^ 6) * 10 ^ 6) F64.unit = divRound (m * 10 ^ 6) F64.unit := by
  by_cases h : 2 ^ 33 * F64.unit ≤ m
  · rw [reread_large hm h]
  · have hle : divRound (m * 10 ^ 6) F64.unit ≤ 2 ^ 33 * 10 ^ 6 := by
      have hd := divRound_closest (a := m * 10 ^ 6) unit_pos (2 ^ 33 * 10 ^ 6)
      by_contra hne
      have h3 : (2 ^ 33 * 10 ^ 6 + 1) * F64.unit ≤ divRound (m * 10 ^ 6) F64.unit * F64.unit := Nat.mul_le_mul_right _ (by omega)
      have eD : ((divRound (m * 10 ^ 6) F64.unit : Int) * (F64.unit : Int)) = ((divRound (m * 10 ^ 6) F64.unit * F64.unit : Nat) : Int) := by push_cast; rfl
      rw [eD] at hd
      have := unit_pos
      generalize divRound (m * 10 ^ 6) F64.unit * F64.unit = w at *
      generalize F64.unit = u at *
      push_cast at hd
      omega
    rcases Nat.eq_or_lt_of_le hle with he | hlt
    · rw [he]
      have hm33 : F64.Mag (2 ^ 33 * F64.unit) := ⟨2 ^ 33, 1074, by norm_num, by rw [unit_eq]⟩
      have e : 2 ^ 33 * 10 ^ 6 * F64.unit = 2 ^ 33 * F64.unit * 10 ^ 6 := by ring
      rw [e, nearest_exact (by norm_num) hm33, ← e, divRound_exact (Nat.mul_mod_left _ _), Nat.mul_div_cancel _ unit_pos]
    · refine sixDec_round (neg := false) (neg' := false) ?_ (Or.inl hlt)
      unfold decF64
      dsimp only
      rw [if_pos (nearest_moderate hlt)]
      rfl

/-- Rounding to six decimals a second time changes nothing. -/
theorem reread_twice {f : F64} (h : f.IsFinite) : f.reread.reread = f.reread := by
  obtain ⟨neg, m, rfl, hm, hlt⟩ := h
  have := six_twice hm
  unfold F64.reread
  dsimp only
  rw [this]
  congr 1
  cases neg <;> simp

theorem reread_finite {f : F64} (h : f.IsFinite) : f.reread.IsFinite := by
  obtain ⟨neg, m, rfl, hm, hlt⟩ := h
  exact ⟨_, _, rfl, nearest_mag (by norm_num), reread_lt hm hlt⟩

/-- Nor does dropping the fraction. -/
theorem trunc_twice {f : F64} (h : f.IsFinite) : F64.ofInt (F64.ofInt f.truncInt).truncInt = F64.ofInt f.truncInt := by
  obtain ⟨neg, m, rfl, hm, hlt⟩ := h
  by_cases hr : m < 2 ^ 63 * F64.unit
  · rw [truncInt_fin hr, ofInt_signed hm]
    have h1 : m / F64.unit * F64.unit < 2 ^ 63 * F64.unit := lt_of_le_of_lt (Nat.div_mul_le_self _ _) hr
    rw [truncInt_fin h1, ofInt_signed (mag_trunc hm), Nat.mul_div_cancel _ unit_pos]
    congr 1
    cases neg <;> simp
  · rw [truncInt_far hr]
    decide +kernel

theorem trunc_finite {f : F64} (h : f.IsFinite) : (F64.ofInt f.truncInt).IsFinite := by
  obtain ⟨neg, m, rfl, hm, hlt⟩ := h
  by_cases hr : m < 2 ^ 63 * F64.unit
  · rw [truncInt_fin hr, ofInt_signed hm]
    exact ⟨_, _, rfl, mag_trunc hm, lt_of_le_of_lt (Nat.div_mul_le_self _ _) hlt⟩
  · rw [truncInt_far hr]
    exact ⟨true, 2 ^ 63 * F64.unit, by decide +kernel, ⟨2 ^ 53, 10 + 1074, le_refl _, by
      rw [unit_eq, ← pow_add, ← pow_add]⟩,
      Nat.mul_lt_mul_of_pos_right (Nat.pow_lt_pow_right (by norm_num) (by norm_num)) unit_pos⟩

theorem keepNum_twice {c : NumC} (hmin : ∀ f, c.minimum = some f → f.IsFinite) (hmax : ∀ f, c.maximum = some f → f.IsFinite)
    (hdf : ∀ v, c.dflt = some v → ∃ k f, v = .float k f ∧ f.IsFinite) : c.keepNum.keepNum = c.keepNum := by
  obtain ⟨d, mn, mx, mu, e1, e2, en⟩ := c
  unfold NumC.keepNum
  dsimp only at *
  congr 1
  · cases d with
    | none => rfl
    | some v =>
      obtain ⟨k, f, rfl, hf⟩ := hdf v rfl
      simp [reread_twice hf]
  · cases mn with
    | none => rfl
    | some f => simp [reread_twice (hmin f rfl)]
  · cases mx with
    | none => rfl
    | some f => simp [reread_twice (hmax f rfl)]

theorem keepInt_twice {c : NumC} (hmin : ∀ f, c.minimum = some f → f.IsFinite) (hmax : ∀ f, c.maximum = some f → f.IsFinite) :
    c.keepInt.keepInt = c.keepInt := by
  obtain ⟨d, mn, mx, mu, e1, e2, en⟩ := c
  unfold NumC.keepInt
  dsimp only at *
  congr 1
  · cases d with
    | none => rfl
    | some v =>
      cases v <;> try rfl
      case float k f => cases k <;> rfl
  · cases mn with
    | none => rfl
    | some f => simp [trunc_twice (hmin f rfl)]
  · cases mx with
    | none => rfl
    | some f => simp [trunc_twice (hmax f rfl)]

theorem keepStr_twice {c : StrC} (h : ∀ l, c.enums = some l → ∀ v ∈ l, v.Spellable) : c.keep.keep = c.keep := by
  obtain ⟨d, e, mx, mn, r, f⟩ := c
  unfold StrC.keep
  dsimp only at *
  simp only [Option.map_map, StrC.mk.injEq, and_true, true_and]
  cases e with
  | none => rfl
  | some l =>
    simp only [Option.map_some, Function.comp_apply, List.map_map, Option.some.injEq]
    refine List.map_congr_left fun v hv => ?_
    have := h l rfl v hv
    cases v <;> try rfl
    case float k f =>
      show GoVal.float .f64 f.reread.reread = .float .f64 f.reread
      rw [reread_twice this]

theorem keep_twice {refs : Bool} {c : Constraint} (h : c.Every (Constraint.Spellable refs)) : c.keep.keep = c.keep := by
  induction c using Constraint.ind with
  | h c ih =>
  have ih' : ∀ d, c.Child d → d.keep.keep = d.keep := fun d hd => ih d hd (h.child hd)
  have hl : ∀ l : List Constraint, (∀ d ∈ l, c.Child d) → (l.map Constraint.keep).map Constraint.keep = l.map Constraint.keep := fun l hl => by
    rw [List.map_map]
    exact List.map_congr_left fun d hd => ih' d (hl d hd)
  have hs := h.self
  cases c with
  | empty => rfl
  | null => rfl
  | boolean d => rfl
  | string c => simp only [Constraint.keep]; rw [keepStr_twice fun l hl => (hs.2.2.1 l hl).2]
  | number c => simp only [Constraint.keep]; rw [keepNum_twice hs.1 hs.2.1 hs.2.2]
  | integer c => simp only [Constraint.keep]; rw [keepInt_twice hs.1 hs.2.1]
  | enum l => exact absurd hs id
  | not d => exact absurd hs id
  | ref m n => rfl
  | any l =>
    by_cases h0 : l = []
    · subst h0; simp [Constraint.keep]
    · rw [keep_any h0, keep_any (by simpa using h0), hl l fun d hd => .any hd]
  | oneOf l =>
    by_cases h0 : l = []
    · subst h0; simp [Constraint.keep]
    · rw [keep_oneOf h0, keep_oneOf (by simpa using h0), hl l fun d hd => .oneOf hd]
  | all l => rw [keep_all, keep_all, hl l fun d hd => .all hd]
  | array a =>
    rw [keep_array, keep_array]
    obtain ⟨i, p, ad, mn, mx, u⟩ := a
    simp only [ArrC.map, ArrC.keep, Constraint.array.injEq, ArrC.mk.injEq, and_true]
    refine ⟨?_, hl p fun d hd => .array (.positional hd), ?_⟩
    · cases i with
      | none => rfl
      | some d => simp [ih' d (.array (.items rfl))]
    · cases ad with
      | none => simp [Constraint.keep]
      | some d => simp [ih' d (.array (.additional rfl))]
  | object o =>
    rw [keep_object, keep_object]
    obtain ⟨ps, pats, ad, req, pd, sd, mn, mx⟩ := o
    simp only [ObjC.map, ObjC.keep, Constraint.object.injEq, ObjC.mk.injEq, and_true, List.map_map]
    refine ⟨?_, ?_, ?_⟩
    · refine List.map_congr_left fun p hp => ?_
      simp [ih' p.2 (.object (.prop hp))]
    · refine List.map_congr_left fun p hp => ?_
      simp [ih' p.2.2 (.object (.pattern hp))]
    · cases ad with
      | none => rfl
      | some d => simp [ih' d (.object (.additional rfl))]

end Jsval
