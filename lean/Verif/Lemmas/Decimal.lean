import Mathlib.Tactic.Linarith
import Mathlib.Tactic.Positivity
import Mathlib.Tactic.Ring
import Mathlib.Tactic.NormNum
import Verif.Spec.Decimal
/-!
# Rounding to float64
-/
namespace Jsval

/-- The quotient is off by at most half the divisor. -/
theorem divRound_close {a b : Nat} (hb : 0 < b) : 2 * ((divRound a b : Int) * b - a).natAbs ≤ b := by
  unfold divRound
  dsimp only
  have h := Nat.div_add_mod a b
  have hr := Nat.mod_lt a hb
  set q := a / b
  set r := a % b
  have ha : (a : Int) = b * q + r := by exact_mod_cast h.symm
  split_ifs with hc
  · have : ((q + 1 : Nat) : Int) * b - a = b - r := by push_cast; rw [ha]; ring
    rw [this]
    omega
  · have : (q : Int) * b - a = -r := by rw [ha]; ring
    rw [this]
    omega

/-- No multiple of the divisor is closer. -/
theorem divRound_closest {a b : Nat} (hb : 0 < b) (c : Nat) :
    ((divRound a b : Int) * b - a).natAbs ≤ ((c : Int) * b - a).natAbs := by
  have h := divRound_close (a := a) hb
  set d := divRound a b
  by_contra hlt
  push Not at hlt
  have h1 : ((c : Int) * b - d * b).natAbs < b := by
    have : (c : Int) * b - d * b = (c * b - a) - (d * b - a) := by ring
    rw [this]
    omega
  have h2 : (c : Int) * b - d * b = (c - d) * b := by ring
  rw [h2, Int.natAbs_mul] at h1
  have h3 : ((c : Int) - d).natAbs = 0 := by
    by_contra h0
    have : 1 * b ≤ ((c : Int) - d).natAbs * b := Nat.mul_le_mul_right _ (by omega)
    simp only [Int.natAbs_natCast] at h1
    omega
  have h4 : (c : Int) = d := by omega
  rw [h4] at hlt
  omega

/-- The exponent of the last of 53 bits. -/
def lastBit (a b : Nat) : Nat := (a / b).log2 + 1 - 53

theorem nearest_eq (a b : Nat) : F64.nearest a b = divRound a (b * 2 ^ lastBit a b) * 2 ^ lastBit a b := rfl

theorem quotient_lt {a b : Nat} (hb : 0 < b) : a < b * 2 ^ (53 + lastBit a b) := by
  have h : a / b < 2 ^ (53 + lastBit a b) := by
    refine Nat.lt_of_lt_of_le Nat.lt_log2_self (Nat.pow_le_pow_right (by norm_num) ?_)
    unfold lastBit
    omega
  have := (Nat.div_lt_iff_lt_mul hb).1 h
  rwa [Nat.mul_comm] at this

theorem le_quotient {a b : Nat} (h : lastBit a b ≠ 0) : b * 2 ^ (52 + lastBit a b) ≤ a := by
  have hne : a / b ≠ 0 := by
    intro h0
    apply h
    unfold lastBit
    rw [h0]
    rfl
  have h1 : 2 ^ (52 + lastBit a b) ≤ a / b := by
    have : 52 + lastBit a b = (a / b).log2 := by unfold lastBit at h ⊢; omega
    rw [this]
    exact Nat.log2_self_le hne
  have := Nat.le_div_iff_mul_le (Nat.pos_of_ne_zero (fun h0 => hne (by rw [h0]; simp))) |>.1 h1
  rwa [Nat.mul_comm] at this

/-- The result has at most 53 significant bits. -/
theorem nearest_mag {a b : Nat} (hb : 0 < b) : F64.Mag (F64.nearest a b) := by
  refine ⟨_, _, ?_, nearest_eq a b⟩
  have h := quotient_lt (a := a) hb
  have hc := divRound_close (a := a) (b := b * 2 ^ lastBit a b) (by positivity)
  set e := lastBit a b
  set d := divRound a (b * 2 ^ e)
  have hp : 0 < b * 2 ^ e := by positivity
  by_contra hlt
  have h1 : (2 ^ 53 + 1) * (b * 2 ^ e) ≤ d * (b * 2 ^ e) := Nat.mul_le_mul_right _ (by omega)
  have h2 : b * 2 ^ (53 + e) = 2 ^ 53 * (b * 2 ^ e) := by rw [pow_add]; ring
  have h3 : ((d * (b * 2 ^ e) : Nat) : Int) = (d : Int) * ((b * 2 ^ e : Nat) : Int) := by push_cast; ring
  rw [← h3] at hc
  omega

/-- No float64 is closer. -/
theorem nearest_closest {a b m : Nat} (hb : 0 < b) (hm : F64.Mag m) :
    ((F64.nearest a b : Int) * b - a).natAbs ≤ ((m : Int) * b - a).natAbs := by
  have key : ∀ c, ((F64.nearest a b : Int) * b - a).natAbs ≤ (((c * 2 ^ lastBit a b : Nat) : Int) * b - a).natAbs := by
    intro c
    have h := divRound_closest (a := a) (b := b * 2 ^ lastBit a b) (by positivity) c
    rw [nearest_eq]
    have e1 : ∀ d : Nat, (d : Int) * ((b * 2 ^ lastBit a b : Nat) : Int) = ((d * 2 ^ lastBit a b : Nat) : Int) * b := by
      intro d; push_cast; ring
    rwa [e1, e1] at h
  obtain ⟨q, j, hq, rfl⟩ := hm
  by_cases hj : lastBit a b ≤ j
  · have : q * 2 ^ j = q * 2 ^ (j - lastBit a b) * 2 ^ lastBit a b := by
      rw [Nat.mul_assoc, ← pow_add, Nat.sub_add_cancel hj]
    rw [this]
    exact key _
  · have h1 := le_quotient (a := a) (b := b) (by omega)
    have h2 := key (2 ^ 52)
    have h3 : q * 2 ^ j ≤ 2 ^ 52 * 2 ^ lastBit a b := by
      calc q * 2 ^ j ≤ 2 ^ 53 * 2 ^ (lastBit a b - 1) :=
            Nat.mul_le_mul hq (Nat.pow_le_pow_right (by norm_num) (by omega))
        _ = 2 ^ 52 * 2 ^ lastBit a b := by rw [← pow_add, ← pow_add]; congr 1; omega
    have h4 : q * 2 ^ j * b ≤ 2 ^ 52 * 2 ^ lastBit a b * b := Nat.mul_le_mul_right _ h3
    have h5 : 2 ^ 52 * 2 ^ lastBit a b * b = b * 2 ^ (52 + lastBit a b) := by rw [pow_add]; ring
    have e1 : ∀ x : Nat, (x : Int) * b = ((x * b : Nat) : Int) := by intro x; push_cast; rfl
    rw [e1] at h2 ⊢
    rw [e1] at h2 ⊢
    omega

/-- A float64 stays as it is. -/
theorem nearest_exact {b m : Nat} (hb : 0 < b) (hm : F64.Mag m) : F64.nearest (m * b) b = m := by
  have h := nearest_closest (a := m * b) hb hm
  have e : (m : Int) * b - ((m * b : Nat) : Int) = 0 := by push_cast; ring
  rw [e] at h
  have h2 : (F64.nearest (m * b) b : Int) * b = (m : Int) * b := by
    have : ((m * b : Nat) : Int) = (m : Int) * b := by push_cast; rfl
    rw [this] at h
    simp only [Int.natAbs_zero] at h
    omega
  have hb' : (b : Int) ≠ 0 := by omega
  exact_mod_cast mul_right_cancel₀ hb' h2

theorem nearest_zero (b : Nat) : F64.nearest 0 b = 0 := by
  rw [nearest_eq]
  unfold divRound
  simp

/-- Rounding to six decimals undoes rounding to float64. -/
theorem divRound_of_close {m n b u : Nat} (hb : 0 < u) (h : 2 * ((m : Int) * b - (n * u : Nat)).natAbs < u) : divRound (m * b) u = n := by
  have hc := divRound_closest (a := m * b) hb n
  set d := divRound (m * b) u
  have e1 : ((n : Int) * u - ((m * b : Nat) : Int)).natAbs = ((m : Int) * b - (n * u : Nat)).natAbs := by
    rw [← Int.natAbs_neg]; congr 1; push_cast; ring
  rw [e1] at hc
  have h1 : ((d : Int) * u - n * u).natAbs < u := by
    have : (d : Int) * u - n * u = (d * u - ((m * b : Nat) : Int)) + (((m : Int) * b - (n * u : Nat))) := by push_cast; ring
    rw [this]
    omega
  have h2 : (d : Int) * u - n * u = (d - n) * u := by ring
  rw [h2, Int.natAbs_mul] at h1
  have h3 : ((d : Int) - n).natAbs = 0 := by
    by_contra h0
    have : 1 * u ≤ ((d : Int) - n).natAbs * u := Nat.mul_le_mul_right _ (by omega)
    simp only [Int.natAbs_natCast] at h1
    omega
  omega

theorem divRound_exact {a b : Nat} (h : a % b = 0) : divRound a b = a / b := by
  unfold divRound
  dsimp only
  rw [h]
  by_cases hb : b = 0
  · subst hb; simp
  · rw [if_neg (by omega)]

theorem unit_pos : 0 < F64.unit := by unfold F64.unit; positivity

/-- What `%f` rounds to is the decimal number the float64 was made from. -/
theorem sixDec_round {neg neg' : Bool} {n m : Nat} (h : decF64 neg n 6 = some (.fin neg' m))
    (hs : n < 2 ^ 33 * 10 ^ 6 ∨ m * 10 ^ 6 = n * F64.unit) : divRound (m * 10 ^ 6) F64.unit = n := by
  have hu := unit_pos
  rcases hs with hs | hs
  · have hm : m = F64.nearest (n * F64.unit) (10 ^ 6) := by
      unfold decF64 at h
      dsimp only at h
      split at h
      · cases h; rfl
      · cases h
    apply divRound_of_close hu
    have hc := divRound_close (a := n * F64.unit) (b := 10 ^ 6 * 2 ^ lastBit (n * F64.unit) (10 ^ 6)) (by positivity)
    rw [hm, nearest_eq]
    have he : 10 ^ 6 * 2 ^ lastBit (n * F64.unit) (10 ^ 6) < F64.unit := by
      by_cases h0 : lastBit (n * F64.unit) (10 ^ 6) = 0
      · rw [h0]; unfold F64.unit
        exact Nat.lt_of_lt_of_le (by norm_num : 10 ^ 6 * 2 ^ 0 < 2 ^ 20) (Nat.pow_le_pow_right (by norm_num) (by norm_num))
      · have h1 := le_quotient h0
        set e := lastBit (n * F64.unit) (10 ^ 6)
        have h2 : n * F64.unit < 2 ^ 33 * 10 ^ 6 * F64.unit := Nat.mul_lt_mul_of_pos_right hs hu
        have h3 : 10 ^ 6 * 2 ^ (52 + e) < 10 ^ 6 * 2 ^ (33 + 1074) := by
          refine Nat.lt_of_le_of_lt h1 (Nat.lt_of_lt_of_eq h2 ?_)
          unfold F64.unit
          rw [pow_add 2 33 1074]
          generalize 2 ^ 1074 = x
          ring
        have h4 : 2 ^ (52 + e) < 2 ^ (33 + 1074) := Nat.lt_of_mul_lt_mul_left h3
        have h5 : 52 + e < 33 + 1074 := (Nat.pow_lt_pow_iff_right (by norm_num)).1 h4
        have h6 : 2 ^ e ≤ 2 ^ 1054 := Nat.pow_le_pow_right (by norm_num) (by omega)
        have h7 : F64.unit = 2 ^ 20 * 2 ^ 1054 := by unfold F64.unit; rw [← pow_add]
        rw [h7]
        calc 10 ^ 6 * 2 ^ e ≤ 10 ^ 6 * 2 ^ 1054 := Nat.mul_le_mul_left _ h6
          _ < 2 ^ 20 * 2 ^ 1054 := Nat.mul_lt_mul_of_pos_right (by norm_num) (by positivity)
    set e := lastBit (n * F64.unit) (10 ^ 6)
    set d := divRound (n * F64.unit) (10 ^ 6 * 2 ^ e)
    have e1 : (d : Int) * ((10 ^ 6 * 2 ^ e : Nat) : Int) = ((d * 2 ^ e : Nat) : Int) * ((10 ^ 6 : Nat) : Int) := by push_cast; ring
    rw [e1] at hc
    omega
  · rw [hs]
    rw [divRound_exact (Nat.mul_mod_left _ _), Nat.mul_div_cancel _ hu]

/-- A float64 with at most six decimals is in the fragment, however large it is. -/
theorem SixDec.of_exact {neg : Bool} {m n : Nat} (hm : F64.Mag m) (hlt : m < 2 ^ 1024 * F64.unit) (h : m * 10 ^ 6 = n * F64.unit)
    (hz : ¬ (neg = true ∧ m = 0)) : SixDec (.fin neg m) := by
  refine ⟨neg, n, ?_, Or.inr ⟨neg, m, rfl, h⟩⟩
  unfold decF64
  rw [← h, nearest_exact (by positivity) hm]
  dsimp only
  rw [if_pos hlt]
  cases neg
  · rfl
  · have : m ≠ 0 := fun h0 => hz ⟨rfl, h0⟩
    simp [this]

theorem unit_eq : F64.unit = 2 ^ 1074 := by unfold F64.unit; exact Eq.refl _

theorem nearest_ne_zero {n : Nat} (h : n ≠ 0) : F64.nearest (n * F64.unit) (10 ^ 6) ≠ 0 := by
  intro h0
  have hm : F64.Mag 1 := ⟨1, 0, by norm_num, by norm_num⟩
  have hc := nearest_closest (a := n * F64.unit) (b := 10 ^ 6) (by norm_num) hm
  rw [h0] at hc
  have h1 : 2 * 10 ^ 6 < F64.unit := by
    unfold F64.unit
    exact Nat.lt_of_lt_of_le (by norm_num : 2 * 10 ^ 6 < 2 ^ 30) (Nat.pow_le_pow_right (by norm_num) (by norm_num))
  have h2 : 1 * F64.unit ≤ n * F64.unit := Nat.mul_le_mul_right _ (by omega)
  push_cast at hc
  omega

theorem nearest_moderate {n : Nat} (h : n < 2 ^ 33 * 10 ^ 6) : F64.nearest (n * F64.unit) (10 ^ 6) < 2 ^ 1024 * F64.unit := by
  have hm : F64.Mag (2 ^ 33 * F64.unit) := ⟨2 ^ 33, 1074, by norm_num, by rw [unit_eq]⟩
  have hc := nearest_closest (a := n * F64.unit) (b := 10 ^ 6) (by norm_num) hm
  have h1 : n * F64.unit < 2 ^ 33 * 10 ^ 6 * F64.unit := Nat.mul_lt_mul_of_pos_right h unit_pos
  have h2 : 2 ^ 34 * F64.unit ≤ 2 ^ 1024 * F64.unit := Nat.mul_le_mul_right _ (Nat.pow_le_pow_right (by norm_num) (by norm_num))
  refine Nat.lt_of_lt_of_le ?_ h2
  generalize F64.unit = u at *
  generalize F64.nearest (n * u) (10 ^ 6) = x at *
  push_cast at hc
  have e : ((n * u : Nat) : Int) = (n : Int) * u := by push_cast; rfl
  rw [← e] at hc
  have : 0 < u := by
    rcases Nat.eq_zero_or_pos u with h0 | h0
    · rw [h0] at h1; omega
    · exact h0
  generalize n * u = w at *
  omega

/-- Above 2^33, the magnitudes are multiples of 2^-19. -/
theorem mag_large {m : Nat} (hm : F64.Mag m) (h : 2 ^ 33 * F64.unit < m) : 2 ^ 1055 ∣ m := by
  obtain ⟨q, j, hq, rfl⟩ := hm
  by_cases hj : 1055 ≤ j
  · exact Dvd.dvd.mul_left (pow_dvd_pow 2 hj) q
  · exfalso
    have h1 : q * 2 ^ j ≤ 2 ^ 53 * 2 ^ 1054 := Nat.mul_le_mul hq (Nat.pow_le_pow_right (by norm_num) (by omega))
    have h2 : (2 ^ 33 * F64.unit : Nat) = 2 ^ 53 * 2 ^ 1054 := by rw [unit_eq, ← pow_add, ← pow_add]
    omega

/-- From 2^33 on, six decimals identify every float64. -/
theorem reread_large {m : Nat} (hm : F64.Mag m) (h : 2 ^ 33 * F64.unit ≤ m) :
    F64.nearest (divRound (m * 10 ^ 6) F64.unit * F64.unit) (10 ^ 6) = m := by
  rcases Nat.eq_or_lt_of_le h with h | h
  · have e : m * 10 ^ 6 = 2 ^ 33 * 10 ^ 6 * F64.unit := by rw [← h]; ring
    rw [divRound_exact (by rw [e]; exact Nat.mul_mod_left _ _), e, Nat.mul_div_cancel _ unit_pos, ← e]
    exact nearest_exact (by norm_num) hm
  · have hd := divRound_close (a := m * 10 ^ 6) unit_pos
    have hc := nearest_closest (a := divRound (m * 10 ^ 6) F64.unit * F64.unit) (b := 10 ^ 6) (by norm_num) hm
    have hx := nearest_mag (a := divRound (m * 10 ^ 6) F64.unit * F64.unit) (b := 10 ^ 6) (by norm_num)
    generalize F64.nearest (divRound (m * 10 ^ 6) F64.unit * F64.unit) (10 ^ 6) = x at *
    have eD : ((divRound (m * 10 ^ 6) F64.unit : Int) * (F64.unit : Int)) = ((divRound (m * 10 ^ 6) F64.unit * F64.unit : Nat) : Int) := by push_cast; rfl
    rw [eD] at hd
    generalize divRound (m * 10 ^ 6) F64.unit * F64.unit = w at *
    have hm' := mag_large hm h
    have hu : F64.unit = 2 ^ 19 * 2 ^ 1055 := by rw [unit_eq, ← pow_add]
    rw [hu] at h hd
    have hx' : 2 ^ 33 * F64.unit < x → 2 ^ 1055 ∣ x := mag_large hx
    rw [hu] at hx'
    have hs : 0 < 2 ^ 1055 := by positivity
    generalize 2 ^ 1055 = s at *
    obtain ⟨k, rfl⟩ := hm'
    have hk : 2 ^ 52 < k := by
      have : s * 2 ^ 52 < s * k := by
        have e : s * 2 ^ 52 = 2 ^ 33 * (2 ^ 19 * s) := by ring
        omega
      exact Nat.lt_of_mul_lt_mul_left this
    have hk2 : s * (2 ^ 52 + 1) ≤ s * k := Nat.mul_le_mul_left _ hk
    have ek : s * (2 ^ 52 + 1) = 2 ^ 33 * (2 ^ 19 * s) + s := by ring
    generalize hK : s * k = K at *
    push_cast at hc hd
    have hlt : ((x : Int) - K).natAbs < s := by omega
    obtain ⟨l, rfl⟩ := hx' (by omega)
    subst hK
    have e2 : ((s * l : Nat) : Int) - ((s * k : Nat) : Int) = s * (l - k) := by push_cast; ring
    rw [e2, Int.natAbs_mul] at hlt
    have h3 : ((l : Int) - k).natAbs = 0 := by
      by_contra h0
      have : s * 1 ≤ s * ((l : Int) - k).natAbs := Nat.mul_le_mul_left _ (by omega)
      simp only [Int.natAbs_natCast] at hlt
      omega
    have : l = k := by omega
    rw [this]

theorem reread_lt {m : Nat} (hm : F64.Mag m) (hlt : m < 2 ^ 1024 * F64.unit) :
    F64.nearest (divRound (m * 10 ^ 6) F64.unit * F64.unit) (10 ^ 6) < 2 ^ 1024 * F64.unit := by
  by_cases h : 2 ^ 33 * F64.unit ≤ m
  · rw [reread_large hm h]; exact hlt
  · by_cases h2 : divRound (m * 10 ^ 6) F64.unit < 2 ^ 33 * 10 ^ 6
    · exact nearest_moderate h2
    · have hd := divRound_closest (a := m * 10 ^ 6) unit_pos (2 ^ 33 * 10 ^ 6)
      have he : divRound (m * 10 ^ 6) F64.unit = 2 ^ 33 * 10 ^ 6 := by
        by_contra hne
        have h3 : (2 ^ 33 * 10 ^ 6 + 1) * F64.unit ≤ divRound (m * 10 ^ 6) F64.unit * F64.unit := Nat.mul_le_mul_right _ (by omega)
        have eD : ((divRound (m * 10 ^ 6) F64.unit : Int) * (F64.unit : Int)) = ((divRound (m * 10 ^ 6) F64.unit * F64.unit : Nat) : Int) := by push_cast; rfl
        rw [eD] at hd
        have := unit_pos
        generalize divRound (m * 10 ^ 6) F64.unit * F64.unit = w at *
        generalize F64.unit = u at *
        push_cast at hd
        omega
      rw [he]
      have hm33 : F64.Mag (2 ^ 33 * F64.unit) := ⟨2 ^ 33, 1074, by norm_num, by rw [unit_eq]⟩
      have e : 2 ^ 33 * 10 ^ 6 * F64.unit = 2 ^ 33 * F64.unit * 10 ^ 6 := by ring
      rw [e, nearest_exact (by norm_num) hm33]
      exact Nat.mul_lt_mul_of_pos_right (Nat.pow_lt_pow_right (by norm_num) (by norm_num)) unit_pos

end Jsval
