import Verif.Spec.Scalar
import Mathlib.Tactic.Ring
import Mathlib.Tactic.Linarith
/-!
# The float64 operations agree with the numeric reading
-/
namespace Jsval
namespace F64

theorem num_fin (n : Bool) (m : ℕ) : (fin n m).num = some (WithBot.some (WithTop.some (signed n m))) := rfl

theorem lt_iff (a b : F64) : lt a b = true ↔ Lt a b := by
  unfold Lt
  rcases a with _ | _ | ⟨n, m⟩ <;> rcases b with _ | _ | ⟨n', m'⟩
  all_goals try (simp [lt, num]; done)
  · rename_i x y; cases x <;> cases y <;> simp [lt, num]
  · rename_i x; cases x <;> simp [lt, num]
  · rename_i y; cases y <;> simp [lt, num]
    exact WithBot.coe_lt_coe.2 (WithTop.coe_lt_top _)
  · simp only [lt, num_fin, decide_eq_true_eq]
    constructor
    · intro h; exact ⟨_, _, rfl, rfl, by exact_mod_cast h⟩
    · rintro ⟨x, y, h1, h2, h⟩
      cases h1; cases h2; exact_mod_cast h

theorem eq_iff (a b : F64) : eq a b = true ↔ Eq a b := by
  unfold Eq
  rcases a with _ | _ | ⟨n, m⟩ <;> rcases b with _ | _ | ⟨n', m'⟩
  all_goals try (simp [eq, num]; done)
  · rename_i x y; cases x <;> cases y <;> simp [eq, num]
  · rename_i x; cases x <;> simp [eq, num]
  · rename_i y; cases y <;> simp [eq, num]
  · simp only [eq, num_fin, decide_eq_true_eq]
    constructor
    · intro h; exact ⟨_, rfl, by rw [h]⟩
    · rintro ⟨x, h1, h2⟩
      cases h1
      have := Option.some.inj h2
      exact_mod_cast this.symm

theorem Eq.symm {a b : F64} (h : Eq a b) : Eq b a := by
  obtain ⟨x, h1, h2⟩ := h; exact ⟨x, h2, h1⟩

theorem le_iff (a b : F64) : le a b = true ↔ Lt a b ∨ Eq a b := by
  unfold le; rw [Bool.or_eq_true, lt_iff, eq_iff]

theorem isZero_iff (m : F64) : eq m zero = true ↔ m.IsZero := by
  unfold IsZero zero
  rcases m with _ | n | ⟨n, m⟩
  · simp [eq]
  · cases n <;> simp [eq]
  · cases n <;> simp [eq, signed]

theorem mod_iff (f m : F64) (hm : ¬ m.IsZero) : eq (mod f m) zero = true ↔ f.MultOf m := by
  rw [isZero_iff]
  rcases f with _ | n | ⟨n, a⟩
  · simp [mod, MultOf, IsZero]
  · rcases m with _ | n' | ⟨n', b⟩ <;> simp [mod, MultOf, IsZero]
  · rcases m with _ | n' | ⟨n', b⟩
    · simp [mod, MultOf, IsZero]
    · simp [mod, MultOf, IsZero]
    · have hb : b ≠ 0 := fun h => hm ⟨n', by rw [h]⟩
      simp only [mod, hb, if_false, MultOf, IsZero, fin.injEq]
      constructor
      · rintro ⟨n'', -, h⟩
        obtain ⟨k, hk⟩ := Nat.dvd_of_mod_eq_zero h
        subst hk
        cases n <;> cases n' <;> simp
        · exact ⟨k, by push_cast; ring⟩
        · exact ⟨-k, by push_cast; ring⟩
        · exact ⟨-k, by push_cast; ring⟩
        · exact ⟨k, by push_cast; ring⟩
      · rintro ⟨k, hk⟩
        refine ⟨n, rfl, ?_⟩
        apply Nat.mod_eq_zero_of_dvd
        have : (b : ℤ) ∣ (a : ℤ) := by
          cases n <;> cases n' <;> simp at hk
          · exact ⟨k, by rw [hk]; ring⟩
          · exact ⟨-k, by rw [hk]; ring⟩
          · exact ⟨-k, by linarith⟩
          · exact ⟨k, by linarith⟩
        exact_mod_cast this

theorem unit_pos : 0 < unit := by unfold unit; exact Nat.pow_pos (by decide)

theorem floor_eq_iff (f : F64) : eq (floor f) f = true ↔ f.Whole := by
  rcases f with _ | n | ⟨n, m⟩
  · simp [floor, eq, Whole]
  · cases n <;> simp [floor, eq, Whole]
  · have hu : (0 : ℤ) < (unit : ℤ) := by exact_mod_cast unit_pos
    simp only [floor, eq, decide_eq_true_eq, Whole]
    constructor
    · intro h
      cases n
      · simp only [signed, Bool.false_eq_true, if_false] at h
        exact ⟨_, by exact_mod_cast h.symm⟩
      · simp only [signed, if_true] at h
        exact ⟨_, by have := neg_injective h; exact_mod_cast this.symm⟩
    · rintro ⟨k, rfl⟩
      have : Int.fdiv (signed n (k * unit)) unit = signed n k := by
        cases n
        · simp only [signed, Bool.false_eq_true, if_false]
          push_cast
          exact Int.mul_fdiv_cancel _ hu.ne'
        · simp only [signed, if_true]
          push_cast
          rw [← neg_mul]
          exact Int.mul_fdiv_cancel _ hu.ne'
      rw [this]
      cases n <;> simp [signed]

/-! ## Rounding -/

theorem round53_small {n : ℕ} (h : n ≤ 2 ^ 53) : round53 n = n := by
  rcases Nat.lt_or_ge n (2 ^ 53) with h' | h'
  · have : n.log2 < 53 := by
      by_cases h0 : n = 0
      · subst h0; simp
      · exact (Nat.log2_lt h0).2 h'
    unfold round53
    have : n.log2 + 1 - 53 = 0 := by omega
    simp [this]
  · have : n = 2 ^ 53 := Nat.le_antisymm h h'
    subst this
    have : Nat.log2 (2 ^ 53) = 53 := by rw [Nat.log2_two_pow]
    unfold round53
    simp only [this]
    norm_num

theorem round53_large {n : ℕ} (h : 2 ^ 53 ≤ n) : 2 ^ 53 ≤ round53 n := by
  have hn0 : n ≠ 0 := by rintro rfl; norm_num at h
  have hlog : 53 ≤ n.log2 := (Nat.le_log2 hn0).2 h
  unfold round53
  simp only
  have hk : n.log2 + 1 - 53 ≠ 0 := by omega
  rw [if_neg hk]
  set k := n.log2 + 1 - 53 with hkdef
  have hlow : 2 ^ (n.log2) ≤ n := Nat.log2_self_le hn0
  have hq : 2 ^ 52 ≤ n / 2 ^ k := by
    rw [Nat.le_div_iff_mul_le (Nat.pow_pos (by norm_num)), ← Nat.pow_add]
    have : 52 + k = n.log2 := by omega
    rwa [this]
  have hq' : 2 ^ 52 ≤ (if n % 2 ^ k > 2 ^ (k - 1) ∨ n % 2 ^ k = 2 ^ (k - 1) ∧ n / 2 ^ k % 2 = 1
      then n / 2 ^ k + 1 else n / 2 ^ k) := by
    split <;> omega
  calc 2 ^ 53 = 2 ^ 52 * 2 ^ 1 := by norm_num
    _ ≤ _ * 2 ^ k := Nat.mul_le_mul hq' (Nat.pow_le_pow_right (by norm_num) (by omega))

theorem ofInt_exact {n : ℤ} (h : n.natAbs ≤ 2 ^ 53) : ofInt n = exactInt n := by
  unfold ofInt exactInt
  rw [round53_small h]

theorem signed_natAbs (n : ℤ) (u : ℕ) : signed (decide (n < 0)) (n.natAbs * u) = n * u := by
  unfold signed
  by_cases h : n < 0
  · simp only [h, decide_true, if_true]
    push_cast
    rw [abs_of_neg h]; ring
  · simp only [h, decide_false, Bool.false_eq_true, if_false]
    push_cast
    rw [abs_of_nonneg (by omega)]

theorem exactInt_num (n : ℤ) : (exactInt n).num = some (WithBot.some (WithTop.some (n * unit))) := by
  unfold exactInt
  rw [num_fin, signed_natAbs]

theorem whole_ofInt (n : ℤ) : (ofInt n).Whole := by
  unfold ofInt Whole; exact ⟨_, rfl⟩

theorem whole_exactInt (n : ℤ) : (exactInt n).Whole := by
  unfold exactInt Whole; exact ⟨_, rfl⟩

end F64
end Jsval
