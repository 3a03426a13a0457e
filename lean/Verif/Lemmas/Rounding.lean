import Verif.Spec.Rounding
import Verif.Lemmas.Decimal
import Verif.Lemmas.Float
/-!
# Lemmas on rounding integers to float64
-/
namespace Jsval

theorem pow52_le_mul {e q j : ℕ} (hq : q ≤ 2 ^ 53) (hj : j < e) : q * 2 ^ j ≤ 2 ^ 52 * 2 ^ e := by
  calc q * 2 ^ j ≤ 2 ^ 53 * 2 ^ j := Nat.mul_le_mul_right _ hq
    _ = 2 ^ 52 * 2 ^ (j + 1) := by rw [pow_succ]; ring
    _ ≤ _ := Nat.mul_le_mul_left _ (Nat.pow_le_pow_right (by norm_num) (by omega))

/-- Another magnitude as close as the nearest one is the odd neighbour of an even one. -/
theorem nearest_tie {x y : ℕ} (hm : F64.Mag y) (hne : y ≠ F64.nearest x 1)
    (h : ((F64.nearest x 1 : ℤ) - x).natAbs = ((y : ℤ) - x).natAbs) :
    ∃ c d e, e ≠ 0 ∧ y = c * 2 ^ e ∧ F64.nearest x 1 = d * 2 ^ e ∧ c % 2 = 1 ∧ d % 2 = 0 ∧ 2 ^ 52 ≤ c ∧ 2 ^ 52 ≤ d ∧ d ≤ 2 ^ 53 := by
  have hcl : ∀ m, F64.Mag m → ((F64.nearest x 1 : ℤ) - x).natAbs ≤ ((m : ℤ) - x).natAbs := by
    intro m hm
    have := nearest_closest (a := x) (b := 1) one_pos hm
    simpa using this
  have he : lastBit x 1 ≠ 0 := by
    intro he
    have hx : F64.Mag x := ⟨x, 0, by
      have := quotient_lt (a := x) (b := 1) one_pos
      rw [he] at this
      omega, by simp⟩
    have h0 := hcl x hx
    rw [h] at h0
    simp at h0
    have h1 := hcl x hx
    simp at h1
    omega
  have h1 : 2 ^ 52 * 2 ^ lastBit x 1 ≤ x := by
    have := le_quotient (a := x) (b := 1) he
    rwa [one_mul, pow_add] at this
  have h2 : x < 2 ^ 53 * 2 ^ lastBit x 1 := by
    have := quotient_lt (a := x) (b := 1) one_pos
    rwa [one_mul, pow_add] at this
  have hz := nearest_eq x 1
  rw [one_mul] at hz
  have hc := divRound_close (a := x) (b := 2 ^ lastBit x 1) (by positivity)
  have hd : ∀ r, x % 2 ^ lastBit x 1 = r → 2 * r = 2 ^ lastBit x 1 → divRound x (2 ^ lastBit x 1) % 2 = 0 := by
    intro r hr hr2
    unfold divRound
    dsimp only
    rw [hr]
    split <;> omega
  set e := lastBit x 1
  set d := divRound x (2 ^ e)
  have hylow : 2 ^ 52 * 2 ^ e ≤ y := by
    by_contra hlt
    have := hcl (2 ^ 52 * 2 ^ e) ⟨2 ^ 52, e, by norm_num, rfl⟩
    rw [h] at this
    omega
  obtain ⟨c, hy⟩ : ∃ c, y = c * 2 ^ e := by
    obtain ⟨q, j, hq, hy⟩ := hm
    by_cases hj : j < e
    · exact ⟨2 ^ 52, le_antisymm (hy ▸ pow52_le_mul hq hj) hylow⟩
    · refine ⟨q * 2 ^ (j - e), ?_⟩
      rw [hy, mul_assoc, ← pow_add]
      congr 2
      omega
  have hB : 0 < 2 ^ e := by positivity
  have hmod := Nat.div_add_mod x (2 ^ e)
  have hrlt := Nat.mod_lt x hB
  rw [hz] at h hne
  rw [hy] at h hne hylow
  set B := 2 ^ e
  have hcd : c ≠ d := by rintro rfl; exact hne rfl
  have hc52 : 2 ^ 52 ≤ c := Nat.le_of_mul_le_mul_right hylow hB
  push_cast at h hc
  rw [h] at hc
  have hBe : B % 2 = 0 := by
    show 2 ^ e % 2 = 0
    obtain ⟨k, hk⟩ := Nat.exists_eq_succ_of_ne_zero he
    rw [hk, pow_succ]
    omega
  -- both are half a step away
  have hhalf : (c = d + 1 ∨ d = c + 1) ∧ 2 * ((c : ℤ) * B - x).natAbs = B := by
    have hc' := hc
    rw [← h] at hc'
    rcases Nat.lt_or_gt_of_ne hcd with hlt | hlt
    · have e1 : (c + 1) * B ≤ d * B := Nat.mul_le_mul_right _ hlt
      rw [add_mul, one_mul] at e1
      have e1i : (c : ℤ) * B + B ≤ d * B := by exact_mod_cast e1
      have e2 : (d : ℤ) * B = c * B + B := by omega
      have e3 : d * B = c * B + B := by exact_mod_cast e2
      refine ⟨Or.inr (Nat.eq_of_mul_eq_mul_right hB (by rw [e3, add_mul, one_mul])), ?_⟩
      omega
    · have e1 : (d + 1) * B ≤ c * B := Nat.mul_le_mul_right _ hlt
      rw [add_mul, one_mul] at e1
      have e1i : (d : ℤ) * B + B ≤ c * B := by exact_mod_cast e1
      have e2 : (c : ℤ) * B = d * B + B := by omega
      have e3 : c * B = d * B + B := by exact_mod_cast e2
      refine ⟨Or.inl (Nat.eq_of_mul_eq_mul_right hB (by rw [e3, add_mul, one_mul])), ?_⟩
      omega
  obtain ⟨hnb, hh⟩ := hhalf
  -- so the remainder is half a step
  have hr : 2 * (x % B) = B := by
    have hxl : (x : ℤ) = B * (x / B : ℕ) + (x % B : ℕ) := by exact_mod_cast hmod.symm
    set Q := x / B
    set r := x % B
    have hcQ : c = Q ∨ c = Q + 1 := by
      by_contra hcon
      rcases Nat.lt_or_ge c Q with hlt | hge
      · have e1 : (c + 1) * B ≤ Q * B := Nat.mul_le_mul_right _ hlt
        rw [add_mul, one_mul] at e1
        zify at e1
        rw [mul_comm (Q : ℤ)] at e1
        omega
      · have e1 : (Q + 2) * B ≤ c * B := Nat.mul_le_mul_right _ (by omega)
        rw [add_mul] at e1
        zify at e1
        rw [mul_comm (Q : ℤ)] at e1
        omega
    rcases hcQ with rfl | rfl
    · rw [hxl, mul_comm (B : ℤ)] at hh
      omega
    · push_cast at hh
      rw [hxl, add_mul, one_mul, mul_comm (B : ℤ)] at hh
      omega
  have hdev := hd _ rfl hr
  refine ⟨c, d, e, he, hy, hz, by omega, hdev, hc52, ?_, ?_⟩
  · rcases hnb with h' | h'
    · by_contra hlt
      have e1 : 2 ^ 52 * B ≤ x := h1
      have : c = 2 ^ 52 := by omega
      rw [this] at hh
      have e3 : (2 : ℤ) ^ 52 * B ≤ x := by exact_mod_cast e1
      have : d = 2 ^ 52 - 1 := by omega
      omega
    · omega
  · by_contra hgt
    have e1 : (2 ^ 53 + 1) * B ≤ d * B := Nat.mul_le_mul_right _ (by omega)
    rw [add_mul, one_mul] at e1
    zify at e1 h2
    rw [← h] at hh
    omega

/-- Rounding is unique, and to the nearest. -/
theorem rounds_nat (x : ℕ) (f : ℤ) : F64.Rounds x f ↔ f = F64.nearest x 1 := by
  have hcl : ∀ y : ℤ, F64.Value y → ((F64.nearest x 1 : ℤ) - x).natAbs ≤ (y - x).natAbs := by
    intro y hy
    have h1 := nearest_closest (a := x) (b := 1) (m := y.natAbs) one_pos hy
    simp only [Nat.cast_one, mul_one] at h1
    omega
  have hnn : ∀ y : ℤ, F64.Value y → ((F64.nearest x 1 : ℤ) - x).natAbs = (y - x).natAbs → 0 ≤ y := by
    intro y hy h
    by_contra hlt
    have := hcl 0 ⟨0, 0, by norm_num, rfl⟩
    omega
  have hv : F64.Value (F64.nearest x 1 : ℕ) := nearest_mag one_pos
  constructor
  · rintro ⟨h1, h2⟩
    by_contra hne
    have h3 := h2 _ hv
    have h4 := hcl f h1
    have h5 : ((F64.nearest x 1 : ℤ) - x).natAbs = (f - x).natAbs := by omega
    obtain ⟨y, rfl⟩ := Int.eq_ofNat_of_zero_le (hnn f h1 h5)
    obtain ⟨c, d, e, he, hy, hz, hc, hd, hc52, -, -⟩ := nearest_tie (x := x) (y := y) h1 (fun e => hne (by rw [e])) h5
    obtain ⟨q, j, hq1, hq2, hq3, hq4⟩ := h3.2 h5.symm (fun e => hne e.symm)
    have hq4 : y = q * 2 ^ j := hq4
    have hB : 0 < 2 ^ e := by positivity
    by_cases hj : j < e
    · have e1 := pow52_le_mul hq2 hj
      rw [← hq4, hy] at e1
      have := Nat.le_of_mul_le_mul_right e1 hB
      omega
    · have : c = q * 2 ^ (j - e) := by
        refine Nat.eq_of_mul_eq_mul_right hB ?_
        rw [← hy, hq4, mul_assoc, ← pow_add]
        congr 2
        omega
      rw [this, Nat.mul_mod, hq3, zero_mul] at hc
      omega
  · rintro rfl
    refine ⟨hv, fun y hy => ⟨hcl y hy, fun h hne => ?_⟩⟩
    obtain ⟨y, rfl⟩ := Int.eq_ofNat_of_zero_le (hnn y hy h)
    obtain ⟨c, d, e, he, hy', hz, hc, hd, hc52, hd1, hd2⟩ := nearest_tie (x := x) (y := y) hy (fun e => hne (by rw [e])) h
    exact ⟨d, e, hd1, hd2, hd, hz⟩

theorem F64.Rounds.neg {x f : ℤ} (h : F64.Rounds x f) : F64.Rounds (-x) (-f) := by
  have hv : ∀ y, F64.Value y → F64.Value (-y) := by
    intro y hy
    unfold F64.Value at *
    rwa [Int.natAbs_neg]
  refine ⟨hv _ h.1, fun y hy => ?_⟩
  obtain ⟨h1, h2⟩ := h.2 (-y) (hv y hy)
  have e1 : (-f - -x).natAbs = (f - x).natAbs := by omega
  have e2 : (y - -x).natAbs = (-y - x).natAbs := by omega
  rw [e1, e2]
  refine ⟨h1, fun h3 h4 => ?_⟩
  have := h2 h3 (fun e => h4 (by omega))
  unfold F64.EvenValue at *
  rwa [Int.natAbs_neg]

theorem F64.Rounds.unique {x f g : ℤ} (h : F64.Rounds x f) (h' : F64.Rounds x g) : f = g := by
  rcases le_total 0 x with hx | hx
  · obtain ⟨x, rfl⟩ := Int.eq_ofNat_of_zero_le hx
    rw [(rounds_nat x f).1 h, (rounds_nat x g).1 h']
  · obtain ⟨y, hy⟩ := Int.eq_ofNat_of_zero_le (show 0 ≤ -x by omega)
    have h1 := h.neg
    have h2 := h'.neg
    rw [hy] at h1 h2
    have := (rounds_nat y _).1 h1
    have := (rounds_nat y _).1 h2
    omega


/-- What an integer is converted to is the nearest float64. -/
theorem round53_nearest (n : ℕ) : F64.round53 n * F64.unit = F64.nearest (n * F64.unit) 1 := by
  rcases Nat.lt_or_ge n (2 ^ 53) with h | h
  · rw [F64.round53_small h.le]
    have := nearest_exact (b := 1) (m := n * F64.unit) one_pos ⟨n, 1074, h.le, by rw [unit_eq]⟩
    rw [mul_one] at this
    exact this.symm
  · have hn0 : n ≠ 0 := by rintro rfl; norm_num at h
    have hlog : 53 ≤ n.log2 := (Nat.le_log2 hn0).2 h
    have hl : (n * F64.unit).log2 = n.log2 + 1074 := by
      rw [unit_eq]
      have h0 : n * 2 ^ 1074 ≠ 0 := by positivity
      refine Nat.le_antisymm ?_ ?_
      · refine Nat.lt_succ_iff.1 ((Nat.log2_lt h0).2 ?_)
        calc n * 2 ^ 1074 < 2 ^ (n.log2 + 1) * 2 ^ 1074 := Nat.mul_lt_mul_of_pos_right Nat.lt_log2_self (by positivity)
          _ = _ := by rw [← pow_add]
      · refine (Nat.le_log2 h0).2 ?_
        rw [pow_add]
        exact Nat.mul_le_mul_right _ (Nat.log2_self_le hn0)
    have he : lastBit (n * F64.unit) 1 = n.log2 + 1 - 53 + 1074 := by
      unfold lastBit
      rw [Nat.div_one, hl]
      omega
    rw [nearest_eq, he, one_mul]
    unfold F64.round53 divRound
    dsimp only
    rw [if_neg (by omega)]
    set k := n.log2 + 1 - 53 with hk
    have hk1 : k ≠ 0 := by omega
    have e1 : n * F64.unit / 2 ^ (k + 1074) = n / 2 ^ k := by
      rw [unit_eq, pow_add]
      exact Nat.mul_div_mul_right _ _ (by positivity)
    have e2 : n * F64.unit % 2 ^ (k + 1074) = n % 2 ^ k * F64.unit := by
      rw [unit_eq, pow_add]
      exact Nat.mul_mod_mul_right _ _ _
    have e3 : 2 ^ (k + 1074) = 2 ^ (k - 1) * 2 * F64.unit := by
      rw [unit_eq, ← pow_succ, ← pow_add]
      congr 1
      omega
    have hu := unit_pos
    rw [e1, e2]
    have e4 : 2 * (n % 2 ^ k * F64.unit) > 2 ^ (k + 1074) ↔ n % 2 ^ k > 2 ^ (k - 1) := by
      rw [e3, ← mul_assoc]
      constructor
      · intro h; have := Nat.lt_of_mul_lt_mul_right h; omega
      · intro h; exact Nat.mul_lt_mul_of_pos_right (by omega) hu
    have e5 : 2 * (n % 2 ^ k * F64.unit) = 2 ^ (k + 1074) ↔ n % 2 ^ k = 2 ^ (k - 1) := by
      rw [e3, ← mul_assoc]
      constructor
      · intro h; have := Nat.eq_of_mul_eq_mul_right hu h; omega
      · intro h; rw [h]; ring
    simp only [e4, e5]
    rw [e3]
    have e6 : (2 : ℕ) ^ k = 2 ^ (k - 1) * 2 := by rw [← pow_succ, Nat.sub_add_cancel (Nat.pos_of_ne_zero hk1)]
    rw [← e6, mul_assoc]

/-- `float64(n)` is `n` rounded. -/
theorem ofInt_rounds (n : ℤ) : ∃ z, (F64.ofInt n).num = some (WithBot.some (WithTop.some z)) ∧ F64.Rounds (n * F64.unit) z := by
  have hr := (rounds_nat (n.natAbs * F64.unit) _).2 rfl
  rw [← round53_nearest] at hr
  push_cast at hr
  by_cases h : n < 0
  · refine ⟨-(F64.round53 n.natAbs * F64.unit : ℤ), ?_, ?_⟩
    · unfold F64.ofInt
      rw [F64.num_fin]
      simp only [h, decide_true, F64.signed, if_true]
      push_cast
      rfl
    · have := hr.neg
      rw [abs_of_neg h] at this
      simpa using this
  · refine ⟨(F64.round53 n.natAbs * F64.unit : ℤ), ?_, ?_⟩
    · unfold F64.ofInt
      rw [F64.num_fin]
      simp only [h, decide_false, F64.signed, Bool.false_eq_true, if_false]
      push_cast
      rfl
    · rwa [abs_of_nonneg (by omega)] at hr

/-- A float64 is below what an integer is rounded to if it is below the integer, or what it is rounded to. -/
theorem F64.Rounds.ge_iff {x z a : ℤ} (h : F64.Rounds x z) (ha : F64.Value a) : a ≤ z ↔ a ≤ x ∨ F64.Rounds x a := by
  have h1 := (h.2 a ha).1
  constructor
  · intro h2
    by_cases h3 : a ≤ x
    · exact .inl h3
    · have : a = z := by omega
      exact .inr (this ▸ h)
  · rintro (h2 | h2)
    · omega
    · exact (h2.unique h).le

theorem F64.Rounds.le_iff {x z a : ℤ} (h : F64.Rounds x z) (ha : F64.Value a) : z ≤ a ↔ x ≤ a ∨ F64.Rounds x a := by
  have h1 := (h.2 a ha).1
  constructor
  · intro h2
    by_cases h3 : x ≤ a
    · exact .inl h3
    · have : a = z := by omega
      exact .inr (this ▸ h)
  · rintro (h2 | h2)
    · omega
    · exact (h.unique h2).le

end Jsval
