import Verif.Lemmas.FaultsTree
import Verif.Spec.Reported
/-!
# The order of the checks on scalars
-/
namespace Jsval

variable {ext : Ext} {env : Env}

theorem goEq_other {x v : GoVal} (hc : Comparable x v) (hs : ¬ SameGo x v) : goEq x v = .ok false := by
  cases hg : goEq x v with
  | error a => cases x <;> cases v <;> first | cases hg; done | exact hc.elim
  | ok b =>
    cases b with
    | false => rfl
    | true =>
      exfalso
      apply hs
      cases x <;> cases v <;> simp only [goEq, Except.ok.injEq, Bool.and_eq_true, beq_iff_eq, reduceCtorEq, Bool.false_eq_true] at hg
      · exact .nil
      · subst hg; exact .bool _
      · obtain ⟨rfl, rfl⟩ := hg; exact .int _ _
      · obtain ⟨rfl, rfl⟩ := hg; exact .uint _ _
      · obtain ⟨rfl, h⟩ := hg; exact .float _ _ _ ((F64.eq_iff _ _).1 h)
      · subst hg; exact .str _

theorem comparable_of {x v : GoVal} {b : Bool} (h : goEq x v = .ok b) : Comparable x v := by
  cases x <;> cases v <;> first | trivial | cases h

theorem enumCheck_err_iff {v : GoVal} {e : Err} : ∀ {l : List GoVal},
    enumCheck l v = .err e ↔ e = .notInEnum ∧ ∀ x ∈ l, Comparable x v ∧ ¬ SameGo x v
  | [] => by simp [enumCheck, eq_comm]
  | y :: l => by
    constructor
    · intro h
      obtain ⟨h1, h2⟩ := enumCheck_err h
      refine ⟨h1, fun x hx => ⟨?_, h2 x hx⟩⟩
      unfold enumCheck at h
      rcases hg : goEq y v with a | b
      · rw [hg] at h; cases h
      · rw [hg] at h
        rcases List.mem_cons.1 hx with rfl | hx
        · exact comparable_of hg
        · cases b with
          | true => cases h
          | false => exact ((enumCheck_err_iff).1 h).2 x hx |>.1
    · rintro ⟨rfl, h⟩
      unfold enumCheck
      rw [goEq_other (h y (by simp)).1 (h y (by simp)).2]
      exact enumCheck_err_iff.2 ⟨rfl, fun x hx => h x (by simp [hx])⟩

theorem comparable_str {x : GoVal} {s : GoStr} : Comparable x (.str s) := by cases x <;> trivial
theorem comparable_float {x : GoVal} {k : FloatKind} {f : F64} : Comparable x (.float k f) := by cases x <;> trivial

theorem enumCheck_normal {l : List GoVal} {v : GoVal} (h : ∀ x ∈ l, Comparable x v) (a : Abort) : enumCheck l v ≠ .abort a := by
  induction l with
  | nil => simp [enumCheck]
  | cons y l ih =>
    intro h'
    unfold enumCheck at h'
    rcases hg : goEq y v with b | b
    · by_cases hs : SameGo y v
      · cases hs <;> simp [goEq] at hg
      · rw [goEq_other (h y (by simp)) hs] at hg; cases hg
    · rw [hg] at h'
      cases b with
      | true => cases h'
      | false => exact ih (fun x hx => h x (by simp [hx])) h'

/-! ## Strings -/

/-- Each fault is found by the check of its rank. -/
theorem StrFault.check {c : StrC} {s : GoStr} {e : Err} (h : StrFault ext c s e) :
    (e.strRank = 0 ∧ maxLenCheck c s = .err e) ∨ (e.strRank = 1 ∧ minLenCheck c s = .err e) ∨
    (e.strRank = 2 ∧ formatCheck ext c.format s = .err e) ∨ (e.strRank = 3 ∧ regexpCheck ext c s = .err e) ∨
    (e.strRank = 4 ∧ enumOptCheck c.enums (.str s) = .err e) := by
  cases h with
  | tooLong h1 h2 => left; exact ⟨rfl, by simp [maxLenCheck]; omega⟩
  | tooShort h1 h2 => right; left; exact ⟨rfl, by simp [minLenCheck]; omega⟩
  | datetime h1 h2 => right; right; left; exact ⟨rfl, by simp [formatCheck, h1, h2]⟩
  | email h1 h2 => right; right; left; refine ⟨rfl, ?_⟩; rw [h1]; unfold formatCheck; simp [h2]
  | hostname h1 h2 =>
    right; right; left; refine ⟨rfl, ?_⟩; rw [h1]; unfold formatCheck
    rw [if_neg (by decide), if_neg (by decide), if_pos rfl, if_neg (by rwa [isDomainName_iff])]
  | ipv4 h1 h2 =>
    right; right; left; refine ⟨rfl, ?_⟩; rw [h1]; unfold formatCheck
    rw [if_neg (by decide), if_neg (by decide), if_neg (by decide), if_pos rfl]
    split
    · rfl
    · rename_i hc
      rcases h2 with ⟨x, hx, h3, h4⟩ | h2
      · exfalso
        simp only [ipv4Chars, Bool.not_eq_true', Bool.not_eq_false, List.all_eq_true] at hc
        have := hc x hx
        simp only [Bool.or_eq_true, beq_iff_eq, Bool.and_eq_true, decide_eq_true_eq] at this
        exact this.elim h3 h4
      · rw [h2]; rfl
  | ipv6 h1 h2 =>
    right; right; left; refine ⟨rfl, ?_⟩; rw [h1]; unfold formatCheck
    rw [if_neg (by decide), if_neg (by decide), if_neg (by decide), if_neg (by decide), if_pos rfl]
    split
    · rfl
    · rename_i hc
      rcases h2 with ⟨x, hx, h3, h4⟩ | h2
      · exfalso
        simp only [ipv6Chars, Bool.not_eq_true', Bool.not_eq_false, List.all_eq_true] at hc
        have := hc x hx
        simp only [Bool.or_eq_true, beq_iff_eq, Bool.and_eq_true, decide_eq_true_eq] at this
        exact this.elim h3 h4
      · rw [h2]; rfl
  | uri h1 h2 =>
    right; right; left; refine ⟨rfl, ?_⟩; rw [h1]; unfold formatCheck
    rw [if_neg (by decide), if_neg (by decide), if_neg (by decide), if_neg (by decide), if_neg (by decide), if_pos rfl, h2]; rfl
  | regexp h1 h2 => right; right; right; left; exact ⟨rfl, by simp [regexpCheck, h1, h2]⟩
  | @enums l h1 h2 =>
    right; right; right; right
    refine ⟨rfl, ?_⟩
    simp only [enumOptCheck, h1]
    refine enumCheck_err_iff.2 ⟨rfl, fun x hx => ⟨comparable_str, fun hs => ?_⟩⟩
    cases hs
    exact h2 hx

theorem format_rank {c : StrC} {s : GoStr} {e : Err} (h : formatCheck ext c.format s = .err e) : e.strRank = 2 := by
  have := formatCheck_err h
  cases this with
  | tooLong | tooShort | regexp | enums =>
    revert h
    unfold formatCheck
    repeat' split
    all_goals intro h; cases h
  | _ => rfl

theorem str_ranks {c : StrC} {s : GoStr} {e : Err} (h : strCheckS ext c s = .err e) :
    (e.strRank = 0 ∧ maxLenCheck c s = .err e) ∨ (e.strRank = 1 ∧ maxLenCheck c s = .ok ∧ minLenCheck c s = .err e) ∨
    (e.strRank = 2 ∧ maxLenCheck c s = .ok ∧ minLenCheck c s = .ok ∧ formatCheck ext c.format s = .err e) ∨
    (e.strRank = 3 ∧ maxLenCheck c s = .ok ∧ minLenCheck c s = .ok ∧ formatCheck ext c.format s = .ok ∧ regexpCheck ext c s = .err e) ∨
    (e.strRank = 4 ∧ maxLenCheck c s = .ok ∧ minLenCheck c s = .ok ∧ formatCheck ext c.format s = .ok ∧ regexpCheck ext c s = .ok ∧
      enumOptCheck c.enums (.str s) = .err e) := by
  unfold strCheckS at h
  rcases Res.andThen_err h with h | ⟨h1, h⟩
  · left
    refine ⟨?_, h⟩
    unfold maxLenCheck at h
    split at h <;> cases h
    rfl
  rcases Res.andThen_err h with h | ⟨h2, h⟩
  · right; left
    refine ⟨?_, h1, h⟩
    unfold minLenCheck at h
    split at h <;> cases h
    rfl
  rcases Res.andThen_err h with h | ⟨h3, h⟩
  · right; right; left
    exact ⟨format_rank h, h1, h2, h⟩
  rcases Res.andThen_err h with h | ⟨h4, h⟩
  · right; right; right; left
    refine ⟨?_, h1, h2, h3, h⟩
    unfold regexpCheck at h
    split at h
    · cases h
    · split at h <;> cases h
      rfl
  · right; right; right; right
    refine ⟨?_, h1, h2, h3, h4, h⟩
    unfold enumOptCheck at h
    split at h
    · cases h
    · obtain ⟨rfl, -⟩ := enumCheck_err h
      rfl

theorem strFirst_of {c : StrC} {s : GoStr} {e : Err} (h : strCheckS ext c s = .err e) : StrFirst ext c s e := by
  refine ⟨strCheckS_err h, fun e' he => ?_⟩
  rcases str_ranks h with ⟨h0, h1⟩ | ⟨h0, h1, h2⟩ | ⟨h0, h1, h2, h3⟩ | ⟨h0, h1, h2, h3, h4⟩ | ⟨h0, h1, h2, h3, h4, h5⟩ <;>
    rcases he.check with ⟨k0, k1⟩ | ⟨k0, k1⟩ | ⟨k0, k1⟩ | ⟨k0, k1⟩ | ⟨k0, k1⟩ <;>
    first | omega | (exfalso; simp_all; done)

theorem str_iff {c : StrC} {s : GoStr} {e : Err} : strCheckS ext c s = .err e ↔ StrFirst ext c s e := by
  refine ⟨strFirst_of, fun h => ?_⟩
  cases hr : strCheckS ext c s with
  | ok =>
    exfalso
    exact h.1.broken ((strCheckS_ok ext c s).1 hr)
  | abort a =>
    exfalso
    have := strCheckS_normal ext c s
    rw [hr] at this
    exact this a rfl
  | err e' =>
    have h' := strFirst_of hr
    have heq := Nat.le_antisymm (h.2 _ h'.1) (h'.2 _ h.1)
    rcases h.1.check with ⟨k0, k1⟩ | ⟨k0, k1⟩ | ⟨k0, k1⟩ | ⟨k0, k1⟩ | ⟨k0, k1⟩ <;>
    rcases h'.1.check with ⟨h0, h1⟩ | ⟨h0, h1⟩ | ⟨h0, h1⟩ | ⟨h0, h1⟩ | ⟨h0, h1⟩ <;>
    first | omega | (rw [← h1, ← k1])

/-! ## Numbers -/

theorem NumFault.check {c : NumC} {f : F64} {e : Err} (h : NumFault c f e) :
    (e.numRank = 0 ∧ minCheck c f = .err e) ∨ (e.numRank = 1 ∧ maxCheck c f = .err e) ∨
    (e.numRank = 2 ∧ multCheck c f = .err e) ∨ (e.numRank = 3 ∧ enumOptCheck c.enums (.float .f64 f) = .err e) := by
  cases h with
  | belowMin h1 h2 h3 => left; exact ⟨rfl, by simp [minCheck, h1, h2, (F64.lt_iff _ _).2 h3]⟩
  | belowMinExcl h1 h2 h3 => left; exact ⟨rfl, by simp [minCheck, h1, h2, (F64.le_iff _ _).2 h3]⟩
  | aboveMax h1 h2 h3 => right; left; exact ⟨rfl, by simp [maxCheck, h1, h2, (F64.lt_iff _ _).2 h3]⟩
  | aboveMaxExcl h1 h2 h3 =>
    right; left; exact ⟨rfl, by simp [maxCheck, h1, h2, (F64.le_iff _ _).2 (h3.imp id F64.Eq.symm)]⟩
  | notMultiple h1 h2 h3 =>
    right; right; left
    refine ⟨rfl, ?_⟩
    rename_i m
    have hz : F64.eq m F64.zero = false := by
      cases hz : F64.eq m F64.zero
      · rfl
      · exact absurd ((F64.isZero_iff m).1 hz) h2
    have hm : F64.eq (F64.mod f m) F64.zero = false := by
      cases hm : F64.eq (F64.mod f m) F64.zero
      · rfl
      · exact absurd ((F64.mod_iff f m h2).1 hm) h3
    simp [multCheck, h1, hz, hm]
  | @enums l h1 h2 =>
    right; right; right
    refine ⟨rfl, ?_⟩
    simp only [enumOptCheck, h1]
    refine enumCheck_err_iff.2 ⟨rfl, fun x hx => ⟨comparable_float, fun hs => ?_⟩⟩
    cases hs with
    | float _ a _ h => exact h2 ⟨a, hx, h⟩

theorem num_ranks {c : NumC} {f : F64} {e : Err} (h : numCheckF c f = .err e) :
    (e.numRank = 0 ∧ minCheck c f = .err e) ∨ (e.numRank = 1 ∧ minCheck c f = .ok ∧ maxCheck c f = .err e) ∨
    (e.numRank = 2 ∧ minCheck c f = .ok ∧ maxCheck c f = .ok ∧ multCheck c f = .err e) ∨
    (e.numRank = 3 ∧ minCheck c f = .ok ∧ maxCheck c f = .ok ∧ multCheck c f = .ok ∧ enumOptCheck c.enums (.float .f64 f) = .err e) := by
  unfold numCheckF at h
  rcases Res.andThen_err h with h | ⟨h1, h⟩
  · left
    refine ⟨?_, h⟩
    revert h
    unfold minCheck
    repeat' split
    all_goals intro h; cases h
    all_goals rfl
  rcases Res.andThen_err h with h | ⟨h2, h⟩
  · right; left
    refine ⟨?_, h1, h⟩
    revert h
    unfold maxCheck
    repeat' split
    all_goals intro h; cases h
    all_goals rfl
  rcases Res.andThen_err h with h | ⟨h3, h⟩
  · right; right; left
    refine ⟨?_, h1, h2, h⟩
    revert h
    unfold multCheck
    repeat' split
    all_goals intro h; cases h
    all_goals rfl
  · right; right; right
    refine ⟨?_, h1, h2, h3, h⟩
    unfold enumOptCheck at h
    split at h
    · cases h
    · obtain ⟨rfl, -⟩ := enumCheck_err h
      rfl

theorem numFirst_of {c : NumC} {f : F64} {e : Err} (h : numCheckF c f = .err e) : NumFirst c f e := by
  refine ⟨numCheckF_err h, fun e' he => ?_⟩
  rcases num_ranks h with ⟨h0, h1⟩ | ⟨h0, h1, h2⟩ | ⟨h0, h1, h2, h3⟩ | ⟨h0, h1, h2, h3, h4⟩ <;>
    rcases he.check with ⟨k0, k1⟩ | ⟨k0, k1⟩ | ⟨k0, k1⟩ | ⟨k0, k1⟩ <;>
    first | omega | (exfalso; simp_all; done)

theorem num_iff {c : NumC} {f : F64} {e : Err} : numCheckF c f = .err e ↔ NumFirst c f e := by
  refine ⟨numFirst_of, fun h => ?_⟩
  cases hr : numCheckF c f with
  | ok =>
    exfalso
    exact h.1.broken ((numCheckF_ok c f).1 hr)
  | abort a =>
    exfalso
    have := numCheckF_normal c f
    rw [hr] at this
    exact this a rfl
  | err e' =>
    have h' := numFirst_of hr
    have heq := Nat.le_antisymm (h.2 _ h'.1) (h'.2 _ h.1)
    rcases h.1.check with ⟨k0, k1⟩ | ⟨k0, k1⟩ | ⟨k0, k1⟩ | ⟨k0, k1⟩ <;>
    rcases h'.1.check with ⟨h0, h1⟩ | ⟨h0, h1⟩ | ⟨h0, h1⟩ | ⟨h0, h1⟩ <;>
    first | omega | (rw [← h1, ← k1])

end Jsval
