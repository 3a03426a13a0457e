import Verif.Lemmas.Basic
/-!
# Helper lemmas about array validation
-/
namespace Jsval

/-- Item loop: accepted iff every element is, each under its own schedule. -/
theorem runItems_ok (c : Sem) (σ : Sched) : ∀ (i : Nat) (xs : List GoVal),
    (runItems c σ i xs).1 = .ok ↔ ∀ (j : Nat) (x : GoVal), xs[j]? = some x → (c.val (σ.sub (i + j)) x).1 = .ok
  | i, [] => by simp [runItems]
  | i, x :: xs => by
    have ih := runItems_ok c σ (i + 1) xs
    rcases hc : c.val (σ.sub i) x with ⟨r, x'⟩
    have hcons : (∀ (j : Nat) (y : GoVal), (x :: xs)[j]? = some y → (c.val (σ.sub (i + j)) y).1 = .ok) ↔
        r = .ok ∧ ∀ (j : Nat) (y : GoVal), xs[j]? = some y → (c.val (σ.sub (i + 1 + j)) y).1 = .ok := by
      constructor
      · intro h
        refine ⟨by simpa [hc] using h 0 x (by simp), fun j y hj => ?_⟩
        have := h (j + 1) y (by simpa using hj)
        rwa [show i + (j + 1) = i + 1 + j by omega] at this
      · rintro ⟨h1, h2⟩ j y hj
        cases j with
        | zero => simp at hj; subst hj; simp [hc, h1]
        | succ j =>
          rw [show i + (j + 1) = i + 1 + j by omega]
          exact h2 j y (by simpa using hj)
    rw [hcons, ← ih]
    cases r <;> simp [runItems, hc]

/-- Outcome of a list of calls made in order until one fails. -/
theorem runItems_normal (c : Sem) (σ : Sched) : ∀ (i : Nat) (xs : List GoVal),
    (∀ (j : Nat) (x : GoVal), xs[j]? = some x → (c.val (σ.sub (i + j)) x).1.Normal) →
    (runItems c σ i xs).1.Normal
  | i, [], _ => Res.Normal_ok
  | i, x :: xs, h => by
    have h0 := h 0 x (by simp)
    rcases hc : c.val (σ.sub i) x with ⟨r, x'⟩
    simp only [Nat.add_zero, hc] at h0
    cases r with
    | ok =>
      simp only [runItems, hc]
      apply runItems_normal c σ (i + 1) xs
      intro j y hj
      have := h (j + 1) y (by simpa using hj)
      rwa [show i + (j + 1) = i + 1 + j by omega] at this
    | err e => simp only [runItems, hc]; exact Res.Normal_err e
    | abort a => exact absurd rfl (h0 a)

/-- Positional loop: accepted iff every existing position is. -/
theorem runPos_ok (σ : Sched) : ∀ (i : Nat) (cs : List Sem) (xs : List GoVal),
    (runPos σ i cs xs).1 = .ok ↔
      ∀ (j : Nat) (c : Sem) (x : GoVal), cs[j]? = some c → xs[j]? = some x → (c.val (σ.sub (i + j)) x).1 = .ok
  | i, [], xs => by simp [runPos]
  | i, c :: cs, [] => by simp [runPos]
  | i, c :: cs, x :: xs => by
    have ih := runPos_ok σ (i + 1) cs xs
    rcases hc : c.val (σ.sub i) x with ⟨r, x'⟩
    have hcons : (∀ (j : Nat) (d : Sem) (y : GoVal), (c :: cs)[j]? = some d → (x :: xs)[j]? = some y →
          (d.val (σ.sub (i + j)) y).1 = .ok) ↔
        r = .ok ∧ ∀ (j : Nat) (d : Sem) (y : GoVal), cs[j]? = some d → xs[j]? = some y →
          (d.val (σ.sub (i + 1 + j)) y).1 = .ok := by
      constructor
      · intro h
        refine ⟨by simpa [hc] using h 0 c x (by simp) (by simp), fun j d y hd hj => ?_⟩
        have := h (j + 1) d y (by simpa using hd) (by simpa using hj)
        rwa [show i + (j + 1) = i + 1 + j by omega] at this
      · rintro ⟨h1, h2⟩ j d y hd hj
        cases j with
        | zero => simp at hj hd; subst hj; subst hd; simp [hc, h1]
        | succ j =>
          rw [show i + (j + 1) = i + 1 + j by omega]
          exact h2 j d y (by simpa using hd) (by simpa using hj)
    rw [hcons, ← ih]
    cases r <;> simp [runPos, hc]

/-- What the positional loop leaves behind when it succeeds. -/
theorem runPos_elems (σ : Sched) : ∀ (i : Nat) (cs : List Sem) (xs : List GoVal),
    (runPos σ i cs xs).1 = .ok → (runPos σ i cs xs).2.length = xs.length ∧
      ∀ (j : Nat) (x : GoVal), xs[j]? = some x → (runPos σ i cs xs).2[j]? =
        some (match cs[j]? with | none => x | some c => (c.val (σ.sub (i + j)) x).2)
  | i, [], xs, _ => by simp [runPos]
  | i, c :: cs, [], _ => by simp [runPos]
  | i, c :: cs, x :: xs, h => by
    rcases hc : c.val (σ.sub i) x with ⟨r, x'⟩
    cases r with
    | ok =>
      simp only [runPos, hc] at h ⊢
      obtain ⟨h1, h2⟩ := runPos_elems σ (i + 1) cs xs h
      refine ⟨by simp [h1], ?_⟩
      intro j y hj
      cases j with
      | zero => simp at hj; subst hj; simp [hc]
      | succ j =>
        simp only [List.getElem?_cons_succ] at hj ⊢
        rw [h2 j y hj]
        simp only [show i + (j + 1) = i + 1 + j by omega]
    | err e => simp [runPos, hc] at h
    | abort a => simp [runPos, hc] at h

/-- The uniqueness loop finds exactly the repeated renderings. -/
theorem uniqueLoop_iff (ext : Ext) : ∀ (xs : List GoVal) (seen : List GoStr),
    uniqueLoop ext seen xs = true ↔ (∀ x ∈ xs, ext.sprint x ∉ seen) ∧ (xs.map ext.sprint).Nodup
  | [], seen => by simp [uniqueLoop]
  | x :: xs, seen => by
    have ih := uniqueLoop_iff ext xs (ext.sprint x :: seen)
    by_cases h : ext.sprint x ∈ seen
    · simp [uniqueLoop, h]
    · simp only [uniqueLoop, h, if_false, ih, List.mem_cons, not_or, forall_eq_or_imp, not_false_eq_true, true_and,
        List.map_cons, List.nodup_cons, List.mem_map, not_exists, not_and]
      constructor
      · rintro ⟨h1, h2⟩
        exact ⟨fun a ha => (h1 a ha).2, fun a ha => (h1 a ha).1, h2⟩
      · rintro ⟨h1, h2, h3⟩
        exact ⟨fun a ha => ⟨h2 a ha, h1 a ha⟩, h3⟩

theorem not_nodup_map_iff (f : GoVal → GoStr) (xs : List GoVal) :
    ¬ (xs.map f).Nodup ↔ ∃ (i j : Nat) (x y : GoVal), i < j ∧ xs[i]? = some x ∧ xs[j]? = some y ∧ f x = f y := by
  rw [List.Nodup, List.pairwise_iff_getElem]
  constructor
  · intro h
    simp only [not_forall] at h
    obtain ⟨i, j, hi, hj, hlt, heq⟩ := h
    simp only [List.getElem_map, ne_eq, not_not] at heq
    simp only [List.length_map] at hi hj
    exact ⟨i, j, xs[i], xs[j], hlt, by simp [hi], by simp [hj], heq⟩
  · rintro ⟨i, j, x, y, hlt, hx, hy, heq⟩ h
    obtain ⟨hi, rfl⟩ := List.getElem?_eq_some_iff.1 hx
    obtain ⟨hj, rfl⟩ := List.getElem?_eq_some_iff.1 hy
    exact h i j (by simpa) (by simpa) hlt (by simpa using heq)

end Jsval
