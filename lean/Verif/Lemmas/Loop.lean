import Verif.Model.Validate
/-!
# The generic loop
-/
namespace Jsval
variable {α S : Type}

/-- Invariant rule. -/
theorem forLoop_inv {step : Nat → α → S → Res × S} (I : S → Prop) :
    ∀ (i : Nat) (l : List α) (s : S), (∀ i, ∀ a ∈ l, ∀ s, I s → I (step i a s).2) → I s →
      I (forLoop step i l s).2
  | i, [], s, _, hs => hs
  | i, a :: l, s, h, hs => by
    have h1 := h i a (by simp) s hs
    rcases hst : step i a s with ⟨r, s'⟩
    rw [hst] at h1
    cases r with
    | ok => simp only [forLoop, hst]; exact forLoop_inv I (i + 1) l s' (fun i a ha => h i a (by simp [ha])) h1
    | err e => simp only [forLoop, hst]; exact h1
    | abort e => simp only [forLoop, hst]; exact h1

/-- Normal termination rule, with an invariant. -/
theorem forLoop_normal {step : Nat → α → S → Res × S} (I : S → Prop) (P : Res → Prop) (hok : P .ok) :
    ∀ (i : Nat) (l : List α) (s : S), (∀ i, ∀ a ∈ l, ∀ s, I s → I (step i a s).2 ∧ P (step i a s).1) → I s →
      P (forLoop step i l s).1
  | i, [], s, _, _ => hok
  | i, a :: l, s, h, hs => by
    obtain ⟨h1, h2⟩ := h i a (by simp) s hs
    rcases hst : step i a s with ⟨r, s'⟩
    rw [hst] at h1 h2
    cases r with
    | ok => simp only [forLoop, hst]; exact forLoop_normal I P hok (i + 1) l s' (fun i a ha => h i a (by simp [ha])) h1
    | err e => simp only [forLoop, hst]; exact h2
    | abort e => simp only [forLoop, hst]; exact h2

theorem forLoop_append {step : Nat → α → S → Res × S} : ∀ (l₁ l₂ : List α) (i : Nat) (s : S),
    forLoop step i (l₁ ++ l₂) s =
      match forLoop step i l₁ s with
      | (.ok, s') => forLoop step (i + l₁.length) l₂ s'
      | r => r
  | [], l₂, i, s => by simp [forLoop]
  | a :: l₁, l₂, i, s => by
    rcases hst : step i a s with ⟨r, s'⟩
    cases r with
    | ok =>
      simp only [List.cons_append, forLoop, hst, forLoop_append l₁ l₂ (i + 1) s', List.length_cons]
      rw [show i + 1 + l₁.length = i + (l₁.length + 1) by omega]
    | err e => simp [forLoop, hst]
    | abort e => simp [forLoop, hst]

/-- If the loop succeeds, each element's step succeeded. -/
theorem forLoop_ok_mem {step : Nat → α → S → Res × S} {l : List α} {i : Nat} {s : S}
    (h : (forLoop step i l s).1 = .ok) {a : α} (ha : a ∈ l) :
    ∃ l₁ l₂ s₁ s₂, l = l₁ ++ a :: l₂ ∧ forLoop step i l₁ s = (.ok, s₁) ∧ step (i + l₁.length) a s₁ = (.ok, s₂) ∧
      (forLoop step (i + l₁.length + 1) l₂ s₂) = forLoop step i l s := by
  obtain ⟨l₁, l₂, rfl⟩ := List.append_of_mem ha
  rw [forLoop_append] at h
  rcases h1 : forLoop step i l₁ s with ⟨r, s₁⟩
  rw [h1] at h
  cases r with
  | ok =>
    simp only [forLoop] at h
    rcases h2 : step (i + l₁.length) a s₁ with ⟨r2, s₂⟩
    rw [h2] at h
    cases r2 with
    | ok =>
      refine ⟨l₁, l₂, s₁, s₂, rfl, h1, h2, ?_⟩
      rw [forLoop_append, h1]
      simp [forLoop, h2]
    | err e => simp at h
    | abort e => simp at h
  | err e => simp at h
  | abort e => simp at h

theorem seqSt_ok {r : Res × ObjSt} {k : ObjSt → Res × ObjSt} :
    (seqSt r k).1 = .ok ↔ r.1 = .ok ∧ (k r.2).1 = .ok := by
  rcases r with ⟨r, s⟩
  cases r <;> simp [seqSt]

end Jsval
