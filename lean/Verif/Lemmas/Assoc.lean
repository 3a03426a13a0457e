import Verif.Model.Constraint
import Mathlib.Data.List.Nodup
/-!
# Association lists as Go maps, name sets
-/
namespace Jsval

variable {β : Type _}

theorem alookup_ainsert_self (k : GoStr) (v : β) : ∀ l, alookup k (ainsert k v l) = some v
  | [] => by simp [ainsert, alookup]
  | (k', v') :: l => by
    by_cases h : k' = k
    · simp [ainsert, alookup, h]
    · simp [ainsert, alookup, h, alookup_ainsert_self k v l]

theorem alookup_ainsert_ne {k k' : GoStr} (h : k ≠ k') (v : β) : ∀ l, alookup k (ainsert k' v l) = alookup k l
  | [] => by simp [ainsert, alookup, Ne.symm h]
  | (k'', v') :: l => by
    by_cases h1 : k'' = k'
    · subst h1; simp [ainsert, alookup, Ne.symm h]
    · by_cases h2 : k'' = k
      · subst h2; simp [ainsert, alookup, h1]
      · simp [ainsert, alookup, h1, h2, alookup_ainsert_ne h v l]

theorem alookup_ainsert (k k' : GoStr) (v : β) (l) :
    alookup k (ainsert k' v l) = if k = k' then some v else alookup k l := by
  by_cases h : k = k'
  · subst h; simp [alookup_ainsert_self]
  · simp [h, alookup_ainsert_ne h]

theorem ainsert_same {k : GoStr} {v : β} : ∀ {l : List (GoStr × β)}, alookup k l = some v → ainsert k v l = l
  | [], h => by simp [alookup] at h
  | (k', v') :: l, h => by
    by_cases h1 : k' = k
    · simp [alookup, h1] at h; simp [ainsert, h1, h]
    · simp [alookup, h1] at h; simp [ainsert, h1, ainsert_same h]

theorem alookup_mem {k : GoStr} {v : β} : ∀ {l : List (GoStr × β)}, alookup k l = some v → (k, v) ∈ l
  | [], h => by simp [alookup] at h
  | (k', v') :: l, h => by
    by_cases h1 : k' = k
    · simp [alookup, h1] at h; simp [h1, h]
    · simp [alookup, h1] at h; simp [alookup_mem h]

theorem alookup_eq_none {k : GoStr} : ∀ {l : List (GoStr × β)}, alookup k l = none ↔ k ∉ l.map (·.1)
  | [] => by simp [alookup]
  | (k', v') :: l => by
    by_cases h1 : k' = k
    · simp [alookup, h1]
    · have := alookup_eq_none (k := k) (l := l)
      simp [alookup, h1, this, Ne.symm h1]

theorem alookup_isSome {k : GoStr} {l : List (GoStr × β)} : (∃ v, alookup k l = some v) ↔ k ∈ l.map (·.1) := by
  rw [← not_iff_not, ← alookup_eq_none]
  cases alookup k l <;> simp

theorem alookup_of_mem {k : GoStr} {v : β} : ∀ {l : List (GoStr × β)}, (l.map (·.1)).Nodup → (k, v) ∈ l →
    alookup k l = some v
  | [], _, h => by simp at h
  | (k', v') :: l, hn, h => by
    simp only [List.map_cons, List.nodup_cons] at hn
    rcases List.mem_cons.1 h with h | h
    · cases h; simp [alookup]
    · have : k' ≠ k := by
        rintro rfl
        exact hn.1 (List.mem_map.2 ⟨_, h, rfl⟩)
      simp [alookup, this, alookup_of_mem hn.2 h]

theorem alookup_iff_mem {k : GoStr} {v : β} {l : List (GoStr × β)} (hn : (l.map (·.1)).Nodup) :
    alookup k l = some v ↔ (k, v) ∈ l := ⟨alookup_mem, alookup_of_mem hn⟩

theorem keys_ainsert (k : GoStr) (v : β) : ∀ l : List (GoStr × β),
    (ainsert k v l).map (·.1) = if k ∈ l.map (·.1) then l.map (·.1) else l.map (·.1) ++ [k]
  | [] => by simp [ainsert]
  | (k', v') :: l => by
    by_cases h : k' = k
    · simp [ainsert, h]
    · have := keys_ainsert k v l
      simp only [ainsert, h, if_false, List.map_cons, this, List.mem_cons, Ne.symm h, false_or]
      split <;> simp

theorem mem_keys_ainsert {k k' : GoStr} {v : β} {l : List (GoStr × β)} :
    k' ∈ (ainsert k v l).map (·.1) ↔ k' = k ∨ k' ∈ l.map (·.1) := by
  rw [keys_ainsert]
  split
  · constructor
    · exact Or.inr
    · rintro (rfl | h) <;> assumption
  · rw [List.mem_append, List.mem_singleton]; exact or_comm

theorem nodup_ainsert {k : GoStr} {v : β} {l : List (GoStr × β)} (h : (l.map (·.1)).Nodup) :
    ((ainsert k v l).map (·.1)).Nodup := by
  rw [keys_ainsert]
  split
  · exact h
  · rename_i hk
    rw [List.nodup_append]
    refine ⟨h, by simp, ?_⟩
    intro a ha b hb
    simp at hb; subst hb
    rintro rfl; exact hk ha

theorem alookup_map {γ : Type _} (f : β → γ) (k : GoStr) : ∀ l : List (GoStr × β),
    alookup k (l.map (fun p => (p.1, f p.2))) = (alookup k l).map f
  | [] => rfl
  | (k', v) :: l => by
    by_cases h : k' = k
    · simp [alookup, h]
    · simp [alookup, h, alookup_map f k l]

theorem adelete_absent {k : GoStr} {l : List (GoStr × β)} (h : alookup k l = none) : adelete k l = l := by
  rw [alookup_eq_none] at h
  unfold adelete
  rw [List.filter_eq_self]
  intro p hp
  have : p.1 ≠ k := by
    intro h'; exact h (List.mem_map.2 ⟨p, hp, h'⟩)
  simp [this]

theorem alookup_adelete_ne {k k' : GoStr} (h : k ≠ k') : ∀ l : List (GoStr × β),
    alookup k (adelete k' l) = alookup k l
  | [] => rfl
  | (k'', v) :: l => by
    have ih := alookup_adelete_ne h l
    by_cases h1 : k'' = k'
    · subst h1
      have : adelete k'' ((k'', v) :: l) = adelete k'' l := by simp [adelete]
      simp [this, ih, alookup, Ne.symm h]
    · have : adelete k' ((k'', v) :: l) = (k'', v) :: adelete k' l := by simp [adelete, h1]
      simp [this, alookup, ih]

theorem mem_addName {k p : GoStr} {l : List GoStr} : k ∈ addName p l ↔ k = p ∨ k ∈ l := by
  unfold addName
  split
  · constructor
    · exact Or.inr
    · rintro (rfl | h) <;> assumption
  · simp [or_comm]

theorem nodup_addName {p : GoStr} {l : List GoStr} (h : l.Nodup) : (addName p l).Nodup := by
  unfold addName
  split
  · exact h
  · rename_i hp
    rw [List.nodup_append]
    refine ⟨h, by simp, ?_⟩
    intro a ha b hb
    simp at hb; subst hb
    rintro rfl; exact hp ha

theorem foldl_addName_mem (fields : List GoStr) : ∀ (acc : List GoStr) (k : GoStr),
    k ∈ fields.foldl (fun acc k => addName k acc) acc ↔ k ∈ acc ∨ k ∈ fields := by
  induction fields with
  | nil => simp
  | cons f fs ih =>
    intro acc k
    simp only [List.foldl_cons, ih, mem_addName, List.mem_cons]
    constructor
    · rintro ((h | h) | h) <;> simp [h]
    · rintro (h | h | h) <;> simp [h]

theorem foldl_addName_nodup (fields : List GoStr) : ∀ (acc : List GoStr), acc.Nodup →
    (fields.foldl (fun acc k => addName k acc) acc).Nodup := by
  induction fields with
  | nil => simp
  | cons f fs ih => intro acc h; exact ih _ (nodup_addName h)

end Jsval
