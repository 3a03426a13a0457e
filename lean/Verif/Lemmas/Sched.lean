import Verif.Model.Base
import Mathlib.Data.List.Perm.Basic
/-!
# Schedules cover exactly the permutations
-/
namespace Jsval

theorem insertAt_perm {α : Type _} (i : Nat) (a : α) (l : List α) : (insertAt i a l).Perm (a :: l) := by
  unfold insertAt
  exact List.perm_middle.trans (by rw [List.take_append_drop])

/-- Every schedule visits every element exactly once. -/
theorem shuffle_perm {α : Type _} : ∀ (l : List α) (k : Nat), (shuffle k l).Perm l
  | [], _ => List.Perm.refl _
  | a :: l, k => (insertAt_perm _ _ _).trans ((shuffle_perm l _).cons a)

/-- Every visiting order is chosen by some schedule. -/
theorem shuffle_surj {α : Type _} : ∀ (l l' : List α), l'.Perm l → ∃ k, shuffle k l = l'
  | [], l', h => ⟨0, by simp [shuffle, List.perm_nil.1 h]⟩
  | a :: l, l', h => by
    have ha : a ∈ l' := h.symm.subset (List.mem_cons_self ..)
    obtain ⟨s, t, rfl⟩ := List.append_of_mem ha
    have h' : (s ++ t).Perm l := (List.perm_cons a).1 (List.perm_middle.symm.trans h)
    obtain ⟨k, hk⟩ := shuffle_surj l (s ++ t) h'
    have hlen : s.length < l.length + 1 := by
      have := h'.length_eq
      simp at this
      omega
    refine ⟨s.length + (l.length + 1) * k, ?_⟩
    have h1 : (s.length + (l.length + 1) * k) % (l.length + 1) = s.length := by
      rw [Nat.add_mul_mod_self_left, Nat.mod_eq_of_lt hlen]
    have h2 : (s.length + (l.length + 1) * k) / (l.length + 1) = k := by
      rw [Nat.add_mul_div_left _ _ (Nat.succ_pos _), Nat.div_eq_of_lt hlen, Nat.zero_add]
    simp only [shuffle, h1, h2, hk, insertAt]
    simp

theorem shuffle_length {α : Type _} (k : Nat) (l : List α) : (shuffle k l).length = l.length :=
  (shuffle_perm l k).length_eq

theorem mem_shuffle {α : Type _} {k : Nat} {l : List α} {a : α} : a ∈ shuffle k l ↔ a ∈ l :=
  (shuffle_perm l k).mem_iff

theorem shuffle_nodup {α : Type _} {k : Nat} {l : List α} : (shuffle k l).Nodup ↔ l.Nodup :=
  (shuffle_perm l k).nodup_iff

theorem shuffle_map {α β : Type _} (f : α → β) : ∀ (k : Nat) (l : List α),
    shuffle k (l.map f) = (shuffle k l).map f
  | _, [] => rfl
  | k, a :: l => by
    simp [shuffle, insertAt, shuffle_map f _ l]

theorem shuffle_eq_nil {α : Type _} {k : Nat} {l : List α} : shuffle k l = [] ↔ l = [] := by
  constructor
  · intro h; have := shuffle_length k l; rw [h] at this; exact List.length_eq_zero_iff.1 this.symm
  · rintro rfl; rfl

end Jsval
