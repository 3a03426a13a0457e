import Verif.Lemmas.Terminate
import Mathlib.Data.Finset.Card
import Mathlib.Data.Finset.Filter
import Mathlib.Logic.Relation

/-!
How many references validation follows along one call chain (C124): the bounds of `Lemmas/Terminate` with numbers. A name
is ranked by how many names it leads to without going through an element or a property, so that following such a reference
lowers the rank.
-/

namespace Jsval

variable {ext : Ext} {env : Env}

open Classical in
/-- How many defined names `p` leads to on the same value, itself included. -/
noncomputable def refRank (env : Env) (F : Finset (Nat × GoStr)) (p : Nat × GoStr) : Nat :=
  if p ∈ F then (F.filter (fun q => Relation.TransGen (Unguarded env) q p)).card + 1 else 0

theorem refRank_le (hg : Guarded env) {F : Finset (Nat × GoStr)} (p : Nat × GoStr) : refRank env F p ≤ F.card := by
  classical
  unfold refRank
  split
  · rename_i hp
    have : (F.filter (fun q => Relation.TransGen (Unguarded env) q p)) ⊂ F :=
      Finset.filter_ssubset.2 ⟨p, hp, fun h => hg.transGen.asymmetric _ _ h h⟩
    exact Finset.card_lt_card this
  · exact Nat.zero_le _

theorem refRank_lt (hg : Guarded env) {F : Finset (Nat × GoStr)} (hF : ∀ m n, env m n ≠ none → (m, n) ∈ F)
    {p q : Nat × GoStr} (h : Unguarded env q p) : refRank env F q < refRank env F p := by
  classical
  have hp : p ∈ F := by
    obtain ⟨c, hc, _⟩ := h
    exact hF p.1 p.2 (by rw [hc]; exact Option.some_ne_none c)
  unfold refRank
  rw [if_pos hp]
  split
  · rename_i hq
    refine Nat.succ_lt_succ (Finset.card_lt_card ?_)
    refine (Finset.ssubset_iff_of_subset ?_).2 ⟨q, ?_, ?_⟩
    · intro r hr
      rw [Finset.mem_filter] at hr ⊢
      exact ⟨hr.1, hr.2.tail h⟩
    · exact Finset.mem_filter.2 ⟨hq, .single h⟩
    · intro hm
      exact hg.transGen.asymmetric _ _ (Finset.mem_filter.1 hm).2 (Finset.mem_filter.1 hm).2
  · exact Nat.succ_pos _

/-- Defaults are found after at most as many references as there are names. -/
theorem dflt_within (hg : Guarded env) {F : Finset (Nat × GoStr)} (hF : ∀ m n, env m n ≠ none → (m, n) ∈ F)
    (henv : env.Every (DefaultIn Flat)) (c : Constraint) (hc : DefaultIn Flat c) {k : Nat} (hk : F.card + 1 ≤ k) :
    (∀ dv, (sem ext env k c).dflt = .some dv → Flat dv) ∧ ∀ a, (sem ext env k c).dflt = .abort a → a ≠ .diverge := by
  have href : ∀ (p : Nat × GoStr) (k : Nat), refRank env F p + 1 ≤ k →
      (∀ dv, (refSem ext env k p.1 p.2).dflt = .some dv → Flat dv) ∧
      ∀ a, (refSem ext env k p.1 p.2).dflt = .abort a → a ≠ .diverge := by
    intro p
    induction p using hg.induction with
    | h p ih =>
      intro k hk
      obtain ⟨k, rfl⟩ : ∃ j, k = j + 1 := ⟨k - 1, by omega⟩
      cases he : env p.1 p.2 with
      | none =>
        simp only [refSem, he, unresolved]
        exact ⟨fun dv h => (by cases h), fun a h => (by cases h)⟩
      | some c =>
        simp only [refSem, he]
        by_cases hr : NotRef c
        · exact dflt_of_notRef hr (henv _ _ _ he).self
        · unfold NotRef at hr
          push Not at hr
          obtain ⟨m, n, rfl⟩ := hr
          have hu : Unguarded env (m, n) p := ⟨_, he, .refl _⟩
          have := refRank_lt hg hF hu
          exact ih (m, n) hu k (by omega)
  by_cases hr : NotRef c
  · exact dflt_of_notRef hr hc
  · unfold NotRef at hr
    push Not at hr
    obtain ⟨m, n, rfl⟩ := hr
    have := refRank_le hg (F := F) (m, n)
    exact href (m, n) k (by omega)

theorem tree_within {d k : Nat} (hE : ∀ c : Constraint, c.Every (DefaultIn Flat) → (depthPolicy ext d).GoodJ (sem ext env k c))
    (c : Constraint) (hc : c.Every (DefaultIn Flat))
    (hR : ∀ m n, (Constraint.ref m n).Here c → (depthPolicy ext d).Good (refSem ext env k m n)) :
    (depthPolicy ext d).Good (sem ext env k c) := by
  induction c using Constraint.ind with
  | h c ih =>
    refine (depthPolicy ext d).good_step' (refSem ext env k) c ?_ (local_total rfl hc.self)
      (fun a ha => hE a (hc.child ha.child)) (fun a ha => ih a ha.child (hc.child ha.child) (fun m n h => hR m n (.same ha h)))
    rintro m n rfl
    exact hR m n (.refl _)

/-- Enough fuel for all values at most `d` deep, in numbers. -/
theorem depth_within (hg : Guarded env) {F : Finset (Nat × GoStr)} (hF : ∀ m n, env m n ≠ none → (m, n) ∈ F)
    (henv : env.Every (DefaultIn Flat)) : ∀ (d : Nat) (c : Constraint), c.Every (DefaultIn Flat) →
    ∀ k, F.card * (d + 2) + 1 ≤ k → (depthPolicy ext d).Good (sem ext env k c) := by
  have step : ∀ d B, 1 ≤ B → (∀ c : Constraint, c.Every (DefaultIn Flat) → ∀ k, B ≤ k → (depthPolicy ext d).GoodJ (sem ext env k c)) →
      ∀ c : Constraint, c.Every (DefaultIn Flat) → ∀ k, F.card + B ≤ k → (depthPolicy ext d).Good (sem ext env k c) := by
    intro d B hB hE
    have hR : ∀ (p : Nat × GoStr) (k : Nat), refRank env F p + B ≤ k → (depthPolicy ext d).Good (refSem ext env k p.1 p.2) := by
      intro p
      induction p using hg.induction with
      | h p ih =>
        intro k hk
        obtain ⟨k, rfl⟩ : ∃ j, k = j + 1 := ⟨k - 1, by omega⟩
        cases he : env p.1 p.2 with
        | none =>
          simp only [refSem, he]
          exact ⟨fun dv h => (by cases h), fun a h => (by cases h),
            fun σ v hv => ⟨hv, .refl v, fun a h => by cases h⟩⟩
        | some c =>
          simp only [refSem, he]
          have hp : 1 ≤ refRank env F p := by
            unfold refRank
            rw [if_pos (hF p.1 p.2 (by rw [he]; exact Option.some_ne_none c))]
            omega
          refine tree_within (fun a ha => hE a ha k (by omega)) c (henv _ _ _ he) (fun m n h => ?_)
          have hu : Unguarded env (m, n) p := ⟨c, he, h⟩
          have := refRank_lt hg hF hu
          exact ih (m, n) hu k (by omega)
    intro c hc k hk
    refine tree_within (fun a ha => hE a ha k (by omega)) c hc (fun m n _ => ?_)
    have := refRank_le hg (F := F) (m, n)
    exact hR (m, n) k (by omega)
  intro d
  induction d with
  | zero =>
    intro c hc k hk
    refine step 0 (F.card + 1) (by omega) (fun c hc k hk => ?_) c hc k (by omega)
    exact goodJ_zero (dflt_within hg hF henv c hc.self hk)
  | succ d ih =>
    intro c hc k hk
    refine step (d + 1) (F.card * (d + 2) + 1) (by omega) (fun c hc k hk => goodJ_succ (ih c hc k hk)) c hc k ?_
    have : F.card * (d + 1 + 2) = F.card * (d + 2) + F.card := Nat.mul_succ _ (d + 2)
    omega

end Jsval
