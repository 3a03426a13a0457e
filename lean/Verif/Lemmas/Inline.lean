import Verif.Spec.Reference
import Verif.Lemmas.Refine
/-!
# Replacing references by their targets
-/
namespace Jsval
variable {ext : Ext} {ρ : RefSem} {f : Nat → GoStr → Constraint}

mutual
theorem denote_inline : ∀ c, denote ext ρ (c.inline f) = denote ext (fun m n => denote ext ρ (f m n)) c
  | .array ⟨i, p, a, mn, mx, u⟩ => by simp [Constraint.inline, denote, denoteArr, denoteOpt_inline, denoteList_inline]
  | .object ⟨ps, pats, a, req, pd, sd, mn, mx⟩ => by
    simp [Constraint.inline, denote, denoteObj, denoteOpt_inline, denoteProps_inline, denotePats_inline]
  | .any cs => by simp [Constraint.inline, denote, denoteList_inline]
  | .all cs => by simp [Constraint.inline, denote, denoteList_inline]
  | .oneOf cs => by simp [Constraint.inline, denote, denoteList_inline]
  | .not c => by simp [Constraint.inline, denote, denoteOpt_inline]
  | .ref m n => by simp [Constraint.inline, denote]
  | .empty => by simp [Constraint.inline, denote]
  | .null => by simp [Constraint.inline, denote]
  | .boolean d => by simp [Constraint.inline, denote]
  | .string c => by simp [Constraint.inline, denote]
  | .number c => by simp [Constraint.inline, denote]
  | .integer c => by simp [Constraint.inline, denote]
  | .enum vals => by simp [Constraint.inline, denote]

theorem denoteOpt_inline : ∀ c, denoteOpt ext ρ (inlineOpt f c) = denoteOpt ext (fun m n => denote ext ρ (f m n)) c
  | none => by simp [inlineOpt, denoteOpt]
  | some c => by simp [inlineOpt, denoteOpt, denote_inline]

theorem denoteList_inline : ∀ c, denoteList ext ρ (inlineList f c) = denoteList ext (fun m n => denote ext ρ (f m n)) c
  | [] => by simp [inlineList, denoteList]
  | c :: cs => by simp [inlineList, denoteList, denote_inline, denoteList_inline]

theorem denoteProps_inline : ∀ c, denoteProps ext ρ (inlineProps f c) = denoteProps ext (fun m n => denote ext ρ (f m n)) c
  | [] => by simp [inlineProps, denoteProps]
  | (n, c) :: cs => by simp [inlineProps, denoteProps, denote_inline, denoteProps_inline]

theorem denotePats_inline : ∀ c, denotePats ext ρ (inlinePats f c) = denotePats ext (fun m n => denote ext ρ (f m n)) c
  | [] => by simp [inlinePats, denotePats]
  | (i, s, c) :: cs => by simp [inlinePats, denotePats, denote_inline, denotePats_inline]
end

variable {env : Env}

/-- Inlining registered references moves the fuel by at most one. -/
theorem sem_inline_below (hf : ∀ m n, f m n = .ref m n ∨ env m n = some (f m n)) (k : Nat) (c : Constraint) :
    Below (· = .diverge) (sem ext env k c) (sem ext env k (c.inline f)) ∧
      Below (· = .diverge) (sem ext env k (c.inline f)) (sem ext env (k + 1) c) := by
  unfold sem
  rw [denote_inline]
  have hρ : ∀ m n, denote ext (refSem ext env k) (f m n) = refSem ext env k m n ∨
      denote ext (refSem ext env k) (f m n) = refSem ext env (k + 1) m n := by
    intro m n
    rcases hf m n with h | h
    · left; rw [h]; simp [denote]
    · right; simp only [refSem, h]
  constructor
  · refine denote_below (fun m n => ?_) c
    rcases hρ m n with h | h <;> rw [h]
    · exact .refl _
    · exact refSem_below (by omega) m n
  · refine denote_below (fun m n => ?_) c
    rcases hρ m n with h | h <;> rw [h]
    · exact refSem_below (by omega) m n
    · exact .refl _

theorem Below.keep {s t : Sem} (h : Below (· = .diverge) s t) {σ : Sched} {v v' : GoVal} {r : Res} (hr : r ≠ .abort .diverge)
    (hs : s.val σ v = (r, v')) : t.val σ v = (r, v') := by
  rw [h.val σ v (by rw [hs]; rintro a rfl; exact hr), hs]

theorem Below.keepD {s t : Sem} (h : Below (· = .diverge) s t) {d : Dflt} (hr : d ≠ .abort .diverge)
    (hs : s.dflt = d) : t.dflt = d := by
  rw [h.dflt (by rw [hs]; rintro a rfl; exact hr), hs]

end Jsval
