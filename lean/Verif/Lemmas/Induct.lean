import Verif.Spec.Tree
import Verif.Lemmas.Assoc
/-!
# Induction over constraint trees and reference chains
-/
namespace Jsval

section
variable {P : Constraint → Prop} (h : ∀ c, (∀ d, c.Child d → P d) → P c)
include h

mutual
theorem indC : ∀ c, P c
  | .empty => h _ (fun d hd => by cases hd)
  | .null => h _ (fun d hd => by cases hd)
  | .boolean _ => h _ (fun d hd => by cases hd)
  | .string _ => h _ (fun d hd => by cases hd)
  | .number _ => h _ (fun d hd => by cases hd)
  | .integer _ => h _ (fun d hd => by cases hd)
  | .enum _ => h _ (fun d hd => by cases hd)
  | .ref _ _ => h _ (fun d hd => by cases hd)
  | .array ⟨i, p, a, _, _, _⟩ => h _ (fun d hd => by
      cases hd with
      | array hc =>
        cases hc with
        | items hi => exact indOpt i d hi
        | positional hi => exact indList p d hi
        | additional hi => exact indOpt a d hi)
  | .object ⟨ps, pats, a, _, _, sd, _, _⟩ => h _ (fun d hd => by
      cases hd with
      | object hc =>
        cases hc with
        | prop hi => exact indProps ps _ d hi
        | pattern hi => exact indPats pats _ _ d hi
        | additional hi => exact indOpt a d hi
        | dependency hi => exact indProps sd _ d (alookup_mem hi))
  | .any cs => h _ (fun d hd => by cases hd with | any hi => exact indList cs d hi)
  | .all cs => h _ (fun d hd => by cases hd with | all hi => exact indList cs d hi)
  | .oneOf cs => h _ (fun d hd => by cases hd with | oneOf hi => exact indList cs d hi)
  | .not c => h _ (fun d hd => by
      have : c = some d := by cases hd; rfl
      exact indOpt c d this)

theorem indOpt : ∀ (o : Option Constraint) d, o = some d → P d
  | none, d, hd => by cases hd
  | some c, d, hd => by
    have := indC c
    simp only [Option.some.injEq] at hd
    rwa [hd] at this

theorem indList : ∀ (cs : List Constraint) d, d ∈ cs → P d
  | [], d, hd => by simp at hd
  | c :: cs, d, hd => by
    have h1 := indC c
    have h2 := indList cs d
    rcases List.mem_cons.1 hd with hd | hd
    · rwa [hd]
    · exact h2 hd

theorem indProps : ∀ (cs : List (GoStr × Constraint)) n d, (n, d) ∈ cs → P d
  | [], n, d, hd => by simp at hd
  | (m, c) :: cs, n, d, hd => by
    have h1 := indC c
    have h2 := indProps cs n d
    rcases List.mem_cons.1 hd with hd | hd
    · simp only [Prod.mk.injEq] at hd
      rwa [hd.2]
    · exact h2 hd

theorem indPats : ∀ (cs : List (Nat × GoStr × Constraint)) i s d, (i, s, d) ∈ cs → P d
  | [], i, s, d, hd => by simp at hd
  | (j, t, c) :: cs, i, s, d, hd => by
    have h1 := indC c
    have h2 := indPats cs i s d
    rcases List.mem_cons.1 hd with hd | hd
    · simp only [Prod.mk.injEq] at hd
      rwa [hd.2.2]
    · exact h2 hd
end
end

/-- Induction over a constraint tree. -/
theorem Constraint.ind {P : Constraint → Prop} (h : ∀ c, (∀ d, c.Child d → P d) → P c) (c : Constraint) : P c :=
  indC h c

theorem Constraint.Every.self {L : Constraint → Prop} {c : Constraint} (h : c.Every L) : L c := h c (.refl c)

theorem Constraint.Every.child {L : Constraint → Prop} {c d : Constraint} (h : c.Every L) (hd : c.Child d) : d.Every L :=
  fun e he => h e (.child hd he)

theorem Constraint.In.trans {c d e : Constraint} (h1 : c.In d) (h2 : d.In e) : c.In e := by
  induction h2 with
  | refl => exact h1
  | child hc _ ih => exact .child hc (ih h1)

/-- A property of behaviours that holds for every tree whose constraints satisfy `L`. -/
theorem denote_induct {ext : Ext} (Q : Sem → Prop) (L : Constraint → Prop)
    (step : ∀ (ρ : RefSem) (c : Constraint), (∀ m n, Q (ρ m n)) → L c →
      (∀ d, c.Child d → Q (denote ext ρ d)) → Q (denote ext ρ c))
    (ρ : RefSem) (hρ : ∀ m n, Q (ρ m n)) (c : Constraint) (hc : c.Every L) : Q (denote ext ρ c) := by
  induction c using Constraint.ind with
  | h c ih => exact step ρ c hρ hc.self (fun d hd => ih d hd (hc.child hd))

/-- The same through references, whatever the fuel. -/
theorem sem_induct {ext : Ext} {env : Env} (Q : Sem → Prop) (L : Constraint → Prop)
    (step : ∀ (ρ : RefSem) (c : Constraint), (∀ m n, Q (ρ m n)) → L c →
      (∀ d, c.Child d → Q (denote ext ρ d)) → Q (denote ext ρ c))
    (hrun : Q running) (hun : ∀ n, Q (unresolved n)) (henv : env.Every L) (fuel : Nat) (c : Constraint)
    (hc : c.Every L) : Q (sem ext env fuel c) := by
  have hρ : ∀ k m n, Q (refSem ext env k m n) := by
    intro k
    induction k with
    | zero => exact fun _ _ => hrun
    | succ k ih =>
      intro m n
      simp only [refSem]
      cases he : env m n with
      | none => exact hun n
      | some d => exact denote_induct Q L step _ ih d (henv m n d he)
  exact denote_induct Q L step _ (hρ fuel) c hc

end Jsval

namespace Jsval
/-! ## Checking a concrete tree -/

/-- The immediate sub-constraints, as a list. -/
def Constraint.kids : Constraint → List Constraint
  | .array a => a.items.toList ++ a.positional ++ a.additional.toList
  | .object o => o.props.map (·.2) ++ o.patterns.map (·.2.2) ++ o.additional.toList ++ o.schemadeps.map (·.2)
  | .any cs => cs
  | .all cs => cs
  | .oneOf cs => cs
  | .not c => c.toList
  | _ => []

theorem Constraint.Child.mem {c d : Constraint} (h : c.Child d) : d ∈ c.kids := by
  cases h with
  | array h => cases h <;> simp_all [Constraint.kids]
  | object h =>
    cases h with
    | prop h => simp only [Constraint.kids, List.mem_append, List.mem_map]; exact .inl (.inl (.inl ⟨_, h, rfl⟩))
    | pattern h => simp only [Constraint.kids, List.mem_append, List.mem_map]; exact .inl (.inl (.inr ⟨_, h, rfl⟩))
    | additional h => simp only [Constraint.kids, List.mem_append, h]; exact .inl (.inr (by simp))
    | dependency h => simp only [Constraint.kids, List.mem_append, List.mem_map]; exact .inr ⟨_, alookup_mem h, rfl⟩
  | any h => exact h
  | all h => exact h
  | oneOf h => exact h
  | not => simp [Constraint.kids]

theorem Constraint.Every.intro {L : Constraint → Prop} {c : Constraint} (h : L c) (hk : ∀ d ∈ c.kids, d.Every L) : c.Every L := by
  intro e he
  cases he with
  | refl => exact h
  | child hd he => exact hk _ hd.mem e he

end Jsval
