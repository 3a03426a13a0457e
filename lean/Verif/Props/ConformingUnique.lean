import Verif.Props.Conforming
import Verif.Props.Unique
/-!
# Unique items that are not strings (C63)

`C63_exact` on documents with words; see C125.
-/
namespace Jsval

/-- `{"type": "array", "items": {"type": "object"}, "uniqueItems": true}` -/
def exSetSchema : Schema := .mk { type := [.array], items := .list [.mk { type := [.object] }], uniqueItems := some true }

def exSetBuilt : Built where
  root := .array { items := some (.object { Object' with additional := some .empty }), positional := [], additional := some .empty, minItems := -1,
                   maxItems := -1, unique := true }
  table := []

/-- Documents whose strings and property names are words. -/
abbrev wordyDoc : DocClass := ⟨False, True, False⟩

/-- It conforms for such documents, if fmt prints as described in `Model/Fmt`. -/
theorem exSetSchema_conforms {ext : Ext} {L : FmtLib} (hL : L.Good) (hP : PrintsJson ext L) (formats : List GoStr) :
    exSetSchema.Conforms ext formats wordyDoc := by
  refine .node _ rfl ?_ (fun c hc => ?_)
  · constructor <;> simp [List.Nodup] <;> first | decide | skip
    exact .inr ⟨L, hL, hP⟩
  · cases hc with
    | list h hm =>
      cases h
      simp only [List.mem_singleton] at hm
      subst hm
      refine .node _ rfl ?_ (fun c hc => ?_)
      · constructor <;> simp [List.Nodup] <;> decide
      · cases hc with
        | _ h => simp at h
    | tuple h => simp at h
    | _ h => simp at h

theorem exSet_noRefs {n : GoStr} : ¬ exSetSchema.Mentions n := by
  intro h
  cases h with
  | here h => exact h rfl
  | child _ hc h =>
    cases hc with
    | list h' hm =>
      cases h'
      simp only [List.mem_singleton] at hm
      subst hm
      cases h with
      | here h => exact h rfl
      | child _ hc => cases hc with | _ h => simp at h
    | tuple h => simp at h
    | _ h => simp at h

theorem exSet_grounded : Grounded (fun _ => .fail) exSetSchema := by
  refine ⟨fun n => ⟨_, fun k ⟨s1, h1, h2⟩ => ?_⟩⟩
  cases h1 with
  | root => cases h2 with
    | here h => exact absurd rfl h
    | _ _ h => simp at h
  | resolved _ h => cases h

/-- All hypotheses of `C63_exact` hold for it. -/
theorem exSet_exact {ext : Ext} {L : FmtLib} (hL : L.Good) (hP : PrintsJson ext L) (R : GoStr → GoVal → Prop) {v : GoVal} (hv : Doc wordyDoc v) (τ : Sched) :
    exSetSchema.Valid ext R v ↔ Returns ext (exSetBuilt.env 7) exSetBuilt.root τ v .ok v := by
  have hno : ∀ n, ¬ Reaches (fun _ => .fail) exSetSchema n := by
    intro n h
    induction h with
    | root h => exact exSet_noRefs h
    | step _ _ _ ih => exact ih
  exact ((C63_exact (lib := lib0) (m := 7) (σ := sched0) (bfuel := 10) (fun h => absurd h (hno _)) rfl
    (exSetSchema_conforms hL hP _) (fun _ _ h => absurd h (hno _)) exSet_grounded).2
    R (fun n _ h => absurd h (hno n)) v hv τ).1

theorem Wordy.toDoc {v : GoVal} (h : Wordy v) : Doc wordyDoc v := by
  induction h with
  | null => exact .null
  | bool b => exact .bool b
  | num n m h => exact .num n m fun _ => h
  | str s h => exact .str s (fun h => h.elim) (fun _ => h) fun h => h.elim
  | arr xs _ ih => exact .arr xs ih
  | obj kvs hn hk _ ih => exact .obj kvs hn (fun k x h _ => hk k x h) ih

/-- The first two of these objects are valid as a set, the three are not: the third is the second with its properties the other way round. -/
example (R : GoStr → GoVal → Prop) : exSetSchema.Valid exPrints R (.slice false (exItems.take 2)) :=
  (exSet_exact exFmt_good exPrints_json R (.arr _ fun x hx => (exItems_wordy x (List.mem_of_mem_take hx)).toDoc) sched0).2 ⟨nofun, 1, rfl⟩
example (R : GoStr → GoVal → Prop) : ¬ exSetSchema.Valid exPrints R (.slice false exItems) := fun h => by
  obtain ⟨-, k, hk⟩ := (exSet_exact exFmt_good exPrints_json R (.arr _ fun x hx => (exItems_wordy x hx).toDoc) sched0).1 h
  cases hk

end Jsval
