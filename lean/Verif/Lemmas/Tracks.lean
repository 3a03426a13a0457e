import Verif.Lemmas.Policies
import Verif.Lemmas.Determined
import Verif.Spec.JsonSchema
import Verif.Props.Combinators
import Verif.Props.Scalars
import Verif.Props.Arrays
/-!
# Validators that decide a predicate on documents
-/
namespace Jsval

/-- The behaviour decides `P` on the values in `D` whenever it returns; it never changes its argument, and on plain
data it never panics. -/
structure Tracks (ext : Ext) (D : GoVal → Prop) (s : Sem) (P : GoVal → Prop) : Prop where
  ro : (readOnlyPolicy ext).Good s
  data : (dataPolicy ext false).Good s
  ok : ∀ σ v, D v → (s.val σ v).1 = .ok → P v
  err : ∀ σ v e, D v → (s.val σ v).1 = .err e → ¬ P v

theorem Doc.json {cls : DocClass} {v : GoVal} (h : Doc cls v) : IsJson v := by
  induction h with
  | null => exact .null
  | bool b => exact .bool b
  | num n m => exact .num _
  | str s _ => exact .str s
  | arr xs _ ih => exact .arr xs ih
  | obj kvs hn _ _ ih => exact .obj kvs hn ih

namespace Tracks
variable {ext : Ext} {D : GoVal → Prop}

theorem congr {s : Sem} {P Q : GoVal → Prop} (h : Tracks ext D s P) (hPQ : ∀ v, D v → (P v ↔ Q v)) : Tracks ext D s Q :=
  ⟨h.ro, h.data, fun σ v hv ho => (hPQ v hv).1 (h.ok σ v hv ho), fun σ v e hv he hq => h.err σ v e hv he ((hPQ v hv).2 hq)⟩

theorem same {s : Sem} {P : GoVal → Prop} (h : Tracks ext D s P) (σ : Sched) (v : GoVal) : (s.val σ v).2 = v :=
  (h.ro.val σ v trivial).2.1

theorem readOnly {s : Sem} {P : GoVal → Prop} (h : Tracks ext D s P) : s.ReadOnly := fun v σ => h.same σ v

theorem noDflt {s : Sem} {P : GoVal → Prop} (h : Tracks ext D s P) (dv : GoVal) : s.dflt ≠ .some dv :=
  fun hd => h.ro.dflt dv hd

/-! ## Combinators -/

/-- Behaviours and the predicates they decide. -/
abbrev All (ext : Ext) (D : GoVal → Prop) (cs : List Sem) (ps : List (GoVal → Prop)) : Prop :=
  List.Forall₂ (Tracks ext D) cs ps

theorem any_res {cs : List Sem} {ps : List (GoVal → Prop)} (h : All ext D cs ps) (σ : Sched) {v : GoVal} (hv : D v) :
    ∀ i, ((anyLoop i cs σ v).1 = .ok → ∃ p ∈ ps, p v) ∧ (∀ e, (anyLoop i cs σ v).1 = .err e → ∀ p ∈ ps, ¬ p v) := by
  induction h with
  | nil => intro i; simp [anyLoop]
  | @cons c p cs ps hc hl ih =>
    intro i
    have hs := hc.same (σ.sub i) v
    have hok := hc.ok (σ.sub i) v hv
    have herr := fun e => hc.err (σ.sub i) v e hv
    rcases hcv : c.val (σ.sub i) v with ⟨r, v'⟩
    rw [hcv] at hs hok herr
    simp only at hs; subst hs
    simp only [anyLoop, hcv]
    cases r with
    | ok => exact ⟨fun _ => ⟨p, by simp, hok rfl⟩, fun e h => by simp at h⟩
    | abort a => exact ⟨fun h => by simp at h, fun e h => by simp at h⟩
    | err e =>
      obtain ⟨i1, i2⟩ := ih (i + 1)
      refine ⟨fun h => ?_, fun e' h q hq => ?_⟩
      · obtain ⟨q, hq, hqv⟩ := i1 h
        exact ⟨q, by simp [hq], hqv⟩
      · rcases List.mem_cons.1 hq with rfl | hq
        · exact herr e rfl
        · exact i2 e' h q hq

theorem all_res {cs : List Sem} {ps : List (GoVal → Prop)} (h : All ext D cs ps) (σ : Sched) {v : GoVal} (hv : D v) :
    ∀ i, ((allLoop i cs σ v).1 = .ok → ∀ p ∈ ps, p v) ∧ (∀ e, (allLoop i cs σ v).1 = .err e → ∃ p ∈ ps, ¬ p v) := by
  induction h with
  | nil => intro i; simp [allLoop]
  | @cons c p cs ps hc hl ih =>
    intro i
    have hs := hc.same (σ.sub i) v
    have hok := hc.ok (σ.sub i) v hv
    have herr := fun e => hc.err (σ.sub i) v e hv
    rcases hcv : c.val (σ.sub i) v with ⟨r, v'⟩
    rw [hcv] at hs hok herr
    simp only at hs; subst hs
    simp only [allLoop, hcv]
    cases r with
    | err e => exact ⟨fun h => by simp at h, fun _ h => ⟨p, by simp, herr e rfl⟩⟩
    | abort a => exact ⟨fun h => by simp at h, fun e h => by simp at h⟩
    | ok =>
      obtain ⟨i1, i2⟩ := ih (i + 1)
      refine ⟨fun h q hq => ?_, fun e' h => ?_⟩
      · rcases List.mem_cons.1 hq with rfl | hq
        · exact hok rfl
        · exact i1 h q hq
      · obtain ⟨q, hq, hqv⟩ := i2 e' h
        exact ⟨q, by simp [hq], hqv⟩

/-- Exactly one of the predicates (by position) holds. -/
def ExactlyOne (ps : List (GoVal → Prop)) (v : GoVal) : Prop :=
  ∃ i p, ps[i]? = some p ∧ p v ∧ ∀ (j : Nat) q, ps[j]? = some q → q v → j = i

theorem exactlyOne_cons_true {p : GoVal → Prop} {ps : List (GoVal → Prop)} {v : GoVal} (hp : p v) :
    ExactlyOne (p :: ps) v ↔ ∀ q ∈ ps, ¬ q v := by
  constructor
  · rintro ⟨i, q, hq, hqv, hu⟩ r hr hrv
    obtain ⟨j, hj⟩ := List.mem_iff_getElem?.1 hr
    have h0 := hu 0 p (by simp) hp
    have h1 := hu (j + 1) r (by simpa using hj) hrv
    omega
  · intro h
    refine ⟨0, p, by simp, hp, fun j q hq hqv => ?_⟩
    cases j with
    | zero => rfl
    | succ j => exact absurd hqv (h q (List.mem_of_getElem? (by simpa using hq)))

theorem exactlyOne_cons_false {p : GoVal → Prop} {ps : List (GoVal → Prop)} {v : GoVal} (hp : ¬ p v) :
    ExactlyOne (p :: ps) v ↔ ExactlyOne ps v := by
  constructor
  · rintro ⟨i, q, hq, hqv, hu⟩
    cases i with
    | zero => simp only [List.getElem?_cons_zero, Option.some.injEq] at hq; rw [← hq] at hqv; exact absurd hqv hp
    | succ i =>
      refine ⟨i, q, by simpa using hq, hqv, fun j r hr hrv => ?_⟩
      have := hu (j + 1) r (by simpa using hr) hrv
      omega
  · rintro ⟨i, q, hq, hqv, hu⟩
    refine ⟨i + 1, q, by simpa using hq, hqv, fun j r hr hrv => ?_⟩
    cases j with
    | zero => simp only [List.getElem?_cons_zero, Option.some.injEq] at hr; rw [← hr] at hrv; exact absurd hrv hp
    | succ j => rw [hu j r (by simpa using hr) hrv]

theorem exactlyOne_nil {v : GoVal} : ¬ ExactlyOne [] v := by rintro ⟨i, q, hq, -⟩; simp at hq

/-- `n` earlier branches accepted. -/
theorem oneOf_res {cs : List Sem} {ps : List (GoVal → Prop)} (h : All ext D cs ps) (σ : Sched) {v : GoVal} (hv : D v) :
    ∀ i n, ((oneOfLoop i n cs σ v).1 = .ok → (n = 0 ∧ ExactlyOne ps v) ∨ (n = 1 ∧ ∀ p ∈ ps, ¬ p v)) ∧
      (∀ e, (oneOfLoop i n cs σ v).1 = .err e → ¬ ((n = 0 ∧ ExactlyOne ps v) ∨ (n = 1 ∧ ∀ p ∈ ps, ¬ p v))) := by
  induction h with
  | nil =>
    intro i n
    unfold oneOfLoop
    by_cases h0 : n = 0
    · subst h0; simp [exactlyOne_nil]
    · by_cases h1 : n = 1
      · subst h1; simp
      · simp [h0, h1, show 1 < n by omega]
  | @cons c p cs ps hc hl ih =>
    intro i n
    have hs := hc.same (σ.sub i) v
    have hok := hc.ok (σ.sub i) v hv
    have herr := fun e => hc.err (σ.sub i) v e hv
    rcases hcv : c.val (σ.sub i) v with ⟨r, v'⟩
    rw [hcv] at hs hok herr
    simp only at hs; subst hs
    simp only [oneOfLoop, hcv]
    cases r with
    | abort a => exact ⟨fun h => by simp at h, fun e h => by simp at h⟩
    | ok =>
      have hp := hok rfl
      obtain ⟨i1, i2⟩ := ih (i + 1) (n + 1)
      have key : ((n = 0 ∧ ExactlyOne (p :: ps) v') ∨ (n = 1 ∧ ∀ q ∈ p :: ps, ¬ q v')) ↔
          ((n + 1 = 0 ∧ ExactlyOne ps v') ∨ (n + 1 = 1 ∧ ∀ q ∈ ps, ¬ q v')) := by
        rw [exactlyOne_cons_true hp]
        constructor
        · rintro (⟨h0, h⟩ | ⟨-, h⟩)
          · exact Or.inr ⟨by omega, h⟩
          · exact absurd hp (h p (by simp))
        · rintro (⟨h0, h⟩ | ⟨h0, h⟩)
          · omega
          · exact Or.inl ⟨by omega, h⟩
      rw [key]
      exact ⟨i1, i2⟩
    | err e =>
      have hp := herr e rfl
      obtain ⟨i1, i2⟩ := ih (i + 1) n
      have key : ((n = 0 ∧ ExactlyOne (p :: ps) v') ∨ (n = 1 ∧ ∀ q ∈ p :: ps, ¬ q v')) ↔
          ((n = 0 ∧ ExactlyOne ps v') ∨ (n = 1 ∧ ∀ q ∈ ps, ¬ q v')) := by
        rw [exactlyOne_cons_false hp]
        simp [hp]
      rw [key]
      exact ⟨i1, i2⟩

/-! ## Constraints -/

variable {ρ : RefSem}

/-- The constraint has neither a default nor an enumeration of containers. -/
def Plain (c : Constraint) : Prop := c.ownDefault = none ∧ ScalarEnum c

theorem of_step {c : Constraint} {P : GoVal → Prop} (hr : ∀ m n, c ≠ .ref m n) (hp : Plain c)
    (hch : ∀ d, c.Child d → ∃ Q, Tracks ext D (denote ext ρ d) Q)
    (hok : ∀ σ v, D v → ((denote ext ρ c).val σ v).1 = .ok → P v)
    (herr : ∀ σ v e, D v → ((denote ext ρ c).val σ v).1 = .err e → ¬ P v) : Tracks ext D (denote ext ρ c) P := by
  refine ⟨?_, ?_, hok, herr⟩
  · refine (readOnlyPolicy ext).good_step' ρ c (fun m n h => absurd h (hr m n))
      (local_of _ (fun dv h => by rw [hp.1] at h; cases h) hp.2) (fun d hd => ?_) (fun d hd => ?_)
    · obtain ⟨Q, hQ⟩ := hch d hd.child; exact hQ.ro
    · obtain ⟨Q, hQ⟩ := hch d hd.child; exact hQ.ro
  · refine (dataPolicy ext false).good_step' ρ c (fun m n h => absurd h (hr m n))
      (local_of _ (fun dv h => by rw [hp.1] at h; cases h) hp.2) (fun d hd => ?_) (fun d hd => ?_)
    · obtain ⟨Q, hQ⟩ := hch d hd.child; exact hQ.data
    · obtain ⟨Q, hQ⟩ := hch d hd.child; exact hQ.data

/-- Constraints and the predicates they decide. -/
abbrev Each (ext : Ext) (D : GoVal → Prop) (ρ : RefSem) (cs : List Constraint) (ps : List (GoVal → Prop)) : Prop :=
  List.Forall₂ (fun c p => Tracks ext D (denote ext ρ c) p) cs ps

theorem Each.all {cs : List Constraint} {ps : List (GoVal → Prop)} (h : Each ext D ρ cs ps) :
    All ext D (cs.map (denote ext ρ)) ps := List.forall₂_map_left_iff.2 h

theorem Each.mem {cs : List Constraint} {ps : List (GoVal → Prop)} (h : Each ext D ρ cs ps) :
    ∀ c ∈ cs, ∃ Q, Tracks ext D (denote ext ρ c) Q := by
  induction h with
  | nil => intro c hc; simp at hc
  | cons h _ ih =>
    intro c hc
    rcases List.mem_cons.1 hc with rfl | hc
    · exact ⟨_, h⟩
    · exact ih c hc

theorem any {cs : List Constraint} {ps : List (GoVal → Prop)} (h : Each ext D ρ cs ps) :
    Tracks ext D (denote ext ρ (.any cs)) (fun v => ∃ p ∈ ps, p v) := by
  refine of_step (by simp) ⟨rfl, fun x hx => by simp [Constraint.enumOf] at hx⟩
    (fun d hd => by cases hd with | any hd => exact h.mem d hd) ?_ ?_
  · intro σ v hv ho
    rw [denote_any] at ho
    exact (any_res h.all _ hv 0).1 ho
  · intro σ v e hv he
    rw [denote_any] at he
    have := (any_res h.all _ hv 0).2 e he
    rintro ⟨p, hp, hpv⟩
    exact this p hp hpv

theorem all {cs : List Constraint} {ps : List (GoVal → Prop)} (h : Each ext D ρ cs ps) :
    Tracks ext D (denote ext ρ (.all cs)) (fun v => ∀ p ∈ ps, p v) := by
  refine of_step (by simp) ⟨rfl, fun x hx => by simp [Constraint.enumOf] at hx⟩
    (fun d hd => by cases hd with | all hd => exact h.mem d hd) ?_ ?_
  · intro σ v hv ho
    rw [denote_all] at ho
    exact (all_res h.all _ hv 0).1 ho
  · intro σ v e hv he
    rw [denote_all] at he
    obtain ⟨p, hp, hpv⟩ := (all_res h.all _ hv 0).2 e he
    exact fun h => hpv (h p hp)

theorem oneOf {cs : List Constraint} {ps : List (GoVal → Prop)} (h : Each ext D ρ cs ps) :
    Tracks ext D (denote ext ρ (.oneOf cs)) (fun v => ExactlyOne ps v) := by
  refine of_step (by simp) ⟨rfl, fun x hx => by simp [Constraint.enumOf] at hx⟩
    (fun d hd => by cases hd with | oneOf hd => exact h.mem d hd) ?_ ?_
  · intro σ v hv ho
    rw [denote_oneOf] at ho
    rcases (oneOf_res h.all _ hv 0 0).1 ho with h | h
    · exact h.2
    · exact absurd h.1 (by omega)
  · intro σ v e hv he
    rw [denote_oneOf] at he
    have := (oneOf_res h.all _ hv 0 0).2 e he
    exact fun h => this (Or.inl ⟨rfl, h⟩)

theorem not {c : Constraint} {p : GoVal → Prop} (h : Tracks ext D (denote ext ρ c) p) :
    Tracks ext D (denote ext ρ (.not (some c))) (fun v => ¬ p v) := by
  refine of_step (by simp) ⟨rfl, fun x hx => by simp [Constraint.enumOf] at hx⟩
    (fun d hd => by cases hd with | not => exact ⟨p, h⟩) ?_ ?_
  · intro σ v hv ho
    rw [denote_not] at ho
    simp only [Option.map_some, notV] at ho
    have herr := fun e => h.err (σ.sub 0) v e hv
    rcases hcv : (denote ext ρ c).val (σ.sub 0) v with ⟨r, v'⟩
    rw [hcv] at herr ho
    cases r with
    | ok => simp at ho
    | abort a => simp at ho
    | err e => exact herr e rfl
  · intro σ v e hv he
    rw [denote_not] at he
    simp only [Option.map_some, notV] at he
    have hok := h.ok (σ.sub 0) v hv
    rcases hcv : (denote ext ρ c).val (σ.sub 0) v with ⟨r, v'⟩
    rw [hcv] at hok he
    cases r with
    | ok => exact fun hn => hn (hok rfl)
    | abort a => simp at he
    | err e => simp at he

theorem reduce_any {cs : List Constraint} {ps : List (GoVal → Prop)} (h : Each ext D ρ cs ps) :
    Tracks ext D (denote ext ρ (reduceAny cs)) (fun v => ∃ p ∈ ps, p v) := by
  unfold reduceAny reduceCombined
  split
  · cases h with
    | cons h t => cases t; exact h.congr (fun v _ => by simp)
  · exact any h

theorem reduce_all {cs : List Constraint} {ps : List (GoVal → Prop)} (h : Each ext D ρ cs ps) :
    Tracks ext D (denote ext ρ (reduceAll cs)) (fun v => ∀ p ∈ ps, p v) := by
  unfold reduceAll reduceCombined
  split
  · cases h with
    | cons h t => cases t; exact h.congr (fun v _ => by simp)
  · exact all h

theorem reduce_oneOf {cs : List Constraint} {ps : List (GoVal → Prop)} (h : Each ext D ρ cs ps) :
    Tracks ext D (denote ext ρ (reduceOneOf cs)) (fun v => ExactlyOne ps v) := by
  unfold reduceOneOf reduceCombined
  split
  · cases h with
    | cons h t =>
      cases t
      refine h.congr (fun v _ => ?_)
      constructor
      · intro hp; rw [exactlyOne_cons_true hp]; simp
      · intro hh
        by_contra hp
        rw [exactlyOne_cons_false hp] at hh
        exact exactlyOne_nil hh
  · exact oneOf h

end Tracks
end Jsval
