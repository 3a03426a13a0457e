import Verif.Spec.Reported
import Verif.Lemmas.Refine
/-!
# Without objects the iteration order plays no part
-/
namespace Jsval

variable {ext : Ext} {env : Env}

/-- The iteration order plays no part. -/
def Sem.OneWay (c : Sem) : Prop := ∀ σ τ v, c.val σ v = c.val τ v

theorem runItems_oneWay {c : Sem} (hc : c.OneWay) (σ τ : Sched) : ∀ (xs : List GoVal) (i : ℕ), runItems c σ i xs = runItems c τ i xs
  | [], i => rfl
  | x :: xs, i => by simp only [runItems, hc (σ.sub i) (τ.sub i) x, runItems_oneWay hc σ τ xs (i + 1)]

theorem runPos_oneWay (σ τ : Sched) : ∀ (cs : List Sem) (xs : List GoVal) (i : ℕ), (∀ c ∈ cs, c.OneWay) → runPos σ i cs xs = runPos τ i cs xs
  | [], xs, i, _ => rfl
  | _ :: _, [], i, _ => rfl
  | c :: cs, x :: xs, i, h => by
    simp only [runPos, h c (by simp) (σ.sub i) (τ.sub i) x, runPos_oneWay σ τ cs xs (i + 1) fun c hc => h c (by simp [hc])]

theorem arrayV_oneWay {a : ArrC Sem} (h : ∀ c, a.Child c → c.OneWay) (σ τ : Sched) (v : GoVal) : arrayV ext a σ v = arrayV ext a τ v := by
  have he : ∀ xs, arrayElems a σ xs = arrayElems a τ xs := by
    intro xs
    unfold arrayElems
    cases hi : a.items with
    | some c => exact runItems_oneWay (h c (.items hi)) _ _ xs 0
    | none =>
      have hr : ∀ xs, runAdditional a (σ.sub 2) xs = runAdditional a (τ.sub 2) xs := by
        intro xs
        unfold runAdditional
        cases ha : a.additional with
        | none => rfl
        | some c => simp only [runItems_oneWay (h c (.additional ha)) (σ.sub 2) (τ.sub 2)]
      simp only [runPos_oneWay (σ.sub 1) (τ.sub 1) a.positional xs 0 fun c hc => h c (.positional hc), hr]
  unfold arrayV
  simp only [he]

theorem anyLoop_oneWay (σ τ : Sched) : ∀ (cs : List Sem) (i : ℕ) (v : GoVal), (∀ c ∈ cs, c.OneWay) → anyLoop i cs σ v = anyLoop i cs τ v
  | [], i, v, _ => rfl
  | c :: cs, i, v, h => by
    simp only [anyLoop, h c (by simp) (σ.sub i) (τ.sub i) v, fun v => anyLoop_oneWay σ τ cs (i + 1) v fun c hc => h c (by simp [hc])]

theorem allLoop_oneWay (σ τ : Sched) : ∀ (cs : List Sem) (i : ℕ) (v : GoVal), (∀ c ∈ cs, c.OneWay) → allLoop i cs σ v = allLoop i cs τ v
  | [], i, v, _ => rfl
  | c :: cs, i, v, h => by
    simp only [allLoop, h c (by simp) (σ.sub i) (τ.sub i) v, fun v => allLoop_oneWay σ τ cs (i + 1) v fun c hc => h c (by simp [hc])]

theorem oneOfLoop_oneWay (σ τ : Sched) : ∀ (cs : List Sem) (i n : ℕ) (v : GoVal), (∀ c ∈ cs, c.OneWay) → oneOfLoop i n cs σ v = oneOfLoop i n cs τ v
  | [], i, n, v, _ => rfl
  | c :: cs, i, n, v, h => by
    simp only [oneOfLoop, h c (by simp) (σ.sub i) (τ.sub i) v, fun n v => oneOfLoop_oneWay σ τ cs (i + 1) n v fun c hc => h c (by simp [hc])]

theorem denote_oneWay {ρ : RefSem} (hρ : ∀ m n, (ρ m n).OneWay) : ∀ (c : Constraint), c.Every (fun c => ∀ o, c ≠ .object o) →
    (denote ext ρ c).OneWay := by
  refine Constraint.ind fun c ih hc => ?_
  have hlist : ∀ cs : List Constraint, (∀ d ∈ cs, c.Child d) → ∀ s ∈ cs.map (denote ext ρ), s.OneWay := by
    intro cs h s hs
    obtain ⟨d, hd, rfl⟩ := List.mem_map.1 hs
    exact ih d (h d hd) (hc.child (h d hd))
  intro σ τ v
  cases c with
  | empty => simp [denote]
  | null => simp [denote, pureV]
  | boolean d => simp [denote, pureV]
  | string c => simp [denote, pureV]
  | number c => simp [denote, pureV]
  | integer c => simp [denote, pureV]
  | enum l => simp [denote, pureV]
  | ref m n => simp only [denote]; exact hρ m n σ τ v
  | object o => exact absurd rfl (hc.self o)
  | array a =>
    rw [denote_array]
    refine arrayV_oneWay (fun s hs => ?_) σ τ v
    cases hs with
    | items hi =>
      obtain ⟨d, hd, rfl⟩ := Option.map_eq_some_iff.1 hi
      exact ih d (.array (.items hd)) (hc.child (.array (.items hd)))
    | positional hi =>
      obtain ⟨d, hd, rfl⟩ := List.mem_map.1 hi
      exact ih d (.array (.positional hd)) (hc.child (.array (.positional hd)))
    | additional hi =>
      obtain ⟨d, hd, rfl⟩ := Option.map_eq_some_iff.1 hi
      exact ih d (.array (.additional hd)) (hc.child (.array (.additional hd)))
  | any cs => rw [denote_any]; exact anyLoop_oneWay σ τ _ 0 v (hlist cs fun d hd => .any hd)
  | all cs => rw [denote_all]; exact allLoop_oneWay σ τ _ 0 v (hlist cs fun d hd => .all hd)
  | oneOf cs => rw [denote_oneOf]; exact oneOfLoop_oneWay σ τ _ 0 0 v (hlist cs fun d hd => .oneOf hd)
  | not c =>
    rw [denote_not]
    cases c with
    | none => rfl
    | some d => simp only [Option.map_some, notV, ih d (.not) (hc.child (.not)) (σ.sub 0) (τ.sub 0) v]

theorem sem_oneWay (henv : env.Every fun c => ∀ o, c ≠ .object o) : ∀ (fuel : ℕ) (c : Constraint), c.Every (fun c => ∀ o, c ≠ .object o) →
    (sem ext env fuel c).OneWay
  | 0, c, hc => denote_oneWay (fun m n σ τ v => rfl) c hc
  | fuel + 1, c, hc => by
    refine denote_oneWay (fun m n => ?_) c hc
    simp only [refSem]
    cases hm : env m n with
    | none => exact fun σ τ v => rfl
    | some d => exact sem_oneWay henv fuel d (henv m n d hm)

end Jsval
