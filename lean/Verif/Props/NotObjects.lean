import Verif.Spec.NotObject
import Verif.Lemmas.Loop
import Verif.Lemmas.HooksFail
/-!
# Object constraints and values that are not objects (C95)
-/
namespace Jsval
variable {ext : Ext} {ρ : RefSem} {o : ObjC Constraint} {v x : GoVal}

/-- C95: a value that is neither a map nor a struct is rejected with an error and left alone. -/
theorem C95_kind (h : Pointee v x) (hx : IsPlain x) (σ : Sched) :
    ∃ e, (denote ext ρ (.object o)).val σ v = (.err e, v) := by
  refine ⟨.noPropNames, ?_⟩
  cases h with
  | here => cases v <;> first | exact absurd hx id | rfl
  | ptr => cases x <;> first | exact absurd hx id | rfl

/-- C95: so is a nil pointer. -/
theorem C95_nil (σ : Sched) : ∃ e, (denote ext ρ (.object o)).val σ (.ptr none) = (.err e, .ptr none) := ⟨.noPropNames, rfl⟩

/-- C95: and so is a map with keys that are not strings, unless it is empty. -/
theorem C95_keys {n : Bool} {l : Nat} (hl : l ≠ 0) (h : Pointee v (.mapOther n l)) (σ : Sched) :
    ∃ e, (denote ext ρ (.object o)).val σ v = (.err e, v) := by
  refine ⟨.mapKeys, ?_⟩
  cases h <;> simp [denote, objectV, valueOf, RV.indirect, getPropNames, hl, Stop.toRes]

/-- A loop whose steps do not change the state. -/
theorem forLoop_still {α S : Type} {step : Nat → α → S → Res × S} {P : α → Prop} {s : S} {l : List α}
    (h : ∀ i a, a ∈ l → (step i a s = (.ok, s) ∧ P a) ∨ ((step i a s).1 ≠ .ok ∧ ¬ P a)) (i : Nat) :
    (forLoop step i l s = (.ok, s) ∧ ∀ a ∈ l, P a) ∨ ((forLoop step i l s).1 ≠ .ok ∧ ¬ ∀ a ∈ l, P a) := by
  induction l generalizing i with
  | nil => exact Or.inl ⟨rfl, fun _ h => by cases h⟩
  | cons a l ih =>
    rw [forLoop]
    rcases h i a (by simp) with ⟨h1, h2⟩ | ⟨h1, h2⟩
    · rw [h1]
      rcases ih (fun j b hb => h j b (by simp [hb])) (i + 1) with ⟨h3, h4⟩ | ⟨h3, h4⟩
      · exact Or.inl ⟨h3, by simpa using ⟨h2, h4⟩⟩
      · exact Or.inr ⟨h3, fun h => h4 fun b hb => h b (by simp [hb])⟩
    · right
      rcases e : step i a s with ⟨r, u⟩
      rw [e] at h1
      cases r with
      | ok => exact absurd rfl h1
      | _ => exact ⟨by simp, fun h => h2 (h a (by simp))⟩

/-- The remaining loops have nothing to do without names. -/
theorem objLoops_nothing {q : ObjC Sem} {σ : Sched} {P : GoStr × Sem → Prop}
    (h : ∀ i a, a ∈ q.props → (propStep ext q (σ.sub 1) i a ⟨v, [], []⟩ = (.ok, ⟨v, [], []⟩) ∧ P a) ∨
      ((propStep ext q (σ.sub 1) i a ⟨v, [], []⟩).1 ≠ .ok ∧ ¬ P a)) :
    (objLoops ext q σ ⟨v, [], []⟩ = (.ok, ⟨v, [], []⟩) ∧ ∀ a ∈ q.props, P a) ∨ ((objLoops ext q σ ⟨v, [], []⟩).1 ≠ .ok ∧ ¬ ∀ a ∈ q.props, P a) := by
  have hpat : forLoop (patOuter ext σ) 0 (shuffle (σ.sub 2).key q.patterns) ⟨v, [], []⟩ = (.ok, ⟨v, [], []⟩) := by
    rcases forLoop_still (step := patOuter ext σ) (P := fun _ => True) (s := ⟨v, [], []⟩) (l := shuffle (σ.sub 2).key q.patterns)
      (fun i a _ => Or.inl ⟨by simp [patOuter, shuffle, forLoop], trivial⟩) 0 with ⟨h, -⟩ | ⟨-, h⟩
    · exact h
    · exact absurd (fun _ _ => trivial) h
  unfold objLoops
  rcases forLoop_still (P := P) (l := shuffle (σ.sub 0).key q.props) (fun i a ha => h i a (mem_shuffle.1 ha)) 0 with ⟨h1, h2⟩ | ⟨h1, h2⟩
  · left
    rw [h1]
    simp only [seqSt]
    rw [hpat]
    exact ⟨by simp [addlPhase, shuffle, forLoop], fun a ha => h2 a (mem_shuffle.2 ha)⟩
  · right
    refine ⟨fun h3 => h1 ?_, fun h3 => h2 fun a ha => h3 a (mem_shuffle.1 ha)⟩
    rcases e : forLoop (propStep ext q (σ.sub 1)) 0 (shuffle (σ.sub 0).key q.props) ⟨v, [], []⟩ with ⟨r, u⟩
    rw [e] at h3
    cases r with
    | ok => rfl
    | _ => cases h3

/-- Without names the call is refused if properties are asked for, and otherwise runs the loops. -/
theorem objectV_nothing {q : ObjC Sem} {σ : Sched} (hn : getPropNames (valueOf v).indirect = .ok []) :
    objectV ext q σ v = if q.minProps ≤ 0 then ((objLoops ext q σ ⟨v, [], []⟩).1, (objLoops ext q σ ⟨v, [], []⟩).2.v) else (.err .fewProps, v) := by
  rw [objectV, hn]
  simp only [List.length_nil, nameSet, List.foldl_nil]
  by_cases hm : q.minProps ≤ 0
  · rw [if_neg (by omega), if_neg (by omega), if_pos hm]
  · rw [if_pos (by omega), if_neg hm]

/-- C95: an empty map with other keys is accepted if no property is declared and no number of properties is asked for. Otherwise it
is not, and the call panics unless properties are asked for. -/
theorem C95_empty {n : Bool} (h : Pointee v (.mapOther n 0)) (σ : Sched) :
    ((denote ext ρ (.object o)).AcceptsBy σ v ↔ o.minProps ≤ 0 ∧ o.props = []) ∧
    (o.minProps ≤ 0 → o.props ≠ [] → ((denote ext ρ (.object o)).val σ v).1 = .abort .panic) ∧ ((denote ext ρ (.object o)).val σ v).2 = v := by
  have hn : getPropNames (valueOf v).indirect = .ok [] := by cases h <;> rfl
  have hstep : ∀ (i : Nat) (a : GoStr × Sem), propStep ext (o.map (denote ext ρ)) (σ.sub 1) i a ⟨v, [], []⟩ = (.abort .panic, ⟨v, [], []⟩) := by
    intro i a
    cases h <;> rfl
  unfold Sem.AcceptsBy
  rw [denote_object, objectV_nothing hn]
  by_cases hm : o.minProps ≤ 0
  · rw [if_pos (show (o.map (denote ext ρ)).minProps ≤ 0 from hm)]
    by_cases hp : o.props = []
    · have := objLoops_nothing (ext := ext) (v := v) (q := o.map (denote ext ρ)) (σ := σ) (P := fun _ => True)
        (fun i a ha => by simp [ObjC.map, hp] at ha)
      rcases this with ⟨h1, -⟩ | ⟨-, h1⟩
      · simp [h1, hm, hp]
      · exact absurd (fun _ _ => trivial) h1
    · have hloop : objLoops ext (o.map (denote ext ρ)) σ ⟨v, [], []⟩ = (.abort .panic, ⟨v, [], []⟩) := by
        unfold objLoops
        cases hs : shuffle (σ.sub 0).key (o.map (denote ext ρ)).props with
        | nil =>
          have := (shuffle_perm (o.map (denote ext ρ)).props (σ.sub 0).key).length_eq
          rw [hs] at this
          simp only [ObjC.map, List.length_map, List.length_nil] at this
          exact absurd (List.length_eq_zero_iff.1 this.symm) hp
        | cons a l => rw [forLoop, hstep]; rfl
      simp [hloop, hp]
  · rw [if_neg (show ¬ (o.map (denote ext ρ)).minProps ≤ 0 from hm)]
    simp [hm]

/-- C95: a Maybe cannot be validated as an object; the call panics. -/
theorem C95_maybe {b : Bool} {m : MaybeVal} (h : Pointee v (.maybe b m)) (σ : Sched) :
    (denote ext ρ (.object o)).val σ v = (.abort .panic, v) := by
  cases h <;> rfl

/-- C95: a `time.Time` counts as an object without properties: it is accepted if no number of properties is asked for and no declared
property is required or has a default. -/
theorem C95_time {t : GoTime} (h : Pointee v (.time t)) (σ : Sched) :
    (denote ext ρ (.object o)).AcceptsBy σ v ↔
      o.minProps ≤ 0 ∧ ∀ p d, (p, d) ∈ o.props → p ∉ o.required ∧ (denote ext ρ d).dflt = .none := by
  have hn : getPropNames (valueOf v).indirect = .ok [] := by cases h <;> rfl
  have hview : ∀ p, viewProp (valueOf v).indirect p = .ok .absent := fun p => by cases h <;> rfl
  have hset : ∀ p dv, setProp ext v p dv = .error (.err (.noField p)) := fun p dv => by cases h <;> rfl
  unfold Sem.AcceptsBy
  rw [denote_object, objectV_nothing hn]
  by_cases hm : o.minProps ≤ 0
  · rw [if_pos (show (o.map (denote ext ρ)).minProps ≤ 0 from hm)]
    have := objLoops_nothing (ext := ext) (v := v) (q := o.map (denote ext ρ)) (σ := σ)
      (P := fun a => a.1 ∉ o.required ∧ a.2.dflt = .none) (fun i a ha => by
        simp only [propStep, hview, ObjC.map]
        by_cases hr : a.1 ∈ o.required
        · exact Or.inr ⟨by simp [hr], fun h => h.1 hr⟩
        · cases hd : a.2.dflt with
          | none => exact Or.inl ⟨by simp [hr], hr, rfl⟩
          | some dv => exact Or.inr ⟨by simp [hset, hr], by simp⟩
          | abort e => exact Or.inr ⟨by simp [hr], by simp⟩)
    have hP : (∀ a ∈ (o.map (denote ext ρ)).props, a.1 ∉ o.required ∧ a.2.dflt = .none) ↔
        ∀ p d, (p, d) ∈ o.props → p ∉ o.required ∧ (denote ext ρ d).dflt = .none := by
      constructor
      · exact fun h p d hp => h (p, denote ext ρ d) (List.mem_map.2 ⟨(p, d), hp, rfl⟩)
      · intro h a ha
        obtain ⟨⟨p, d⟩, hp, rfl⟩ := List.mem_map.1 ha
        exact h p d hp
    rw [hP] at this
    rcases this with ⟨h1, h2⟩ | ⟨h1, h2⟩
    · simp only [h1, true_iff]
      exact ⟨hm, h2⟩
    · simp only [h1, false_iff]
      exact fun h => h2 h.2
  · rw [if_neg (show ¬ (o.map (denote ext ρ)).minProps ≤ 0 from hm)]
    simp [hm]

/-! What an object constraint with a declared property makes of values that are not objects. -/

/-- Declares `a`, without a default. -/
def exDeclares : Constraint := .object (Object'.AddProp (b! "a") .empty)

example : ([fl 1, .str (b! "a"), .nil, .slice false [.nil], .ptr none, .ptr (some (.bool true)), .mapOther false 2,
      .ptr (some (.mapOther false 1))].map fun v => match ((sem0 exDeclares).val sched0 v).1 with | .err _ => true | _ => false) =
    [true, true, true, true, true, true, true, true] := by decide
/-- An empty `map[int]interface{}` is asked for `a`, -/
example : ((sem0 exDeclares).val sched0 (.mapOther false 0)).1 = .abort .panic ∧ ((sem0 (.object Object')).val sched0 (.mapOther false 0)).1 = .ok := by decide
/-- and a `time.Time` has none. -/
example (t : GoTime) : ((sem0 exDeclares).val sched0 (.ptr (some (.time t)))).1 = .ok ∧
    ((sem0 (.object ((Object'.AddProp (b! "a") .empty).Required [b! "a"]))).val sched0 (.time t)).1 = .err (.required (b! "a")) := ⟨rfl, rfl⟩

end Jsval
