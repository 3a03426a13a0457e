import Verif.Lemmas.Policies
import Verif.Props.Arrays
import Verif.Props.Builder
import Verif.Props.NotObjects
import Verif.Spec.Buildable
/-!
# Which values get past an enumeration (C65)

C65 is false as worded. Here is, for scalars, exactly what holds, next to any combinators and references.
-/
namespace Jsval
variable {ext : Ext} {env : Env} {lib : SchemaLib} {m : Nat}

/-- Validation does not change scalars. -/
def scalarPolicy (ext : Ext) : Policy ext where
  I := fun _ => True
  J := fun _ => True
  R := fun v v' => Scalar v → v' = v
  A := fun _ => True
  D := fun _ => True
  K := fun _ _ => True
  refl := fun _ _ => rfl
  trans := fun h h' hs => by
    have e := h hs
    subst e
    exact h' hs
  scalar := fun _ _ _ => trivial
  slice := fun _ _ _ => trivial
  sliceR := fun _ _ => ⟨trivial, fun h => by cases h⟩
  names := fun _ _ _ _ => trivial
  namesA := fun _ _ => trivial
  getA := fun _ _ => trivial
  getI := fun _ _ => trivial
  getK := fun _ _ _ => trivial
  put := fun _ h _ _ => ⟨trivial, (fun hs => by cases hs <;> cases h), fun _ _ => trivial⟩
  set := fun _ _ _ h => ⟨trivial, (fun hs => by cases hs <;> cases h), fun _ _ => trivial⟩
  setA := fun _ _ _ _ => trivial

theorem sem_scalar (fuel : Nat) (c : Constraint) (σ : Sched) {v : GoVal} (hv : Scalar v) : ((sem ext env fuel c).val σ v).2 = v :=
  ((Policy.good_sem (scalarPolicy ext) rfl trivial (fun _ _ _ _ _ _ => local_of_true _ (fun _ => trivial) fun _ _ => trivial)
    (fun _ _ => local_of_true _ (fun _ => trivial) fun _ _ => trivial) fuel).val σ v trivial).2.1 hv

theorem anyLoop_accepts {cs : List Sem} {v : GoVal} (h : ∀ c ∈ cs, c.ReadOnlyOn v) : ∀ {i : Nat} {σ : Sched},
    (anyLoop i cs σ v).1 = .ok → ∃ c ∈ cs, ∃ τ, c.AcceptsBy τ v := by
  induction cs with
  | nil => intro i σ ha; cases ha
  | cons c cs ih =>
    intro i σ ha
    have hc := h c (by simp) (σ.sub i)
    rcases hcv : c.val (σ.sub i) v with ⟨r, v'⟩
    rw [hcv] at hc
    obtain rfl : v' = v := hc
    simp only [anyLoop, hcv] at ha
    cases r with
    | ok => exact ⟨c, by simp, σ.sub i, by unfold Sem.AcceptsBy; rw [hcv]⟩
    | abort a => cases ha
    | err e =>
      obtain ⟨d, hd, h'⟩ := ih (fun c hc => h c (by simp [hc])) ha
      exact ⟨d, by simp [hd], h'⟩

theorem allLoop_accepts {cs : List Sem} {v : GoVal} (h : ∀ c ∈ cs, c.ReadOnlyOn v) : ∀ {i : Nat} {σ : Sched},
    (allLoop i cs σ v).1 = .ok → ∀ c ∈ cs, ∃ τ, c.AcceptsBy τ v := by
  induction cs with
  | nil => intro i σ _ c hc; cases hc
  | cons c cs ih =>
    intro i σ ha d hd
    have hc := h c (by simp) (σ.sub i)
    rcases hcv : c.val (σ.sub i) v with ⟨r, v'⟩
    rw [hcv] at hc
    obtain rfl : v' = v := hc
    simp only [allLoop, hcv] at ha
    cases r with
    | ok =>
      rcases List.mem_cons.1 hd with rfl | hd
      · exact ⟨σ.sub i, by unfold Sem.AcceptsBy; rw [hcv]⟩
      · exact ih (fun c hc => h c (by simp [hc])) ha d hd
    | abort a => cases ha
    | err e => cases ha

section
variable {ρ : RefSem} {v : GoVal} (h : ∀ c, (denote ext ρ c).ReadOnlyOn v)
include h

theorem reduceAny_accepts {cs : List Constraint} {σ : Sched} (ha : (denote ext ρ (reduceAny cs)).AcceptsBy σ v) :
    ∃ c ∈ cs, ∃ τ, (denote ext ρ c).AcceptsBy τ v := by
  obtain ⟨τ, hτ⟩ := accepts_of_same (C05_reduce_preserves ext ρ cs).1 ha
  unfold Sem.AcceptsBy at hτ
  rw [denote, denoteList_eq] at hτ
  obtain ⟨d, hd, h'⟩ := anyLoop_accepts (fun c hc => by obtain ⟨d, -, rfl⟩ := List.mem_map.1 hc; exact h d) hτ
  obtain ⟨c, hc, rfl⟩ := List.mem_map.1 hd
  exact ⟨c, hc, h'⟩

theorem reduceAll_accepts {cs : List Constraint} {σ : Sched} (ha : (denote ext ρ (reduceAll cs)).AcceptsBy σ v) :
    ∀ c ∈ cs, ∃ τ, (denote ext ρ c).AcceptsBy τ v := by
  obtain ⟨τ, hτ⟩ := accepts_of_same (C05_reduce_preserves ext ρ cs).2.1 ha
  unfold Sem.AcceptsBy at hτ
  rw [denote, denoteList_eq] at hτ
  intro c hc
  exact allLoop_accepts (fun c hc => by obtain ⟨d, -, rfl⟩ := List.mem_map.1 hc; exact h d) hτ _ (List.mem_map_of_mem hc)
end

/-- The value is in the list, or it is an integer that is equal to a float64 in the list. -/
def Listed (l : List GoVal) (v : GoVal) : Prop :=
  (∃ e ∈ l, SameGo e v) ∨ ∃ f g, IntView v f ∧ .float .f64 g ∈ l ∧ F64.Eq g f

theorem target_scalar {v x : GoVal} (hv : Scalar v) (h : Target v x) : x = v := by
  cases hv <;> (cases h; rfl)

theorem mem_builtTypes {s : SchemaF Schema} {t : PrimType} :
    t ∈ schemaTypes lib (s.map (build lib m)) ↔ s.Treats lib.formats t := by
  unfold schemaTypes sortTypes SchemaF.Treats
  rw [(List.perm_insertionSort _ _).mem_iff]
  have e : (s.map (build lib m)).type = s.type := rfl
  rw [e, guess_map]
  by_cases hs : s.type = []
  · simp [hs, mem_guess]
  · rw [if_pos (List.length_pos_iff.2 hs)]
    simp [hs]

/-- C65: next to an enumeration, whatever else the schema says, every accepted scalar is listed, except for booleans if the schema is
for booleans, and null if it is for null. -/
theorem C65_accepted {s : SchemaF Schema} {c : Constraint} (hr : s.reference = []) (he : s.enum ≠ [])
    (hb : BuiltFrom lib m (.mk s) c) {fuel : Nat} {σ : Sched} {v : GoVal} (hv : Scalar v) (ha : (sem ext env fuel c).AcceptsBy σ v) :
    Listed s.enum v ∨ ((∃ b, v = .bool b) ∧ s.Treats lib.formats .boolean) ∨ (v = .nil ∧ s.Treats lib.formats .null) := by
  obtain ⟨R, hnode⟩ := node_of_build hb
  have hro : ∀ c, (denote ext (refSem ext env fuel) c).ReadOnlyOn v := fun c σ => sem_scalar (env := env) fuel c σ hv
  have ha' : (denote ext (refSem ext env fuel) c).AcceptsBy σ v := ha
  cases hnode with
  | ref h => exact absurd hr h
  | plain _ _ _ h => exact absurd h he
  | enum _ hc =>
    obtain ⟨τ, h⟩ := reduceAll_accepts hro ha' (.enum s.enum) (List.mem_append_right _ (List.mem_singleton.2 rfl))
    exact .inl (.inl ((C09_enum_exact ext _ τ s.enum v hv).1.1 h))
  | @typed ct cs _ hc _ hts =>
    obtain ⟨τ, h⟩ := reduceAll_accepts hro ha' (reduceAny cs) (by simp)
    obtain ⟨d, hd, τ, h⟩ := reduceAny_accepts hro h
    obtain ⟨t, ht, hb⟩ := forall2_right hts d hd
    rw [mem_builtTypes] at ht
    have he' : (s.map (build lib m)).enum ≠ [] := he
    cases hb with
    | string =>
      rw [C10_string_exact] at h
      obtain ⟨t, h1, h2⟩ := h
      cases target_scalar hv h1
      exact .inl (.inl ⟨_, h2.enums _ (stringOf_enums _ he'), .str _⟩)
    | integer =>
      rw [C18_integer_exact] at h
      obtain ⟨x, f, h1, h2, h3⟩ := h
      cases target_scalar hv h1
      obtain ⟨g, h4, h5⟩ := h3.enums _ (integerOf_enums _ he')
      exact .inl (.inr ⟨f, g, h2, h4, h5⟩)
    | number =>
      rw [C16_number_exact] at h
      obtain ⟨x, f, h1, h2⟩ := h
      obtain ⟨g, h4, h5⟩ := h2.enums [.slice false s.enum] (by
        have : 0 < (s.map (build lib m)).enum.length := List.length_pos_iff.2 he
        unfold numberOf
        simp only [this, if_true]
        split <;> rfl)
      simp at h4
    | booleanDflt => exact .inr (.inl ⟨(C08_boolean_exact ext _ τ _ v).1 h, ht⟩)
    | boolean => exact .inr (.inl ⟨(C08_boolean_exact ext _ τ _ v).1 h, ht⟩)
    | null =>
      refine .inr (.inr ⟨?_, ht⟩)
      rw [C07_null_exact] at h
      cases hv <;> first | rfl | cases h
    | array =>
      exfalso
      unfold Sem.AcceptsBy at h
      rw [C22_only_slices _ _ _ _ _ (fun n xs e => by subst e; cases hv)] at h
      cases h
    | object =>
      exfalso
      obtain ⟨e, h'⟩ := C95_kind (ext := ext) (ρ := refSem ext env fuel) (o := _) (.here v) (by cases hv <;> trivial) τ
      unfold Sem.AcceptsBy at h
      rw [h'] at h
      cases h

theorem anyLoop_some {cs : List Sem} {v : GoVal} (h : ∀ c ∈ cs, ∀ τ, (c.val τ v).2 = v ∧ ∀ a, (c.val τ v).1 ≠ .abort a)
    {c : Sem} (hc : c ∈ cs) (ha : ∀ τ, c.AcceptsBy τ v) : ∀ {i : Nat} {σ : Sched}, (anyLoop i cs σ v).1 = .ok := by
  induction cs with
  | nil => cases hc
  | cons d cs ih =>
    intro i σ
    obtain ⟨h1, h2⟩ := h d (by simp) (σ.sub i)
    have ha' := ha (σ.sub i)
    unfold Sem.AcceptsBy at ha'
    rcases hdv : d.val (σ.sub i) v with ⟨r, v'⟩
    rw [hdv] at h1 h2
    obtain rfl : v' = v := h1
    simp only [anyLoop, hdv]
    cases r with
    | ok => rfl
    | abort a => exact absurd rfl (h2 a)
    | err e =>
      rcases List.mem_cons.1 hc with rfl | hc
      · rw [hdv] at ha'; cases ha'
      · exact ih (fun c hc => h c (by simp [hc])) hc

/-- C65: … and these exceptions are real. A schema without combinators accepts all booleans if it is for booleans, and null if it is
for null, whatever the enumeration. -/
theorem C65_unlisted {s : SchemaF Schema} {c : Constraint} (hr : s.reference = [])
    (hn : s.not = none) (h1 : s.allOf = []) (h2 : s.anyOf = []) (h3 : s.oneOf = [])
    (hb : BuiltFrom lib m (.mk s) c) {fuel : Nat} {σ : Sched} {v : GoVal}
    (hv : (∃ b, v = .bool b) ∧ s.Treats lib.formats .boolean ∨ v = .nil ∧ s.Treats lib.formats .null) :
    (sem ext env fuel c).AcceptsBy σ v := by
  obtain ⟨R, hnode⟩ := node_of_build hb
  have hs : Scalar v := by rcases hv with ⟨⟨b, rfl⟩, -⟩ | ⟨rfl, -⟩ <;> constructor
  have hcombo : ∀ ct, ComboBuilt (fun a _ c => BuiltBy a c) R (s.map (build lib m)) ct → ct = [] := by
    intro ct h
    cases h with
    | not h => simp [SchemaF.map, hn] at h
    | allOf _ h => simp [SchemaF.map, h1] at h
    | anyOf _ _ h => simp [SchemaF.map, h2] at h
    | oneOf _ _ _ h => simp [SchemaF.map, h3] at h
    | none => rfl
  have hno : schemaTypes lib (s.map (build lib m)) = [] → False := by
    intro h
    rcases hv with ⟨-, ht⟩ | ⟨-, ht⟩ <;> (rw [← mem_builtTypes (m := m), h] at ht; cases ht)
  cases hnode with
  | ref h => exact absurd hr h
  | plain _ _ h => exact absurd h hno
  | enum _ _ h => exact absurd h hno
  | @typed ct cs _ hc _ hts =>
    rw [hcombo _ hc]
    show (denote ext (refSem ext env fuel) (reduceAny cs)).AcceptsBy σ v
    obtain ⟨d, hd, hda⟩ : ∃ d ∈ cs, ∀ τ, (denote ext (refSem ext env fuel) d).AcceptsBy τ v := by
      rcases hv with ⟨⟨b, rfl⟩, ht⟩ | ⟨rfl, ht⟩ <;> rw [← mem_builtTypes (m := m)] at ht <;>
        obtain ⟨d, hd, hb⟩ := forall2_left hts _ ht
      · cases hb <;> exact ⟨_, hd, fun τ => (C08_boolean_exact ext _ τ _ _).2 ⟨b, rfl⟩⟩
      · cases hb; exact ⟨_, hd, fun τ => rfl⟩
    have hok : ∀ d ∈ cs, ∀ τ a, ((denote ext (refSem ext env fuel) d).val τ v).1 ≠ .abort a := by
      intro d hd τ a
      obtain ⟨t, ht, hb⟩ := forall2_right hts d hd
      cases hb with
      | array =>
        rw [C22_only_slices _ _ _ _ _ (fun n xs e => by subst e; cases hs)]
        intro h; cases h
      | object =>
        obtain ⟨e, h'⟩ := C95_kind (ext := ext) (ρ := refSem ext env fuel) (o := _) (.here v) (by cases hs <;> trivial) τ
        rw [h']
        intro h; cases h
      | _ => rcases hv with ⟨⟨b, rfl⟩, -⟩ | ⟨rfl, -⟩ <;> (intro h; cases h)
    have key : ∀ τ, (denote ext (refSem ext env fuel) (.any cs)).AcceptsBy τ v := by
      intro τ
      unfold Sem.AcceptsBy
      rw [denote, denoteList_eq]
      refine anyLoop_some (fun c hc τ => ?_) (List.mem_map_of_mem hd) hda
      obtain ⟨d, hd, rfl⟩ := List.mem_map.1 hc
      exact ⟨sem_scalar (env := env) fuel d τ hs, hok d hd τ⟩
    by_cases h1 : ∃ d', cs = [d']
    · obtain ⟨d', rfl⟩ := h1
      simp only [List.mem_singleton] at hd
      subst hd
      exact hda σ
    · have : reduceAny cs = .any cs := by
        unfold reduceAny reduceCombined
        split
        · exact absurd ⟨_, rfl⟩ h1
        · rfl
      rw [this]
      exact key σ

/-- The schema `{"type": ["integer", "boolean"], "enum": [1, true], "anyOf": [{"type": "integer"}, {"type": "boolean"}]}`. -/
def exListed : SchemaF Schema :=
  { type := [.integer, .boolean], enum := [fl 1, .bool true],
    anyOf := [.mk { type := [.integer] }, .mk { type := [.boolean] }] }

/-- What is built for it. -/
def exListedC : Constraint :=
  .all [.any [.integer Number', .boolean none], .any [.integer (Number'.Enum [fl 1, .bool true]), .boolean none]]

theorem exListed_built : BuiltFrom lib0 0 (.mk exListed) exListedC := ⟨sched0, [], [], by rfl⟩

/-- It accepts 1, which is listed, and false, which is not. -/
example : exListed.reference = [] ∧ exListed.enum ≠ [] ∧ (sem demoExt env0 1 exListedC).AcceptsBy sched0 (.int .int 1) ∧
    (sem demoExt env0 1 exListedC).AcceptsBy sched0 (.bool false) ∧ ¬ (sem demoExt env0 1 exListedC).AcceptsBy sched0 (.int .int 2) ∧
    exListed.Treats lib0.formats .boolean :=
  ⟨rfl, by simp [exListed], by unfold Sem.AcceptsBy; decide +kernel, by unfold Sem.AcceptsBy; decide +kernel,
    by unfold Sem.AcceptsBy; decide +kernel, by simp [SchemaF.Treats, exListed]⟩

/-- So each scalar it accepts is 1, true, or a boolean. -/
example (fuel : Nat) (σ : Sched) (v : GoVal) (hv : Scalar v) (h : (sem demoExt env0 fuel exListedC).AcceptsBy σ v) :
    Listed exListed.enum v ∨ ∃ b, v = .bool b := by
  rcases C65_accepted rfl (by simp [exListed]) exListed_built hv h with h | h | ⟨-, h⟩
  · exact .inl h
  · exact .inr h.1
  · exfalso
    simp [SchemaF.Treats, exListed] at h

/-- `{"type": ["integer", "null"], "enum": [1]}` accepts null. -/
example (fuel : Nat) (σ : Sched) :
    (sem demoExt env0 fuel (.any [.null, .integer (Number'.Enum [fl 1])])).AcceptsBy σ .nil :=
  C65_unlisted (lib := lib0) (m := 0) (s := { type := [.integer, .null], enum := [fl 1] }) rfl rfl rfl rfl rfl
    ⟨sched0, [], [], by rfl⟩ (.inr ⟨rfl, by simp [SchemaF.Treats]⟩)

end Jsval
