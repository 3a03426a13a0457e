import Verif.Spec.Buildable
import Verif.Lemmas.BuilderTypes
import Verif.Lemmas.BuilderRefs
/-!
# Which schemas can be built
-/
namespace Jsval

/-- The computation always succeeds, and adds the names `U`. -/
def Does {α : Type} (x : BM α) (U : GoStr → Prop) : Prop :=
  ∀ R, ∃ a R', x R = .ok (a, R') ∧ ∀ n, n ∈ R' ↔ n ∈ R ∨ U n

/-- The computation never succeeds. -/
def Fails {α : Type} (x : BM α) : Prop := ∀ R a R', x R ≠ .ok (a, R')

theorem Does.congr {α : Type} {x : BM α} {U U' : GoStr → Prop} (h : Does x U) (hu : ∀ n, U n ↔ U' n) : Does x U' := by
  intro R
  obtain ⟨a, R', h1, h2⟩ := h R
  exact ⟨a, R', h1, fun n => by rw [h2, hu]⟩

theorem does_pure {α : Type} (a : α) : Does (pure a : BM α) (fun _ => False) := fun R => ⟨a, R, rfl, by simp⟩

theorem does_bind {α β : Type} {x : BM α} {f : α → BM β} {U U' : GoStr → Prop} (h : Does x U) (hf : ∀ a, Does (f a) U') :
    Does (x >>= f) (fun n => U n ∨ U' n) := by
  intro R
  obtain ⟨a, R1, h1, h2⟩ := h R
  obtain ⟨b, R2, h3, h4⟩ := hf a R1
  exact ⟨b, R2, bm_bind.2 ⟨a, R1, h1, h3⟩, fun n => by rw [h4, h2, or_assoc]⟩

theorem does_map {α β : Type} {x : BM α} {f : α → β} {U : GoStr → Prop} (h : Does x U) :
    Does (x >>= fun a => pure (f a)) U := (does_bind h (fun a => does_pure (f a))).congr (by simp)

theorem fails_left {α β : Type} {x : BM α} {f : α → BM β} (h : Fails x) : Fails (x >>= f) := by
  intro R b R' he
  obtain ⟨a, R1, h1, -⟩ := bm_bind.1 he
  exact h R a R1 h1

theorem fails_right {α β : Type} {x : BM α} {f : α → BM β} (h : ∀ a, Fails (f a)) : Fails (x >>= f) := by
  intro R b R' he
  obtain ⟨a, R1, -, h2⟩ := bm_bind.1 he
  exact h a R1 b R' h2

theorem fails_throw {α : Type} (e : BuildStop) : Fails (throw e : BM α) := fun _ _ _ h => bm_throw.1 h

section
variable {α : Type} {g : α → Act} {U : α → GoStr → Prop}

theorem buildList_does {σ : Sched} : ∀ {l : List α} {i : Nat}, (∀ a ∈ l, ∀ σ, Does (g a σ) (U a)) →
    Does (buildList σ i (l.map g)) (fun n => ∃ a ∈ l, U a n)
  | [], i, _ => (does_pure _).congr (by simp)
  | a :: l, i, h => by
    rw [List.map_cons, buildList]
    exact (does_bind (h a (by simp) _) (fun c => does_map (buildList_does (fun b hb => h b (by simp [hb]))))).congr (by simp)

theorem buildList_fails {σ : Sched} : ∀ {l : List α} {i : Nat}, (∃ a ∈ l, ∀ σ, Fails (g a σ)) → Fails (buildList σ i (l.map g))
  | [], i, h => by simp at h
  | a :: l, i, ⟨b, hb, h⟩ => by
    rw [List.map_cons, buildList]
    rcases List.mem_cons.1 hb with rfl | hb
    · exact fails_left (h _)
    · exact fails_right (fun _ => fails_left (buildList_fails ⟨b, hb, h⟩))

theorem buildProps_does {σ : Sched} : ∀ {l : List (GoStr × α)} {i : Nat} {o : ObjC Constraint}, (∀ p ∈ l, ∀ σ, Does (g p.2 σ) (U p.2)) →
    Does (buildProps σ i (l.map (fun p => (p.1, g p.2))) o) (fun n => ∃ p ∈ l, U p.2 n)
  | [], i, o, _ => (does_pure _).congr (by simp)
  | a :: l, i, o, h => by
    rw [List.map_cons, buildProps]
    exact (does_bind (h a (by simp) _) (fun c => buildProps_does (fun b hb => h b (by simp [hb])))).congr (by simp)

theorem buildProps_fails {σ : Sched} : ∀ {l : List (GoStr × α)} {i : Nat} {o : ObjC Constraint}, (∃ p ∈ l, ∀ σ, Fails (g p.2 σ)) →
    Fails (buildProps σ i (l.map (fun p => (p.1, g p.2))) o)
  | [], i, o, h => by simp at h
  | a :: l, i, o, ⟨b, hb, h⟩ => by
    rw [List.map_cons, buildProps]
    rcases List.mem_cons.1 hb with rfl | hb
    · exact fails_left (h _)
    · exact fails_right (fun _ => buildProps_fails ⟨b, hb, h⟩)

theorem buildDeps_does {σ : Sched} : ∀ {l : List (GoStr × α)} {i : Nat} {o : ObjC Constraint}, (∀ p ∈ l, ∀ σ, Does (g p.2 σ) (U p.2)) →
    Does (buildDeps σ i (l.map (fun p => (p.1, g p.2))) o) (fun n => ∃ p ∈ l, U p.2 n)
  | [], i, o, _ => (does_pure _).congr (by simp)
  | a :: l, i, o, h => by
    rw [List.map_cons, buildDeps]
    exact (does_bind (h a (by simp) _) (fun c => buildDeps_does (fun b hb => h b (by simp [hb])))).congr (by simp)

theorem buildDeps_fails {σ : Sched} : ∀ {l : List (GoStr × α)} {i : Nat} {o : ObjC Constraint}, (∃ p ∈ l, ∀ σ, Fails (g p.2 σ)) →
    Fails (buildDeps σ i (l.map (fun p => (p.1, g p.2))) o)
  | [], i, o, h => by simp at h
  | a :: l, i, o, ⟨b, hb, h⟩ => by
    rw [List.map_cons, buildDeps]
    rcases List.mem_cons.1 hb with rfl | hb
    · exact fails_left (h _)
    · exact fails_right (fun _ => buildDeps_fails ⟨b, hb, h⟩)

theorem buildPats_does {σ : Sched} : ∀ {l : List (Nat × GoStr × α)} {i : Nat} {o : ObjC Constraint}, (∀ p ∈ l, ∀ σ, Does (g p.2.2 σ) (U p.2.2)) →
    Does (buildPats σ i (l.map (fun p => (p.1, p.2.1, g p.2.2))) o) (fun n => ∃ p ∈ l, U p.2.2 n)
  | [], i, o, _ => (does_pure _).congr (by simp)
  | a :: l, i, o, h => by
    rw [List.map_cons, buildPats]
    exact (does_bind (h a (by simp) _) (fun c => buildPats_does (fun b hb => h b (by simp [hb])))).congr (by simp)

theorem buildPats_fails {σ : Sched} : ∀ {l : List (Nat × GoStr × α)} {i : Nat} {o : ObjC Constraint}, (∃ p ∈ l, ∀ σ, Fails (g p.2.2 σ)) →
    Fails (buildPats σ i (l.map (fun p => (p.1, p.2.1, g p.2.2))) o)
  | [], i, o, h => by simp at h
  | a :: l, i, o, ⟨b, hb, h⟩ => by
    rw [List.map_cons, buildPats]
    rcases List.mem_cons.1 hb with rfl | hb
    · exact fails_left (h _)
    · exact fails_right (fun _ => buildPats_fails ⟨b, hb, h⟩)
end

theorem mem_schemaTypes_treats {S : Type} {lib : SchemaLib} {s : SchemaF S} {t : PrimType} : t ∈ schemaTypes lib s ↔ s.Treats lib.formats t := by
  unfold schemaTypes sortTypes SchemaF.Treats
  rw [List.mem_insertionSort]
  by_cases h : s.type = []
  · simp [h, mem_guess]
  · have : 0 < s.type.length := List.length_pos_iff.2 h
    simp [h, this]

theorem treats_map {α β : Type} {lib : SchemaLib} {s : SchemaF α} {g : α → β} {t : PrimType} :
    (s.map g).Treats lib.formats t ↔ s.Treats lib.formats t := by
  unfold SchemaF.Treats
  rw [suggests_map]
  rfl

section
variable {α : Type} {g : α → Act} {U : α → GoStr → Prop} {s : SchemaF α}

/-- Sub-schemas used for arrays. -/
inductive ArrUses (s : SchemaF α) : α → Prop where
  | items {c l} : s.items = .list (c :: l) → ArrUses s c
  | tuple {c l} : s.items = .tuple l → c ∈ l → ArrUses s c
  | additional {c l} : s.items = .tuple l → s.additionalItems = .schema c → ArrUses s c

/-- Sub-schemas used for objects. -/
inductive ObjUses (s : SchemaF α) : α → Prop where
  | property {n c} : (n, c) ∈ s.properties → ObjUses s c
  | patternProp {i n c} : (i, n, c) ∈ s.patternProps → ObjUses s c
  | additional {c} : s.additionalProps = .schema c → ObjUses s c
  | dependency {n c} : (n, c) ∈ s.depSchemas → ObjUses s c

/-- Sub-schemas used as operands of combinators. -/
inductive ComboUses (s : SchemaF α) : α → Prop where
  | not {c} : s.not = some c → ComboUses s c
  | allOf {c} : s.not = none → c ∈ s.allOf → ComboUses s c
  | anyOf {c} : s.not = none → s.allOf = [] → c ∈ s.anyOf → ComboUses s c
  | oneOf {c} : s.not = none → s.allOf = [] → s.anyOf = [] → c ∈ s.oneOf → ComboUses s c

theorem buildArray_does {σ : Sched} (hn : s.items ≠ .list []) (h : ∀ a, ArrUses s a → ∀ σ, Does (g a σ) (U a)) :
    Does (buildArray (s.map g) σ) (fun n => ∃ a, ArrUses s a ∧ U a n) := by
  unfold buildArray
  refine does_map ?_
  simp only [SchemaF.map]
  cases hi : s.items with
  | nil =>
    refine (does_pure _).congr (fun n => ⟨False.elim, ?_⟩)
    rintro ⟨a, hu, -⟩
    cases hu with
    | items e => rw [hi] at e; cases e
    | tuple e => rw [hi] at e; cases e
    | additional e => rw [hi] at e; cases e
  | list l =>
    cases l with
    | nil => exact absurd hi hn
    | cons a l =>
      refine (does_map (h a (.items hi) _)).congr (fun n => ⟨fun hu => ⟨a, .items hi, hu⟩, ?_⟩)
      rintro ⟨b, hu, hb⟩
      cases hu with
      | items e => rw [hi] at e; cases e; exact hb
      | tuple e => rw [hi] at e; cases e
      | additional e => rw [hi] at e; cases e
  | tuple l =>
    have hl := fun σ i => buildList_does (g := g) (U := U) (σ := σ) (i := i) (l := l) (fun a ha => h a (.tuple hi ha))
    simp only [ItemSpec.map]
    cases ha : s.additionalItems with
    | schema c =>
      simp only [Extra.map]
      refine (does_bind (hl _ _) (fun _ => does_map (h c (.additional hi ha) _))).congr (fun n => ⟨?_, ?_⟩)
      · rintro (⟨a, h1, h2⟩ | h1)
        · exact ⟨a, .tuple hi h1, h2⟩
        · exact ⟨c, .additional hi ha, h1⟩
      · rintro ⟨b, hu, hb⟩
        cases hu with
        | items e => rw [hi] at e; cases e
        | tuple e h1 => rw [hi] at e; cases e; exact .inl ⟨b, h1, hb⟩
        | additional e h1 => rw [ha] at h1; cases h1; exact .inr hb
    | nil =>
      simp only [Extra.map]
      refine (does_map (hl _ _)).congr (fun n => ⟨fun ⟨a, h1, h2⟩ => ⟨a, .tuple hi h1, h2⟩, ?_⟩)
      rintro ⟨b, hu, hb⟩
      cases hu with
      | items e => rw [hi] at e; cases e
      | tuple e h1 => rw [hi] at e; cases e; exact ⟨b, h1, hb⟩
      | additional e h1 => rw [ha] at h1; cases h1
    | allow =>
      simp only [Extra.map]
      refine (does_map (hl _ _)).congr (fun n => ⟨fun ⟨a, h1, h2⟩ => ⟨a, .tuple hi h1, h2⟩, ?_⟩)
      rintro ⟨b, hu, hb⟩
      cases hu with
      | items e => rw [hi] at e; cases e
      | tuple e h1 => rw [hi] at e; cases e; exact ⟨b, h1, hb⟩
      | additional e h1 => rw [ha] at h1; cases h1

theorem buildArray_fails {σ : Sched} (h : s.items = .list [] ∨ ∃ a, ArrUses s a ∧ ∀ σ, Fails (g a σ)) :
    Fails (buildArray (s.map g) σ) := by
  unfold buildArray
  refine fails_left ?_
  simp only [SchemaF.map]
  rcases h with h | ⟨a, hu, h⟩
  · rw [h]
    exact fails_throw _
  · cases hu with
    | items e => rw [e]; exact fails_left (h _)
    | tuple e ha =>
      rw [e]
      exact fails_left (buildList_fails ⟨a, ha, h⟩)
    | additional e ha =>
      rw [e, ha]
      exact fails_right (fun _ => fails_left (h _))

theorem buildObject_does {σ : Sched} (h : ∀ a, ObjUses s a → ∀ σ, Does (g a σ) (U a)) :
    Does (buildObject (s.map g) σ) (fun n => ∃ a, ObjUses s a ∧ U a n) := by
  unfold buildObject
  simp only [SchemaF.map, shuffle_map]
  have h1 := fun σ i o k => buildProps_does (g := g) (U := U) (σ := σ) (i := i) (o := o) (l := shuffle k s.properties)
    (fun p hp => h p.2 (.property (mem_shuffle.1 hp)))
  have h2 := fun σ i o k => buildPats_does (g := g) (U := U) (σ := σ) (i := i) (o := o) (l := shuffle k s.patternProps)
    (fun p hp => h p.2.2 (.patternProp (mem_shuffle.1 hp)))
  have h4 := fun σ i o k => buildDeps_does (g := g) (U := U) (σ := σ) (i := i) (o := o) (l := shuffle k s.depSchemas)
    (fun p hp => h p.2 (.dependency (mem_shuffle.1 hp)))
  cases ha : s.additionalProps with
  | schema c =>
    simp only [Extra.map]
    refine (does_bind (h1 _ _ _ _) (fun _ => does_bind (h2 _ _ _ _) (fun _ => does_bind (does_map (h c (.additional ha) _))
      (fun _ => does_map (h4 _ _ _ _))))).congr (fun n => ⟨?_, ?_⟩)
    · rintro (⟨p, hp, hu⟩ | ⟨p, hp, hu⟩ | hu | ⟨p, hp, hu⟩)
      · exact ⟨_, .property (mem_shuffle.1 hp), hu⟩
      · exact ⟨_, .patternProp (mem_shuffle.1 hp), hu⟩
      · exact ⟨_, .additional ha, hu⟩
      · exact ⟨_, .dependency (mem_shuffle.1 hp), hu⟩
    · rintro ⟨b, hu, hb⟩
      cases hu with
      | property e => exact .inl ⟨_, mem_shuffle.2 e, hb⟩
      | patternProp e => exact .inr (.inl ⟨_, mem_shuffle.2 e, hb⟩)
      | additional e => rw [ha] at e; cases e; exact .inr (.inr (.inl hb))
      | dependency e => exact .inr (.inr (.inr ⟨_, mem_shuffle.2 e, hb⟩))
  | nil =>
    simp only [Extra.map]
    refine (does_bind (h1 _ _ _ _) (fun _ => does_bind (h2 _ _ _ _) (fun _ => does_bind (does_pure _)
      (fun _ => does_map (h4 _ _ _ _))))).congr (fun n => ⟨?_, ?_⟩)
    · rintro (⟨p, hp, hu⟩ | ⟨p, hp, hu⟩ | hu | ⟨p, hp, hu⟩)
      · exact ⟨_, .property (mem_shuffle.1 hp), hu⟩
      · exact ⟨_, .patternProp (mem_shuffle.1 hp), hu⟩
      · exact hu.elim
      · exact ⟨_, .dependency (mem_shuffle.1 hp), hu⟩
    · rintro ⟨b, hu, hb⟩
      cases hu with
      | property e => exact .inl ⟨_, mem_shuffle.2 e, hb⟩
      | patternProp e => exact .inr (.inl ⟨_, mem_shuffle.2 e, hb⟩)
      | additional e => rw [ha] at e; cases e
      | dependency e => exact .inr (.inr (.inr ⟨_, mem_shuffle.2 e, hb⟩))
  | allow =>
    simp only [Extra.map]
    refine (does_bind (h1 _ _ _ _) (fun _ => does_bind (h2 _ _ _ _) (fun _ => does_bind (does_pure _)
      (fun _ => does_map (h4 _ _ _ _))))).congr (fun n => ⟨?_, ?_⟩)
    · rintro (⟨p, hp, hu⟩ | ⟨p, hp, hu⟩ | hu | ⟨p, hp, hu⟩)
      · exact ⟨_, .property (mem_shuffle.1 hp), hu⟩
      · exact ⟨_, .patternProp (mem_shuffle.1 hp), hu⟩
      · exact hu.elim
      · exact ⟨_, .dependency (mem_shuffle.1 hp), hu⟩
    · rintro ⟨b, hu, hb⟩
      cases hu with
      | property e => exact .inl ⟨_, mem_shuffle.2 e, hb⟩
      | patternProp e => exact .inr (.inl ⟨_, mem_shuffle.2 e, hb⟩)
      | additional e => rw [ha] at e; cases e
      | dependency e => exact .inr (.inr (.inr ⟨_, mem_shuffle.2 e, hb⟩))

theorem buildObject_fails {σ : Sched} (h : ∃ a, ObjUses s a ∧ ∀ σ, Fails (g a σ)) : Fails (buildObject (s.map g) σ) := by
  unfold buildObject
  simp only [SchemaF.map, shuffle_map]
  obtain ⟨a, hu, h⟩ := h
  cases hu with
  | property e => exact fails_left (buildProps_fails ⟨_, mem_shuffle.2 e, h⟩)
  | patternProp e => exact fails_right (fun _ => fails_left (buildPats_fails ⟨_, mem_shuffle.2 e, h⟩))
  | additional e =>
    rw [e]
    exact fails_right (fun _ => fails_right (fun _ => fails_left (fails_left (h _))))
  | dependency e => exact fails_right (fun _ => fails_right (fun _ => fails_right (fun _ => fails_left (buildDeps_fails ⟨_, mem_shuffle.2 e, h⟩))))

theorem buildCombo_does {σ : Sched} (h : ∀ a, ComboUses s a → ∀ σ, Does (g a σ) (U a)) :
    Does (buildCombo (s.map g) σ) (fun n => ∃ a, ComboUses s a ∧ U a n) := by
  unfold buildCombo
  simp only [SchemaF.map]
  cases hn : s.not with
  | some c =>
    refine (does_map (h c (.not hn) _)).congr (fun n => ⟨fun hu => ⟨c, .not hn, hu⟩, ?_⟩)
    rintro ⟨b, hu, hb⟩
    cases hu <;> simp_all
  | none =>
    simp only [Option.map_none, List.length_map]
    split_ifs with h1 h2 h3
    · refine (does_map (buildList_does (fun a ha => h a (.allOf hn ha)))).congr (fun n => ⟨fun ⟨a, h1, h2⟩ => ⟨a, .allOf hn h1, h2⟩, ?_⟩)
      rintro ⟨b, hu, hb⟩
      cases hu <;> simp_all
      exact ⟨b, by assumption, hb⟩
    · have h1 : s.allOf = [] := by simpa using h1
      refine (does_map (buildList_does (fun a ha => h a (.anyOf hn h1 ha)))).congr (fun n => ⟨fun ⟨a, h3, h2⟩ => ⟨a, .anyOf hn h1 h3, h2⟩, ?_⟩)
      rintro ⟨b, hu, hb⟩
      cases hu <;> simp_all
      exact ⟨b, by assumption, hb⟩
    · have h1 : s.allOf = [] := by simpa using h1
      have h2 : s.anyOf = [] := by simpa using h2
      refine (does_map (buildList_does (fun a ha => h a (.oneOf hn h1 h2 ha)))).congr (fun n => ⟨fun ⟨a, h3, h4⟩ => ⟨a, .oneOf hn h1 h2 h3, h4⟩, ?_⟩)
      rintro ⟨b, hu, hb⟩
      cases hu <;> simp_all
      exact ⟨b, by assumption, hb⟩
    · refine (does_pure _).congr (fun n => ⟨False.elim, ?_⟩)
      rintro ⟨b, hu, hb⟩
      cases hu <;> simp_all

theorem buildCombo_fails {σ : Sched} (h : ∃ a, ComboUses s a ∧ ∀ σ, Fails (g a σ)) : Fails (buildCombo (s.map g) σ) := by
  obtain ⟨a, hu, h⟩ := h
  have pos : ∀ {l : List α}, a ∈ l → 0 < (l.map g).length := fun ha => by
    rw [List.length_map]; exact List.length_pos_of_mem ha
  unfold buildCombo
  cases hu with
  | not e =>
    rw [show (s.map g).not = some (g a) by simp [SchemaF.map, e]]
    exact fails_left (h _)
  | allOf e ha =>
    rw [show (s.map g).not = none by simp [SchemaF.map, e]]
    simp only []
    rw [if_pos (show 0 < (s.map g).allOf.length from pos ha)]
    exact fails_left (buildList_fails ⟨a, ha, h⟩)
  | anyOf e e1 ha =>
    rw [show (s.map g).not = none by simp [SchemaF.map, e]]
    simp only []
    rw [if_neg (show ¬ 0 < (s.map g).allOf.length by simp [SchemaF.map, e1]), if_pos (show 0 < (s.map g).anyOf.length from pos ha)]
    exact fails_left (buildList_fails ⟨a, ha, h⟩)
  | oneOf e e1 e2 ha =>
    rw [show (s.map g).not = none by simp [SchemaF.map, e]]
    simp only []
    rw [if_neg (show ¬ 0 < (s.map g).allOf.length by simp [SchemaF.map, e1]), if_neg (show ¬ 0 < (s.map g).anyOf.length by simp [SchemaF.map, e2]),
      if_pos (show 0 < (s.map g).oneOf.length from pos ha)]
    exact fails_left (buildList_fails ⟨a, ha, h⟩)

/-- Sub-schemas used for a type. -/
def TypeUses (s : SchemaF α) (t : PrimType) (a : α) : Prop := t = .array ∧ ArrUses s a ∨ t = .object ∧ ObjUses s a

/-- The type can be built, sub-schemas aside. -/
def TypeOk (s : SchemaF α) (t : PrimType) : Prop := t.Known ∧ (t = .array → s.items ≠ .list [])

theorem buildType_does {σ : Sched} {t : PrimType} (hl : s.type = [] ∨ t ∈ s.type) (ht : TypeOk s t)
    (h : ∀ a, TypeUses s t a → ∀ σ, Does (g a σ) (U a)) : Does (buildType (s.map g) σ t) (fun n => ∃ a, TypeUses s t a ∧ U a n) := by
  have hno : ¬ (0 < s.type.length ∧ t ∉ s.type) := by
    rintro ⟨h1, h2⟩
    rcases hl with hl | hl
    · simp [hl] at h1
    · exact h2 hl
  have leaf : ∀ c : Constraint, t ≠ .array → t ≠ .object → Does (pure c : BM Constraint) (fun n => ∃ a, TypeUses s t a ∧ U a n) := by
    intro c h1 h2
    refine (does_pure c).congr (fun n => ⟨False.elim, ?_⟩)
    rintro ⟨a, ⟨e, -⟩ | ⟨e, -⟩, -⟩
    · exact h1 e
    · exact h2 e
  cases t with
  | string => rw [buildType, buildString, if_neg (by exact hno)]; exact leaf _ (by simp) (by simp)
  | number => rw [buildType, buildNumber, if_neg (by exact hno)]; exact leaf _ (by simp) (by simp)
  | integer => rw [buildType, buildInteger, if_neg (by exact hno)]; exact leaf _ (by simp) (by simp)
  | boolean => rw [buildType, buildBoolean]; split <;> exact leaf _ (by simp) (by simp)
  | null => rw [buildType]; exact leaf _ (by simp) (by simp)
  | array =>
    rw [buildType]
    exact (buildArray_does (ht.2 rfl) (fun a ha => h a (.inl ⟨rfl, ha⟩))).congr (fun n => by simp [TypeUses])
  | object =>
    rw [buildType]
    exact (buildObject_does (fun a ha => h a (.inr ⟨rfl, ha⟩))).congr (fun n => by simp [TypeUses])
  | unspecified => exact absurd ht.1 (by simp [PrimType.Known])
  | other n => exact absurd ht.1 (by simp [PrimType.Known])

theorem buildType_fails {σ : Sched} {t : PrimType} (h : ¬ TypeOk s t ∨ ∃ a, TypeUses s t a ∧ ∀ σ, Fails (g a σ)) :
    Fails (buildType (s.map g) σ t) := by
  rcases h with h | ⟨a, ⟨rfl, hu⟩ | ⟨rfl, hu⟩, h⟩
  · cases t with
    | array =>
      rw [buildType]
      refine buildArray_fails (.inl ?_)
      by_contra hc
      exact h ⟨by simp [PrimType.Known], fun _ => hc⟩
    | unspecified => exact fails_throw _
    | other n => exact fails_throw _
    | _ => exact absurd ⟨by simp [PrimType.Known], by simp⟩ h
  · rw [buildType]; exact buildArray_fails (.inr ⟨a, hu, h⟩)
  · rw [buildType]; exact buildObject_fails ⟨a, hu, h⟩

theorem buildTypes_does {σ : Sched} : ∀ {l : List PrimType} {i : Nat}, (∀ t ∈ l, (s.type = [] ∨ t ∈ s.type) ∧ TypeOk s t) →
    (∀ t ∈ l, ∀ a, TypeUses s t a → ∀ σ, Does (g a σ) (U a)) →
    Does (buildTypes (s.map g) σ i l) (fun n => ∃ t ∈ l, ∃ a, TypeUses s t a ∧ U a n)
  | [], i, _, _ => (does_pure _).congr (by simp)
  | t :: l, i, h1, h2 => by
    rw [buildTypes]
    exact (does_bind (buildType_does (h1 t (by simp)).1 (h1 t (by simp)).2 (h2 t (by simp)))
      (fun c => does_map (buildTypes_does (fun t ht => h1 t (by simp [ht])) (fun t ht => h2 t (by simp [ht]))))).congr (by simp)

theorem buildTypes_fails {σ : Sched} : ∀ {l : List PrimType} {i : Nat},
    (∃ t ∈ l, ¬ TypeOk s t ∨ ∃ a, TypeUses s t a ∧ ∀ σ, Fails (g a σ)) → Fails (buildTypes (s.map g) σ i l)
  | [], i, h => by simp at h
  | t :: l, i, ⟨t', ht, h⟩ => by
    rw [buildTypes]
    rcases List.mem_cons.1 ht with rfl | ht
    · exact fails_left (buildType_fails h)
    · exact fails_right (fun _ => fails_left (buildTypes_fails ⟨t', ht, h⟩))

theorem uses_iff {formats : List GoStr} {a : α} : s.Uses formats a ↔ ComboUses s a ∨ ∃ t, s.Treats formats t ∧ TypeUses s t a := by
  constructor
  · intro h
    cases h with
    | not h => exact .inl (.not h)
    | allOf h1 h2 => exact .inl (.allOf h1 h2)
    | anyOf h1 h2 h3 => exact .inl (.anyOf h1 h2 h3)
    | oneOf h1 h2 h3 h4 => exact .inl (.oneOf h1 h2 h3 h4)
    | items h1 h2 => exact .inr ⟨_, h1, .inl ⟨rfl, .items h2⟩⟩
    | tuple h1 h2 h3 => exact .inr ⟨_, h1, .inl ⟨rfl, .tuple h2 h3⟩⟩
    | additionalItems h1 h2 h3 => exact .inr ⟨_, h1, .inl ⟨rfl, .additional h2 h3⟩⟩
    | property h1 h2 => exact .inr ⟨_, h1, .inr ⟨rfl, .property h2⟩⟩
    | patternProp h1 h2 => exact .inr ⟨_, h1, .inr ⟨rfl, .patternProp h2⟩⟩
    | additionalProps h1 h2 => exact .inr ⟨_, h1, .inr ⟨rfl, .additional h2⟩⟩
    | dependency h1 h2 => exact .inr ⟨_, h1, .inr ⟨rfl, .dependency h2⟩⟩
  · rintro (h | ⟨t, h1, ⟨rfl, h⟩ | ⟨rfl, h⟩⟩)
    · cases h with
      | not h => exact .not h
      | allOf h1 h2 => exact .allOf h1 h2
      | anyOf h1 h2 h3 => exact .anyOf h1 h2 h3
      | oneOf h1 h2 h3 h4 => exact .oneOf h1 h2 h3 h4
    · cases h with
      | items h2 => exact .items h1 h2
      | tuple h2 h3 => exact .tuple h1 h2 h3
      | additional h2 h3 => exact .additionalItems h1 h2 h3
    · cases h with
      | property h2 => exact .property h1 h2
      | patternProp h2 => exact .patternProp h1 h2
      | additional h2 => exact .additionalProps h1 h2
      | dependency h2 => exact .dependency h1 h2

variable {lib : SchemaLib} {m : Nat}

theorem schemaTypes_map (g : α → Act) : schemaTypes lib (s.map g) = schemaTypes lib s := by
  unfold schemaTypes
  rw [guess_map]
  rfl

theorem buildNode_does {σ : Sched} (hr : s.reference = []) (ht : ∀ t, s.Treats lib.formats t → TypeOk s t)
    (h : ∀ a, s.Uses lib.formats a → ∀ σ, Does (g a σ) (U a)) :
    Does (buildNode lib m (s.map g) σ) (fun n => ∃ a, s.Uses lib.formats a ∧ U a n) := by
  have hlisted : ∀ t ∈ schemaTypes lib s, s.type = [] ∨ t ∈ s.type := by
    intro t ht
    rcases mem_schemaTypes_treats.1 ht with h | ⟨h, -⟩
    · exact .inr h
    · exact .inl h
  have hc := fun σ => buildCombo_does (σ := σ) (fun a ha => h a (uses_iff.2 (.inl ha)))
  unfold buildNode
  rw [if_neg (show ¬ (s.map g).reference ≠ [] by simpa [SchemaF.map] using hr), schemaTypes_map]
  simp only []
  split_ifs with h1 h2
  · refine (does_bind (hc _) (fun ct => does_map (buildTypes_does (U := U) (fun t hm => ⟨hlisted t hm, ht t (mem_schemaTypes_treats.1 hm)⟩)
      (fun t hm a ha => h a (uses_iff.2 (.inr ⟨t, mem_schemaTypes_treats.1 hm, ha⟩)))))).congr (fun n => ⟨?_, ?_⟩)
    · rintro (⟨a, h1, h2⟩ | ⟨t, h1, a, h2, h3⟩)
      · exact ⟨a, uses_iff.2 (.inl h1), h2⟩
      · exact ⟨a, uses_iff.2 (.inr ⟨t, mem_schemaTypes_treats.1 h1, h2⟩), h3⟩
    · rintro ⟨a, h1, h2⟩
      rcases uses_iff.1 h1 with h1 | ⟨t, h1, h3⟩
      · exact .inl ⟨a, h1, h2⟩
      · exact .inr ⟨t, mem_schemaTypes_treats.2 h1, a, h3, h2⟩
  all_goals
    refine (does_map (hc _)).congr (fun n => ⟨fun ⟨a, h1, h2⟩ => ⟨a, uses_iff.2 (.inl h1), h2⟩, ?_⟩)
    rintro ⟨a, h3, h2⟩
    rcases uses_iff.1 h3 with h3 | ⟨t, h3, -⟩
    · exact ⟨a, h3, h2⟩
    · exact absurd (List.length_pos_of_mem (mem_schemaTypes_treats.2 h3)) h1

theorem buildNode_fails {σ : Sched} (hr : s.reference = [])
    (h : (∃ t, s.Treats lib.formats t ∧ ¬ TypeOk s t) ∨ ∃ a, s.Uses lib.formats a ∧ ∀ σ, Fails (g a σ)) :
    Fails (buildNode lib m (s.map g) σ) := by
  unfold buildNode
  rw [if_neg (show ¬ (s.map g).reference ≠ [] by simpa [SchemaF.map] using hr), schemaTypes_map]
  simp only []
  have key : (∃ a, ComboUses s a ∧ ∀ σ, Fails (g a σ)) ∨ ∃ t, s.Treats lib.formats t ∧ (¬ TypeOk s t ∨ ∃ a, TypeUses s t a ∧ ∀ σ, Fails (g a σ)) := by
    rcases h with ⟨t, h1, h2⟩ | ⟨a, h1, h2⟩
    · exact .inr ⟨t, h1, .inl h2⟩
    · rcases uses_iff.1 h1 with h1 | ⟨t, h1, h3⟩
      · exact .inl ⟨a, h1, h2⟩
      · exact .inr ⟨t, h1, .inr ⟨a, h3, h2⟩⟩
  rcases key with key | ⟨t, h1, h2⟩
  · exact fails_left (buildCombo_fails key)
  · refine fails_right (fun ct => ?_)
    rw [if_pos (List.length_pos_of_mem (mem_schemaTypes_treats.2 h1))]
    exact fails_left (buildTypes_fails ⟨t, mem_schemaTypes_treats.2 h1, h2⟩)
end

theorem uses_child {S : Type} {formats : List GoStr} {s : SchemaF S} {c : S} (h : s.Uses formats c) : s.Child c := by
  cases h with
  | not h => exact .not h
  | allOf _ h => exact .allOf h
  | anyOf _ _ h => exact .anyOf h
  | oneOf _ _ _ h => exact .oneOf h
  | items _ h => exact .list h (by simp)
  | tuple _ h h' => exact .tuple h h'
  | additionalItems _ _ h => exact .additionalItems h
  | property _ h => exact .property h
  | patternProp _ h => exact .patternProp h
  | additionalProps _ h => exact .additionalProps h
  | dependency _ h => exact .dependency h

/-- A schema can be built in every case or in none; the names it adds are those it uses. -/
theorem build_does (lib : SchemaLib) (m : Nat) (s : Schema) :
    (s.Buildable lib.formats → ∀ σ, Does (build lib m s σ) (fun n => s.UsesRef lib.formats n)) ∧
    (¬ s.Buildable lib.formats → ∀ σ, Fails (build lib m s σ)) := by
  refine Schema.ind (P := fun s => (s.Buildable lib.formats → ∀ σ, Does (build lib m s σ) (fun n => s.UsesRef lib.formats n)) ∧
    (¬ s.Buildable lib.formats → ∀ σ, Fails (build lib m s σ))) ?_ ?_ s
  · refine ⟨fun h => (nomatch h), fun _ σ => ?_⟩
    rw [build_nil]
    exact fails_throw _
  · intro s ih
    rw [build_mk]
    by_cases hr : s.reference = []
    · by_cases ht : ∀ t, s.Treats lib.formats t → TypeOk s t
      · by_cases hu : ∀ a, s.Uses lib.formats a → a.Buildable lib.formats
        · refine ⟨fun _ σ => ?_, fun h => absurd (.node s hr (fun t h => (ht t h).1) (fun h => (ht _ h).2 rfl) hu) h⟩
          refine (buildNode_does hr ht (U := fun a n => a.UsesRef lib.formats n) (fun a ha => (ih a (uses_child ha)).1 (hu a ha))).congr
            (fun n => ⟨?_, ?_⟩)
          · rintro ⟨a, h1, h2⟩
            exact .child hr h1 h2
          · intro h
            cases h with
            | here h1 => exact absurd hr h1
            | child _ h1 h2 => exact ⟨_, h1, h2⟩
        · simp only [not_forall] at hu
          obtain ⟨a, ha, hna⟩ := hu
          refine ⟨fun h => ?_, fun _ σ => buildNode_fails hr (.inr ⟨a, ha, (ih a (uses_child ha)).2 hna⟩)⟩
          cases h with
          | ref _ h => exact absurd hr h
          | node _ _ _ _ h => exact absurd (h a ha) hna
      · simp only [not_forall] at ht
        obtain ⟨t, ht, hnt⟩ := ht
        refine ⟨fun h => ?_, fun _ σ => buildNode_fails hr (.inl ⟨t, ht, hnt⟩)⟩
        cases h with
        | ref _ h => exact absurd hr h
        | node _ _ h1 h2 _ => exact absurd ⟨h1 t ht, fun e => h2 (e ▸ ht)⟩ hnt
    · refine ⟨fun _ σ => ?_, fun h => absurd (.ref s hr) h⟩
      intro R
      refine ⟨.ref m s.reference, addName s.reference R, ?_, fun n => ?_⟩
      · unfold buildNode
        rw [if_pos (show (s.map (build lib m)).reference ≠ [] from hr)]
        rfl
      · have : n ∈ addName s.reference R ↔ n ∈ R ∨ n = s.reference := by
          unfold addName
          split_ifs with h
          · constructor
            · exact .inl
            · rintro (h' | rfl)
              · exact h'
              · exact h
          · simp
        rw [this]
        constructor
        · rintro (h | rfl)
          · exact .inl h
          · exact .inr (.here hr rfl)
        · rintro (h | h)
          · exact .inl h
          · cases h with
            | here _ h => exact .inr h.symm
            | child h => exact absurd h hr

end Jsval
