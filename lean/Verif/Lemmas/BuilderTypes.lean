import Mathlib.Data.List.Perm.Basic
import Verif.Lemmas.BuilderShape
import Verif.Lemmas.Float
import Verif.Spec.Builder
/-!
# Types of a schema: order and guessing
-/
namespace Jsval

section
variable {α β γ : Type}

theorem ItemSpec.map_map (f : α → β) (g : β → γ) (x : ItemSpec α) : (x.map f).map g = x.map (fun a => g (f a)) := by
  cases x <;> simp [ItemSpec.map]

theorem Extra.map_map (f : α → β) (g : β → γ) (x : Extra α) : (x.map f).map g = x.map (fun a => g (f a)) := by
  cases x <;> simp [Extra.map]

theorem SchemaF.map_map (f : α → β) (g : β → γ) (s : SchemaF α) : (s.map f).map g = s.map (fun a => g (f a)) := by
  simp [SchemaF.map, ItemSpec.map_map, Extra.map_map, Function.comp_def]

theorem SchemaF.map_congr {f g : α → β} {s : SchemaF α} (h : ∀ a, s.Child a → f a = g a) : s.map f = s.map g := by
  unfold SchemaF.map
  have h1 : s.not.map f = s.not.map g := by
    cases hn : s.not with
    | none => rfl
    | some a => simp [h a (.not hn)]
  have h2 : s.allOf.map f = s.allOf.map g := List.map_congr_left (fun a ha => h a (.allOf ha))
  have h3 : s.anyOf.map f = s.anyOf.map g := List.map_congr_left (fun a ha => h a (.anyOf ha))
  have h4 : s.oneOf.map f = s.oneOf.map g := List.map_congr_left (fun a ha => h a (.oneOf ha))
  have h5 : s.items.map f = s.items.map g := by
    cases hi : s.items with
    | nil => rfl
    | list l => simp only [ItemSpec.map]; rw [List.map_congr_left (fun a ha => h a (.list hi ha))]
    | tuple l => simp only [ItemSpec.map]; rw [List.map_congr_left (fun a ha => h a (.tuple hi ha))]
  have h6 : s.additionalItems.map f = s.additionalItems.map g := by
    cases hi : s.additionalItems with
    | nil => rfl
    | allow => rfl
    | schema a => simp [Extra.map, h a (.additionalItems hi)]
  have h7 : s.additionalProps.map f = s.additionalProps.map g := by
    cases hi : s.additionalProps with
    | nil => rfl
    | allow => rfl
    | schema a => simp [Extra.map, h a (.additionalProps hi)]
  have h8 : s.properties.map (fun p => (p.1, f p.2)) = s.properties.map (fun p => (p.1, g p.2)) :=
    List.map_congr_left (fun a ha => by rw [h a.2 (.property ha)])
  have h9 : s.patternProps.map (fun p => (p.1, p.2.1, f p.2.2)) = s.patternProps.map (fun p => (p.1, p.2.1, g p.2.2)) :=
    List.map_congr_left (fun a ha => by rw [h a.2.2 (.patternProp ha)])
  have h10 : s.depSchemas.map (fun p => (p.1, f p.2)) = s.depSchemas.map (fun p => (p.1, g p.2)) :=
    List.map_congr_left (fun a ha => by rw [h a.2 (.dependency ha)])
  rw [h1, h2, h3, h4, h5, h6, h7, h8, h9, h10]

end

theorem sortTypes_perm (lib : SchemaLib) {l l' : List PrimType} (h : l.Perm l') : sortTypes lib l = sortTypes lib l' := by
  unfold sortTypes
  have tr : Std.Total (fun a b : PrimType => lib.rank a ≤ lib.rank b) := ⟨fun a b => Nat.le_total _ _⟩
  have tt : IsTrans PrimType (fun a b => lib.rank a ≤ lib.rank b) := ⟨fun a b c => Nat.le_trans⟩
  refine List.Perm.eq_of_pairwise (le := fun a b => lib.rank a ≤ lib.rank b) ?_ (List.pairwise_insertionSort _ l)
    (List.pairwise_insertionSort _ l') ?_
  · intro a b _ _ h1 h2
    exact lib.rank_inj (Nat.le_antisymm h1 h2)
  · exact ((List.perm_insertionSort _ l).trans h).trans (List.perm_insertionSort _ l').symm

theorem buildType_types (s : SchemaF Act) (ty : List PrimType) (σ : Sched) (t : PrimType)
    (h : ∀ t, (0 < ty.length ∧ t ∉ ty ↔ 0 < s.type.length ∧ t ∉ s.type) ) :
    buildType { s with type := ty } σ t = buildType s σ t := by
  cases t with
  | string => simp only [buildType, buildString]; rw [if_congr (h .string) rfl rfl]; rfl
  | number => simp only [buildType, buildNumber]; rw [if_congr (h .number) rfl rfl]; rfl
  | integer => simp only [buildType, buildInteger]; rw [if_congr (h .integer) rfl rfl]; rfl
  | _ => rfl

theorem buildTypes_types (s : SchemaF Act) (ty : List PrimType) (σ : Sched)
    (h : ∀ t, (0 < ty.length ∧ t ∉ ty ↔ 0 < s.type.length ∧ t ∉ s.type) ) :
    ∀ (l : List PrimType) (i : Nat), buildTypes { s with type := ty } σ i l = buildTypes s σ i l
  | [], i => rfl
  | t :: l, i => by
    simp only [buildTypes, buildType_types s ty _ t h, buildTypes_types s ty σ h l (i + 1)]

theorem buildNode_perm (lib : SchemaLib) (m : Nat) (s : SchemaF Act) (ty : List PrimType) (h : ty.Perm s.type) :
    buildNode lib m { s with type := ty } = buildNode lib m s := by
  have h1 : schemaTypes lib { s with type := ty } = schemaTypes lib s := by
    unfold schemaTypes
    have : (if 0 < ty.length then ty else guessSchemaType lib { s with type := ty }).Perm
        (if 0 < s.type.length then s.type else guessSchemaType lib s) := by
      rw [h.length_eq]
      split
      · exact h
      · exact List.Perm.refl _
    exact sortTypes_perm lib this
  have h2 := fun σ => buildTypes_types s ty σ (fun t => by rw [h.length_eq, h.mem_iff])
  funext σ
  unfold buildNode
  simp only [h1, h2]
  rfl

/-! ## Guessing -/

theorem isInteger_iff (f : F64) : isInteger f = true ↔ f.Whole := F64.floor_eq_iff f

section
variable {S : Type} {formats : List GoStr} {s : SchemaF S}

theorem objectKind_iff (v : GoVal) : objectKind v = true ↔ ObjectLike v := by cases v <;> simp [objectKind, ObjectLike]

theorem isSome_ne {α : Type} (o : Option α) : o.isSome = true ↔ o ≠ none := Option.isSome_iff_ne_none

theorem looksLikeObject_iff : schemaLooksLikeObject s = true ↔ Suggests formats s .object := by
  constructor
  · intro h
    unfold schemaLooksLikeObject at h
    split at h
    · rename_i h1; exact .properties (List.length_pos_iff.1 h1)
    · cases ha : s.additionalProps with
      | nil => exact .additionalProps (by rw [ha]; simp)
      | schema x => exact .additionalProps (by rw [ha]; simp)
      | allow =>
        rw [ha] at h
        simp only at h
        split at h
        · rename_i h1; exact .minProps ((isSome_ne _).1 h1)
        · split at h
          · rename_i h1; exact .maxProps ((isSome_ne _).1 h1)
          · split at h
            · rename_i h1; exact .required (List.length_pos_iff.1 h1)
            · split at h
              · rename_i h1; exact .patternProps (List.length_pos_iff.1 h1)
              · obtain ⟨v, hv, h⟩ := List.any_eq_true.1 h
                exact .objectEnum hv ((objectKind_iff v).1 h)
  · intro h
    unfold schemaLooksLikeObject
    split
    · rfl
    · rename_i h1
      cases ha : s.additionalProps with
      | nil => rfl
      | schema x => rfl
      | allow =>
        simp only
        split
        · rfl
        · rename_i h2
          split
          · rfl
          · rename_i h3
            split
            · rfl
            · rename_i h4
              split
              · rfl
              · rename_i h5
                rw [List.length_pos_iff] at h1 h4 h5
                rw [isSome_ne] at h2 h3
                cases h with
                | properties h => exact absurd h h1
                | additionalProps h => exact absurd ha h
                | minProps h => exact absurd h h2
                | maxProps h => exact absurd h h3
                | required h => exact absurd h h4
                | patternProps h => exact absurd h h5
                | objectEnum h h' => exact List.any_eq_true.2 ⟨_, h, (objectKind_iff _).2 h'⟩

theorem itemSpec_isSome (x : ItemSpec S) : x.isSome = true ↔ x ≠ .nil := by cases x <;> simp [ItemSpec.isSome]

theorem looksLikeArray_iff : schemaLooksLikeArray s = true ↔ Suggests formats s .array := by
  constructor
  · intro h
    unfold schemaLooksLikeArray at h
    split at h
    · rename_i h1; exact .items ((itemSpec_isSome _).1 h1)
    · cases ha : s.additionalItems with
      | nil => exact .additionalItems (by rw [ha]; simp)
      | schema x => exact .additionalItems (by rw [ha]; simp)
      | allow =>
        rw [ha] at h
        simp only at h
        split at h
        · rename_i h1; exact .minItems ((isSome_ne _).1 h1)
        · split at h
          · rename_i h1; exact .maxItems ((isSome_ne _).1 h1)
          · split at h
            · rename_i h1; exact .uniqueItems ((isSome_ne _).1 h1)
            · obtain ⟨v, hv, h⟩ := List.any_eq_true.1 h
              cases v <;> first | (simp [sliceKind] at h; done) | exact .arrayEnum hv
  · intro h
    unfold schemaLooksLikeArray
    split
    · rfl
    · rename_i h1
      cases ha : s.additionalItems with
      | nil => rfl
      | schema x => rfl
      | allow =>
        simp only
        split
        · rfl
        · rename_i h2
          split
          · rfl
          · rename_i h3
            split
            · rfl
            · rename_i h4
              rw [itemSpec_isSome] at h1
              rw [isSome_ne] at h2 h3 h4
              cases h with
              | items h => exact absurd h h1
              | additionalItems h => exact absurd ha h
              | minItems h => exact absurd h h2
              | maxItems h => exact absurd h h3
              | uniqueItems h => exact absurd h h4
              | arrayEnum h => exact List.any_eq_true.2 ⟨_, h, rfl⟩

theorem looksLikeString_iff {lib : SchemaLib} : schemaLooksLikeString lib s = true ↔ Suggests lib.formats s .string := by
  unfold schemaLooksLikeString
  constructor
  · intro h
    split at h
    · rename_i h1; exact .minLength ((isSome_ne _).1 h1)
    · split at h
      · rename_i h1; exact .maxLength ((isSome_ne _).1 h1)
      · split at h
        · rename_i h1; exact .pattern ((isSome_ne _).1 h1)
        · split at h
          · rename_i h1; exact .format h1
          · obtain ⟨v, hv, h⟩ := List.any_eq_true.1 h
            cases v <;> first | (simp [stringKind] at h; done) | exact .stringEnum hv
  · intro h
    split
    · rfl
    · rename_i h1
      split
      · rfl
      · rename_i h2
        split
        · rfl
        · rename_i h3
          split
          · rfl
          · rename_i h4
            rw [isSome_ne] at h1 h2 h3
            cases h with
            | minLength h => exact absurd h h1
            | maxLength h => exact absurd h h2
            | pattern h => exact absurd h h3
            | format h => exact absurd h h4
            | stringEnum h => exact List.any_eq_true.2 ⟨_, h, rfl⟩

theorem looksLikeBool_iff : schemaLooksLikeBool s = true ↔ Suggests formats s .boolean := by
  unfold schemaLooksLikeBool
  constructor
  · intro h
    obtain ⟨v, hv, h⟩ := List.any_eq_true.1 h
    cases v <;> first | (simp [boolKind] at h; done) | exact .boolEnum hv
  · rintro ⟨⟩
    rename_i h
    exact List.any_eq_true.2 ⟨_, h, rfl⟩

theorem numberFromEnum_iff (l : List GoVal) (t : PrimType) : numberFromEnum l = some t ↔
    (t = .integer ∧ ∃ pre post k n, l = pre ++ .int k n :: post ∧ ∀ v ∈ pre, ¬ NumberLike v) ∨
    (t = .number ∧ ∃ pre post k f, l = pre ++ .float k f :: post ∧ ∀ v ∈ pre, ¬ NumberLike v) := by
  induction l with
  | nil => simp [numberFromEnum]
  | cons v l ih =>
    by_cases hn : NumberLike v
    · rcases hn with ⟨k, n, rfl⟩ | ⟨k, f, rfl⟩
      · simp only [numberFromEnum, Option.some.injEq]
        constructor
        · rintro rfl
          exact Or.inl ⟨rfl, [], l, k, n, rfl, by simp⟩
        · rintro (⟨rfl, -⟩ | ⟨rfl, pre, post, k', f, h, hp⟩)
          · rfl
          · cases pre with
            | nil => simp at h
            | cons a pre =>
              simp only [List.cons_append, List.cons.injEq] at h
              exact absurd (Or.inl ⟨k, n, h.1.symm⟩) (hp a (by simp))
      · simp only [numberFromEnum, Option.some.injEq]
        constructor
        · rintro rfl
          exact Or.inr ⟨rfl, [], l, k, f, rfl, by simp⟩
        · rintro (⟨rfl, pre, post, k', n, h, hp⟩ | ⟨rfl, -⟩)
          · cases pre with
            | nil => simp at h
            | cons a pre =>
              simp only [List.cons_append, List.cons.injEq] at h
              exact absurd (Or.inr ⟨k, f, h.1.symm⟩) (hp a (by simp))
          · rfl
    · have : numberFromEnum (v :: l) = numberFromEnum l := by
        cases v <;> first | rfl | (exfalso; exact hn (Or.inl ⟨_, _, rfl⟩)) | (exfalso; exact hn (Or.inr ⟨_, _, rfl⟩))
      rw [this, ih]
      have hcons : ∀ {pre post : List GoVal} {w}, v :: l = pre ++ w :: post → NumberLike w →
          ∃ pre', pre = v :: pre' ∧ l = pre' ++ w :: post := by
        intro pre post w h hw
        cases pre with
        | nil =>
          simp only [List.nil_append, List.cons.injEq] at h
          exact absurd (h.1 ▸ hw) hn
        | cons a pre =>
          simp only [List.cons_append, List.cons.injEq] at h
          exact ⟨pre, by rw [h.1], h.2⟩
      constructor
      · rintro (⟨h0, pre, post, k, n, h, hp⟩ | ⟨h0, pre, post, k, n, h, hp⟩)
        · exact Or.inl ⟨h0, v :: pre, post, k, n, by rw [h]; rfl, by simpa [hn] using hp⟩
        · exact Or.inr ⟨h0, v :: pre, post, k, n, by rw [h]; rfl, by simpa [hn] using hp⟩
      · rintro (⟨h0, pre, post, k, n, h, hp⟩ | ⟨h0, pre, post, k, n, h, hp⟩)
        · obtain ⟨pre', rfl, h'⟩ := hcons h (Or.inl ⟨k, n, rfl⟩)
          exact Or.inl ⟨h0, pre', post, k, n, h', fun w hw => hp w (by simp [hw])⟩
        · obtain ⟨pre', rfl, h'⟩ := hcons h (Or.inr ⟨k, n, rfl⟩)
          exact Or.inr ⟨h0, pre', post, k, n, h', fun w hw => hp w (by simp [hw])⟩

theorem looksLikeNumber_iff (t : PrimType) : schemaLooksLikeNumber s = some t ↔
    (t = .integer ∨ t = .number) ∧ Suggests formats s t := by
  have key : ∀ f, s.firstBound = some f → (some (if isInteger f = true then PrimType.integer else .number) = some t ↔
      (t = .integer ∨ t = .number) ∧ Suggests formats s t) := by
    intro f hf
    rw [Option.some.injEq]
    constructor
    · rintro rfl
      split
      · rename_i h; exact ⟨Or.inl rfl, .whole hf ((isInteger_iff f).1 h)⟩
      · rename_i h; exact ⟨Or.inr rfl, .fractional hf (fun h' => h ((isInteger_iff f).2 h'))⟩
    · rintro ⟨h1, h2⟩
      rcases h1 with rfl | rfl
      · cases h2 with
        | whole h h' =>
          rw [hf] at h; cases h
          rw [if_pos ((isInteger_iff f).2 h')]
        | intEnum h => rw [hf] at h; cases h
      · cases h2 with
        | fractional h h' =>
          rw [hf] at h; cases h
          rw [if_neg (fun h => h' ((isInteger_iff f).1 h))]
        | exclusive h => rw [hf] at h; cases h
        | floatEnum h => rw [hf] at h; cases h
  unfold schemaLooksLikeNumber
  cases h1 : s.multipleOf with
  | some f => exact key f (by simp [SchemaF.firstBound, h1])
  | none =>
    simp only
    cases h2 : s.minimum with
    | some f => exact key f (by simp [SchemaF.firstBound, h1, h2])
    | none =>
      simp only
      cases h3 : s.maximum with
      | some f => exact key f (by simp [SchemaF.firstBound, h1, h2, h3])
      | none =>
        have hf : s.firstBound = none := by simp [SchemaF.firstBound, h1, h2, h3]
        have hx : (s.exclMin ≠ none ∨ s.exclMax ≠ none) → (some PrimType.number = some t ↔
            (t = .integer ∨ t = .number) ∧ Suggests formats s t) := by
          intro hx
          rw [Option.some.injEq]
          constructor
          · rintro rfl
            exact ⟨Or.inr rfl, .exclusive hf hx⟩
          · rintro ⟨rfl | rfl, h⟩
            · cases h with
              | whole h => rw [hf] at h; cases h
              | intEnum _ a b => exact (hx.elim (· a) (· b)).elim
            · rfl
        simp only
        split
        · rename_i h; exact hx (Or.inl ((isSome_ne _).1 h))
        · rename_i h4
          split
          · rename_i h; exact hx (Or.inr ((isSome_ne _).1 h))
          · rename_i h5
            rw [isSome_ne, not_not] at h4 h5
            rw [numberFromEnum_iff]
            constructor
            · rintro (⟨rfl, pre, post, k, n, h, hp⟩ | ⟨rfl, pre, post, k, n, h, hp⟩)
              · exact ⟨Or.inl rfl, .intEnum hf h4 h5 h hp⟩
              · exact ⟨Or.inr rfl, .floatEnum hf h4 h5 h hp⟩
            · rintro ⟨rfl | rfl, h⟩
              · cases h with
                | whole h => rw [hf] at h; cases h
                | intEnum _ _ _ h hp => exact Or.inl ⟨rfl, _, _, _, _, h, hp⟩
              · cases h with
                | fractional h => rw [hf] at h; cases h
                | exclusive _ h => exact (h.elim (· h4) (· h5)).elim
                | floatEnum _ _ _ h hp => exact Or.inr ⟨rfl, _, _, _, _, h, hp⟩

theorem mem_guess {lib : SchemaLib} {t : PrimType} : t ∈ guessSchemaType lib s ↔ Suggests lib.formats s t := by
  have h1 := looksLikeObject_iff (formats := lib.formats) (s := s)
  have h2 := looksLikeArray_iff (formats := lib.formats) (s := s)
  have h3 := looksLikeString_iff (lib := lib) (s := s)
  have h4 := looksLikeBool_iff (formats := lib.formats) (s := s)
  have h5 := looksLikeNumber_iff (formats := lib.formats) (s := s)
  have e1 : t ∈ (if schemaLooksLikeObject s = true then [PrimType.object] else []) ↔
      t = .object ∧ Suggests lib.formats s .object := by rw [← h1]; split <;> simp [*]
  have e2 : t ∈ (if schemaLooksLikeArray s = true then [PrimType.array] else []) ↔
      t = .array ∧ Suggests lib.formats s .array := by rw [← h2]; split <;> simp [*]
  have e3 : t ∈ (if schemaLooksLikeString lib s = true then [PrimType.string] else []) ↔
      t = .string ∧ Suggests lib.formats s .string := by rw [← h3]; split <;> simp [*]
  have e4 : t ∈ (if schemaLooksLikeBool s = true then [PrimType.boolean] else []) ↔
      t = .boolean ∧ Suggests lib.formats s .boolean := by rw [← h4]; split <;> simp [*]
  have e5 : t ∈ (schemaLooksLikeNumber s).toList ↔ (t = .integer ∨ t = .number) ∧ Suggests lib.formats s t := by
    rw [← h5, Option.mem_toList]
  have e6 : guessSchemaType lib s = (if schemaLooksLikeObject s = true then [.object] else []) ++
      (if schemaLooksLikeArray s = true then [.array] else []) ++
      (if schemaLooksLikeString lib s = true then [.string] else []) ++ (schemaLooksLikeNumber s).toList ++
      (if schemaLooksLikeBool s = true then [.boolean] else []) := by
    unfold guessSchemaType
    cases schemaLooksLikeNumber s <;> rfl
  rw [e6]
  simp only [List.mem_append, e1, e2, e3, e4, e5]
  constructor
  · rintro ((((⟨rfl, h⟩ | ⟨rfl, h⟩) | ⟨rfl, h⟩) | ⟨-, h⟩) | ⟨rfl, h⟩) <;> exact h
  · intro h
    cases t with
    | object => simp [h]
    | array => simp [h]
    | string => simp [h]
    | boolean => simp [h]
    | integer => simp [h]
    | number => simp [h]
    | _ => cases h

theorem guess_nodup (lib : SchemaLib) : (guessSchemaType lib s).Nodup := by
  have h5 := fun t => (looksLikeNumber_iff (formats := lib.formats) (s := s) t).1
  unfold guessSchemaType
  cases hn : schemaLooksLikeNumber s with
  | none =>
    cases schemaLooksLikeObject s <;> cases schemaLooksLikeArray s <;> cases schemaLooksLikeString lib s <;>
      cases schemaLooksLikeBool s <;> simp
  | some t =>
    rcases (h5 t hn).1 with rfl | rfl <;> cases schemaLooksLikeObject s <;> cases schemaLooksLikeArray s <;>
      cases schemaLooksLikeString lib s <;> cases schemaLooksLikeBool s <;> simp

end

theorem guess_map {α β : Type} (lib : SchemaLib) (g : α → β) (s : SchemaF α) :
    guessSchemaType lib (s.map g) = guessSchemaType lib s := by
  have h1 : schemaLooksLikeObject (s.map g) = schemaLooksLikeObject s := by
    unfold schemaLooksLikeObject SchemaF.map
    cases ha : s.additionalProps <;> simp [Extra.map, ha]
  have h2 : schemaLooksLikeArray (s.map g) = schemaLooksLikeArray s := by
    unfold schemaLooksLikeArray SchemaF.map
    cases ha : s.additionalItems <;> cases hi : s.items <;> simp [Extra.map, ItemSpec.map, ItemSpec.isSome]
  have h3 : schemaLooksLikeString lib (s.map g) = schemaLooksLikeString lib s := rfl
  have h4 : schemaLooksLikeNumber (s.map g) = schemaLooksLikeNumber s := rfl
  have h5 : schemaLooksLikeBool (s.map g) = schemaLooksLikeBool s := rfl
  unfold guessSchemaType
  rw [h1, h2, h3, h4, h5]

theorem suggests_map {α β : Type} (lib : SchemaLib) (g : α → β) (s : SchemaF α) (t : PrimType) :
    Suggests lib.formats (s.map g) t ↔ Suggests lib.formats s t := by
  rw [← mem_guess, ← mem_guess, guess_map]

theorem guess_type {S : Type} (lib : SchemaLib) (s : SchemaF S) (ty : List PrimType) :
    guessSchemaType lib { s with type := ty } = guessSchemaType lib s := rfl

theorem buildNode_guess (lib : SchemaLib) (m : Nat) (s : SchemaF Act) (ht : s.type = []) (ty : List PrimType)
    (hty : ty.Perm (guessSchemaType lib s)) : buildNode lib m { s with type := ty } = buildNode lib m s := by
  have h1 : schemaTypes lib { s with type := ty } = schemaTypes lib s := by
    unfold schemaTypes
    have : (if 0 < ty.length then ty else guessSchemaType lib { s with type := ty }).Perm
        (if 0 < s.type.length then s.type else guessSchemaType lib s) := by
      rw [ht]
      simp only [List.length_nil, Nat.lt_irrefl, if_false]
      split
      · exact hty
      · exact List.Perm.refl _
    exact sortTypes_perm lib this
  have hmem : ∀ t ∈ schemaTypes lib s, t ∈ ty := by
    intro t h
    unfold schemaTypes sortTypes at h
    rw [(List.perm_insertionSort _ _).mem_iff, ht] at h
    simpa [hty.mem_iff] using h
  have h2 : ∀ σ (l : List PrimType) (i : Nat), (∀ t ∈ l, t ∈ ty) →
      buildTypes { s with type := ty } σ i l = buildTypes s σ i l := by
    intro σ l
    induction l with
    | nil => intro i _; rfl
    | cons t l ih =>
      intro i hl
      have : ∀ σ, buildType { s with type := ty } σ t = buildType s σ t := by
        intro σ
        have hm := hl t (by simp)
        cases t with
        | string => simp [buildType, buildString, hm, ht]; rfl
        | number => simp [buildType, buildNumber, hm, ht]; rfl
        | integer => simp [buildType, buildInteger, hm, ht]; rfl
        | _ => rfl
      simp only [buildTypes, this, ih (i + 1) (fun t h => hl t (by simp [h]))]
  funext σ
  unfold buildNode
  simp only [h1, h2 _ _ _ hmem]
  rfl

end Jsval
