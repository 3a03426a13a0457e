import Verif.Lemmas.BuildKeep
import Verif.Lemmas.SchemaRefs
import Verif.Lemmas.Pipeline
/-!
# What is kept of a conforming schema is conforming
-/
namespace Jsval

theorem keepBound_finite {types : List PrimType} {f : F64} (h : f.IsFinite) : (keepBound types f).IsFinite := by
  unfold keepBound
  split
  · exact trunc_finite h
  · exact reread_finite h

theorem keep_enum (s : SchemaF Schema) : (s.map Schema.keep).keep.enum = if .integer ∈ s.type then [] else s.enum := rfl

/-- The sub-schemas are sub-schemas, without what is not kept. -/
theorem keep_child_mk {s : SchemaF Schema} {d : Schema} (h : (s.map Schema.keep).keep.Child d) : ∃ c, s.Child c ∧ d = c.keep := by
  have : (s.map Schema.keep).Child d := by
    cases h with
    | not h => exact .not h
    | allOf h => exact .allOf h
    | anyOf h => exact .anyOf h
    | oneOf h => exact .oneOf h
    | list h hm => exact .list h hm
    | tuple h hm => exact .tuple h hm
    | additionalItems h =>
      refine .additionalItems ?_
      simp only [SchemaF.keep] at h
      split at h
      · cases h
      · exact h
    | property h => exact .property h
    | patternProp h => exact .patternProp h
    | additionalProps h => exact .additionalProps h
    | dependency h => cases h
  exact SchemaF.child_map this

section
variable {ext : Ext} {formats : List GoStr} {cls : DocClass}

theorem conforming_keep {s : SchemaF Schema} (h : s.Conforming ext formats cls) (hk : s.Keepable) (hc : ∀ c, s.Child c → c.Keeps) :
    (s.map Schema.keep).keep.Conforming ext formats cls := by
  have hkn : ∀ k, s.Knows ext k → (s.map Schema.keep).keep.Knows ext k := by
    rintro k (⟨c, h⟩ | ⟨id, src, c, h, h'⟩)
    · exact .inl ⟨_, List.mem_map.2 ⟨_, h, rfl⟩⟩
    · exact .inr ⟨id, src, _, List.mem_map.2 ⟨_, h, rfl⟩, h'⟩
  have hen : ∀ e ∈ (s.map Schema.keep).keep.enum, e ∈ s.enum := by
    intro e he
    rw [keep_enum] at he
    split at he
    · cases he
    · exact he
  have hfin : ∀ f : F64, f.IsFinite → f ≠ .nan := by rintro f ⟨_, _, rfl, _⟩ h; cases h
  constructor
  case combos =>
    simpa only [SchemaF.keep, SchemaF.map, Option.map_eq_none_iff, List.map_eq_nil_iff] using h.combos
  case typed =>
    by_cases ht : s.type = []
    · have hs : ∀ t, Suggests formats (s.map Schema.keep).keep t → Suggests formats s t := by
        intro t h1
        let lib : SchemaLib := { lib0 with formats := formats }
        rw [← SchemaF.keep_map] at h1
        have h1 := (suggests_map lib Schema.keep s.keep t).1 h1
        rw [keep_untyped (lib := lib) h ht] at h1
        exact mem_guess (lib := lib).1 (show t ∈ guessSchemaType lib s from (mem_guess (lib := lib) (s := { s with depSchemas := [] })).2 h1)
      have he : (s.map Schema.keep).keep.enum = s.enum := by simp [SchemaF.keep, SchemaF.map, ht]
      rcases h.typed with h1 | ⟨h1, h2, h3, h4⟩ | ⟨h1, h2, h3⟩
      · exact absurd ht h1
      · exact .inr (.inl ⟨fun t h => h1 t (hs t h), h2, rfl, h4⟩)
      · exact .inr (.inr ⟨by rw [he]; exact h1, by rw [he]; exact h2, fun t h => h3 t (hs t h)⟩)
    · exact .inl ht
  case enumScalar => exact fun e he => h.enumScalar e (hen e he)
  case enumTyped =>
    intro hne t ht
    have he : (s.map Schema.keep).keep.enum = s.enum := by
      rw [keep_enum] at hne ⊢
      split
      · rename_i hi; rw [if_pos hi] at hne; exact absurd rfl hne
      · rfl
    rw [he] at hne ⊢
    exact h.enumTyped hne t ht
  case dflt => exact h.dflt
  case minLength => exact h.minLength
  case maxLength => exact h.maxLength
  case minItems => exact h.minItems
  case maxItems => exact h.maxItems
  case minProps => rintro n ⟨⟩
  case maxProps => rintro n ⟨⟩
  case minimum =>
    intro m hm
    obtain ⟨f, hf, rfl⟩ := Option.map_eq_some_iff.1 hm
    exact hfin _ (keepBound_finite (hk.finite.1 f hf))
  case maximum =>
    intro m hm
    obtain ⟨f, hf, rfl⟩ := Option.map_eq_some_iff.1 hm
    exact hfin _ (keepBound_finite (hk.finite.2 f hf))
  case multipleOf => rintro n ⟨⟩
  case format => exact h.format
  case items =>
    intro l hl
    simp only [SchemaF.keep, SchemaF.map] at hl
    cases hi : s.items with
    | list l' => rw [hi] at hl; cases hl; rw [List.length_map]; exact h.items l' hi
    | _ => rw [hi] at hl; cases hl
  case tuple =>
    intro l hl
    simp only [SchemaF.keep, SchemaF.map] at hl ⊢
    cases hi : s.items with
    | tuple l' =>
      have := (h.tuple l' hi).1
      cases ha : s.additionalItems with
      | schema x => exact absurd ha (this x)
      | nil => exact ⟨fun x => (by simp [Extra.map]), fun _ => (by simp [Extra.map])⟩
      | allow => exact ⟨fun x => (by simp [Extra.map]), fun _ => (by simp [Extra.map])⟩
    | _ => rw [hi] at hl; cases hl
  case unique =>
    intro hu
    rcases h.unique hu with ⟨h1, p, hp, h2, h3⟩ | hw
    on_goal 2 => exact .inr hw
    refine .inl ⟨h1, (p.map Schema.keep).keep, ?_, h2, ?_⟩
    · simp only [SchemaF.keep, SchemaF.map, hp, ItemSpec.map, List.map_cons, List.map_nil, Schema.keep_mk]
    · have hpk : p.Keepable := by
        cases hc (.mk p) (.list hp (by simp)) with
        | ref _ h => exact absurd h2 h
        | node _ _ h _ => exact h
      rcases h3 with h3 | ⟨h3, h4⟩
      · exact .inl h3
      · right
        have hi : .integer ∉ p.type := by
          intro hi
          obtain ⟨e, he⟩ := List.exists_mem_of_ne_nil _ h3
          obtain ⟨t, rfl⟩ := h4 e he
          exact hpk.enumTyped hi t he
        have he : (p.map Schema.keep).keep.enum = p.enum := by simp [SchemaF.keep, SchemaF.map, hi]
        rw [he]
        exact ⟨h3, h4⟩
  case required =>
    intro k hkr
    obtain ⟨c, hc⟩ := h.required k hkr
    exact ⟨_, List.mem_map.2 ⟨_, hc, rfl⟩⟩
  case propNames =>
    have : (s.map Schema.keep).keep.properties.map (·.1) = s.properties.map (·.1) := by simp [SchemaF.keep, SchemaF.map, Function.comp_def]
    rw [this]; exact h.propNames
  case patternIds =>
    have : (s.map Schema.keep).keep.patternProps.map (·.1) = s.patternProps.map (·.1) := by simp [SchemaF.keep, SchemaF.map, Function.comp_def]
    rw [this]; exact h.patternIds
  case depNameKeys => exact h.depNameKeys
  case depSchemaKeys => simp [SchemaF.keep]
  case patternsApart =>
    intro k p hp q hq
    obtain ⟨p, hp', rfl⟩ := List.mem_map.1 hp
    obtain ⟨q, hq', rfl⟩ := List.mem_map.1 hq
    exact h.patternsApart k p hp' q hq'
  case patternsUndeclared =>
    intro k c hkc p hp
    obtain ⟨⟨k', c'⟩, hkc', he⟩ := List.mem_map.1 hkc
    cases he
    obtain ⟨p, hp', rfl⟩ := List.mem_map.1 hp
    exact h.patternsUndeclared _ c' hkc' p hp'
  case depNamesKnown =>
    intro k l hl
    obtain ⟨h1, h2⟩ := h.depNamesKnown k l hl
    exact ⟨hkn _ h1, fun d hd => hkn d (h2 d hd)⟩
  case depSchemasKnown => rintro k c ⟨⟩

/-- What is kept of a conforming schema is conforming. -/
theorem conforms_keep {s : Schema} (h : s.Conforms ext formats cls) : s.Keeps → s.keep.Conforms ext formats cls := by
  induction h with
  | ref s hne => intro _; rw [Schema.keep_mk]; exact .ref _ hne
  | node s hr hcf _ ih =>
    intro hk
    obtain ⟨hx, hk⟩ : s.Keepable ∧ ∀ c, s.Child c → c.Keeps := by
      cases hk with
      | ref _ h => exact absurd hr h
      | node _ _ h h' => exact ⟨h, h'⟩
    rw [Schema.keep_mk]
    refine .node _ hr (conforming_keep hcf hx hk) fun d hd => ?_
    obtain ⟨c, hc, rfl⟩ := keep_child_mk hd
    exact ih c hc (hk c hc)
end

/-! ## References -/

theorem mentions_keep {n : GoStr} : ∀ s : Schema, s.keep.Mentions n → s.Mentions n := by
  refine Schema.ind (P := fun s => s.keep.Mentions n → s.Mentions n) ?_ ?_
  · rw [Schema.keep_nil]; exact id
  · intro s ih h
    rw [Schema.keep_mk] at h
    cases h with
    | here h1 h2 => exact .here h1 h2
    | child h1 h2 h3 =>
      obtain ⟨c, hc, rfl⟩ := keep_child_mk h2
      exact .child h1 hc (ih c hc h3)

theorem mentionsHere_keep {n : GoStr} : ∀ s : Schema, s.keep.MentionsHere n → s.MentionsHere n := by
  refine Schema.ind (P := fun s => s.keep.MentionsHere n → s.MentionsHere n) ?_ ?_
  · rw [Schema.keep_nil]; exact id
  · intro s ih h
    rw [Schema.keep_mk] at h
    cases h with
    | here h1 h2 => exact .here h1 h2
    | not h1 h2 h3 =>
      obtain ⟨c, hc, rfl⟩ := Option.map_eq_some_iff.1 (show s.not.map Schema.keep = some _ from h2)
      exact .not h1 hc (ih c (.not hc) h3)
    | allOf h1 h2 h3 =>
      obtain ⟨c, hc, rfl⟩ := List.mem_map.1 h2
      exact .allOf h1 hc (ih c (.allOf hc) h3)
    | anyOf h1 h2 h3 =>
      obtain ⟨c, hc, rfl⟩ := List.mem_map.1 h2
      exact .anyOf h1 hc (ih c (.anyOf hc) h3)
    | oneOf h1 h2 h3 =>
      obtain ⟨c, hc, rfl⟩ := List.mem_map.1 h2
      exact .oneOf h1 hc (ih c (.oneOf hc) h3)
    | dependency h1 h2 h3 => cases h2

theorem target_keep (r : Resolved) : r.keep.target = r.target.map Schema.keep := by
  cases r with
  | fail => rfl
  | schema s => rfl
  | object o =>
    cases o with
    | none => rfl
    | some s =>
      show Except.ok (Schema.mk _) = Except.ok (Schema.keep (.mk s))
      rw [Schema.keep_mk]
  | other => exact (congrArg Except.ok Schema.keep_nil).symm

section
variable {resolve : Resolver} {s : Schema}

theorem refersTo_keep {n : GoStr} {t : Schema} : RefersTo resolve.keep s.keep n t ↔ ∃ s1, RefersTo resolve s n s1 ∧ t = s1.keep := by
  constructor
  · intro h
    cases h with
    | root => exact ⟨s, .root, rfl⟩
    | resolved h1 h2 =>
      rw [show resolve.keep n = (resolve n).keep from rfl, target_keep] at h2
      cases ht : (resolve n).target with
      | error e => rw [ht] at h2; cases h2
      | ok s1 =>
        rw [ht] at h2
        cases h2
        exact ⟨s1, .resolved h1 ht, rfl⟩
  · rintro ⟨s1, h, rfl⟩
    cases h with
    | root => exact .root
    | resolved h1 h2 =>
      refine .resolved h1 ?_
      rw [show resolve.keep n = (resolve n).keep from rfl, target_keep, h2]
      rfl

theorem reaches_keep {n : GoStr} (h : Reaches resolve.keep s.keep n) : Reaches resolve s n := by
  induction h with
  | root h => exact .root (mentions_keep s h)
  | step _ h2 h3 ih =>
    obtain ⟨s1, h4, rfl⟩ := refersTo_keep.1 h2
    exact .step ih h4 (mentions_keep s1 h3)

theorem grounded_keep (h : Grounded resolve s) : Grounded resolve.keep s.keep := by
  refine Subrelation.wf ?_ h
  rintro k n ⟨t, h1, h2⟩
  obtain ⟨s1, h3, rfl⟩ := refersTo_keep.1 h1
  exact ⟨s1, h3, mentionsHere_keep s1 h2⟩
end

/-- References in what is kept are in the constraint. -/
theorem ref_in_keep {c : Constraint} {m : Nat} {n : GoStr} (h : (Constraint.ref m n).In c.keep) : (Constraint.ref m n).In c :=
  every_keep (L := fun d => d.In c) (L' := fun d => ∀ m n, d = .ref m n → (Constraint.ref m n).In c) (by intro m n h; cases h)
    (fun d hd m n he => keep_ref he ▸ hd) (fun _ hd => hd) _ h m n rfl

end Jsval
