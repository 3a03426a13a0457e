import Verif.Lemmas.BuilderShape
/-!
# A schema mentions finitely many references
-/
namespace Jsval

/-- All sub-schemas in a list. -/
def SchemaF.children {α : Type} (s : SchemaF α) : List α :=
  s.not.toList ++ s.allOf ++ s.anyOf ++ s.oneOf ++ (match s.items with | .nil => [] | .list l => l | .tuple l => l) ++
  (match s.additionalItems with | .schema x => [x] | _ => []) ++ s.properties.map (·.2) ++
  s.patternProps.map (·.2.2) ++ (match s.additionalProps with | .schema x => [x] | _ => []) ++ s.depSchemas.map (·.2)

theorem SchemaF.Child.mem {α : Type} {s : SchemaF α} {d : α} (h : s.Child d) : d ∈ s.children := by
  unfold SchemaF.children
  cases h with
  | not h => simp [h]
  | allOf h => simp [h]
  | anyOf h => simp [h]
  | oneOf h => simp [h]
  | list h h' => simp [h, h']
  | tuple h h' => simp [h, h']
  | additionalItems h => simp [h]
  | property h =>
    have := List.mem_map_of_mem (f := (·.2)) h
    simp only [List.mem_append]; tauto
  | patternProp h =>
    have := List.mem_map_of_mem (f := (·.2.2)) h
    simp only [List.mem_append]; tauto
  | additionalProps h => simp [h]
  | dependency h =>
    have := List.mem_map_of_mem (f := (·.2)) h
    simp only [List.mem_append]; tauto

theorem finite_union {α β : Type} {P : α → β → Prop} : ∀ (l : List α), (∀ a ∈ l, ∃ r : List β, ∀ b, P a b → b ∈ r) →
    ∃ r : List β, ∀ a ∈ l, ∀ b, P a b → b ∈ r
  | [], _ => ⟨[], by simp⟩
  | a :: l, h => by
    obtain ⟨r1, h1⟩ := h a (by simp)
    obtain ⟨r2, h2⟩ := finite_union l (fun a ha => h a (by simp [ha]))
    refine ⟨r1 ++ r2, fun x hx b hb => List.mem_append.2 ?_⟩
    rcases List.mem_cons.1 hx with rfl | hx
    · exact Or.inl (h1 b hb)
    · exact Or.inr (h2 x hx b hb)

theorem mentions_finite (s : Schema) : ∃ l : List GoStr, ∀ n, s.Mentions n → n ∈ l := by
  induction s using Schema.ind with
  | hn => exact ⟨[], fun n h => by cases h⟩
  | h s ih =>
    classical
    have : ∀ d ∈ s.children, ∃ r : List GoStr, ∀ n, (s.Child d ∧ d.Mentions n) → n ∈ r := by
      intro d _
      by_cases hd : s.Child d
      · obtain ⟨r, hr⟩ := ih d hd
        exact ⟨r, fun n h => hr n h.2⟩
      · exact ⟨[], fun n h => absurd h.1 hd⟩
    obtain ⟨r, hr⟩ := finite_union s.children this
    refine ⟨s.reference :: r, fun n h => ?_⟩
    cases h with
    | here _ h => simp [h]
    | child _ hd hm => exact List.mem_cons.2 (Or.inr (hr _ hd.mem n ⟨hd, hm⟩))

end Jsval
