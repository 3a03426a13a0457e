import Verif.Lemmas.SchemaPlain
import Verif.Lemmas.Buildable
import Verif.Props.Buildable
/-!
# Building does not depend on defaults
-/
namespace Jsval
variable {lib : SchemaLib} {m : Nat} {resolve : Resolver}

theorem suggests_plain (s : SchemaF Schema) (t : PrimType) :
    Suggests lib.formats ({ s.map Schema.plain with dflt := .nil } : SchemaF Schema) t ↔ Suggests lib.formats s t := by
  rw [← suggests_map lib Schema.plain s t, ← mem_guess, ← mem_guess]
  rfl

theorem treats_plain (s : SchemaF Schema) (t : PrimType) :
    ({ s.map Schema.plain with dflt := .nil } : SchemaF Schema).Treats lib.formats t ↔ s.Treats lib.formats t := by
  unfold SchemaF.Treats
  rw [suggests_plain]
  rfl

theorem uses_plain_mk {s : SchemaF Schema} {c : Schema} (h : s.Uses lib.formats c) :
    ({ s.map Schema.plain with dflt := .nil } : SchemaF Schema).Uses lib.formats c.plain := by
  cases h with
  | not h => exact .not (by simp [SchemaF.map, h])
  | allOf h1 h => exact .allOf (by simp [SchemaF.map, h1]) (List.mem_map.2 ⟨c, h, rfl⟩)
  | anyOf h1 h2 h => exact .anyOf (by simp [SchemaF.map, h1]) (by simp [SchemaF.map, h2]) (List.mem_map.2 ⟨c, h, rfl⟩)
  | oneOf h1 h2 h3 h => exact .oneOf (by simp [SchemaF.map, h1]) (by simp [SchemaF.map, h2]) (by simp [SchemaF.map, h3]) (List.mem_map.2 ⟨c, h, rfl⟩)
  | @items _ l h1 h => exact .items (l := l.map Schema.plain) ((treats_plain s _).2 h1) (by simp [SchemaF.map, h, ItemSpec.map])
  | tuple h1 h h2 => exact .tuple ((treats_plain s _).2 h1) (by simp only [SchemaF.map, h, ItemSpec.map]) (List.mem_map.2 ⟨c, h2, rfl⟩)
  | additionalItems h1 h h2 =>
    exact .additionalItems ((treats_plain s _).2 h1) (by simp only [SchemaF.map, h, ItemSpec.map]; rfl) (by simp [SchemaF.map, h2, Extra.map])
  | property h1 h => exact .property ((treats_plain s _).2 h1) (List.mem_map.2 ⟨_, h, rfl⟩)
  | patternProp h1 h => exact .patternProp ((treats_plain s _).2 h1) (List.mem_map.2 ⟨_, h, rfl⟩)
  | additionalProps h1 h => exact .additionalProps ((treats_plain s _).2 h1) (by simp [SchemaF.map, h, Extra.map])
  | dependency h1 h => exact .dependency ((treats_plain s _).2 h1) (List.mem_map.2 ⟨_, h, rfl⟩)

theorem usesRef_plain {n : GoStr} {s : Schema} (h : s.UsesRef lib.formats n) : s.plain.UsesRef lib.formats n := by
  induction h with
  | here h1 h2 => rw [Schema.plain_mk]; exact .here h1 h2
  | child h1 h2 _ ih => rw [Schema.plain_mk]; exact .child h1 (uses_plain_mk h2) ih

theorem typesKnown_plain {s : Schema} (h : s.TypesKnown) : s.plain.TypesKnown := by
  induction h with
  | ref s h => rw [Schema.plain_mk]; exact .ref _ h
  | node s h1 h2 _ ih =>
    rw [Schema.plain_mk]
    refine .node _ h1 h2 (fun d hd => ?_)
    obtain ⟨c, hc, rfl⟩ := plain_child_mk hd
    exact ih c hc

theorem resolves_plain {s : Schema} (h : Resolves lib.formats resolve s) : Resolves lib.formats resolve.plain s.plain := by
  have htar : ∀ n, (resolve.plain n).target = ((resolve n).target).map Schema.plain := fun n => target_plain _
  refine ⟨?_, typesKnown_plain h.known, fun n hn hne => ?_, fun hn => ?_, fun s1 hn h1 => ?_⟩
  · obtain ⟨F, hF⟩ := h.finite
    exact ⟨F, fun n hn => hF n (reaches_plain.1 hn)⟩
  · obtain ⟨s1, h1, h2⟩ := h.resolved n (reaches_plain.1 hn) hne
    exact ⟨s1.plain, by rw [htar, h1]; rfl, typesKnown_plain h2⟩
  · rcases h.root (reaches_plain.1 hn) with h1 | ⟨s1, h1⟩
    · exact Or.inl (usesRef_plain h1)
    · exact Or.inr ⟨s1.plain, by rw [htar, h1]; rfl⟩
  · rw [htar] at h1
    cases h2 : (resolve (b! "#")).target with
    | error e => rw [h2] at h1; cases h1
    | ok s2 =>
      rw [h2] at h1
      cases h1
      rw [h.rootSame s2 (reaches_plain.1 hn) h2]

/-- Building succeeds if it does without defaults. -/
theorem built_of_plain {fuel : Nat} {σ : Sched} {s : Schema} (h : ∃ b, BuildWithCtx lib m resolve.plain fuel σ s.plain = .ok b) :
    ∃ b, BuildWithCtx lib m resolve fuel σ s = .ok b := by
  obtain ⟨b, h⟩ := h
  rw [buildWithCtx_plain] at h
  cases hb : BuildWithCtx lib m resolve fuel σ s with
  | error e => rw [hb] at h; cases h
  | ok b => exact ⟨b, rfl⟩

end Jsval
