import Verif.Lemmas.BuildPlain
import Verif.Lemmas.SchemaRefs
/-!
# The meaning of a schema does not depend on its defaults
-/
namespace Jsval

theorem plain_child_mk {s : SchemaF Schema} {d : Schema} (h : ({ s.map Schema.plain with dflt := .nil } : SchemaF Schema).Child d) :
    ∃ c, s.Child c ∧ d = c.plain := by
  have : (s.map Schema.plain).Child d := by
    cases h with
    | not h => exact .not h
    | allOf h => exact .allOf h
    | anyOf h => exact .anyOf h
    | oneOf h => exact .oneOf h
    | list h hm => exact .list h hm
    | tuple h hm => exact .tuple h hm
    | additionalItems h => exact .additionalItems h
    | property h => exact .property h
    | patternProp h => exact .patternProp h
    | additionalProps h => exact .additionalProps h
    | dependency h => exact .dependency h
  exact SchemaF.child_map this

theorem child_plain_mk {s : SchemaF Schema} {c : Schema} (h : s.Child c) : ({ s.map Schema.plain with dflt := .nil } : SchemaF Schema).Child c.plain := by
  cases h with
  | not h => exact .not (by simp [SchemaF.map, h])
  | allOf h => exact .allOf (List.mem_map.2 ⟨c, h, rfl⟩)
  | anyOf h => exact .anyOf (List.mem_map.2 ⟨c, h, rfl⟩)
  | oneOf h => exact .oneOf (List.mem_map.2 ⟨c, h, rfl⟩)
  | list h hm => exact .list (by simp [SchemaF.map, h, ItemSpec.map]) (List.mem_map.2 ⟨c, hm, rfl⟩)
  | tuple h hm => exact .tuple (by simp [SchemaF.map, h, ItemSpec.map]) (List.mem_map.2 ⟨c, hm, rfl⟩)
  | additionalItems h => exact .additionalItems (by simp [SchemaF.map, h, Extra.map])
  | property h => exact .property (List.mem_map.2 ⟨_, h, rfl⟩)
  | patternProp h => exact .patternProp (List.mem_map.2 ⟨_, h, rfl⟩)
  | additionalProps h => exact .additionalProps (by simp [SchemaF.map, h, Extra.map])
  | dependency h => exact .dependency (List.mem_map.2 ⟨_, h, rfl⟩)

theorem plain_eq_nil {s : Schema} (h : s.plain = .nil) : s = .nil := by
  cases s with
  | nil => rfl
  | mk s => rw [Schema.plain_mk] at h; cases h

theorem mentions_plain {n : GoStr} : ∀ s : Schema, s.plain.Mentions n ↔ s.Mentions n := by
  refine Schema.ind (P := fun s => s.plain.Mentions n ↔ s.Mentions n) ?_ ?_
  · rw [Schema.plain_nil]
  · intro s ih
    rw [Schema.plain_mk]
    constructor
    · intro h
      cases h with
      | here h1 h2 => exact .here h1 h2
      | child h1 h2 h3 =>
        obtain ⟨c, hc, rfl⟩ := plain_child_mk h2
        exact .child h1 hc ((ih c hc).1 h3)
    · intro h
      cases h with
      | here h1 h2 => exact .here h1 h2
      | child h1 h2 h3 => exact .child h1 (child_plain_mk h2) ((ih _ h2).2 h3)

theorem mentionsHere_plain {n : GoStr} : ∀ s : Schema, s.plain.MentionsHere n → s.MentionsHere n := by
  refine Schema.ind (P := fun s => s.plain.MentionsHere n → s.MentionsHere n) ?_ ?_
  · rw [Schema.plain_nil]; exact id
  · intro s ih h
    rw [Schema.plain_mk] at h
    cases h with
    | here h1 h2 => exact .here h1 h2
    | not h1 h2 h3 =>
      simp only [SchemaF.map, Option.map_eq_some_iff] at h2
      obtain ⟨c, hc, rfl⟩ := h2
      exact .not h1 hc (ih c (.not hc) h3)
    | allOf h1 h2 h3 =>
      obtain ⟨c, hc, rfl⟩ := List.mem_map.1 h2
      exact .allOf h1 hc (ih c (.allOf hc) h3)
    | anyOf h1 h2 h3 =>
      obtain ⟨c, hc, rfl⟩ := List.mem_map.1 h2
      exact .anyOf h1 hc (ih c (.anyOf hc) h3)
    | oneOf h1 h2 h3 =>
      obtain ⟨c, hc, rfl⟩ := List.mem_map.1 h2
      exact .oneOf h1 hc (ih c (.oneOf hc) h3)
    | dependency h1 h2 h3 =>
      obtain ⟨⟨k, c⟩, hc, he⟩ := List.mem_map.1 h2
      cases he
      exact .dependency h1 hc (ih c (.dependency hc) h3)

/-- Validity does not look at defaults. -/
theorem valid_plain (ext : Ext) (R : GoStr → GoVal → Prop) : ∀ s : Schema, s.plain.Valid ext R = s.Valid ext R := by
  refine Schema.ind (P := fun s => s.plain.Valid ext R = s.Valid ext R) ?_ ?_
  · rw [Schema.plain_nil]
  · intro s ih
    rw [Schema.plain_mk, Schema.valid_mk, Schema.valid_mk]
    have h : (s.map Schema.plain).map (Schema.Valid ext R) = s.map (Schema.Valid ext R) := by
      rw [SchemaF.map_map]
      exact SchemaF.map_congr ih
    have h2 : ({ s.map Schema.plain with dflt := .nil } : SchemaF Schema).map (Schema.Valid ext R) =
        { s.map (Schema.Valid ext R) with dflt := .nil } := by
      rw [← h]; rfl
    rw [h2]
    funext v
    refine propext ⟨fun hv => ⟨hv.reference, fun hr => ?_, hv.type, fun hr => ?_⟩, fun hv => ⟨hv.reference, fun hr => ?_, hv.type, fun hr => ?_⟩⟩
    · obtain ⟨a, b, c, d⟩ := hv.combos hr; exact ⟨a, b, c, d⟩
    · obtain ⟨a, b, c, d, e⟩ := hv.value hr
      refine ⟨a, fun f hf => ?_, fun f hf => ?_, fun f hf => ?_, fun f hf => ?_⟩
      · obtain ⟨a1, a2, a3, a4, a5⟩ := b f hf; exact ⟨a1, a2, a3, a4, a5⟩
      · obtain ⟨a1, a2, a3, a4⟩ := c f hf; exact ⟨a1, a2, a3, a4⟩
      · obtain ⟨a1, a2, a3, a4, a5, a6, a7⟩ := d f hf; exact ⟨a1, a2, a3, a4, a5, a6, a7⟩
      · obtain ⟨a1, a2, a3, a4, a5, a6, a7, a8, a9⟩ := e f hf; exact ⟨a1, a2, a3, a4, a5, a6, a7, a8, a9⟩
    · obtain ⟨a, b, c, d⟩ := hv.combos hr; exact ⟨a, b, c, d⟩
    · obtain ⟨a, b, c, d, e⟩ := hv.value hr
      refine ⟨a, fun f hf => ?_, fun f hf => ?_, fun f hf => ?_, fun f hf => ?_⟩
      · obtain ⟨a1, a2, a3, a4, a5⟩ := b f hf; exact ⟨a1, a2, a3, a4, a5⟩
      · obtain ⟨a1, a2, a3, a4⟩ := c f hf; exact ⟨a1, a2, a3, a4⟩
      · obtain ⟨a1, a2, a3, a4, a5, a6, a7⟩ := d f hf; exact ⟨a1, a2, a3, a4, a5, a6, a7⟩
      · obtain ⟨a1, a2, a3, a4, a5, a6, a7, a8, a9⟩ := e f hf; exact ⟨a1, a2, a3, a4, a5, a6, a7, a8, a9⟩

variable {resolve : Resolver} {s : Schema}

theorem refersTo_plain {n : GoStr} {t : Schema} : RefersTo resolve.plain s.plain n t ↔ ∃ s1, RefersTo resolve s n s1 ∧ t = s1.plain := by
  constructor
  · intro h
    cases h with
    | root => exact ⟨s, .root, rfl⟩
    | resolved h1 h2 =>
      rw [show resolve.plain n = (resolve n).plain from rfl, target_plain] at h2
      cases ht : (resolve n).target with
      | error e => rw [ht] at h2; cases h2
      | ok s1 =>
        rw [ht] at h2
        cases h2
        exact ⟨s1, .resolved h1 ht, rfl⟩
  · rintro ⟨s1, h, rfl⟩
    cases h with
    | root => exact .root
    | resolved h1 h2 =>
      refine .resolved h1 ?_
      rw [show resolve.plain n = (resolve n).plain from rfl, target_plain, h2]
      rfl

theorem reaches_plain {n : GoStr} : Reaches resolve.plain s.plain n ↔ Reaches resolve s n := by
  constructor
  · intro h
    induction h with
    | root h => exact .root ((mentions_plain s).1 h)
    | step _ h2 h3 ih =>
      obtain ⟨s1, h4, rfl⟩ := refersTo_plain.1 h2
      exact .step ih h4 ((mentions_plain s1).1 h3)
  · intro h
    induction h with
    | root h => exact .root ((mentions_plain s).2 h)
    | step _ h2 h3 ih => exact .step ih (refersTo_plain.2 ⟨_, h2, rfl⟩) ((mentions_plain _).2 h3)

theorem meaning_plain {ext : Ext} {R : GoStr → GoVal → Prop} : Meaning ext resolve.plain s.plain R ↔ Meaning ext resolve s R := by
  constructor
  · intro h n s1 h1 h2 v
    rw [h n s1.plain (reaches_plain.2 h1) (refersTo_plain.2 ⟨s1, h2, rfl⟩) v, valid_plain]
  · intro h n t h1 h2 v
    obtain ⟨s1, h3, rfl⟩ := refersTo_plain.1 h2
    rw [h n s1 (reaches_plain.1 h1) h3 v, valid_plain]

theorem grounded_plain (h : Grounded resolve s) : Grounded resolve.plain s.plain := by
  refine Subrelation.wf ?_ h
  rintro k n ⟨t, h1, h2⟩
  obtain ⟨s1, h3, rfl⟩ := refersTo_plain.1 h1
  exact ⟨s1, h3, mentionsHere_plain s1 h2⟩

end Jsval
