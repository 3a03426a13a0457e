import Verif.Model.Schema
/-!
# Induction over schemas
-/
namespace Jsval

section
variable {P : Schema → Prop} (hn : P .nil) (h : ∀ s : SchemaF Schema, (∀ c, s.Child c → P c) → P (.mk s))
include hn h

mutual
theorem Schema.ind : ∀ s, P s
  | .nil => hn
  | .mk ⟨rf, n, al, an, on, ty, en, df, mo, mi, ma, emi, ema, mil, mal, pa, fo, it, ai, mii, mai, ui, rq, mip, map, pr,
      pp, ap, dn, ds⟩ => h _ (fun c hc => by
    cases hc with
    | not hc => exact sindOpt n c hc
    | allOf hc => exact sindList al c hc
    | anyOf hc => exact sindList an c hc
    | oneOf hc => exact sindList on c hc
    | list hc hm => exact sindItems it c _ (Or.inl hc) hm
    | tuple hc hm => exact sindItems it c _ (Or.inr hc) hm
    | additionalItems hc => exact sindExtra ai c hc
    | property hc => exact sindProps pr _ c hc
    | patternProp hc => exact sindPats pp _ _ c hc
    | additionalProps hc => exact sindExtra ap c hc
    | dependency hc => exact sindProps ds _ c hc)

theorem sindOpt : ∀ (o : Option Schema) d, o = some d → P d
  | none, d, hd => by cases hd
  | some c, d, hd => by
    have := Schema.ind c
    simp only [Option.some.injEq] at hd
    rwa [hd] at this

theorem sindList : ∀ (cs : List Schema) d, d ∈ cs → P d
  | [], d, hd => by simp at hd
  | c :: cs, d, hd => by
    have h1 := Schema.ind c
    have h2 := sindList cs d
    rcases List.mem_cons.1 hd with hd | hd
    · rwa [hd]
    · exact h2 hd

theorem sindItems : ∀ (i : ItemSpec Schema) d l, i = .list l ∨ i = .tuple l → d ∈ l → P d
  | .nil, d, l, hl, hd => by rcases hl with hl | hl <;> cases hl
  | .list l', d, l, hl, hd => by
    have h2 := sindList l' d
    rcases hl with hl | hl
    · simp only [ItemSpec.list.injEq] at hl; rw [hl] at h2; exact h2 hd
    · cases hl
  | .tuple l', d, l, hl, hd => by
    have h2 := sindList l' d
    rcases hl with hl | hl
    · cases hl
    · simp only [ItemSpec.tuple.injEq] at hl; rw [hl] at h2; exact h2 hd

theorem sindExtra : ∀ (o : Extra Schema) d, o = .schema d → P d
  | .nil, d, hd => by cases hd
  | .allow, d, hd => by cases hd
  | .schema c, d, hd => by
    have := Schema.ind c
    simp only [Extra.schema.injEq] at hd
    rwa [hd] at this

theorem sindProps : ∀ (cs : List (GoStr × Schema)) n d, (n, d) ∈ cs → P d
  | [], n, d, hd => by simp at hd
  | (m, c) :: cs, n, d, hd => by
    have h1 := Schema.ind c
    have h2 := sindProps cs n d
    rcases List.mem_cons.1 hd with hd | hd
    · simp only [Prod.mk.injEq] at hd
      rwa [hd.2]
    · exact h2 hd

theorem sindPats : ∀ (cs : List (Nat × GoStr × Schema)) i s d, (i, s, d) ∈ cs → P d
  | [], i, s, d, hd => by simp at hd
  | (j, t, c) :: cs, i, s, d, hd => by
    have h1 := Schema.ind c
    have h2 := sindPats cs i s d
    rcases List.mem_cons.1 hd with hd | hd
    · simp only [Prod.mk.injEq] at hd
      rwa [hd.2.2]
    · exact h2 hd
end
end

variable {α β : Type}

/-- The children of a mapped schema are the images of the children. -/
theorem SchemaF.child_map {g : α → β} {s : SchemaF α} {d : β} (h : (s.map g).Child d) : ∃ c, s.Child c ∧ d = g c := by
  cases h with
  | not h =>
    simp only [SchemaF.map, Option.map_eq_some_iff] at h
    obtain ⟨c, h1, rfl⟩ := h; exact ⟨c, .not h1, rfl⟩
  | allOf h =>
    simp only [SchemaF.map, List.mem_map] at h
    obtain ⟨c, h1, rfl⟩ := h; exact ⟨c, .allOf h1, rfl⟩
  | anyOf h =>
    simp only [SchemaF.map, List.mem_map] at h
    obtain ⟨c, h1, rfl⟩ := h; exact ⟨c, .anyOf h1, rfl⟩
  | oneOf h =>
    simp only [SchemaF.map, List.mem_map] at h
    obtain ⟨c, h1, rfl⟩ := h; exact ⟨c, .oneOf h1, rfl⟩
  | list h hm =>
    simp only [SchemaF.map] at h
    cases hi : s.items with
    | list l =>
      rw [hi] at h
      simp only [ItemSpec.map, ItemSpec.list.injEq] at h
      rw [← h] at hm
      simp only [List.mem_map] at hm
      obtain ⟨c, h1, rfl⟩ := hm; exact ⟨c, .list hi h1, rfl⟩
    | nil => rw [hi] at h; cases h
    | tuple l => rw [hi] at h; cases h
  | tuple h hm =>
    simp only [SchemaF.map] at h
    cases hi : s.items with
    | tuple l =>
      rw [hi] at h
      simp only [ItemSpec.map, ItemSpec.tuple.injEq] at h
      rw [← h] at hm
      simp only [List.mem_map] at hm
      obtain ⟨c, h1, rfl⟩ := hm; exact ⟨c, .tuple hi h1, rfl⟩
    | nil => rw [hi] at h; cases h
    | list l => rw [hi] at h; cases h
  | additionalItems h =>
    simp only [SchemaF.map] at h
    cases hi : s.additionalItems with
    | schema c => rw [hi] at h; simp only [Extra.map, Extra.schema.injEq] at h; exact ⟨c, .additionalItems hi, h.symm⟩
    | nil => rw [hi] at h; cases h
    | allow => rw [hi] at h; cases h
  | property h =>
    simp only [SchemaF.map, List.mem_map, Prod.mk.injEq] at h
    obtain ⟨⟨n, c⟩, h1, _, rfl⟩ := h; exact ⟨c, .property h1, rfl⟩
  | patternProp h =>
    simp only [SchemaF.map, List.mem_map, Prod.mk.injEq] at h
    obtain ⟨⟨i, n, c⟩, h1, _, _, rfl⟩ := h; exact ⟨c, .patternProp h1, rfl⟩
  | additionalProps h =>
    simp only [SchemaF.map] at h
    cases hi : s.additionalProps with
    | schema c => rw [hi] at h; simp only [Extra.map, Extra.schema.injEq] at h; exact ⟨c, .additionalProps hi, h.symm⟩
    | nil => rw [hi] at h; cases h
    | allow => rw [hi] at h; cases h
  | dependency h =>
    simp only [SchemaF.map, List.mem_map, Prod.mk.injEq] at h
    obtain ⟨⟨n, c⟩, h1, _, rfl⟩ := h; exact ⟨c, .dependency h1, rfl⟩

end Jsval
