import Verif.Lemmas.Rewritten
import Verif.Lemmas.BuildOk
/-!
# Of two ways to write a document, both can be built or neither
-/
namespace Jsval

section
variable {α β : Type} {lib : SchemaLib} {s : SchemaF α} {g : α → β}

theorem uses_of_map {d : β} (h : (s.map g).Uses lib.formats d) : ∃ c, s.Uses lib.formats c ∧ d = g c := by
  cases h with
  | not h =>
    obtain ⟨c, hc, rfl⟩ := Option.map_eq_some_iff.1 h
    exact ⟨c, .not hc, rfl⟩
  | allOf h h1 =>
    obtain ⟨c, hc, rfl⟩ := List.mem_map.1 h1
    exact ⟨c, .allOf (Option.map_eq_none_iff.1 h) hc, rfl⟩
  | anyOf h h1 h2 =>
    obtain ⟨c, hc, rfl⟩ := List.mem_map.1 h2
    exact ⟨c, .anyOf (Option.map_eq_none_iff.1 h) (List.map_eq_nil_iff.1 h1) hc, rfl⟩
  | oneOf h h1 h2 h3 =>
    obtain ⟨c, hc, rfl⟩ := List.mem_map.1 h3
    exact ⟨c, .oneOf (Option.map_eq_none_iff.1 h) (List.map_eq_nil_iff.1 h1) (List.map_eq_nil_iff.1 h2) hc, rfl⟩
  | items ht h =>
    simp only [SchemaF.map] at h
    cases hi : s.items with
    | nil => rw [hi] at h; cases h
    | tuple l => rw [hi] at h; cases h
    | list l =>
      rw [hi] at h
      cases l with
      | nil => cases h
      | cons c l =>
        cases h
        exact ⟨c, .items (treats_map.1 ht) hi, rfl⟩
  | tuple ht h hm =>
    simp only [SchemaF.map] at h
    cases hi : s.items with
    | nil => rw [hi] at h; cases h
    | list l => rw [hi] at h; cases h
    | tuple l =>
      rw [hi] at h
      cases h
      obtain ⟨c, hc, rfl⟩ := List.mem_map.1 hm
      exact ⟨c, .tuple (treats_map.1 ht) hi hc, rfl⟩
  | additionalItems ht h hx =>
    simp only [SchemaF.map] at h hx
    cases hi : s.items with
    | nil => rw [hi] at h; cases h
    | list l => rw [hi] at h; cases h
    | tuple l =>
      cases hy : s.additionalItems with
      | nil => rw [hy] at hx; cases hx
      | allow => rw [hy] at hx; cases hx
      | schema c =>
        rw [hy] at hx
        cases hx
        exact ⟨c, .additionalItems (treats_map.1 ht) hi hy, rfl⟩
  | property ht h =>
    obtain ⟨⟨n, c⟩, hc, e⟩ := List.mem_map.1 h
    cases e
    exact ⟨c, .property (treats_map.1 ht) hc, rfl⟩
  | patternProp ht h =>
    obtain ⟨⟨i, n, c⟩, hc, e⟩ := List.mem_map.1 h
    cases e
    exact ⟨c, .patternProp (treats_map.1 ht) hc, rfl⟩
  | additionalProps ht hx =>
    simp only [SchemaF.map] at hx
    cases hy : s.additionalProps with
    | nil => rw [hy] at hx; cases hx
    | allow => rw [hy] at hx; cases hx
    | schema c =>
      rw [hy] at hx
      cases hx
      exact ⟨c, .additionalProps (treats_map.1 ht) hy, rfl⟩
  | dependency ht h =>
    obtain ⟨⟨n, c⟩, hc, e⟩ := List.mem_map.1 h
    cases e
    exact ⟨c, .dependency (treats_map.1 ht) hc, rfl⟩

theorem uses_into {c : α} (h : s.Uses lib.formats c) : (s.map g).Uses lib.formats (g c) := by
  cases h with
  | not h => exact .not (by simp [SchemaF.map, h])
  | allOf h h1 => exact .allOf (by simp [SchemaF.map, h]) (List.mem_map_of_mem h1)
  | anyOf h h1 h2 => exact .anyOf (by simp [SchemaF.map, h]) (by simp [SchemaF.map, h1]) (List.mem_map_of_mem h2)
  | oneOf h h1 h2 h3 => exact .oneOf (by simp [SchemaF.map, h]) (by simp [SchemaF.map, h1]) (by simp [SchemaF.map, h2]) (List.mem_map_of_mem h3)
  | items ht h => exact .items (treats_map.2 ht) (by simp only [SchemaF.map, h]; rfl)
  | tuple ht h hm => exact .tuple (treats_map.2 ht) (by simp only [SchemaF.map, h]; rfl) (List.mem_map_of_mem hm)
  | additionalItems ht h hx => exact .additionalItems (treats_map.2 ht) (by simp only [SchemaF.map, h]; rfl) (by simp only [SchemaF.map, hx]; rfl)
  | @property n _ ht h => exact .property (treats_map.2 ht) (List.mem_map.2 ⟨(n, c), h, rfl⟩)
  | @patternProp i n _ ht h => exact .patternProp (treats_map.2 ht) (List.mem_map.2 ⟨(i, n, c), h, rfl⟩)
  | additionalProps ht hx => exact .additionalProps (treats_map.2 ht) (by simp only [SchemaF.map, hx]; rfl)
  | @dependency n _ ht h => exact .dependency (treats_map.2 ht) (List.mem_map.2 ⟨(n, c), h, rfl⟩)
end

section
variable {lib : SchemaLib} {resolve resolve' : Resolver} {N : GoStr → GoStr → Prop} {s s' : Schema}

/-- The name is resolved to build the document, or is the document. -/
def Registered (lib : SchemaLib) (resolve : Resolver) (s : Schema) (n : GoStr) : Prop :=
  MustResolve lib.formats resolve s n ∨ n = b! "#" ∧ s.UsesRef lib.formats (b! "#")

/-- Can be built, with names that are. -/
def GoodPart (lib : SchemaLib) (resolve : Resolver) (s t : Schema) : Prop :=
  t.Buildable lib.formats ∧ ∀ n, t.UsesRef lib.formats n → Registered lib resolve s n

theorem goodPart_leads (h : CanBuild lib.formats resolve s) {n : GoStr}
    (hn : Registered lib resolve s n) : ∃ t, Leads resolve s n t ∧ GoodPart lib resolve s t := by
  have hs : GoodPart lib resolve s s := by
    refine ⟨h.self, fun n hu => ?_⟩
    by_cases hne : n = b! "#"
    · subst hne
      exact .inr ⟨rfl, hu⟩
    · exact .inl (.root hu hne)
  by_cases hne : n = b! "#"
  · exact ⟨s, .inl ⟨hne, rfl⟩, hs⟩
  · have hm := hn.resolve_right fun h => hne h.1
    obtain ⟨t, ht, hb⟩ := h.refs n hm
    refine ⟨t, .inr ⟨hne, ht⟩, hb, fun k hk => ?_⟩
    by_cases hr : k = b! "#" ∧ s.UsesRef lib.formats (b! "#")
    · exact .inr hr
    · exact .inl (.step hm ht hk hr)

theorem leads_unique {n : GoStr} {t t' : Schema} (h : Leads resolve s n t) (h' : Leads resolve s n t') : t = t' := by
  rcases h with ⟨h1, rfl⟩ | ⟨h1, h2⟩ <;> rcases h' with ⟨h3, rfl⟩ | ⟨h3, h4⟩
  · rfl
  · exact absurd h1 h3
  · exact absurd h3 h1
  · rw [h2] at h4
    cases h4
    rfl

/-- A name of the second document for something that is built for the first. -/
def KnownName (lib : SchemaLib) (resolve resolve' : Resolver) (N : GoStr → GoStr → Prop) (s s' : Schema) (n' : GoStr) : Prop :=
  (∃ n, N n n' ∧ Registered lib resolve s n) ∨
    ∃ t' u, Leads resolve' s' n' t' ∧ Rewritten (Leads resolve s) (Leads resolve' s') N u t' ∧ GoodPart lib resolve s u

theorem rewritten_good (h : CanBuild lib.formats resolve s) {t t' : Schema}
    (hr : Rewritten (Leads resolve s) (Leads resolve' s') N t t') (hg : GoodPart lib resolve s t) :
    t'.Buildable lib.formats ∧ ∀ n, t'.UsesRef lib.formats n → KnownName lib resolve resolve' N s s' n := by
  induction hr with
  | nil => cases hg.1
  | @same f hf _ ih =>
    obtain ⟨hb, hu⟩ := hg
    cases hb with
    | ref _ h => exact absurd hf h
    | node _ _ h1 h2 h3 =>
      have part : ∀ p, f.Uses lib.formats p → GoodPart lib resolve s p.1 :=
        fun p hp => ⟨h3 _ (uses_into hp), fun n hn => hu n (.child hf (uses_into hp) hn)⟩
      refine ⟨.node _ hf (fun t ht => h1 t (treats_map.2 (treats_map.1 ht))) (fun ht hi => ?_) (fun c hc => ?_), fun n hn => ?_⟩
      · refine h2 (treats_map.2 (treats_map.1 ht)) ?_
        simp only [SchemaF.map] at hi ⊢
        cases hx : f.items with
        | nil => rw [hx] at hi; cases hi
        | tuple l => rw [hx] at hi; cases hi
        | list l =>
          cases l with
          | nil => rfl
          | cons a l => rw [hx] at hi; cases hi
      · obtain ⟨p, hp, rfl⟩ := uses_of_map hc
        exact (ih p (uses_child hp) (part p hp)).1
      · cases hn with
        | here h _ => exact absurd hf h
        | child _ hc hn =>
          obtain ⟨p, hp, rfl⟩ := uses_of_map hc
          exact (ih p (uses_child hp) (part p hp)).2 n hn
  | names h1 h2 h3 =>
    refine ⟨.ref _ h2, fun n hn => ?_⟩
    cases hn with
    | here _ e => rw [← e]; exact .inl ⟨_, h3, hg.2 _ (.here h1 rfl)⟩
    | child h => exact absurd h h2
  | @left f t t' h1 h2 _ ih =>
    obtain ⟨u, hu, hgu⟩ := goodPart_leads h (hg.2 _ (.here h1 rfl))
    rw [← leads_unique h2 hu] at hgu
    exact ih hgu
  | right h1 h2 h3 _ =>
    refine ⟨.ref _ h1, fun n hn => ?_⟩
    cases hn with
    | here _ e => rw [← e]; exact .inr ⟨_, _, h2, h3, hg⟩
    | child h => exact absurd h h1

theorem canBuild_same (hd : SameDocument resolve resolve' N s s') (hN : ∀ n n', N n n' → (∃ t, Leads resolve s n t) → ∃ t', Leads resolve' s' n' t')
    (hr' : s'.UsesRef lib.formats (b! "#") ∨ (resolve' (b! "#")).target = .ok s') (h : CanBuild lib.formats resolve s) : CanBuild lib.formats resolve' s' := by
  have hs : GoodPart lib resolve s s := by
    refine ⟨h.self, fun n hu => ?_⟩
    by_cases hne : n = b! "#"
    · subst hne
      exact .inr ⟨rfl, hu⟩
    · exact .inl (.root hu hne)
  have known : ∀ n', KnownName lib resolve resolve' N s s' n' →
      ∃ t', Leads resolve' s' n' t' ∧ t'.Buildable lib.formats ∧ ∀ n, t'.UsesRef lib.formats n → KnownName lib resolve resolve' N s s' n := by
    rintro n' (⟨n, hn, hreg⟩ | ⟨t', u, h1, h2, h3⟩)
    · obtain ⟨t, ht, hg⟩ := goodPart_leads h hreg
      obtain ⟨t', ht'⟩ := hN n n' hn ⟨t, ht⟩
      exact ⟨t', ht', rewritten_good h (hd.parts hn ht ht') hg⟩
    · exact ⟨t', h1, rewritten_good h h2 h3⟩
  have target : ∀ n' t', MustResolve lib.formats resolve' s' n' → Leads resolve' s' n' t' → (resolve' n').target = .ok t' := by
    rintro n' t' hm (⟨rfl, rfl⟩ | ⟨-, h⟩)
    · refine hr'.resolve_left fun hu => ?_
      cases hm with
      | root _ h => exact h rfl
      | step _ _ _ h => exact h ⟨rfl, hu⟩
    · exact h
  have all : ∀ n', MustResolve lib.formats resolve' s' n' → KnownName lib resolve resolve' N s s' n' := by
    intro n' hm
    induction hm with
    | root hu _ => exact (rewritten_good h hd.whole hs).2 _ hu
    | step hm ht hu _ ih =>
      obtain ⟨t', hl, -, hk⟩ := known _ ih
      rw [target _ _ hm hl] at ht
      cases ht
      exact hk _ hu
  refine ⟨(rewritten_good h hd.whole hs).1, fun n' hn => ?_⟩
  obtain ⟨t', hl, hb, -⟩ := known n' (all n' hn)
  exact ⟨t', target _ _ hn hl, hb⟩
end

end Jsval
