import Verif.Lemmas.Narrower
import Verif.Spec.TolerantSchema
/-!
# What is built from a tolerant schema (C127)
-/
namespace Jsval

/-- The constraints that the names of a document lead to, all built in the same order. -/
def ownEnv (lib : SchemaLib) (m : Nat) (resolve : Resolver) (s : Schema) : Env := fun a n => if a = m then docEnv lib m resolve s n else none

section
variable {ext : Ext} {lib : SchemaLib} {m : Nat} {L D : GoStr → Prop}

theorem tolerates_node {P : Constraint → Prop} {c : Constraint} (h : P c) (hk : ∀ d, c.Child d → d.Every P) : c.Every P := by
  intro e he
  cases he with
  | refl => exact h
  | child hd he => exact hk _ hd e he

/-- A flat schema builds a constraint for strings, for numbers or for booleans. -/
theorem flat_plainly {a : Schema} (h : a.Flat) : (buildC lib m a).Plainly := by
  obtain ⟨p, rfl, hr, ⟨h1, h2, h3, h4⟩, t, ht, hty⟩ := h
  have hst : schemaTypes lib (p.map (buildC lib m)) = [t] := by
    rw [types_of_map, schemaTypes, if_pos (by simp [hty]), hty]
    rfl
  have hcombo : comboC (p.map (buildC lib m)) = [] := by
    simp only [comboC, SchemaF.map, h1, h2, h3, h4, Option.map_none, List.map_nil, List.length_nil, lt_irrefl, if_false]
  rw [buildC_node lib m hr, hcombo, List.nil_append, valueC, hst, if_pos (by simp)]
  simp only [List.map_cons, List.map_nil, reduceAny, reduceAll, reduceCombined]
  simp only [List.mem_cons, List.not_mem_nil, or_false] at ht
  rcases ht with rfl | rfl | rfl | rfl
  · exact ⟨.str, rfl, by decide⟩
  · exact ⟨.num, rfl, by decide⟩
  · exact ⟨.num, rfl, by decide⟩
  · refine ⟨.bool, ?_, by decide⟩
    simp only [typeC]
    split <;> rfl

theorem tolerant_reduce {l : List Constraint} (h : ∀ c ∈ l, c.Every (Tolerates ext L D)) :
    (reduceAll l).Every (Tolerates ext L D) ∧ (reduceAny l).Every (Tolerates ext L D) ∧
    (((∀ k, ¬ L k) ∨ ∀ c ∈ l, c.Plainly) → (reduceOneOf l).Every (Tolerates ext L D)) := by
  have hall : (Constraint.all l).Every (Tolerates ext L D) := tolerates_node trivial fun d hd => by cases hd; exact h _ (by assumption)
  have hany : (Constraint.any l).Every (Tolerates ext L D) := tolerates_node trivial fun d hd => by cases hd; exact h _ (by assumption)
  have hone : ((∀ k, ¬ L k) ∨ ∀ c ∈ l, c.Plainly) → (Constraint.oneOf l).Every (Tolerates ext L D) := fun h1 =>
    tolerates_node h1 fun d hd => by cases hd; exact h _ (by assumption)
  unfold reduceAll reduceAny reduceOneOf reduceCombined
  match l, h, hall, hany, hone with
  | [c], h, _, _, _ => exact ⟨h c (by simp), h c (by simp), fun _ => h c (by simp)⟩
  | [], _, h1, h2, h3 => exact ⟨h1, h2, h3⟩
  | _ :: _ :: _, _, h1, h2, h3 => exact ⟨h1, h2, h3⟩

theorem tolerant_built {a : Schema} (h : a.Tolerant ext L D) (hb : a.Bare ext) : (buildC lib m a).Every (Tolerates ext L D) := by
  have leaf : ∀ {c : Constraint}, Tolerates ext L D c → (∀ d, ¬ c.Child d) → c.Every (Tolerates ext L D) := fun h1 h2 => tolerates_node h1 fun d hd => absurd hd (h2 d)
  have empty : (Constraint.empty).Every (Tolerates ext L D) := leaf trivial fun d hd => by cases hd
  induction h with
  | nil => exact empty
  | ref s hr =>
    rw [buildC_ref hr]
    exact leaf trivial fun d hd => by cases hd
  | node s hr ht _ ih =>
    obtain ⟨hk, -⟩ := hb.own hr
    rw [buildC_node lib m hr]
    have ih' : ∀ c, (s.map (buildC lib m)).Child c → c.Every (Tolerates ext L D) := by
      intro c hc
      obtain ⟨x, hx, rfl⟩ := SchemaF.child_map hc
      exact ih x hx (hb.child hr hx)
    refine (tolerant_reduce fun c hc => ?_).1
    rcases List.mem_append.1 hc with hc | hc
    · unfold comboC at hc
      split at hc
      · rename_i x hx
        simp only [List.mem_singleton] at hc
        subst hc
        refine tolerates_node ?_ fun d hd => by cases hd; exact ih' _ (.not hx)
        obtain ⟨p, hp, rfl⟩ := Option.map_eq_some_iff.1 (show s.not.map (buildC lib m) = some x from hx)
        exact ht.not.imp_right fun h => flat_plainly (h p hp)
      split at hc
      · simp only [List.mem_singleton] at hc
        subst hc
        exact (tolerant_reduce fun c hc => ih' c (.allOf hc)).1
      split at hc
      · simp only [List.mem_singleton] at hc
        subst hc
        exact (tolerant_reduce fun c hc => ih' c (.anyOf hc)).2.1
      split at hc
      · simp only [List.mem_singleton] at hc
        subst hc
        refine (tolerant_reduce fun c hc => ih' c (.oneOf hc)).2.2 (ht.oneOf.imp_right fun h c hc => ?_)
        obtain ⟨p, hp, rfl⟩ := List.mem_map.1 (show c ∈ s.oneOf.map (buildC lib m) from hc)
        exact flat_plainly (h p hp)
      · cases hc
    · unfold valueC at hc
      split at hc
      · simp only [List.mem_singleton] at hc
        subst hc
        refine (tolerant_reduce fun c hc => ?_).2.1
        obtain ⟨p, -, rfl⟩ := List.mem_map.1 hc
        cases p with
        | string => exact leaf trivial fun d hd => by cases hd
        | integer => exact leaf trivial fun d hd => by cases hd
        | number => exact leaf trivial fun d hd => by cases hd
        | boolean =>
          simp only [typeC]
          split <;> exact leaf trivial fun d hd => by cases hd
        | null => exact leaf trivial fun d hd => by cases hd
        | unspecified => exact empty
        | other n => exact empty
        | array =>
          refine tolerates_node (fun hu => ?_) fun d hd => ?_
          · have hu' : s.uniqueItems = some true := by
              change s.uniqueItems.getD false = true at hu
              rcases hx : s.uniqueItems with _ | _ | _ <;> rw [hx] at hu <;> first | cases hu | rfl
            obtain ⟨p, l, hp, hf⟩ := ht.unique hu'
            refine ⟨buildC lib m p, ?_, flat_plainly hf⟩
            simp only [arrC, SchemaF.map, hp]
            rfl
          · cases hd with
            | array hd =>
              rcases arrC_child hd with rfl | hd
              · exact empty
              · exact ih' d hd
        | object =>
          have ks : (s.map (buildC lib m)).Keyed := keyed_map hk
          have hmin : ∀ {k}, (∀ n, s.minProps = some n → n ≤ 0) → k = (objC (s.map (buildC lib m)) .empty).minProps → k ≤ 0 := by
            rintro k h rfl
            rw [objC_min]
            change s.minProps.getD (-1) ≤ 0
            rcases hx : s.minProps with _ | n
            · decide
            · exact h n hx
          refine tolerates_node ⟨fun k hL => ?_, fun k hD => ?_⟩ fun d hd => ?_
          · obtain ⟨h1, h2, h3⟩ := ht.optional k hL
            refine ⟨fun _ h => h1 ((objC_required).1 h), fun q h => ?_, hmin h3 rfl⟩
            obtain ⟨ns, h4, h5⟩ := (objC_propDeps ks).1 h
            exact h2 q ns h4 h5
          · obtain ⟨h1, h2⟩ := ht.undeclared k hD
            obtain ⟨h3, h4, h5⟩ := ht.open_ k hD
            refine ⟨?_, ?_, hmin h4 rfl, ?_⟩
            · rintro (h | ⟨id, src, c, hc, hm⟩)
              · obtain ⟨x, hx⟩ := (objC_declares hk).1 h
                exact h1 x hx
              · obtain ⟨x, hx, rfl⟩ := map_pattern.1 ((objC_patterns ks).1 hc)
                rw [h2 id src x hx] at hm
                cases hm
            · simp only [objC, SchemaF.map, h3]
              rfl
            · rw [objC_max]
              change s.maxProps.getD (-1) < 0
              rcases hx : s.maxProps with _ | n
              · decide
              · exact h5 n hx
          · cases hd with
            | object hd =>
              rcases objC_child hd with rfl | hd
              · exact empty
              · exact ih' d hd
      split at hc
      · simp only [List.mem_singleton] at hc
        subst hc
        exact leaf ht.enum fun d hd => by cases hd
      · cases hc
end

end Jsval
