import Verif.Spec.Pipeline
import Verif.Lemmas.SchemaRefs
import Verif.Lemmas.GenMain
/-!
# Validators built from expressible schemas are supported by the generator
-/
namespace Jsval

section
variable {L : Constraint → Prop}

theorem every_of_children {c : Constraint} (hr : L c) (h : ∀ d, c.Child d → d.Every L) : c.Every L := by
  intro d hi
  cases hi with
  | refl => exact hr
  | child hd hi => exact h _ hd _ hi

theorem every_leaf {c : Constraint} (hr : L c) (h : ∀ d, ¬ c.Child d) : c.Every L :=
  every_of_children hr (fun d hd => absurd hd (h d))

theorem every_reduceAll (hL : ∀ l, L (.all l)) {l : List Constraint} (h : ∀ c ∈ l, c.Every L) : (reduceAll l).Every L := by
  unfold reduceAll reduceCombined
  split
  · exact h _ (by simp)
  · exact every_of_children (hL _) (fun d hd => by cases hd with | all hd => exact h d hd)

theorem every_reduceAny (hL : ∀ l, l ≠ [] → L (.any l)) {l : List Constraint} (hne : l ≠ []) (h : ∀ c ∈ l, c.Every L) :
    (reduceAny l).Every L := by
  unfold reduceAny reduceCombined
  split
  · exact h _ (by simp)
  · exact every_of_children (hL _ hne) (fun d hd => by cases hd with | any hd => exact h d hd)

theorem every_reduceOneOf (hL : ∀ l, l ≠ [] → L (.oneOf l)) {l : List Constraint} (hne : l ≠ []) (h : ∀ c ∈ l, c.Every L) :
    (reduceOneOf l).Every L := by
  unfold reduceOneOf reduceCombined
  split
  · exact h _ (by simp)
  · exact every_of_children (hL _ hne) (fun d hd => by cases hd with | oneOf hd => exact h d hd)
end

section
variable {s : SchemaF Act} {R : List GoStr} {T : Act → List GoStr → Constraint → Prop}

theorem arrayEnd_items (a : ArrC Constraint) : (arrayEnd s a).items = a.items ∧ (arrayEnd s a).positional = a.positional ∧
    (arrayEnd s a).additional = a.additional := by
  unfold arrayEnd applyIf
  cases s.uniqueItems <;> cases s.maxItems <;> cases s.minItems <;> exact ⟨rfl, rfl, rfl⟩

/-- What is found inside a built array constraint. -/
theorem arrayEnd_child {a : ArrC Constraint} (h : ItemsBuilt T R s a) {d : Constraint} (hd : (Constraint.array (arrayEnd s a)).Child d) :
    d = .empty ∨ ∃ x, s.Child x ∧ T x R d := by
  obtain ⟨e1, e2, e3⟩ := arrayEnd_items (s := s) a
  have hd : a.Child d := by
    cases hd with
    | array hd =>
      cases hd with
      | items hd => exact .items (e1 ▸ hd)
      | positional hd => exact .positional (e2 ▸ hd)
      | additional hd => exact .additional (e3 ▸ hd)
  cases h with
  | nil hi =>
    cases hd with
    | items hd => cases hd
    | positional hd => cases hd
    | additional hd => cases hd; exact .inl rfl
  | list hi t =>
    cases hd with
    | items hd => cases hd; exact .inr ⟨_, .list hi (by simp), t⟩
    | positional hd => cases hd
    | additional hd => cases hd; exact .inl rfl
  | tuple hi t x =>
    cases hd with
    | items hd => cases hd
    | positional hd =>
      obtain ⟨a, ha, ht⟩ := forall2_right t d hd
      exact .inr ⟨_, .tuple hi ha, ht⟩
    | additional hd =>
      simp only [ArrC.AdditionalItems] at hd
      rw [hd] at x
      generalize hx : s.additionalItems = y at x
      cases x with
      | allow => exact .inl rfl
      | schema t => exact .inr ⟨_, .additionalItems hx, t⟩

/-- What is found inside a built object constraint. -/
theorem object_child {o : ObjC Constraint} (h : ObjectBuilt T R s o) {d : Constraint} (hd : (Constraint.object o).Child d) :
    d = .empty ∨ ∃ x, s.Child x ∧ T x R d := by
  cases hd with
  | object hd =>
    cases hd with
    | prop hd =>
      obtain ⟨k, cs, hn, he⟩ := h.props
      rw [he] at hd
      rcases mem_foldl_ainsert hd with hd | hd
      · obtain ⟨a, ha, ht⟩ := forall2_right hn _ hd
        exact .inr ⟨_, .property (mem_shuffle.1 ha), ht.2⟩
      · cases hd
    | pattern hd =>
      obtain ⟨k, cs, hn, he⟩ := h.patterns
      rw [he] at hd
      rcases mem_foldl_patInsert hd with hd | hd
      · obtain ⟨a, ha, ht⟩ := forall2_right hn _ hd
        exact .inr ⟨_, .patternProp (mem_shuffle.1 ha), ht.2.2⟩
      · cases hd
    | additional hd =>
      have x := h.additional
      rw [hd] at x
      generalize hx : s.additionalProps = y at x
      cases x with
      | allow => exact .inl rfl
      | schema t => exact .inr ⟨_, .additionalProps hx, t⟩
    | dependency hd =>
      obtain ⟨k, cs, hn, he⟩ := h.schemadeps
      unfold ObjC.GetSchemaDependency at hd
      rw [he] at hd
      rcases mem_foldl_ainsert (alookup_mem hd) with hd | hd
      · obtain ⟨a, ha, ht⟩ := forall2_right hn _ hd
        exact .inr ⟨_, .dependency (mem_shuffle.1 ha), ht.2⟩
      · cases hd
end

theorem foldl_patInsert_fresh {β : Type} : ∀ (cs acc : List (Nat × GoStr × β)), ((acc ++ cs).map (·.1)).Nodup →
    cs.foldl (fun acc q => patInsert q.1 q.2.1 q.2.2 acc) acc = acc ++ cs
  | [], acc, _ => by simp
  | (i, src, c) :: cs, acc, h => by
    have hi : i ∉ acc.map (·.1) := by
      rw [List.map_append, List.nodup_append] at h
      intro hk
      exact h.2.2 i hk i (by simp) rfl
    rw [List.foldl_cons, patInsert_fresh hi, foldl_patInsert_fresh cs _ (by simpa using h)]
    simp

theorem propDeps_fold : ∀ (l : List (GoStr × List GoStr)) (o : ObjC Constraint), (o.propdeps.map (·.1)).Nodup →
    (∀ p ∈ o.propdeps, Plain p.1 ∧ ∀ d ∈ p.2, Plain d) → (∀ p ∈ l, Plain p.1 ∧ ∀ d ∈ p.2, Plain d) →
    ((l.foldl (fun o d => o.PropDependency d.1 d.2) o).propdeps.map (·.1)).Nodup ∧
      ∀ p ∈ (l.foldl (fun o d => o.PropDependency d.1 d.2) o).propdeps, Plain p.1 ∧ ∀ d ∈ p.2, Plain d
  | [], o, h1, h2, _ => ⟨h1, h2⟩
  | q :: l, o, h1, h2, h3 => by
    rw [List.foldl_cons]
    refine propDeps_fold l _ ?_ ?_ (fun p hp => h3 p (by simp [hp]))
    · exact nodup_ainsert h1
    · rintro ⟨k, ds⟩ hp
      rcases mem_ainsert_pair hp with ⟨rfl, rfl⟩ | hp
      · refine ⟨(h3 q (by simp)).1, fun d hd => ?_⟩
        rcases List.mem_append.1 hd with hd | hd
        · unfold ObjC.GetPropDependencies at hd
          cases ha : alookup q.1 o.propdeps with
          | none => rw [ha] at hd; simp at hd
          | some l' =>
            rw [ha] at hd
            exact (h2 _ (alookup_mem ha)).2 d hd
        · exact (h3 q (by simp)).2 d hd
      · exact h2 _ hp

theorem pats_keys {T : Act → List GoStr → Constraint → Prop} {R : List GoStr} {l : List (Nat × GoStr × Act)}
    {cs : List (Nat × GoStr × Constraint)} (h : Pats T R l cs) : cs.map (·.1) = l.map (·.1) ∧ cs.map (·.2.1) = l.map (·.2.1) := by
  induction h with
  | nil => exact ⟨rfl, rfl⟩
  | cons h _ ih => simp [h.1, h.2.1, ih]

section
variable {ext : Ext} {cls : DocClass} {lib : SchemaLib} {m : Nat} {s : SchemaF Schema} {R : List GoStr}
  {T : Act → List GoStr → Constraint → Prop}

theorem gen_string (h : s.Conforming ext lib.formats cls) (he : s.Expressible) : (stringOf (s.map (build lib m))).Gen := by
  rw [stringOf_fields (s.map (build lib m)) h.dflt]
  refine ⟨he.format, he.pattern, ?_, by simp⟩
  intro l hl
  simp only at hl
  split at hl
  · cases hl
  · rename_i hne
    simp only [Option.some.injEq] at hl
    subst hl
    refine ⟨hne, fun v hv => ?_⟩
    obtain ⟨t, rfl, ht⟩ := he.enum v hv
    exact ht

theorem gen_object (h : s.Conforming ext lib.formats cls) (he : s.Expressible) {o : ObjC Constraint}
    (hb : ObjectBuilt T R (s.map (build lib m)) o) : o.Gen := by
  obtain ⟨k1, cs1, n1, e1⟩ := hb.props
  obtain ⟨k2, cs2, n2, e2⟩ := hb.patterns
  obtain ⟨k3, cs3, n3, e3⟩ := hb.schemadeps
  obtain ⟨k4, e4⟩ := hb.propdeps
  obtain ⟨r1, r2, r3⟩ := objectStart_more (s.map (build lib m))
  have hpat : o.patterns = cs2 := by
    rw [e2, foldl_patInsert_fresh]
    · rfl
    · have : cs2.map (·.1) = (shuffle k2 (s.map (build lib m)).patternProps).map (·.1) := (pats_keys n2).1
      rw [List.nil_append, this, ← shuffle_map, shuffle_nodup]
      simpa [SchemaF.map, Function.comp_def] using h.patternIds
  have hsrc : cs2.map (·.2.1) = (shuffle k2 (s.map (build lib m)).patternProps).map (·.2.1) := (pats_keys n2).2
  have hpd := propDeps_fold (shuffle k4 (s.map (build lib m)).depNames) Object' (by simp [Object']) (by simp [Object'])
    (fun p hp => he.depNames p (mem_shuffle.1 hp))
  have hds : (s.map (build lib m)).depSchemas = [] := by simp [SchemaF.map, he.depSchemas]
  constructor
  · rw [e1]; exact foldl_ainsert_nodup _ _ (by simp)
  · rw [hpat, hsrc, ← shuffle_map, shuffle_nodup]
    simpa [SchemaF.map, Function.comp_def] using he.patternSources
  · rw [e4]; exact hpd.1
  · rintro ⟨p, c⟩ hp
    rw [e1] at hp
    rcases mem_foldl_ainsert hp with hp | hp
    · obtain ⟨a, ha, ht⟩ := forall2_right n1 _ hp
      have ha := mem_shuffle.1 ha
      simp only [SchemaF.map, List.mem_map] at ha
      obtain ⟨q, hq, rfl⟩ := ha
      rw [ht.1]
      exact he.properties q hq
    · cases hp
  · intro p hp
    rw [hpat] at hp
    obtain ⟨a, ha, ht⟩ := forall2_right n2 _ hp
    have ha := mem_shuffle.1 ha
    simp only [SchemaF.map, List.mem_map] at ha
    obtain ⟨q, hq, rfl⟩ := ha
    rw [ht.2.1]
    exact he.patternProps q hq
  · intro n hn
    rw [hb.required] at hn
    exact he.required n ((r1 n).1 hn)
  · rw [e4]; exact hpd.2
  · rw [hds] at n3
    simp only [shuffle] at n3
    cases n3
    exact e3
  · rw [hb.minProps, r2]
    simp [SchemaF.map, he.minProps]
  · rw [hb.maxProps, r3]
    simp [SchemaF.map, he.maxProps]

theorem types_of_conforming (h : s.Conforming ext lib.formats cls) {t : PrimType}
    (htm : t ∈ schemaTypes lib (s.map (build lib m))) : t ∈ s.type ∨ t = .string := by
  rw [mem_schemaTypes] at htm
  split at htm
  · exact Or.inl htm
  · rename_i hlen
    have hty : s.type = [] := by
      have : s.type.length = 0 := Nat.eq_zero_of_not_pos hlen
      exact List.length_eq_zero_iff.1 this
    rw [mem_guess, suggests_map] at htm
    rcases h.typed with h1 | h1 | h1
    · exact absurd hty h1
    · exact absurd htm (h1.1 t)
    · exact Or.inr (h1.2.2 t htm)

theorem gen_type (h : s.Conforming ext lib.formats cls) (he : s.Expressible) {t : PrimType} {c : Constraint}
    (ht : t ∈ schemaTypes lib (s.map (build lib m))) (hb : TypeBuilt T R (s.map (build lib m)) t c) : Constraint.Gen true c := by
  have ht := types_of_conforming h ht
  cases hb with
  | string => exact gen_string h he
  | number =>
    have ht : .number ∈ s.type := by simpa using ht
    have hen : s.enum = [] := by
      by_contra hne
      have := h.enumTyped hne _ ht
      simp at this
    show (numberOf (s.map (build lib m))).GenNum
    rw [numberOf_fields (s.map (build lib m)) h.dflt hen, boundsOf_fields]
    exact ⟨(he.numberBounds ht).1, (he.numberBounds ht).2, he.multipleOf, rfl, by simp⟩
  | integer =>
    have ht : .integer ∈ s.type := by simpa using ht
    have hen : s.enum = [] := by
      by_contra hne
      exact he.enumTyped hne ht
    show (integerOf (s.map (build lib m))).GenInt False
    rw [integerOf_fields (s.map (build lib m)) h.dflt, boundsOf_fields]
    refine ⟨(he.integerBounds ht).1, (he.integerBounds ht).2, he.multipleOf, ?_, by simp⟩
    exact if_pos hen
  | booleanDflt _ => rintro v ⟨⟩; exact ⟨_, rfl⟩
  | boolean _ => rintro v ⟨⟩
  | @array a hb =>
    obtain ⟨e1, e2, e3⟩ := arrayEnd_items (s := s.map (build lib m)) a
    show (arrayEnd (s.map (build lib m)) a).additional ≠ none ∨ _ ∨ _
    rw [e1, e2, e3]
    cases hb with
    | nil => exact .inr (.inl rfl)
    | list => exact .inr (.inr (by simp [ArrC.Items]))
    | tuple hi _ x =>
      left
      have hi : ∃ l, s.items = .tuple l := by
        simp only [SchemaF.map] at hi
        cases hh : s.items with
        | tuple l => exact ⟨l, rfl⟩
        | _ => rw [hh] at hi; cases hi
      obtain ⟨l, hl⟩ := hi
      have hne := he.tuple l hl
      simp only [SchemaF.map] at x
      cases hh : s.additionalItems with
      | nil => exact absurd hh hne
      | allow => rw [hh] at x; cases x; simp [ArrC.AdditionalItems]
      | schema y => rw [hh] at x; cases x; simp [ArrC.AdditionalItems]
  | object hb => exact gen_object h he hb
  | null => trivial

theorem gen_node (h : s.Conforming ext lib.formats cls) (he : s.Expressible)
    (hr0 : s.reference = []) (hT : ∀ x c, (s.map (build lib m)).Child x → T x R c → c.Every (Constraint.Gen true))
    {c : Constraint} (hb : NodeBuilt lib m T R (s.map (build lib m)) c) : c.Every (Constraint.Gen true) := by
  have hempty : Constraint.empty.Every (Constraint.Gen true) := every_leaf trivial (fun d hd => by cases hd)
  have hcombo : ∀ {l}, ComboBuilt T R (s.map (build lib m)) l → ∀ c ∈ l, c.Every (Constraint.Gen true) := by
    intro l hl c hc
    cases hl with
    | not hn t => simp [SchemaF.map, he.not] at hn
    | allOf h1 h2 t =>
      simp only [List.mem_singleton] at hc
      subst hc
      exact every_reduceAll (fun _ => trivial) (fun c hc => by obtain ⟨a, ha, ht⟩ := forall2_right t c hc; exact hT _ _ (.allOf ha) ht)
    | anyOf h1 h2 h3 t =>
      simp only [List.mem_singleton] at hc
      subst hc
      refine every_reduceAny (fun _ h => h) ?_ (fun c hc => by obtain ⟨a, ha, ht⟩ := forall2_right t c hc; exact hT _ _ (.anyOf ha) ht)
      rintro rfl
      exact h3 (by generalize (s.map (build lib m)).anyOf = l at t; cases t; rfl)
    | oneOf h1 h2 h3 h4 t =>
      simp only [List.mem_singleton] at hc
      subst hc
      refine every_reduceOneOf (fun _ h => h) ?_ (fun c hc => by obtain ⟨a, ha, ht⟩ := forall2_right t c hc; exact hT _ _ (.oneOf ha) ht)
      rintro rfl
      exact h4 (by generalize (s.map (build lib m)).oneOf = l at t; cases t; rfl)
    | none => simp at hc
  cases hb with
  | ref hr hm => exact absurd hr0 hr
  | @typed ct cs hr hc hn ht =>
    refine every_reduceAll (fun _ => trivial) (fun c h' => ?_)
    rcases List.mem_append.1 h' with h' | h'
    · exact hcombo hc c h'
    · simp only [List.mem_singleton] at h'
      subst h'
      refine every_reduceAny (fun _ h => h) ?_ (fun c hc => ?_)
      · rintro rfl
        exact hn (by generalize schemaTypes lib (s.map (build lib m)) = l at ht; cases ht; rfl)
      · obtain ⟨t, htm, hb⟩ := forall2_right ht c hc
        refine every_of_children (gen_type h he htm hb) (fun d hd => ?_)
        have key : d = .empty ∨ ∃ x, (s.map (build lib m)).Child x ∧ T x R d := by
          cases hb with
          | array hb => exact arrayEnd_child hb hd
          | object hb => exact object_child hb hd
          | _ => cases hd
        rcases key with rfl | ⟨x, hx, htx⟩
        · exact hempty
        · exact hT x d hx htx
  | enum hr hc hn hen =>
    exfalso
    obtain ⟨e, hmem⟩ := List.exists_mem_of_ne_nil _ hen
    obtain ⟨t, rfl, -⟩ := he.enum e hmem
    have : (.string : PrimType) ∈ schemaTypes lib (s.map (build lib m)) ∨ s.type ≠ [] := by
      by_cases hty : s.type = []
      · left
        rw [mem_schemaTypes, if_neg (show ¬ 0 < (s.map (build lib m)).type.length by show ¬ 0 < s.type.length; simp [hty]), mem_guess, suggests_map]
        exact .stringEnum hmem
      · exact .inr hty
    rcases this with h' | h'
    · rw [hn] at h'; cases h'
    · obtain ⟨t, ht⟩ := List.exists_mem_of_ne_nil _ h'
      have : t ∈ schemaTypes lib (s.map (build lib m)) := by
        rw [mem_schemaTypes, if_pos (show 0 < (s.map (build lib m)).type.length from List.length_pos_iff.2 h')]
        exact ht
      rw [hn] at this; cases this
  | plain hr hc hn hen => exact every_reduceAll (fun _ => trivial) (hcombo hc)

end

/-- What is built from a conforming, expressible schema can be generated. -/
theorem gen_built {ext : Ext} {cls : DocClass} {lib : SchemaLib} {m : Nat} {s : Schema} (h : s.Conforms ext lib.formats cls) :
    s.Expresses → ∀ c, BuiltFrom lib m s c → c.Every (Constraint.Gen true) := by
  induction h with
  | ref s hne =>
    intro he c hb
    have hp : Plain s.reference := by
      cases he with
      | ref _ _ hp => exact hp
      | node _ h => exact absurd h hne
    obtain ⟨R, hb⟩ := node_of_build hb
    cases hb with
    | ref => exact every_leaf ⟨rfl, hp⟩ (fun d hd => by cases hd)
    | typed h => exact absurd h hne
    | enum h => exact absurd h hne
    | plain h => exact absurd h hne
  | node s hr hcf _ ih =>
    intro he c hb
    obtain ⟨hx, hk⟩ : s.Expressible ∧ ∀ c, s.Child c → c.Expresses := by
      cases he with
      | ref _ h => exact absurd hr h
      | node _ _ h h' => exact ⟨h, h'⟩
    obtain ⟨R, hb⟩ := node_of_build hb
    refine gen_node hcf hx hr (fun a c ha ht => ?_) hb
    obtain ⟨d, hd, rfl⟩ := SchemaF.child_map ha
    exact ih d hd (hk d hd) c ht

end Jsval
