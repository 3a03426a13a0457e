import Verif.Lemmas.SchemaObject
import Verif.Lemmas.BuilderTypes
/-!
# The constraint built for a conforming schema decides validity
-/
namespace Jsval
open Tracks
variable {ext : Ext} {cls : DocClass} {ρ : RefSem} {lib : SchemaLib} {m : Nat}

theorem in_reduceAll {l : List Constraint} {c : Constraint} (h : c ∈ l) : c.In (reduceAll l) := by
  unfold reduceAll reduceCombined
  split
  · simp only [List.mem_singleton] at h; subst h; exact .refl _
  · exact .child (.all h) (.refl _)

theorem in_reduceAny {l : List Constraint} {c : Constraint} (h : c ∈ l) : c.In (reduceAny l) := by
  unfold reduceAny reduceCombined
  split
  · simp only [List.mem_singleton] at h; subst h; exact .refl _
  · exact .child (.any h) (.refl _)

theorem in_reduceOneOf {l : List Constraint} {c : Constraint} (h : c ∈ l) : c.In (reduceOneOf l) := by
  unfold reduceOneOf reduceCombined
  split
  · simp only [List.mem_singleton] at h; subst h; exact .refl _
  · exact .child (.oneOf h) (.refl _)

theorem mem_schemaTypes {S : Type} {s : SchemaF S} {t : PrimType} :
    t ∈ schemaTypes lib s ↔ t ∈ (if 0 < s.type.length then s.type else guessSchemaType lib s) := by
  unfold schemaTypes sortTypes
  exact List.mem_insertionSort _

theorem combo_tracks {s : SchemaF Schema} (h : s.Conforming ext lib.formats cls) {V : Schema → GoVal → Prop}
    {R : List GoStr} {ct : List Constraint}
    (hb : ComboBuilt (fun a _ c => BuiltBy a c) R (s.map (build lib m)) ct)
    (ih : ∀ x, s.Child x → ∀ c, (∃ d ∈ ct, c.In d) → BuiltFrom lib m x c → Tracks ext (Doc cls) (denote ext ρ c) (V x)) :
    ∃ ps, Each ext (Doc cls) ρ ct ps ∧ ∀ v, (∀ p ∈ ps, p v) ↔ (s.map V).ComboRules v := by
  have mapne : ∀ {α β : Type} {f : α → β} {l : List α}, l.map f ≠ [] ↔ l ≠ [] := by
    intro α β f l; simp
  cases hb with
  | @not a c hn hc =>
    simp only [SchemaF.map, Option.map_eq_some_iff] at hn
    obtain ⟨x, hx, rfl⟩ := hn
    have ho : s.allOf = [] ∧ s.anyOf = [] ∧ s.oneOf = [] := by
      rcases h.combos.1 with h1 | h1
      · rw [hx] at h1; cases h1
      · exact h1
    refine ⟨[fun v => ¬ V x v], .cons (.not (ih x (.not hx) c ⟨_, by simp, .child .not (.refl _)⟩ hc)) .nil, fun v => ?_⟩
    constructor
    · intro hv
      have hv := hv _ (List.mem_singleton.2 rfl)
      refine ⟨fun p hp => ?_, ?_, ?_, ?_⟩
      · simp only [SchemaF.map, hx, Option.map_some, Option.some.injEq] at hp
        rw [← hp]; exact hv
      · simp [SchemaF.map, ho]
      · simp [SchemaF.map, ho]
      · simp [SchemaF.map, ho]
    · intro hv p hp
      simp only [List.mem_singleton] at hp; subst hp
      exact hv.not _ (by simp [SchemaF.map, hx])
  | @allOf cs hn hne hc =>
    have hn : s.not = none := by simpa [SchemaF.map] using hn
    have hne : s.allOf ≠ [] := by simpa [SchemaF.map] using hne
    have ho : s.anyOf = [] ∧ s.oneOf = [] := h.combos.2.1.resolve_left hne
    have hE : Each ext (Doc cls) ρ cs (s.allOf.map V) :=
      built_each (fun x hx c hcc => ih x (.allOf hx) c ⟨_, by simp, in_reduceAll hcc⟩) hc
    refine ⟨[_], .cons (reduce_all hE) .nil, fun v => ?_⟩
    constructor
    · intro hv
      have hv := hv _ (List.mem_singleton.2 rfl)
      refine ⟨?_, hv, ?_, ?_⟩ <;> simp [SchemaF.map, ho, hn]
    · intro hv p hp
      simp only [List.mem_singleton] at hp; subst hp
      exact hv.allOf
  | @anyOf cs hn ha hne hc =>
    have hn : s.not = none := by simpa [SchemaF.map] using hn
    have ha : s.allOf = [] := by simpa [SchemaF.map] using ha
    have hne : s.anyOf ≠ [] := by simpa [SchemaF.map] using hne
    have ho : s.oneOf = [] := h.combos.2.2.resolve_left hne
    have hE : Each ext (Doc cls) ρ cs (s.anyOf.map V) :=
      built_each (fun x hx c hcc => ih x (.anyOf hx) c ⟨_, by simp, in_reduceAny hcc⟩) hc
    refine ⟨[_], .cons (reduce_any hE) .nil, fun v => ?_⟩
    constructor
    · intro hv
      have hv := hv _ (List.mem_singleton.2 rfl)
      refine ⟨?_, ?_, fun _ => hv, ?_⟩ <;> simp [SchemaF.map, ho, hn, ha]
    · intro hv p hp
      simp only [List.mem_singleton] at hp; subst hp
      exact hv.anyOf (mapne.2 hne)
  | @oneOf cs hn ha hb hne hc =>
    have hn : s.not = none := by simpa [SchemaF.map] using hn
    have ha : s.allOf = [] := by simpa [SchemaF.map] using ha
    have hb : s.anyOf = [] := by simpa [SchemaF.map] using hb
    have hne : s.oneOf ≠ [] := by simpa [SchemaF.map] using hne
    have hE : Each ext (Doc cls) ρ cs (s.oneOf.map V) :=
      built_each (fun x hx c hcc => ih x (.oneOf hx) c ⟨_, by simp, in_reduceOneOf hcc⟩) hc
    refine ⟨[_], .cons (reduce_oneOf hE) .nil, fun v => ?_⟩
    constructor
    · intro hv
      have hv := hv _ (List.mem_singleton.2 rfl)
      refine ⟨?_, ?_, ?_, fun _ => hv⟩ <;> simp [SchemaF.map, hb, hn, ha]
    · intro hv p hp
      simp only [List.mem_singleton] at hp; subst hp
      exact hv.oneOf (mapne.2 hne)
  | none hn ha hb hc =>
    have hn : s.not = none := by simpa [SchemaF.map] using hn
    have ha : s.allOf = [] := by simpa [SchemaF.map] using ha
    have hb : s.anyOf = [] := by simpa [SchemaF.map] using hb
    have hc : s.oneOf = [] := by simpa [SchemaF.map] using hc
    refine ⟨[], .nil, fun v => ⟨fun _ => ?_, fun _ p hp => by simp at hp⟩⟩
    refine ⟨?_, ?_, ?_, ?_⟩ <;> simp [SchemaF.map, hn, ha, hb, hc]

/-- A built type constraint. -/
theorem type_tracks {s : SchemaF Schema} (h : s.Conforming ext lib.formats cls) {V : Schema → GoVal → Prop}
    (hV : ∀ p : SchemaF Schema, p.StringsOnly → ∀ v, V (.mk p) v → ∃ t, v = .str t)
    {R : List GoStr} {t : PrimType} {c : Constraint} (ht : t ∈ s.type ∨ t = .string)
    (hb : TypeBuilt (fun a _ c => BuiltBy a c) R (s.map (build lib m)) t c)
    (ih : ∀ x, s.Child x → ∀ d, c.Child d → BuiltFrom lib m x d → Tracks ext (Doc cls) (denote ext ρ d) (V x)) :
    Tracks ext (Doc cls) (denote ext ρ c) (fun v => HasType t v ∧ (s.map V).ValueRules ext v) := by
  have ht' : ∀ t', t = t' → t' ≠ .string → t' ∈ s.type := by
    rintro t' rfl hne
    exact ht.resolve_right hne
  cases hb with
  | string => exact string_tracks h V
  | number => exact number_tracks h (ht' _ rfl (by simp)) V
  | integer => exact integer_tracks h V
  | booleanDflt hd =>
    have : s.dflt = _ := hd
    rw [h.dflt] at this; cases this
  | boolean => exact boolean_tracks h (ht' _ rfl (by simp)) V
  | null => exact null_tracks h (ht' _ rfl (by simp)) V
  | array ha => exact arrayType_tracks h (ht' _ rfl (by simp)) hV ha ih
  | object ho => exact objectType_tracks h (ht' _ rfl (by simp)) ho ih

theorem jsonEq_sameGo {e v : GoVal} (he : IsScalar e) (hv : Doc cls v) : JsonEq e v ↔ SameGo e v := by
  constructor
  · intro h
    cases h with
    | null => exact .nil
    | bool b => exact .bool b
    | num a b h => exact .float _ a b h
    | str s => exact .str s
    | arr => cases he
    | obj => cases he
  · intro h
    cases h with
    | nil => exact .null
    | bool b => exact .bool b
    | int => cases hv
    | uint => cases hv
    | float k a b h => cases hv with | num => exact .num _ _ h
    | str s => exact .str s

theorem enum_tracks {es : List GoVal} (h : ∀ e ∈ es, IsScalar e) :
    Tracks ext (Doc cls) (denote ext ρ (.enum es)) (fun v => ∃ e ∈ es, JsonEq e v) := by
  have key : ∀ σ v, Doc cls v → ((denote ext ρ (.enum es)).AcceptsBy σ v ↔ ∃ e ∈ es, JsonEq e v) := by
    intro σ v hv
    have hcong : (∃ e ∈ es, SameGo e v) ↔ ∃ e ∈ es, JsonEq e v :=
      ⟨fun ⟨e, h1, h2⟩ => ⟨e, h1, (jsonEq_sameGo (h e h1) hv).2 h2⟩,
        fun ⟨e, h1, h2⟩ => ⟨e, h1, (jsonEq_sameGo (h e h1) hv).1 h2⟩⟩
    have hs : Scalar v ∨ ((∃ b xs, v = .slice b xs) ∨ ∃ b kvs, v = .map b kvs) := by
      cases hv with
      | null => exact Or.inl .nil
      | bool b => exact Or.inl (.bool b)
      | num n k => exact Or.inl (.float _ _)
      | str s => exact Or.inl (.str s)
      | arr xs => exact Or.inr (Or.inl ⟨_, _, rfl⟩)
      | obj kvs => exact Or.inr (Or.inr ⟨_, _, rfl⟩)
    rcases hs with hs | hs
    · rw [← hcong]; exact (C09_enum_exact ext ρ σ es v hs).1
    · have hno : ¬ ∃ e ∈ es, SameContainer e v := by
        rintro ⟨e, h1, h2⟩
        have := h e h1
        cases h2 <;> cases this
      unfold Sem.AcceptsBy
      rw [(C09_enum_container ext ρ σ es v hs).2 hno]
      constructor
      · intro h'; cases h'
      · rintro ⟨e, h1, h2⟩
        have := h e h1
        rcases hs with ⟨b, xs, rfl⟩ | ⟨b, kvs, rfl⟩ <;> (cases h2; cases this)
  exact Tracks.leaf (by simp) (fun d hd => by cases hd) ⟨rfl, fun x hx => h x hx⟩ key

/-- Without keywords that suggest a type only the enumeration says something. -/
theorem plain_value {s : SchemaF Schema} {V : Schema → GoVal → Prop} (h : ∀ t, ¬ Suggests lib.formats s t)
    (hdn : s.depNames = []) (hds : s.depSchemas = [])
    (hf : s.format ∉ [b! "date-time", b! "email", b! "hostname", b! "ipv4", b! "ipv6", b! "uri"]) (v : GoVal) :
    (s.map V).ValueRules ext v ↔ (s.enum ≠ [] → ∃ e ∈ s.enum, JsonEq e v) := by
  refine ⟨fun hv => hv.enum, fun hv => ?_⟩
  have hfb : s.firstBound = none := by
    cases hb : s.firstBound with
    | none => rfl
    | some f =>
      by_cases hw : f.Whole
      · exact absurd (.whole hb hw) (h _)
      · exact absurd (.fractional hb hw) (h _)
  have hn : s.multipleOf = none ∧ s.minimum = none ∧ s.maximum = none := by
    unfold SchemaF.firstBound at hfb
    cases h1 : s.multipleOf <;> cases h2 : s.minimum <;> cases h3 : s.maximum <;> simp [h1, h2, h3] at hfb ⊢
  have no : ∀ {α : Type} {o : Option α} {t : PrimType}, (o ≠ none → Suggests lib.formats s t) → o = none := by
    intro α o t hh
    by_contra hc
    exact h _ (hh hc)
  have nol : ∀ {α : Type} {o : List α} {t : PrimType}, (o ≠ [] → Suggests lib.formats s t) → o = [] := by
    intro α o t hh
    by_contra hc
    exact h _ (hh hc)
  have h1 := no (Suggests.minLength (formats := lib.formats) (s := s))
  have h2 := no (Suggests.maxLength (formats := lib.formats) (s := s))
  have h3 := no (Suggests.pattern (formats := lib.formats) (s := s))
  have h4 := no (Suggests.minItems (formats := lib.formats) (s := s))
  have h5 := no (Suggests.maxItems (formats := lib.formats) (s := s))
  have h6 := no (Suggests.uniqueItems (formats := lib.formats) (s := s))
  have h7 := no (Suggests.minProps (formats := lib.formats) (s := s))
  have h8 := no (Suggests.maxProps (formats := lib.formats) (s := s))
  have h9 := nol (Suggests.required (formats := lib.formats) (s := s))
  have h10 := nol (Suggests.properties (formats := lib.formats) (s := s))
  have h11 := nol (Suggests.patternProps (formats := lib.formats) (s := s))
  have h12 : s.items = .nil := by
    by_contra hc; exact h _ (.items hc)
  have h13 : s.additionalProps = .allow := by
    by_contra hc; exact h _ (.additionalProps hc)
  simp only [List.mem_cons, List.not_mem_nil, or_false, not_or] at hf
  refine ⟨hv, fun f _ => ?_, fun t _ => ?_, fun xs _ => ?_, fun kvs _ => ?_⟩
  · constructor <;> simp [SchemaF.map, hn]
  · refine ⟨by simp [SchemaF.map, h1], by simp [SchemaF.map, h2], by simp [SchemaF.map, h3], ?_⟩
    exact ⟨fun e => absurd e hf.1, fun e => absurd e hf.2.1, fun e => absurd e hf.2.2.1, fun e => absurd e hf.2.2.2.1,
      fun e => absurd e hf.2.2.2.2.1, fun e => absurd e hf.2.2.2.2.2⟩
  · constructor <;> simp [SchemaF.map, h4, h5, h6, h12, ItemSpec.map]
  · constructor <;> simp [SchemaF.map, h7, h8, h9, h10, h11, h13, hdn, hds, Extra.map]

theorem node_tracks {s : SchemaF Schema} (hr : s.reference = []) (h : s.Conforming ext lib.formats cls)
    {V : Schema → GoVal → Prop} (hV : ∀ p : SchemaF Schema, p.StringsOnly → ∀ v, V (.mk p) v → ∃ t, v = .str t)
    {Rm : GoStr → GoVal → Prop} {c : Constraint} (hb : BuiltFrom lib m (.mk s) c)
    (ih : ∀ x, s.Child x → ∀ d, d.In c → BuiltFrom lib m x d → Tracks ext (Doc cls) (denote ext ρ d) (V x)) :
    Tracks ext (Doc cls) (denote ext ρ c) (fun v => (s.map V).Validates ext v Rm) := by
  have hval : ∀ v, (s.map V).Validates ext v Rm ↔ (s.map V).ComboRules v ∧ (s.type ≠ [] → ∃ t ∈ s.type, HasType t v) ∧
      (s.map V).ValueRules ext v := by
    intro v
    constructor
    · intro hv; exact ⟨hv.combos hr, hv.type hr, hv.value hr⟩
    · rintro ⟨h1, h2, h3⟩
      exact ⟨fun hne => absurd hr hne, fun _ => h1, fun _ => h2, fun _ => h3⟩
  obtain ⟨R, hb⟩ := node_of_build hb
  cases hb with
  | ref hne => exact absurd hr hne
  | @typed ct cs _ hct hne hts =>
    obtain ⟨ps, hE, hps⟩ := combo_tracks h hct (fun x hx c ⟨d, hd, hc⟩ =>
      ih x hx c (hc.trans (in_reduceAll (by simp [hd]))))
    have hmem : ∀ t, t ∈ schemaTypes lib (s.map (build lib m)) → t ∈ s.type ∨ t = .string := by
      intro t htm
      rw [mem_schemaTypes] at htm
      split at htm
      · exact Or.inl htm
      · rename_i hlen
        have hty : s.type = [] := by
          have : s.type.length = 0 := Nat.eq_zero_of_not_pos hlen
          exact List.length_eq_zero_iff.1 this
        rw [mem_guess, suggests_map] at htm
        rcases h.typed with h1 | h1 | h1
        · exact absurd hty h1
        · exact absurd htm (h1.1 t)
        · exact Or.inr (h1.2.2 t htm)
    have hTs : Each ext (Doc cls) ρ cs ((schemaTypes lib (s.map (build lib m))).map
        (fun t v => HasType t v ∧ (s.map V).ValueRules ext v)) := by
      have hin : ∀ d ∈ cs, d.In (reduceAll (ct ++ [reduceAny cs])) := fun d hd =>
        (in_reduceAny hd).trans (in_reduceAll (by simp))
      generalize hC : reduceAll (ct ++ [reduceAny cs]) = C at ih hin
      clear hC hne hb
      revert hts hmem
      generalize schemaTypes lib (s.map (build lib m)) = ts
      intro hts hmem
      induction hts with
      | nil => exact .nil
      | @cons t d ts ds hd _ ihl =>
        exact .cons (type_tracks h hV (hmem t (by simp)) hd (fun x hx e he => ih x hx e
            ((Constraint.In.child he (.refl _)).trans (hin d (by simp)))))
          (ihl (fun d hd => hin d (by simp [hd])) (fun t ht => hmem t (by simp [ht])))
    have hall : Each ext (Doc cls) ρ (ct ++ [reduceAny cs]) (ps ++ [_]) :=
      List.rel_append hE (.cons (reduce_any hTs) .nil)
    refine (reduce_all hall).congr (fun v hv => ?_)
    rw [hval v, ← hps v]
    have hlast : (∃ p ∈ (schemaTypes lib (s.map (build lib m))).map (fun t v => HasType t v ∧ (s.map V).ValueRules ext v), p v) ↔
        (s.type ≠ [] → ∃ t ∈ s.type, HasType t v) ∧ (s.map V).ValueRules ext v := by
      constructor
      · rintro ⟨p, hp, hpv⟩
        obtain ⟨t, ht, rfl⟩ := List.mem_map.1 hp
        refine ⟨fun hty => ⟨t, ?_, hpv.1⟩, hpv.2⟩
        rw [mem_schemaTypes, if_pos (show 0 < (s.map (build lib m)).type.length from List.length_pos_iff.2 hty)] at ht
        exact ht
      · rintro ⟨h1, h2⟩
        by_cases hty : s.type = []
        · obtain ⟨t, ht⟩ := List.exists_mem_of_ne_nil _ hne
          have htm := ht
          rw [mem_schemaTypes, if_neg (show ¬ 0 < (s.map (build lib m)).type.length from (by show ¬ 0 < s.type.length; simp [hty])), mem_guess, suggests_map] at htm
          rcases h.typed with h3 | h3 | h3
          · exact absurd hty h3
          · exact absurd htm (h3.1 t)
          · refine ⟨_, List.mem_map.2 ⟨t, ht, rfl⟩, ?_, h2⟩
            rw [h3.2.2 t htm]
            obtain ⟨e, he, hev⟩ := h2.enum h3.1
            obtain ⟨x, rfl⟩ := h3.2.1 e he
            cases hev; exact .string x
        · obtain ⟨t, ht, htv⟩ := h1 hty
          refine ⟨_, List.mem_map.2 ⟨t, ?_, rfl⟩, htv, h2⟩
          rw [mem_schemaTypes, if_pos (show 0 < (s.map (build lib m)).type.length from List.length_pos_iff.2 hty)]
          exact ht
    constructor
    · intro hp
      exact ⟨fun p hpp => hp p (by simp [hpp]), hlast.1 (hp _ (List.mem_append_right _ (List.mem_singleton.2 rfl)))⟩
    · rintro ⟨h1, h2⟩ p hp
      rcases List.mem_append.1 hp with hp | hp
      · exact h1 p hp
      · simp only [List.mem_singleton] at hp; subst hp
        exact hlast.2 h2
  | @enum ct _ hct hemp hne =>
    obtain ⟨ps, hE, hps⟩ := combo_tracks h hct (fun x hx c ⟨d, hd, hc⟩ =>
      ih x hx c (hc.trans (in_reduceAll (by simp [hd]))))
    have hne : s.enum ≠ [] := hne
    have hno : ∀ t, t ∉ (if 0 < s.type.length then s.type else guessSchemaType lib (s.map (build lib m))) := by
      intro t ht
      have := (mem_schemaTypes (lib := lib) (s := s.map (build lib m))).2 ht
      rw [hemp] at this; simp at this
    have hty : s.type = [] := by
      by_contra hty
      obtain ⟨t, ht⟩ := List.exists_mem_of_ne_nil _ hty
      exact hno t (by rw [if_pos (List.length_pos_iff.2 hty)]; exact ht)
    have hsug : ∀ t, ¬ Suggests lib.formats s t := by
      intro t ht
      refine hno t ?_
      rw [if_neg (by simp [hty]), mem_guess, suggests_map]
      exact ht
    rcases h.typed with h1 | h1 | h1
    · exact absurd hty h1
    · refine (reduce_all (List.rel_append hE (.cons (enum_tracks h.enumScalar) .nil))).congr (fun v hv => ?_)
      rw [hval v, ← hps v, plain_value h1.1 h1.2.1 h1.2.2.1 h1.2.2.2]
      constructor
      · intro hp
        exact ⟨fun p hpp => hp p (by simp [hpp]), fun hh => absurd hty hh, fun _ => hp (fun v => ∃ e ∈ s.enum, JsonEq e v) (by simp)⟩
      · rintro ⟨h3, -, h4⟩ p hp
        rcases List.mem_append.1 hp with hp | hp
        · exact h3 p hp
        · simp only [List.mem_singleton] at hp; subst hp
          exact h4 hne
    · obtain ⟨e, he⟩ := List.exists_mem_of_ne_nil _ hne
      obtain ⟨t, rfl⟩ := h1.2.1 e he
      exact absurd (.stringEnum he) (hsug _)
  | @plain ct _ hct hemp he =>
    obtain ⟨ps, hE, hps⟩ := combo_tracks h hct (fun x hx c ⟨d, hd, hc⟩ =>
      ih x hx c (hc.trans (in_reduceAll hd)))
    have he : s.enum = [] := he
    have hno : ∀ t, t ∉ (if 0 < s.type.length then s.type else guessSchemaType lib (s.map (build lib m))) := by
      intro t ht
      have := (mem_schemaTypes (lib := lib) (s := s.map (build lib m))).2 ht
      rw [hemp] at this; simp at this
    have hty : s.type = [] := by
      by_contra hty
      obtain ⟨t, ht⟩ := List.exists_mem_of_ne_nil _ hty
      exact hno t (by rw [if_pos (List.length_pos_iff.2 hty)]; exact ht)
    rcases h.typed with h1 | h1 | h1
    · exact absurd hty h1
    · refine (reduce_all hE).congr (fun v hv => ?_)
      rw [hval v, ← hps v, plain_value h1.1 h1.2.1 h1.2.2.1 h1.2.2.2]
      exact ⟨fun hp => ⟨hp, fun hh => absurd hty hh, fun hh => absurd he hh⟩, fun hp => hp.1⟩
    · exact absurd he h1.1

theorem SchemaF.StringsOnly.valid {p : SchemaF Schema} (h : p.StringsOnly) {R : GoStr → GoVal → Prop} {v : GoVal}
    (hv : Schema.Valid ext R (.mk p) v) : ∃ t, v = .str t := by
  rw [Schema.valid_mk] at hv
  obtain ⟨hr, h | h⟩ := h
  · obtain ⟨t, ht, hy⟩ := hv.type hr h.1
    obtain rfl := h.2 t ht
    cases hy
    exact ⟨_, rfl⟩
  · obtain ⟨e, he, hq⟩ := (hv.value hr).enum h.1
    obtain ⟨t, rfl⟩ := h.2 e he
    cases hq
    exact ⟨_, rfl⟩

/-- The constraint built for a conforming schema decides validity, if its references decide what they mean. -/
theorem schema_tracks {R : GoStr → GoVal → Prop} {s : Schema} (h : s.Conforms ext lib.formats cls) :
    ∀ c, BuiltFrom lib m s c → (∀ n, s.Mentions n → (Constraint.ref m n).In c → Tracks ext (Doc cls) (ρ m n) (R n)) →
      Tracks ext (Doc cls) (denote ext ρ c) (s.Valid ext R) := by
  induction h with
  | ref s hne =>
    intro c hb hρ
    obtain ⟨R', hb⟩ := node_of_build hb
    have hc : c = .ref m s.reference := by
      cases hb with
      | ref => rfl
      | typed h => exact absurd h hne
      | enum h => exact absurd h hne
      | plain h => exact absurd h hne
    subst hc
    refine (hρ s.reference (.here hne rfl) (.refl _)).congr (fun v _ => ?_)
    rw [Schema.valid_mk]
    constructor
    · intro hv
      exact ⟨fun _ => hv, fun hh => absurd hh hne, fun hh => absurd hh hne, fun hh => absurd hh hne⟩
    · intro hv; exact hv.reference hne
  | node s hr hcf _ ih =>
    intro c hb hρ
    rw [Schema.valid_mk]
    refine node_tracks hr hcf (fun p hp v => hp.valid) hb (fun x hx d hd hbd => ih x hx d hbd (fun n hn hi => ?_))
    exact hρ n (.child hr hx hn) (hi.trans hd)

end Jsval
