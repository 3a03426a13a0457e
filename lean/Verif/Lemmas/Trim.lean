import Verif.Spec.Trim
import Verif.Props.Exact
import Verif.Props.Conforming
/-!
# Lemmas about keywords that do not apply
-/
namespace Jsval
variable {S T : Type}

theorem SchemaF.trim_map (f : S → T) (s : SchemaF S) : (s.map f).trim = s.trim.map f := by
  unfold SchemaF.trim
  by_cases hr : s.reference ≠ []
  · rw [if_pos hr, if_pos (show (s.map f).reference ≠ [] from hr)]
    rfl
  · rw [if_neg hr, if_neg (show ¬ (s.map f).reference ≠ [] from hr)]
    by_cases ht : s.type = []
    · rw [if_pos ht, if_pos (show (s.map f).type = [] from ht)]
    · rw [if_neg ht, if_neg (show ¬ (s.map f).type = [] from ht)]
      by_cases h1 : .number ∈ s.type ∨ .integer ∈ s.type <;> by_cases h2 : .string ∈ s.type <;> by_cases h3 : .array ∈ s.type <;>
        by_cases h4 : .object ∈ s.type <;> simp [SchemaF.map, h1, h2, h3, h4, ItemSpec.map, Extra.map]

theorem Schema.trim_mk (s : SchemaF Schema) : (Schema.mk s).trim = .mk (s.map Schema.trim).trim := Schema.fold_mk _ _ s

/-! ## What stays -/

theorem trim_ref {s : SchemaF S} (h : s.reference ≠ []) : s.trim = { reference := s.reference } := by
  unfold SchemaF.trim; rw [if_pos h]

theorem trim_untyped {s : SchemaF S} (h : s.reference = []) (ht : s.type = []) : s.trim = s := by
  unfold SchemaF.trim; rw [if_neg (by simp [h]), if_pos ht]

theorem trim_common (s : SchemaF S) (h : s.reference = []) : s.trim.reference = [] ∧ s.trim.type = s.type ∧ s.trim.not = s.not ∧
    s.trim.allOf = s.allOf ∧ s.trim.anyOf = s.anyOf ∧ s.trim.oneOf = s.oneOf ∧ s.trim.enum = s.enum ∧ s.trim.dflt = s.dflt := by
  unfold SchemaF.trim
  rw [if_neg (by simp [h])]
  by_cases ht : s.type = []
  · rw [if_pos ht]; simp [h]
  · rw [if_neg ht]
    by_cases h1 : .number ∈ s.type ∨ .integer ∈ s.type <;> by_cases h2 : .string ∈ s.type <;> by_cases h3 : .array ∈ s.type <;>
      by_cases h4 : .object ∈ s.type <;> simp [h, h1, h2, h3, h4]

theorem trim_number (s : SchemaF S) (h : s.reference = []) (ht : .number ∈ s.type ∨ .integer ∈ s.type) :
    s.trim.multipleOf = s.multipleOf ∧ s.trim.minimum = s.minimum ∧ s.trim.maximum = s.maximum ∧ s.trim.exclMin = s.exclMin ∧
    s.trim.exclMax = s.exclMax := by
  unfold SchemaF.trim
  rw [if_neg (by simp [h]), if_neg (by rintro e; simp [e] at ht)]
  by_cases h2 : .string ∈ s.type <;> by_cases h3 : .array ∈ s.type <;> by_cases h4 : .object ∈ s.type <;> simp [ht, h2, h3, h4]

theorem trim_string (s : SchemaF S) (h : s.reference = []) (ht : .string ∈ s.type) :
    s.trim.minLength = s.minLength ∧ s.trim.maxLength = s.maxLength ∧ s.trim.pattern = s.pattern ∧ s.trim.format = s.format := by
  unfold SchemaF.trim
  rw [if_neg (by simp [h]), if_neg (by rintro e; simp [e] at ht)]
  by_cases h1 : .number ∈ s.type ∨ .integer ∈ s.type <;> by_cases h3 : .array ∈ s.type <;> by_cases h4 : .object ∈ s.type <;>
    simp [h1, ht, h3, h4]

theorem trim_array (s : SchemaF S) (h : s.reference = []) (ht : .array ∈ s.type) :
    s.trim.items = s.items ∧ s.trim.additionalItems = s.additionalItems ∧ s.trim.minItems = s.minItems ∧ s.trim.maxItems = s.maxItems ∧
    s.trim.uniqueItems = s.uniqueItems := by
  unfold SchemaF.trim
  rw [if_neg (by simp [h]), if_neg (by rintro e; simp [e] at ht)]
  by_cases h1 : .number ∈ s.type ∨ .integer ∈ s.type <;> by_cases h2 : .string ∈ s.type <;> by_cases h4 : .object ∈ s.type <;>
    simp [h1, h2, ht, h4]

theorem trim_object (s : SchemaF S) (h : s.reference = []) (ht : .object ∈ s.type) :
    s.trim.required = s.required ∧ s.trim.minProps = s.minProps ∧ s.trim.maxProps = s.maxProps ∧ s.trim.properties = s.properties ∧
    s.trim.patternProps = s.patternProps ∧ s.trim.additionalProps = s.additionalProps ∧ s.trim.depNames = s.depNames ∧
    s.trim.depSchemas = s.depSchemas := by
  unfold SchemaF.trim
  rw [if_neg (by simp [h]), if_neg (by rintro e; simp [e] at ht)]
  by_cases h1 : .number ∈ s.type ∨ .integer ∈ s.type <;> by_cases h2 : .string ∈ s.type <;> by_cases h3 : .array ∈ s.type <;>
    simp [h1, h2, h3, ht]

/-! ## Building -/

variable {lib : SchemaLib} {m : Nat}

theorem trim_types (s : SchemaF S) (h : s.reference = []) : schemaTypes lib s.trim = schemaTypes lib s := by
  by_cases ht : s.type = []
  · rw [trim_untyped h ht]
  · unfold schemaTypes
    rw [(trim_common s h).2.1, if_pos (List.length_pos_iff.2 ht), if_pos (List.length_pos_iff.2 ht)]

theorem trim_buildType (s : SchemaF Act) (h : s.reference = []) {t : PrimType} (ht : t ∈ s.type) (τ : Sched) :
    buildType s.trim τ t = buildType s τ t := by
  obtain ⟨-, k1, -, -, -, -, k2, k3⟩ := trim_common s h
  cases t with
  | string =>
    obtain ⟨a, b, c, d⟩ := trim_string s h ht
    simp only [buildType, buildString, stringOf, a, b, c, d, k1, k2, k3]
  | number =>
    obtain ⟨a, b, c, d, e⟩ := trim_number s h (.inl ht)
    simp only [buildType, buildNumber, numberOf, boundsOf, a, b, c, d, e, k1, k2, k3]
  | integer =>
    obtain ⟨a, b, c, d, e⟩ := trim_number s h (.inr ht)
    simp only [buildType, buildInteger, integerOf, boundsOf, a, b, c, d, e, k1, k2, k3]
  | boolean => simp only [buildType, buildBoolean, k3]
  | array =>
    obtain ⟨a, b, c, d, e⟩ := trim_array s h ht
    simp only [buildType, buildArray, a, b, c, d, e]
  | object =>
    obtain ⟨a, b, c, d, e, f, g, i⟩ := trim_object s h ht
    simp only [buildType, buildObject, objectStart, a, b, c, d, e, f, g, i]
  | _ => rfl

theorem trim_buildNode (s : SchemaF Act) : buildNode lib m s.trim = buildNode lib m s := by
  by_cases h : s.reference = []
  · by_cases ht : s.type = []
    · rw [trim_untyped h ht]
    · obtain ⟨k0, k1, a, b, c, d, k2, k3⟩ := trim_common s h
      refine buildNode_congr (k0.trans h.symm) (fun τ => ?_) (trim_types s h) (fun t htm τ => ?_) (.inr k2)
      · simp only [buildCombo, a, b, c, d]
      · refine trim_buildType s h ?_ τ
        unfold schemaTypes sortTypes at htm
        rw [if_pos (List.length_pos_iff.2 ht)] at htm
        exact (List.perm_insertionSort _ _).mem_iff.1 htm
  · funext τ
    rw [trim_ref h]
    unfold buildNode
    rw [if_pos h, if_pos h]

theorem trim_build (s : Schema) : build lib m s.trim = build lib m s := by
  induction s using Schema.ind with
  | hn => rfl
  | h s ih =>
    rw [Schema.trim_mk, build_mk, build_mk, ← SchemaF.trim_map, SchemaF.map_map, SchemaF.map_congr ih]
    exact trim_buildNode _

/-! ## Validity -/

theorem trim_validates (ext : Ext) (s : SchemaF (GoVal → Prop)) (v : GoVal) (R : GoStr → GoVal → Prop) :
    s.trim.Validates ext v R ↔ s.Validates ext v R := by
  by_cases h : s.reference = []
  swap
  · rw [trim_ref h]
    exact ⟨fun k => ⟨k.reference, fun h' => absurd h' h, fun h' => absurd h' h, fun h' => absurd h' h⟩,
      fun k => ⟨k.reference, fun h' => absurd h' h, fun h' => absurd h' h, fun h' => absurd h' h⟩⟩
  by_cases ht : s.type = []
  · rw [trim_untyped h ht]
  obtain ⟨k0, k1, a, b, c, d, k2, k3⟩ := trim_common s h
  have hcombo : s.trim.ComboRules v ↔ s.ComboRules v :=
    ⟨fun k => ⟨a ▸ k.not, b ▸ k.allOf, c ▸ k.anyOf, d ▸ k.oneOf⟩, fun k => ⟨a ▸ k.not, b ▸ k.allOf, c ▸ k.anyOf, d ▸ k.oneOf⟩⟩
  have hvalue : ∀ t ∈ s.type, HasType t v → (s.trim.ValueRules ext v ↔ s.ValueRules ext v) := by
    intro t htm hv
    have henum : (s.trim.enum ≠ [] → ∃ e ∈ s.trim.enum, JsonEq e v) ↔ (s.enum ≠ [] → ∃ e ∈ s.enum, JsonEq e v) := by rw [k2]
    have hnum : (.number ∈ s.type ∨ .integer ∈ s.type) → ∀ f, s.trim.NumberRules f ↔ s.NumberRules f := fun hm f => by
      obtain ⟨a, b, c, d, e⟩ := trim_number s h hm
      constructor <;> rintro ⟨h1, h2, h3, h4, h5⟩ <;> constructor <;> (simp only [a, b, c, d, e] at *; assumption)
    have leaf : ∀ s : SchemaF (GoVal → Prop), (∀ f, v ≠ .float .f64 f) → (∀ t, v ≠ .str t) → (∀ xs, v ≠ .slice false xs) → (∀ kvs, v ≠ .map false kvs) →
        (s.ValueRules ext v ↔ (s.enum ≠ [] → ∃ e ∈ s.enum, JsonEq e v)) := fun s h1 h2 h3 h4 =>
      ⟨fun k => k.enum, fun k => ⟨k, fun f e => absurd e (h1 f), fun f e => absurd e (h2 f), fun f e => absurd e (h3 f), fun f e => absurd e (h4 f)⟩⟩
    have num : ∀ (s : SchemaF (GoVal → Prop)) f, v = .float .f64 f → (s.ValueRules ext v ↔ (s.enum ≠ [] → ∃ e ∈ s.enum, JsonEq e v) ∧ s.NumberRules f) := by
      rintro s f rfl
      exact ⟨fun k => ⟨k.enum, k.number f rfl⟩, fun k => ⟨k.1, fun _ e => by cases e; exact k.2, fun _ e => (by cases e), fun _ e => (by cases e), fun _ e => (by cases e)⟩⟩
    cases hv with
    | null => rw [leaf _ (by simp) (by simp) (by simp) (by simp), leaf _ (by simp) (by simp) (by simp) (by simp), henum]
    | boolean => rw [leaf _ (by simp) (by simp) (by simp) (by simp), leaf _ (by simp) (by simp) (by simp) (by simp), henum]
    | number f => rw [num _ f rfl, num _ f rfl, henum, hnum (.inl htm)]
    | integer f => rw [num _ f rfl, num _ f rfl, henum, hnum (.inr htm)]
    | string t =>
      rw [valueRules_str, valueRules_str, henum]
      refine and_congr_right fun _ => ?_
      obtain ⟨a, b, c, d⟩ := trim_string s h htm
      constructor <;> rintro ⟨h1, h2, h3, h4⟩ <;> constructor <;> (simp only [a, b, c, d] at *; assumption)
    | array xs =>
      rw [valueRules_arr, valueRules_arr, henum]
      refine and_congr_right fun _ => ?_
      obtain ⟨a, b, c, d, e⟩ := trim_array s h htm
      constructor <;> rintro ⟨h1, h2, h3, h4, h5, h6, h7⟩ <;> constructor <;> (simp only [a, b, c, d, e] at *; assumption)
    | object kvs =>
      rw [valueRules_obj, valueRules_obj, henum]
      refine and_congr_right fun _ => ?_
      obtain ⟨a, b, c, d, e, f, g, i⟩ := trim_object s h htm
      constructor <;> rintro ⟨h1, h2, h3, h4, h5, h6, h7, h8, h9⟩ <;> constructor <;> (simp only [a, b, c, d, e, f, g, i] at *; assumption)
  constructor
  · intro k
    have hty := k.type k0 (by rwa [k1])
    rw [k1] at hty
    obtain ⟨t, htm, hv⟩ := hty
    exact ⟨fun h' => absurd h h', fun _ => hcombo.1 (k.combos k0), fun _ _ => ⟨t, htm, hv⟩, fun _ => (hvalue t htm hv).1 (k.value k0)⟩
  · intro k
    obtain ⟨t, htm, hv⟩ := k.type h ht
    exact ⟨fun h' => absurd k0 h', fun _ => hcombo.2 (k.combos h), fun _ _ => ⟨t, by rwa [k1], hv⟩, fun _ => (hvalue t htm hv).2 (k.value h)⟩

theorem trim_valid (ext : Ext) (R : GoStr → GoVal → Prop) (s : Schema) : s.trim.Valid ext R = s.Valid ext R := by
  induction s using Schema.ind with
  | hn => rfl
  | h s ih =>
    rw [Schema.trim_mk, Schema.valid_mk, Schema.valid_mk, ← SchemaF.trim_map, SchemaF.map_map, SchemaF.map_congr ih]
    exact funext fun v => propext (trim_validates ext _ v R)

end Jsval
