import Verif.Spec.MetaSchema
import Verif.Model.TestValidator
import Verif.Spec.GenProg
import Verif.Lemmas.PipelineRun
import Verif.Props.Unseen
/-!
# The validator in generated_validator_test.go decides what a schema is
-/
namespace Jsval
open Tracks Go

/-! ## The constraints -/

/-- `jsval.Reference(M).RefersTo(n)`. -/
def d4Ref (n : GoStr) : Constraint := .ref 0 n

/-- Objects of schemas. -/
def d4Named : Constraint := .object { Object' with additional := some (d4Ref (b! "#")) }

/-- The properties; `d` is the default of the flags. -/
def d4Props (d : Option GoVal) : List (GoStr × Constraint) := [
  (b! "$schema", .string (String'.Format (b! "uri"))),
  (b! "additionalItems", .any [.boolean none, d4Ref (b! "#")]),
  (b! "additionalProperties", .any [.boolean none, d4Ref (b! "#")]),
  (b! "allOf", d4Ref (b! "#/definitions/schemaArray")),
  (b! "anyOf", d4Ref (b! "#/definitions/schemaArray")),
  (b! "default", .empty),
  (b! "definitions", d4Named),
  (b! "dependencies", .object { Object' with additional := some (.any [d4Ref (b! "#"), d4Ref (b! "#/definitions/stringArray")]) }),
  (b! "description", .string String'),
  (b! "enum", .array { Array' with minItems := 1, unique := true }),
  (b! "exclusiveMaximum", .boolean d),
  (b! "exclusiveMinimum", .boolean d),
  (b! "id", .string (String'.Format (b! "uri"))),
  (b! "items", .any [d4Ref (b! "#"), d4Ref (b! "#/definitions/schemaArray")]),
  (b! "maxItems", d4Ref (b! "#/definitions/positiveInteger")),
  (b! "maxLength", d4Ref (b! "#/definitions/positiveInteger")),
  (b! "maxProperties", d4Ref (b! "#/definitions/positiveInteger")),
  (b! "maximum", .number Number'),
  (b! "minItems", d4Ref (b! "#/definitions/positiveIntegerDefault0")),
  (b! "minLength", d4Ref (b! "#/definitions/positiveIntegerDefault0")),
  (b! "minProperties", d4Ref (b! "#/definitions/positiveIntegerDefault0")),
  (b! "minimum", .number Number'),
  (b! "multipleOf", .number ((Number'.Minimum F64.zero).ExclusiveMinimum true)),
  (b! "not", d4Ref (b! "#")),
  (b! "oneOf", d4Ref (b! "#/definitions/schemaArray")),
  (b! "pattern", .string (String'.Format (b! "regex"))),
  (b! "patternProperties", d4Named),
  (b! "properties", d4Named),
  (b! "required", d4Ref (b! "#/definitions/stringArray")),
  (b! "title", .string String'),
  (b! "type", .any [d4Ref (b! "#/definitions/simpleTypes"), .array { Array' with items := some (d4Ref (b! "#/definitions/simpleTypes")), minItems := 1, unique := true }]),
  (b! "uniqueItems", .boolean d)]

/-- `exclusiveMaximum` brings `maximum` along. -/
def d4Deps : List (GoStr × List GoStr) := [(b! "exclusiveMaximum", [b! "maximum"]), (b! "exclusiveMinimum", [b! "minimum"])]

/-- `R0`. -/
def d4Root (d : Option GoVal) : Constraint := .object { Object' with props := d4Props d, additional := some .empty, propdeps := d4Deps }

/-- `R1` -/
def d4Pos : Constraint := .integer (Number'.Minimum F64.zero)
/-- `R2` -/
def d4Pos0 : Constraint := .all [d4Ref (b! "#/definitions/positiveInteger"), .empty]
/-- `R3` -/
def d4Schemas : Constraint := .array { Array' with items := some (d4Ref (b! "#")), minItems := 1 }
/-- `R4` -/
def d4Types : Constraint := .string (String'.Enum ([b! "array", b! "boolean", b! "integer", b! "null", b! "number", b! "object", b! "string"].map .str))
/-- `R5` -/
def d4Strings : Constraint := .array { Array' with items := some (.string String'), minItems := 1, unique := true }

/-- `M`. -/
def d4Table (d : Option GoVal) : List (GoStr × Constraint) := [
  (b! "#", d4Root d),
  (b! "#/definitions/positiveInteger", d4Pos),
  (b! "#/definitions/positiveIntegerDefault0", d4Pos0),
  (b! "#/definitions/schemaArray", d4Schemas),
  (b! "#/definitions/simpleTypes", d4Types),
  (b! "#/definitions/stringArray", d4Strings)]

/-- What the references of map `m` lead to. -/
def d4Env (d : Option GoVal) : Env := fun m n => ([d4Table d][m]?).bind (alookup n)

theorem d4Root_plain (d : Option GoVal) : (d4Root d).plain = d4Root none := by
  with_unfolding_all rfl

theorem d4Env_plain (d : Option GoVal) : (d4Env d).plain = d4Env none := by
  funext m n
  cases m with
  | zero =>
    show (alookup n (d4Table d)).map Constraint.plain = alookup n (d4Table none)
    have : ∀ l : List (GoStr × Constraint), (alookup n l).map Constraint.plain = alookup n (l.map fun p => (p.1, p.2.plain)) := by
      intro l
      induction l with
      | nil => rfl
      | cons p l ih => simp only [alookup, List.map_cons]; split <;> simp_all
    rw [this]
    have : (d4Table d).map (fun p => (p.1, p.2.plain)) = d4Table none := by with_unfolding_all rfl
    rw [this]
  | succ m => rfl

theorem d4Env_cases {d : Option GoVal} {m : Nat} {n : GoStr} {c : Constraint} (h : d4Env d m n = some c) :
    m = 0 ∧ ((n = b! "#" ∧ c = d4Root d) ∨ (n = b! "#/definitions/positiveInteger" ∧ c = d4Pos) ∨
      (n = b! "#/definitions/positiveIntegerDefault0" ∧ c = d4Pos0) ∨ (n = b! "#/definitions/schemaArray" ∧ c = d4Schemas) ∨
      (n = b! "#/definitions/simpleTypes" ∧ c = d4Types) ∨ (n = b! "#/definitions/stringArray" ∧ c = d4Strings)) := by
  cases m with
  | succ m => cases h
  | zero =>
    refine ⟨rfl, ?_⟩
    have h : alookup n (d4Table d) = some c := h
    have := alookup_mem h
    simp only [d4Table, List.mem_cons, Prod.mk.injEq, List.not_mem_nil, or_false] at this
    exact this

/-! ## The keywords -/

/-- A count. -/
def IsCount (v : GoVal) : Prop := ∃ f, v = .float .f64 f ∧ F64.Whole f ∧ F64.Le F64.zero f
/-- A list of schemas. -/
def AreSchemas (ext : Ext) (v : GoVal) : Prop := ∃ xs, v = .slice false xs ∧ xs ≠ [] ∧ ∀ x ∈ xs, IsSchema ext x
/-- The name of a type. -/
def IsSimple (v : GoVal) : Prop := ∃ t, v = .str t ∧ t ∈ simpleTypeNames
/-- A list of names. -/
def AreNames (v : GoVal) : Prop := ∃ l : List GoStr, v = .slice false (l.map .str) ∧ l ≠ [] ∧ l.Nodup
/-- A list of types. -/
def AreTypes (v : GoVal) : Prop := ∃ l : List GoStr, v = .slice false (l.map .str) ∧ l ≠ [] ∧ l.Nodup ∧ ∀ t ∈ l, t ∈ simpleTypeNames
/-- An object of schemas. -/
def IsNamed (p : GoVal → Prop) (v : GoVal) : Prop := ∃ kvs : List (GoStr × GoVal), v = .map false kvs ∧ ∀ n x, (n, x) ∈ kvs → p x

/-- What fits a keyword, by the kinds of keywords. -/
theorem keyword_iff {ext : Ext} {k : GoStr} {v : GoVal} : Keyword ext k v ↔
    (k ∈ [b! "id", b! "$schema"] ∧ ∃ s, v = .str s ∧ ext.urlOk s = true) ∨
    (k ∈ [b! "title", b! "description", b! "pattern"] ∧ ∃ s, v = .str s) ∨
    (k ∈ [b! "multipleOf"] ∧ ∃ f, v = .float .f64 f ∧ F64.Lt F64.zero f) ∨
    (k ∈ [b! "maximum", b! "minimum"] ∧ ∃ f, v = .float .f64 f) ∨
    (k ∈ [b! "exclusiveMaximum", b! "exclusiveMinimum", b! "uniqueItems", b! "additionalItems", b! "additionalProperties"] ∧ ∃ b, v = .bool b) ∨
    (k ∈ [b! "maxLength", b! "minLength", b! "maxItems", b! "minItems", b! "maxProperties", b! "minProperties"] ∧ IsCount v) ∨
    (k ∈ [b! "additionalItems", b! "additionalProperties", b! "items", b! "not"] ∧ IsSchema ext v) ∨
    (k ∈ [b! "items", b! "allOf", b! "anyOf", b! "oneOf"] ∧ AreSchemas ext v) ∨
    (k ∈ [b! "definitions", b! "properties", b! "patternProperties"] ∧ IsNamed (IsSchema ext) v) ∨
    (k ∈ [b! "dependencies"] ∧ IsNamed (Dependency ext) v) ∨
    (k ∈ [b! "required"] ∧ AreNames v) ∨
    (k ∈ [b! "enum"] ∧ ∃ xs, v = .slice false xs ∧ xs ≠ [] ∧ (xs.map ext.sprint).Nodup) ∨
    (k ∈ [b! "type"] ∧ IsSimple v) ∨
    (k ∈ [b! "type"] ∧ AreTypes v) ∨
    k ∉ schemaKeywords := by
  constructor
  · intro h
    cases h with
    | @uri _ s hk hs => exact Or.inl ⟨hk, s, rfl, hs⟩
    | @text _ s hk => exact Or.inr (Or.inl ⟨hk, s, rfl⟩)
    | @multipleOf f hf => exact Or.inr (Or.inr (Or.inl ⟨by simp, f, rfl, hf⟩))
    | @limit _ f hk => exact Or.inr (Or.inr (Or.inr (Or.inl ⟨hk, f, rfl⟩)))
    | @flag _ b hk => exact Or.inr (Or.inr (Or.inr (Or.inr (Or.inl ⟨hk, b, rfl⟩))))
    | @count _ f hk h1 h2 => exact Or.inr (Or.inr (Or.inr (Or.inr (Or.inr (Or.inl ⟨hk, f, rfl, h1, h2⟩)))))
    | schema hk hs => exact Or.inr (Or.inr (Or.inr (Or.inr (Or.inr (Or.inr (Or.inl ⟨hk, hs⟩))))))
    | @schemas _ xs hk h1 h2 => exact Or.inr (Or.inr (Or.inr (Or.inr (Or.inr (Or.inr (Or.inr (Or.inl ⟨hk, xs, rfl, h1, h2⟩)))))))
    | @named _ kvs hk h1 => exact Or.inr (Or.inr (Or.inr (Or.inr (Or.inr (Or.inr (Or.inr (Or.inr (Or.inl ⟨hk, kvs, rfl, h1⟩))))))))
    | @dependencies kvs h1 =>
      exact Or.inr (Or.inr (Or.inr (Or.inr (Or.inr (Or.inr (Or.inr (Or.inr (Or.inr (Or.inl ⟨by simp, kvs, rfl, h1⟩)))))))))
    | @required l h1 h2 =>
      exact Or.inr (Or.inr (Or.inr (Or.inr (Or.inr (Or.inr (Or.inr (Or.inr (Or.inr (Or.inr (Or.inl ⟨by simp, l, rfl, h1, h2⟩))))))))))
    | @enum xs h1 h2 =>
      exact Or.inr (Or.inr (Or.inr (Or.inr (Or.inr (Or.inr (Or.inr (Or.inr (Or.inr (Or.inr (Or.inr (Or.inl ⟨by simp, xs, rfl, h1, h2⟩)))))))))))
    | @type t ht =>
      exact Or.inr (Or.inr (Or.inr (Or.inr (Or.inr (Or.inr (Or.inr (Or.inr (Or.inr (Or.inr (Or.inr (Or.inr (Or.inl ⟨by simp, t, rfl, ht⟩))))))))))))
    | @types l h1 h2 h3 =>
      exact Or.inr (Or.inr (Or.inr (Or.inr (Or.inr (Or.inr (Or.inr (Or.inr (Or.inr (Or.inr (Or.inr (Or.inr (Or.inr (Or.inl ⟨by simp, l, rfl, h1, h2, h3⟩)))))))))))))
    | other hk => exact Or.inr (Or.inr (Or.inr (Or.inr (Or.inr (Or.inr (Or.inr (Or.inr (Or.inr (Or.inr (Or.inr (Or.inr (Or.inr (Or.inr hk)))))))))))))
  · rintro (⟨hk, s, rfl, hs⟩ | ⟨hk, s, rfl⟩ | ⟨hk, f, rfl, hf⟩ | ⟨hk, f, rfl⟩ | ⟨hk, b, rfl⟩ | ⟨hk, f, rfl, h1, h2⟩ | ⟨hk, hs⟩ |
      ⟨hk, xs, rfl, h1, h2⟩ | ⟨hk, kvs, rfl, h1⟩ | ⟨hk, kvs, rfl, h1⟩ | ⟨hk, l, rfl, h1, h2⟩ | ⟨hk, xs, rfl, h1, h2⟩ | ⟨hk, t, rfl, ht⟩ |
      ⟨hk, l, rfl, h1, h2, h3⟩ | hk)
    · exact .uri hk hs
    · exact .text hk
    · rw [List.mem_singleton.1 hk]; exact .multipleOf hf
    · exact .limit hk
    · exact .flag hk
    · exact .count hk h1 h2
    · exact .schema hk hs
    · exact .schemas hk h1 h2
    · exact .named hk h1
    · rw [List.mem_singleton.1 hk]; exact .dependencies h1
    · rw [List.mem_singleton.1 hk]; exact .required h1 h2
    · rw [List.mem_singleton.1 hk]; exact .enum h1 h2
    · rw [List.mem_singleton.1 hk]; exact .type ht
    · rw [List.mem_singleton.1 hk]; exact .types h1 h2 h3
    · exact .other hk

section
variable {ext : Ext} {ρ : RefSem}

/-! ## Leaves -/

theorem string_leaf_tracks {c : StrC} {P : GoStr → Prop} (hd : c.dflt = none) (he : ∀ l, c.enums = some l → ∀ x ∈ l, IsScalar x)
    (h : ∀ t, StrOk ext c t ↔ P t) : Tracks ext (Doc anyDoc) (denote ext ρ (.string c)) (fun v => ∃ t, v = .str t ∧ P t) := by
  refine Tracks.leaf (by simp) (fun d hd => by cases hd) ⟨hd, fun x hx => ?_⟩ (fun σ v hv => ?_)
  · simp only [Constraint.enumOf] at hx
    cases hl : c.enums with
    | none => rw [hl] at hx; simp at hx
    | some l => rw [hl] at hx; exact he l hl x (by simpa using hx)
  · rw [C10_string_exact]
    constructor
    · rintro ⟨t, h1, h2⟩
      exact ⟨t, doc_target hv h1, (h t).1 h2⟩
    · rintro ⟨t, rfl, h2⟩
      exact ⟨t, target_self hv, (h t).2 h2⟩

theorem bool_leaf_tracks : Tracks ext (Doc anyDoc) (denote ext ρ (.boolean none)) (fun v => ∃ b, v = .bool b) := by
  refine Tracks.leaf (by simp) (fun d hd => by cases hd) ⟨rfl, fun x hx => by simp [Constraint.enumOf] at hx⟩ (fun σ v hv => ?_)
  rw [C08_boolean_exact]

theorem number_leaf_tracks {c : NumC} {P : F64 → Prop} (hd : c.dflt = none) (he : c.enums = none)
    (h : ∀ neg m, NumOk c (.fin neg m) ↔ P (.fin neg m)) :
    Tracks ext (Doc anyDoc) (denote ext ρ (.number c)) (fun v => ∃ f, v = .float .f64 f ∧ P f) := by
  refine Tracks.leaf (by simp) (fun d hd => by cases hd) ⟨hd, fun x hx => by simp [Constraint.enumOf, he] at hx⟩ (fun σ v hv => ?_)
  rw [C16_number_exact]
  constructor
  · rintro ⟨k, f, h1, h2⟩
    have := doc_target hv h1
    subst this
    cases hv
    exact ⟨_, rfl, (h _ _).1 h2⟩
  · rintro ⟨f, rfl, h2⟩
    have hv' := hv
    cases hv
    exact ⟨.f64, _, target_self hv', (h _ _).2 h2⟩

theorem integer_leaf_tracks {c : NumC} {P : F64 → Prop} (hd : c.dflt = none) (he : c.enums = none)
    (h : ∀ neg m, NumOk c (.fin neg m) ↔ P (.fin neg m)) :
    Tracks ext (Doc anyDoc) (denote ext ρ (.integer c)) (fun v => ∃ f, v = .float .f64 f ∧ F64.Whole f ∧ P f) := by
  refine Tracks.leaf (by simp) (fun d hd => by cases hd) ⟨hd, fun x hx => by simp [Constraint.enumOf, he] at hx⟩ (fun σ v hv => ?_)
  rw [C18_integer_exact]
  constructor
  · rintro ⟨x, f, h1, h2, h3⟩
    have := doc_target hv h1
    subst this
    cases hv <;> cases h2
    exact ⟨_, rfl, by assumption, (h _ _).1 h3⟩
  · rintro ⟨f, rfl, h2, h3⟩
    have hv' := hv
    cases hv
    exact ⟨_, _, target_self hv', .float _ _ h2, (h _ _).2 h3⟩

/-! ## Objects of schemas -/

theorem named_tracks {c : Constraint} {p : GoVal → Prop} (h : Tracks ext (Doc anyDoc) (denote ext ρ c) p) :
    Tracks ext (Doc anyDoc) (denote ext ρ (.object { Object' with additional := some c })) (IsNamed p) := by
  refine (object_tracks (o := (⟨[], [], some (c, p), [], [], [], -1, -1⟩ : ObjC Labelled)) ⟨by simp⟩ (fun d hd => ?_)
    (fun k a ha => by simp at ha)).congr (fun v hv => ?_)
  · cases hd with
    | additional h' => cases h'; exact h
    | prop h' => simp at h'
    | pattern h' => simp at h'
    | dependency h' => cases h'
  · constructor
    · rintro ⟨kvs, rfl, hr⟩
      refine ⟨kvs, rfl, fun n x hx => ?_⟩
      obtain ⟨d, hd, ha⟩ := hr.additional n x hx (fun ⟨c, hc⟩ => by simp at hc) (fun ⟨i, s, c, hc, _⟩ => by simp at hc)
      cases hd
      exact ha
    · rintro ⟨kvs, rfl, hr⟩
      refine ⟨kvs, rfl, ⟨?_, ?_, ?_, ?_, ?_, ?_, ?_⟩⟩
      · constructor <;> intro h0 <;> simp at h0
      · intro p c x hc; simp at hc
      · intro p hp; simp at hp
      · intro k x _ _ i s c hc; simp at hc
      · intro k x hx _ _; exact ⟨_, rfl, hr k x hx⟩
      · intro k _ hc
        rcases hc with ⟨c, hc⟩ | ⟨i, s, c, hc, _⟩ <;> simp at hc
      · intro k _ hc
        rcases hc with ⟨c, hc⟩ | ⟨i, s, c, hc, _⟩ <;> simp at hc

/-! ## Arrays -/

theorem sprint_nodup {xs : List GoVal} : ¬ Repeats ext xs ↔ (xs.map ext.sprint).Nodup := by
  rw [List.nodup_iff_pairwise_ne, List.pairwise_iff_getElem]
  constructor
  · intro h i j hi hj hij he
    simp only [List.length_map] at hi hj
    simp only [List.getElem_map] at he
    exact h ⟨i, j, xs[i], xs[j], hij, List.getElem?_eq_getElem hi, List.getElem?_eq_getElem hj, he⟩
  · rintro h ⟨i, j, x, y, hij, h1, h2, he⟩
    obtain ⟨hi, rfl⟩ := List.getElem?_eq_some_iff.1 h1
    obtain ⟨hj, rfl⟩ := List.getElem?_eq_some_iff.1 h2
    exact h i j (by simpa using hi) (by simpa using hj) hij (by simpa using he)

theorem strs_of {p : GoVal → Prop} {q : GoStr → Prop} (hp : ∀ x, p x ↔ ∃ t, x = .str t ∧ q t) {xs : List GoVal} (h : ∀ x ∈ xs, p x) :
    ∃ l : List GoStr, xs = l.map .str ∧ ∀ t ∈ l, q t := by
  induction xs with
  | nil => exact ⟨[], rfl, by simp⟩
  | cons x xs ih =>
    obtain ⟨t, rfl, ht⟩ := (hp x).1 (h x (by simp))
    obtain ⟨l, rfl, hl⟩ := ih (fun y hy => h y (by simp [hy]))
    exact ⟨t :: l, rfl, fun u hu => by
      rcases List.mem_cons.1 hu with rfl | hu
      · exact ht
      · exact hl u hu⟩

theorem lenOk_one {a : ArrC Constraint} (h1 : a.minItems = 1) (h2 : a.maxItems = -1) {xs : List GoVal} : LenOk a xs ↔ xs ≠ [] := by
  unfold LenOk
  rw [h1, h2]
  cases xs with
  | nil => simp
  | cons x xs => simp

theorem distinct_tracks (hpr : ∀ t, ext.sprint (.str t) = t) {c : Constraint} {q : GoStr → Prop}
    (h : Tracks ext (Doc anyDoc) (denote ext ρ c) (fun x => ∃ t, x = .str t ∧ q t)) :
    Tracks ext (Doc anyDoc) (denote ext ρ (.array { Array' with items := some c, minItems := 1, unique := true }))
      (fun v => ∃ l : List GoStr, v = .slice false (l.map .str) ∧ l ≠ [] ∧ l.Nodup ∧ ∀ t ∈ l, q t) := by
  refine (array_tracks (E := fun xs => ∀ x ∈ xs, ∃ t, x = .str t ∧ q t) (U := fun xs => (xs.map ext.sprint).Nodup)
    (ElemTracks.items (c := c) rfl h) (Or.inr rfl) (fun _ => rfl)
    (fun _ xs _ _ => sprint_nodup)).congr (fun v hv => ?_)
  have hs : ∀ l : List GoStr, (l.map GoVal.str).map ext.sprint = l := by
    intro l
    rw [List.map_map]
    conv_rhs => rw [← List.map_id l]
    exact List.map_congr_left (fun t _ => hpr t)
  constructor
  · rintro ⟨xs, rfl, hl, hu, he⟩
    obtain ⟨l, rfl, hq⟩ := strs_of (p := fun x => ∃ t, x = .str t ∧ q t) (fun _ => Iff.rfl) he
    refine ⟨l, rfl, fun h0 => ?_, by have := hu rfl; rwa [hs] at this, hq⟩
    exact (lenOk_one rfl rfl).1 hl (by simp [h0])
  · rintro ⟨l, rfl, h0, hn, hq⟩
    refine ⟨_, rfl, (lenOk_one rfl rfl).2 (by simpa using h0), fun _ => by rw [hs]; exact hn, fun x hx => ?_⟩
    obtain ⟨t, ht, rfl⟩ := List.mem_map.1 hx
    exact ⟨t, rfl, hq t ht⟩

theorem schemas_tracks {c : Constraint} (h : Tracks ext (Doc anyDoc) (denote ext ρ c) (IsSchema ext)) :
    Tracks ext (Doc anyDoc) (denote ext ρ (.array { Array' with items := some c, minItems := 1 })) (AreSchemas ext) := by
  refine (array_tracks (U := fun _ => True) (ElemTracks.items (c := c) rfl h) (Or.inr rfl) (fun _ => rfl)
    (fun h => by cases h)).congr (fun v hv => ?_)
  constructor
  · rintro ⟨xs, rfl, hl, -, he⟩
    exact ⟨xs, rfl, (lenOk_one rfl rfl).1 hl, he⟩
  · rintro ⟨xs, rfl, hl, he⟩
    exact ⟨xs, rfl, (lenOk_one rfl rfl).2 hl, fun _ => trivial, he⟩

theorem enumOf_tracks : Tracks ext (Doc anyDoc) (denote ext ρ (.array { Array' with minItems := 1, unique := true }))
    (fun v => ∃ xs, v = .slice false xs ∧ xs ≠ [] ∧ (xs.map ext.sprint).Nodup) := by
  refine (array_tracks (U := fun xs => (xs.map ext.sprint).Nodup) (ElemTracks.none rfl rfl) (Or.inr rfl) (fun _ => rfl)
    (fun _ xs _ _ => sprint_nodup)).congr (fun v hv => ?_)
  constructor
  · rintro ⟨xs, rfl, hl, hu, -⟩
    exact ⟨xs, rfl, (lenOk_one rfl rfl).1 hl, hu rfl⟩
  · rintro ⟨xs, rfl, hl, hu⟩
    exact ⟨xs, rfl, (lenOk_one rfl rfl).2 hl, fun _ => hu, trivial⟩

/-! ## All keywords -/

/-- What the references decide. -/
structure D4Refs (ext : Ext) (ρ : RefSem) : Prop where
  root : Tracks ext (Doc anyDoc) (ρ 0 (b! "#")) (IsSchema ext)
  pos : Tracks ext (Doc anyDoc) (ρ 0 (b! "#/definitions/positiveInteger")) IsCount
  pos0 : Tracks ext (Doc anyDoc) (ρ 0 (b! "#/definitions/positiveIntegerDefault0")) IsCount
  schemas : Tracks ext (Doc anyDoc) (ρ 0 (b! "#/definitions/schemaArray")) (AreSchemas ext)
  types : Tracks ext (Doc anyDoc) (ρ 0 (b! "#/definitions/simpleTypes")) IsSimple
  strings : Tracks ext (Doc anyDoc) (ρ 0 (b! "#/definitions/stringArray")) AreNames

theorem strOk_plain {t : GoStr} : StrOk ext String' t ↔ True :=
  ⟨fun _ => trivial, fun _ => ⟨fun h => by simp [String'] at h, fun _ => by simp [String'], by simp [FormatOk, String'],
    fun _ h => (by cases h), fun _ h => (by cases h)⟩⟩

theorem strOk_regex {t : GoStr} : StrOk ext (String'.Format (b! "regex")) t ↔ True :=
  ⟨fun _ => trivial, fun _ => ⟨fun h => by simp [String', StrC.Format] at h, fun _ => by simp [String', StrC.Format],
    by simp +decide [FormatOk, String', StrC.Format], fun _ h => (by cases h), fun _ h => (by cases h)⟩⟩

theorem strOk_uri {t : GoStr} : StrOk ext (String'.Format (b! "uri")) t ↔ ext.urlOk t = true :=
  ⟨fun h => h.format.2.2.2.2.2 rfl, fun hu => ⟨fun h => by simp [String', StrC.Format] at h, fun _ => by simp [String', StrC.Format],
    by simp +decide [FormatOk, String', StrC.Format, hu], fun _ h => (by cases h), fun _ h => (by cases h)⟩⟩

theorem fin_min {n : Bool} {k : Nat} {m : F64} {x : WithBot (WithTop ℤ)} (hm : m.num = some x) : ¬ F64.Lt (.fin n k) m ↔ F64.Le m (.fin n k) := by
  obtain ⟨y, hy⟩ : ∃ y, (F64.fin n k).num = some y := ⟨_, rfl⟩
  simp [F64.Lt, F64.Le, hm, hy]

theorem fin_exclMin {n : Bool} {k : Nat} {m : F64} {x : WithBot (WithTop ℤ)} (hm : m.num = some x) :
    (¬ F64.Lt (.fin n k) m ∧ ¬ F64.Eq (.fin n k) m) ↔ F64.Lt m (.fin n k) := by
  obtain ⟨y, hy⟩ : ∃ y, (F64.fin n k).num = some y := ⟨_, rfl⟩
  have h : (¬ y < x ∧ ¬ y = x) ↔ x < y := by
    rw [not_lt, lt_iff_le_and_ne, ne_comm]
  simpa [F64.Lt, F64.Eq, hm, hy, eq_comm] using h

theorem dependency_iff {v : GoVal} : Dependency ext v ↔ IsSchema ext v ∨ AreNames v :=
  ⟨fun h => by
    cases h with
    | schema h => exact Or.inl h
    | @names l h1 h2 => exact Or.inr ⟨l, rfl, h1, h2⟩, fun h => by
    rcases h with h | ⟨l, rfl, h1, h2⟩
    · exact .schema h
    · exact .names h1 h2⟩

theorem d4Prop_tracks (hpr : ∀ t, ext.sprint (.str t) = t) (hr : D4Refs ext ρ) {n : GoStr} {c : Constraint} (h : (n, c) ∈ d4Props none) :
    Tracks ext (Doc anyDoc) (denote ext ρ c) (Keyword ext n) := by
  have root : Tracks ext (Doc anyDoc) (denote ext ρ (d4Ref (b! "#"))) (IsSchema ext) := hr.root
  have pos : Tracks ext (Doc anyDoc) (denote ext ρ (d4Ref (b! "#/definitions/positiveInteger"))) IsCount := hr.pos
  have pos0 : Tracks ext (Doc anyDoc) (denote ext ρ (d4Ref (b! "#/definitions/positiveIntegerDefault0"))) IsCount := hr.pos0
  have schemas : Tracks ext (Doc anyDoc) (denote ext ρ (d4Ref (b! "#/definitions/schemaArray"))) (AreSchemas ext) := hr.schemas
  have types : Tracks ext (Doc anyDoc) (denote ext ρ (d4Ref (b! "#/definitions/simpleTypes"))) IsSimple := hr.types
  have strings : Tracks ext (Doc anyDoc) (denote ext ρ (d4Ref (b! "#/definitions/stringArray"))) AreNames := hr.strings
  have uri : Tracks ext (Doc anyDoc) (denote ext ρ (.string (String'.Format (b! "uri")))) (fun v => ∃ t, v = .str t ∧ ext.urlOk t = true) :=
    string_leaf_tracks rfl (fun _ h => by cases h) (fun _ => strOk_uri)
  have text : Tracks ext (Doc anyDoc) (denote ext ρ (.string String')) (fun v => ∃ t, v = .str t ∧ True) :=
    string_leaf_tracks rfl (fun _ h => by cases h) (fun _ => strOk_plain)
  have regex : Tracks ext (Doc anyDoc) (denote ext ρ (.string (String'.Format (b! "regex")))) (fun v => ∃ t, v = .str t ∧ True) :=
    string_leaf_tracks rfl (fun _ h => by cases h) (fun _ => strOk_regex)
  have number : Tracks ext (Doc anyDoc) (denote ext ρ (.number Number')) (fun v => ∃ f, v = .float .f64 f ∧ True) :=
    number_leaf_tracks rfl rfl (fun _ _ => ⟨fun _ => trivial, fun _ => ⟨fun _ h => (by cases h), fun _ h => (by cases h), fun _ h => (by cases h),
      fun _ h => (by cases h), fun _ h => (by cases h), fun _ h => (by cases h)⟩⟩)
  have mult : Tracks ext (Doc anyDoc) (denote ext ρ (.number ((Number'.Minimum F64.zero).ExclusiveMinimum true)))
      (fun v => ∃ f, v = .float .f64 f ∧ F64.Lt F64.zero f) := by
    refine number_leaf_tracks rfl rfl (fun n m => ⟨fun h => (fin_exclMin rfl).1 ⟨h.min _ rfl, h.exclMin _ rfl rfl⟩,
      fun h => ⟨fun _ h' => ?_, fun _ h' _ => ?_, fun _ h => (by cases h), fun _ h => (by cases h), fun _ h => (by cases h), fun _ h => (by cases h)⟩⟩)
    · cases h'; exact ((fin_exclMin rfl).2 h).1
    · cases h'; exact ((fin_exclMin rfl).2 h).2
  have flag : Tracks ext (Doc anyDoc) (denote ext ρ (.boolean none)) (fun v => ∃ b, v = .bool b) := bool_leaf_tracks
  have boolOr := Tracks.any (.cons flag (.cons root .nil))
  have items := Tracks.any (.cons root (.cons schemas .nil))
  have kinds : Tracks ext (Doc anyDoc) (denote ext ρ (.array { Array' with items := some (d4Ref (b! "#/definitions/simpleTypes")), minItems := 1, unique := true }))
      AreTypes := distinct_tracks hpr types
  have type := Tracks.any (.cons types (.cons kinds .nil))
  have deps := named_tracks ((Tracks.any (.cons root (.cons strings .nil))).congr (fun v _ => by
    simpa using (dependency_iff (ext := ext) (v := v)).symm))
  have named : Tracks ext (Doc anyDoc) (denote ext ρ d4Named) (IsNamed (IsSchema ext)) := named_tracks root
  simp only [d4Props, List.mem_cons, Prod.mk.injEq, List.not_mem_nil, or_false] at h
  rcases h with ⟨rfl, rfl⟩ | ⟨rfl, rfl⟩ | ⟨rfl, rfl⟩ | ⟨rfl, rfl⟩ | ⟨rfl, rfl⟩ | ⟨rfl, rfl⟩ | ⟨rfl, rfl⟩ | ⟨rfl, rfl⟩ | ⟨rfl, rfl⟩ | ⟨rfl, rfl⟩ | ⟨rfl, rfl⟩ |
    ⟨rfl, rfl⟩ | ⟨rfl, rfl⟩ | ⟨rfl, rfl⟩ | ⟨rfl, rfl⟩ | ⟨rfl, rfl⟩ | ⟨rfl, rfl⟩ | ⟨rfl, rfl⟩ | ⟨rfl, rfl⟩ | ⟨rfl, rfl⟩ | ⟨rfl, rfl⟩ | ⟨rfl, rfl⟩ | ⟨rfl, rfl⟩ |
    ⟨rfl, rfl⟩ | ⟨rfl, rfl⟩ | ⟨rfl, rfl⟩ | ⟨rfl, rfl⟩ | ⟨rfl, rfl⟩ | ⟨rfl, rfl⟩ | ⟨rfl, rfl⟩ | ⟨rfl, rfl⟩ | ⟨rfl, rfl⟩
  on_goal 1 => refine uri.congr fun v _ => ?_
  on_goal 2 => refine boolOr.congr fun v _ => ?_
  on_goal 3 => refine boolOr.congr fun v _ => ?_
  on_goal 4 => refine schemas.congr fun v _ => ?_
  on_goal 5 => refine schemas.congr fun v _ => ?_
  on_goal 6 => refine (empty_tracks _).congr fun v _ => ?_
  on_goal 7 => refine named.congr fun v _ => ?_
  on_goal 8 => refine deps.congr fun v _ => ?_
  on_goal 9 => refine text.congr fun v _ => ?_
  on_goal 10 => refine enumOf_tracks.congr fun v _ => ?_
  on_goal 11 => refine flag.congr fun v _ => ?_
  on_goal 12 => refine flag.congr fun v _ => ?_
  on_goal 13 => refine uri.congr fun v _ => ?_
  on_goal 14 => refine items.congr fun v _ => ?_
  on_goal 15 => refine pos.congr fun v _ => ?_
  on_goal 16 => refine pos.congr fun v _ => ?_
  on_goal 17 => refine pos.congr fun v _ => ?_
  on_goal 18 => refine number.congr fun v _ => ?_
  on_goal 19 => refine pos0.congr fun v _ => ?_
  on_goal 20 => refine pos0.congr fun v _ => ?_
  on_goal 21 => refine pos0.congr fun v _ => ?_
  on_goal 22 => refine number.congr fun v _ => ?_
  on_goal 23 => refine mult.congr fun v _ => ?_
  on_goal 24 => refine root.congr fun v _ => ?_
  on_goal 25 => refine schemas.congr fun v _ => ?_
  on_goal 26 => refine regex.congr fun v _ => ?_
  on_goal 27 => refine named.congr fun v _ => ?_
  on_goal 28 => refine named.congr fun v _ => ?_
  on_goal 29 => refine strings.congr fun v _ => ?_
  on_goal 30 => refine text.congr fun v _ => ?_
  on_goal 31 => refine type.congr fun v _ => ?_
  on_goal 32 => refine flag.congr fun v _ => ?_
  all_goals simp +decide only [keyword_iff, false_and, true_and, and_true, false_or, or_false, List.mem_cons, List.not_mem_nil, exists_eq_or_imp,
    exists_eq_left]

/-! ## The root -/

theorem d4Root_tracks (hpr : ∀ t, ext.sprint (.str t) = t) (hr : D4Refs ext ρ) : Tracks ext (Doc anyDoc) (denote ext ρ (d4Root none)) (IsSchema ext) := by
  have hshape : d4Root none = .object ((⟨(d4Props none).map (fun p => (p.1, p.2, Keyword ext p.1)), [], some (.empty, fun _ => True), [], d4Deps, [], -1, -1⟩ :
      ObjC Labelled).map (·.1)) := by
    simp [d4Root, ObjC.map, Object', Function.comp_def]
  rw [hshape]
  generalize ho : (⟨(d4Props none).map (fun p => (p.1, p.2, Keyword ext p.1)), [], some (.empty, fun _ => True), [], d4Deps, [], -1, -1⟩ : ObjC Labelled) = o
  have hdecl : ∀ k, o.Declares k ↔ ∃ c, (k, c) ∈ d4Props none := by
    intro k
    rw [← ho]
    constructor
    · rintro ⟨c, hc⟩
      obtain ⟨p, hp, he⟩ := List.mem_map.1 hc
      cases he
      exact ⟨p.2, hp⟩
    · rintro ⟨c, hc⟩
      exact ⟨_, List.mem_map_of_mem (f := fun p => (p.1, p.2, Keyword ext p.1)) hc⟩
  have hdeps : ∀ k, o.GetPropDependencies k = (alookup k d4Deps).getD [] := by intro k; rw [← ho]; rfl
  refine (object_tracks (o := o) ⟨?_⟩ (fun d hd => ?_) (fun k a ha => by rw [← ho] at ha; simp at ha)).congr (fun v hv => ?_)
  · rw [← ho]
    simp only [List.map_map]
    show ((d4Props none).map (·.1)).Nodup
    decide +kernel
  · rw [← ho] at hd
    cases hd with
    | additional h' => cases h'; exact empty_tracks _
    | prop h' =>
      obtain ⟨p, hp, he⟩ := List.mem_map.1 h'
      cases he
      exact d4Prop_tracks hpr hr hp
    | pattern h' => simp at h'
    | dependency h' => cases h'
  · constructor
    · rintro ⟨kvs, rfl, h⟩
      have hdep : ∀ k d, (alookup k d4Deps).getD [] = [d] → o.Declares k → Has kvs k → Has kvs d := by
        intro k d hk hd hh
        exact (h.propDeps k hh (Or.inl hd) d (by rw [hdeps, hk]; simp)).1
      refine .mk (fun k x hx => ?_) (hdep _ _ (by decide +kernel) ((hdecl _).2 ⟨.boolean none, ?_⟩))
        (hdep _ _ (by decide +kernel) ((hdecl _).2 ⟨.boolean none, ?_⟩))
      · by_cases hk : o.Declares k
        · obtain ⟨c, hc⟩ := (hdecl k).1 hk
          exact h.declared k (c, Keyword ext k) x (by rw [← ho]; exact List.mem_map_of_mem (f := fun p => (p.1, p.2, Keyword ext p.1)) hc) hx
        · refine .other (fun hs => hk ((hdecl k).2 ?_))
          have : ∀ k ∈ schemaKeywords, k ∈ (d4Props none).map (·.1) := by decide +kernel
          obtain ⟨⟨k', c⟩, hp, rfl⟩ := List.mem_map.1 (this k hs)
          exact ⟨c, hp⟩
      · simp [d4Props]
      · simp [d4Props]
    · intro h
      cases h with
      | @mk kvs h1 h2 h3 =>
        refine ⟨kvs, rfl, ⟨?_, ?_, ?_, ?_, ?_, ?_, ?_⟩⟩
        · rw [← ho]; constructor <;> intro h0 <;> simp at h0
        · intro p c x hc hx
          rw [← ho] at hc
          obtain ⟨q, hq, he⟩ := List.mem_map.1 hc
          cases he
          exact h1 _ x hx
        · intro p hp; rw [← ho] at hp; simp at hp
        · intro k x _ _ i s c hc; rw [← ho] at hc; simp at hc
        · intro k x hx _ _; rw [← ho]; exact ⟨_, rfl, trivial⟩
        · intro k hk _ d hd
          rw [hdeps] at hd
          have hd' : (k = b! "exclusiveMaximum" ∧ d = b! "maximum") ∨ (k = b! "exclusiveMinimum" ∧ d = b! "minimum") := by
            cases hl : alookup k d4Deps with
            | none => rw [hl] at hd; simp at hd
            | some l =>
              rw [hl] at hd
              have := alookup_mem hl
              simp only [d4Deps, List.mem_cons, Prod.mk.injEq, List.not_mem_nil, or_false] at this
              rcases this with ⟨rfl, rfl⟩ | ⟨rfl, rfl⟩
              · exact Or.inl ⟨rfl, by simpa using hd⟩
              · exact Or.inr ⟨rfl, by simpa using hd⟩
          rcases hd' with ⟨rfl, rfl⟩ | ⟨rfl, rfl⟩
          · exact ⟨h2 hk, Or.inl ((hdecl _).2 ⟨.number Number', by simp [d4Props]⟩)⟩
          · exact ⟨h3 hk, Or.inl ((hdecl _).2 ⟨.number Number', by simp [d4Props]⟩)⟩
        · intro k _ _ _ c hc; rw [← ho] at hc; cases hc

/-- The references, however deep. -/
theorem d4Refs (hpr : ∀ t, ext.sprint (.str t) = t) : ∀ fuel, D4Refs ext (refSem ext (d4Env none) fuel)
  | 0 => ⟨running_tracks, running_tracks, running_tracks, running_tracks, running_tracks, running_tracks⟩
  | k + 1 => by
    have hr := d4Refs hpr k
    have step : ∀ n c, alookup n (d4Table none) = some c → refSem ext (d4Env none) (k + 1) 0 n = denote ext (refSem ext (d4Env none) k) c := by
      intro n c h
      have h : d4Env none 0 n = some c := h
      simp only [refSem, h]
    have types : Tracks ext (Doc anyDoc) (denote ext (refSem ext (d4Env none) k) d4Types) IsSimple := by
      refine string_leaf_tracks (P := fun t => t ∈ simpleTypeNames) rfl (fun l h x hx => ?_) (fun t => ⟨fun h => ?_, fun h => ⟨fun h => ?_, fun _ => ?_, ?_, fun _ h => (by cases h), fun l hl => ?_⟩⟩)
      · cases h
        obtain ⟨t, -, rfl⟩ := List.mem_map.1 hx
        exact .str t
      · have := h.enums _ rfl
        obtain ⟨t', h1, h2⟩ := List.mem_map.1 this
        cases h2
        exact h1
      · simp [String', StrC.Enum] at h
      · simp [String', StrC.Enum]
      · simp [String', StrC.Enum, FormatOk]
      · cases hl
        exact List.mem_map_of_mem h
    refine ⟨?_, ?_, ?_, ?_, ?_, ?_⟩
    · rw [step _ (d4Root none) (by with_unfolding_all rfl)]; exact d4Root_tracks hpr hr
    · rw [step _ d4Pos (by with_unfolding_all rfl)]
      refine integer_leaf_tracks rfl rfl (fun n m => ⟨fun h => (fin_min rfl).1 (h.min _ rfl), fun h => ⟨fun _ h' => ?_, fun _ _ h => (by cases h),
        fun _ h => (by cases h), fun _ h => (by cases h), fun _ h => (by cases h), fun _ h => (by cases h)⟩⟩)
      cases h'; exact (fin_min rfl).2 h
    · rw [step _ d4Pos0 (by with_unfolding_all rfl)]
      have pos : Tracks ext (Doc anyDoc) (denote ext (refSem ext (d4Env none) k) (d4Ref (b! "#/definitions/positiveInteger"))) IsCount := hr.pos
      exact (Tracks.all (.cons pos (.cons (empty_tracks _) .nil))).congr (fun v _ => by simp)
    · rw [step _ d4Schemas (by with_unfolding_all rfl)]
      exact schemas_tracks (c := d4Ref (b! "#")) hr.root
    · rw [step _ d4Types (by with_unfolding_all rfl)]; exact types
    · rw [step _ d4Strings (by with_unfolding_all rfl)]
      exact (distinct_tracks hpr (q := fun _ => True) (string_leaf_tracks rfl (fun _ h => by cases h) (fun _ => strOk_plain))).congr
        (fun v _ => by simp [AreNames])

end

/-! ## Termination, and defaults -/

theorem every_kidless {L : Constraint → Prop} {c : Constraint} (hk : c.kids = []) (h : L c) : c.Every L := .intro h (fun d hd => by rw [hk] at hd; cases hd)

/-- A property of the nodes of the constraints holds of all of them if it does of these kinds of nodes. -/
theorem d4_every {L : Constraint → Prop} {d : Option GoVal} (hroot : L (d4Root d)) (hstr : ∀ c, c.dflt = none → (∀ l, c.enums = some l → ∀ x ∈ l, ∃ t, x = .str t) → L (.string c))
    (hnum : ∀ c, c.dflt = none → c.enums = none → L (.number c)) (hint : ∀ c, c.dflt = none → c.enums = none → L (.integer c)) (hbool : L (.boolean none)) (hflag : L (.boolean d))
    (hempty : L .empty) (href : ∀ m n, L (.ref m n)) (harr : ∀ i mn u, L (.array { Array' with items := i, minItems := mn, unique := u }))
    (hobj : ∀ a, L (.object { Object' with additional := a }))
    (hany : ∀ l, l ∈ [[.boolean none, d4Ref (b! "#")], [d4Ref (b! "#"), d4Ref (b! "#/definitions/stringArray")], [d4Ref (b! "#"), d4Ref (b! "#/definitions/schemaArray")],
      [d4Ref (b! "#/definitions/simpleTypes"), .array { Array' with items := some (d4Ref (b! "#/definitions/simpleTypes")), minItems := 1, unique := true }]] → L (.any l))
    (hall : L d4Pos0) : (d4Env d).Every L := by
  have leafS : ∀ c, c.dflt = none → (∀ l, c.enums = some l → ∀ x ∈ l, ∃ t, x = .str t) → (Constraint.string c).Every L := fun c h h' => every_kidless rfl (hstr c h h')
  have leafN : ∀ c, c.dflt = none → c.enums = none → (Constraint.number c).Every L := fun c h h' => every_kidless rfl (hnum c h h')
  have leafE : Constraint.empty.Every L := every_kidless rfl hempty
  have leafR : ∀ n, (d4Ref n).Every L := fun n => every_kidless rfl (href 0 n)
  have leafB : (Constraint.boolean none).Every L := every_kidless rfl hbool
  have leafF : (Constraint.boolean d).Every L := every_kidless rfl hflag
  have arr : ∀ i mn u, (∀ c, i = some c → c.Every L) → (Constraint.array { Array' with items := i, minItems := mn, unique := u }).Every L := by
    intro i mn u h
    refine .intro (harr i mn u) (fun c hc => ?_)
    simp only [Constraint.kids, Array', List.append_nil, List.mem_append, Option.mem_toList, Option.mem_def, Option.some.injEq] at hc
    rcases hc with hc | rfl
    · exact h c hc
    · exact leafE
  have obj : ∀ c, c.Every L → (Constraint.object { Object' with additional := some c }).Every L := by
    intro c h
    refine .intro (hobj (some c)) (fun e he => ?_)
    simp only [Constraint.kids, Object', List.map_nil, List.nil_append, List.append_nil, Option.mem_toList, Option.mem_def, Option.some.injEq] at he
    subst he
    exact h
  have types : (Constraint.array { Array' with items := some (d4Ref (b! "#/definitions/simpleTypes")), minItems := 1, unique := true }).Every L :=
    arr _ _ _ (fun c h => by cases h; exact leafR _)
  have any : ∀ l, (∀ c ∈ l, c.Every L) → L (.any l) → (Constraint.any l).Every L := fun l h h' => .intro h' h
  have two : ∀ a b : Constraint, a.Every L → b.Every L → ∀ c ∈ [a, b], c.Every L := by
    intro a b ha hb c hc
    simp only [List.mem_cons, List.not_mem_nil, or_false] at hc
    rcases hc with rfl | rfl
    · exact ha
    · exact hb
  have named : d4Named.Every L := obj _ (leafR _)
  have root : (d4Root d).Every L := by
    refine .intro hroot (fun c hc => ?_)
    have hc : c ∈ (d4Props d).map (·.2) ++ [.empty] := by simpa [d4Root, Constraint.kids, Object'] using hc
    rcases List.mem_append.1 hc with hc | hc
    · simp only [d4Props, List.map_cons, List.map_nil, List.mem_cons, List.not_mem_nil, or_false] at hc
      rcases hc with rfl | rfl | rfl | rfl | rfl | rfl | rfl | rfl | rfl | rfl | rfl | rfl | rfl | rfl | rfl | rfl | rfl | rfl | rfl | rfl | rfl | rfl |
        rfl | rfl | rfl | rfl | rfl | rfl | rfl | rfl | rfl | rfl
      all_goals first
        | exact leafS _ rfl (fun _ h => by cases h)
        | exact leafN _ rfl rfl
        | exact leafE
        | exact leafR _
        | exact leafF
        | exact named
        | exact arr _ _ _ (fun c h => by cases h)
        | exact any _ (two _ _ leafB (leafR _)) (hany _ (by simp))
        | exact any _ (two _ _ (leafR _) (leafR _)) (hany _ (by simp))
        | exact any _ (two _ _ (leafR _) types) (hany _ (by simp))
        | exact obj _ (any _ (two _ _ (leafR _) (leafR _)) (hany _ (by simp)))
    · rw [List.mem_singleton.1 hc]; exact leafE
  intro m n c h
  obtain ⟨-, h⟩ := d4Env_cases h
  rcases h with ⟨-, rfl⟩ | ⟨-, rfl⟩ | ⟨-, rfl⟩ | ⟨-, rfl⟩ | ⟨-, rfl⟩ | ⟨-, rfl⟩
  · exact root
  · exact every_kidless rfl (hint _ rfl rfl)
  · exact .intro hall (two _ _ (leafR _) leafE)
  · exact arr _ _ _ (fun c h => by cases h; exact leafR _)
  · refine leafS _ rfl (fun l h x hx => ?_)
    cases h
    obtain ⟨t, -, rfl⟩ := List.mem_map.1 hx
    exact ⟨t, rfl⟩
  · exact arr _ _ _ (fun c h => by cases h; exact leafS _ rfl (fun _ h => by cases h))

theorem d4_defaults {d : Option GoVal} (hd : ∀ dv, d = some dv → Flat dv) : (d4Env d).Every (DefaultIn Flat) :=
  d4_every (fun _ h => by cases h) (fun c h _ dv h' => by rw [show Constraint.ownDefault (.string c) = c.dflt from rfl, h] at h'; cases h')
    (fun c h _ dv h' => by rw [show Constraint.ownDefault (.number c) = c.dflt from rfl, h] at h'; cases h')
    (fun c h _ dv h' => by rw [show Constraint.ownDefault (.integer c) = c.dflt from rfl, h] at h'; cases h')
    (fun _ h => by cases h) (fun dv h => hd dv h) (fun _ h => by cases h) (fun _ _ _ h => by cases h) (fun _ _ _ _ h => by cases h)
    (fun _ _ h => by cases h) (fun _ _ _ h => by cases h) (fun _ h => by cases h)

theorem d4_scalar : (d4Env (some (.bool false))).Every fun c => (DefaultIn (Data false) c ∧ ScalarEnum c) ∧ DefaultIn Direct c := by
  have none : ∀ c : Constraint, c.ownDefault = none → c.enumOf = [] → (DefaultIn (Data false) c ∧ ScalarEnum c) ∧ DefaultIn Direct c := by
    intro c h1 h2
    refine ⟨⟨fun dv h => ?_, fun x h => ?_⟩, fun dv h => ?_⟩
    · rw [h1] at h; cases h
    · rw [h2] at h; cases h
    · rw [h1] at h; cases h
  refine d4_every (none _ rfl rfl) (fun c h1 h2 => ?_) (fun c h1 h2 => none _ h1 (by simp [Constraint.enumOf, h2]))
    (fun c h1 h2 => none _ h1 (by simp [Constraint.enumOf, h2])) (none _ rfl rfl) ⟨⟨fun dv h => ?_, fun x h => ?_⟩, fun dv h => ?_⟩ (none _ rfl rfl)
    (fun _ _ => none _ rfl rfl) (fun _ _ _ => none _ rfl rfl) (fun _ => none _ rfl rfl) (fun _ _ => none _ rfl rfl) (none _ rfl rfl)
  · have h3 : (Constraint.string c).ownDefault = Option.none := h1
    refine ⟨⟨fun dv h => (by rw [h3] at h; cases h), fun x h => ?_⟩, fun dv h => (by rw [h3] at h; cases h)⟩
    simp only [Constraint.enumOf] at h
    cases hl : c.enums with
    | none => rw [hl] at h; simp at h
    | some l =>
      rw [hl] at h
      obtain ⟨t, rfl⟩ := h2 l hl x (by simpa using h)
      exact .str t
  · cases h; exact .bool _
  · simp [Constraint.enumOf] at h
  · cases h; exact .bool _

theorem d4_unseen (d : Option GoVal) : (d4Env d).Every (Unseen (d4Env d)) := by
  have inert : ∀ c, c.kids = [] → (∀ o, c ≠ .object o) → (∀ m n, c ≠ .ref m n) → Inert (d4Env d) c := by
    intro c h1 h2 h3 e he hf
    have : e = c := by
      cases he with
      | refl => rfl
      | child hc _ => have := hc.mem; rw [h1] at this; cases this
      | ref => exact absurd rfl (h3 _ _)
    subst this
    cases hf with
    | mk => exact h2 _ rfl
  have inertRef : ∀ n c, alookup n (d4Table d) = some c → Inert (d4Env d) c → Inert (d4Env d) (d4Ref n) := by
    intro n c hn hc e he hf
    cases he with
    | refl => cases hf
    | child h => cases h
    | ref h hu =>
      have h' : alookup n (d4Table d) = some _ := h
      rw [hn] at h'
      cases h'
      exact hc e hu hf
  have hpos : Inert (d4Env d) (d4Ref (b! "#/definitions/positiveInteger")) :=
    inertRef _ d4Pos (by with_unfolding_all rfl) (inert _ rfl (by simp [d4Pos]) (by simp [d4Pos]))
  have htypes : Inert (d4Env d) (d4Ref (b! "#/definitions/simpleTypes")) :=
    inertRef _ d4Types (by with_unfolding_all rfl) (inert _ rfl (by simp [d4Types]) (by simp [d4Types]))
  have hclash : ∀ n a, alookup n (d4Table d) = some (.array a) → Clash (d4Env d) (d4Ref (b! "#")) (d4Ref n) := by
    intro n a h
    refine .left (a := d4Root d) (by with_unfolding_all rfl) (.right (b := .array a) h .objectArray)
  refine d4_every ⟨⟨?_⟩, Or.inl rfl⟩ (fun _ _ _ => trivial) (fun _ _ _ => trivial) (fun _ _ _ => trivial) trivial trivial trivial (fun _ _ => trivial)
    (fun i mn u e h => Or.inl (by cases h; rfl)) (fun a => ⟨⟨by simp [Object']⟩, Or.inl rfl⟩) (fun l hl => ?_) ?_
  · show ((d4Props d).map (·.1)).Nodup
    have : (d4Props d).map (·.1) = (d4Props none).map (·.1) := rfl
    rw [this]
    decide +kernel
  · simp only [List.mem_cons, List.not_mem_nil, or_false] at hl
    rcases hl with rfl | rfl | rfl | rfl
    · exact .cons (by simpa using Or.inl (inert _ rfl (by simp) (by simp))) (.cons (by simp) .nil)
    · exact .cons (by simpa using Or.inr (hclash _ _ (by with_unfolding_all rfl))) (.cons (by simp) .nil)
    · exact .cons (by simpa using Or.inr (hclash _ _ (by with_unfolding_all rfl))) (.cons (by simp) .nil)
    · exact .cons (by simpa using Or.inl htypes) (.cons (by simp) .nil)
  · exact List.Pairwise.cons (by simpa using hpos) (.cons (by simp) .nil)

theorem d4_guarded (d : Option GoVal) : Guarded (d4Env d) := by
  have leaf : ∀ p : Nat × GoStr, p.2 ≠ b! "#/definitions/positiveIntegerDefault0" → ∀ q, ¬ Unguarded (d4Env d) q p := by
    rintro p hp q ⟨c, hc, hh⟩
    have none : ∀ c : Constraint, (∀ e, ¬ c.Same e) → (∀ m n, c ≠ .ref m n) → ¬ (Constraint.ref q.1 q.2).Here c := by
      intro c h1 h2 h
      cases h with
      | refl => exact h2 _ _ rfl
      | same h => exact h1 _ h
    obtain ⟨-, h⟩ := d4Env_cases hc
    rcases h with ⟨-, rfl⟩ | ⟨-, rfl⟩ | ⟨h, rfl⟩ | ⟨-, rfl⟩ | ⟨-, rfl⟩ | ⟨-, rfl⟩
    · exact none _ (fun e h => by cases h with | dependency h => cases h) (by simp [d4Root]) hh
    · exact none _ (fun e h => by cases h) (by simp [d4Pos]) hh
    · exact hp h
    · exact none _ (fun e h => by cases h) (by simp [d4Schemas]) hh
    · exact none _ (fun e h => by cases h) (by simp [d4Types]) hh
    · exact none _ (fun e h => by cases h) (by simp [d4Strings]) hh
  have acc : ∀ p : Nat × GoStr, p.2 ≠ b! "#/definitions/positiveIntegerDefault0" → Acc (Unguarded (d4Env d)) p :=
    fun p hp => ⟨_, fun q hq => absurd hq (leaf p hp q)⟩
  refine ⟨fun p => ⟨_, fun q hq => acc q ?_⟩⟩
  by_cases hp : p.2 = b! "#/definitions/positiveIntegerDefault0"
  · obtain ⟨c, hc, hh⟩ := hq
    obtain ⟨-, h⟩ := d4Env_cases hc
    rw [hp] at h
    have hc : c = d4Pos0 := by
      rcases h with ⟨h, -⟩ | ⟨h, -⟩ | ⟨-, h⟩ | ⟨h, -⟩ | ⟨h, -⟩ | ⟨h, -⟩ <;> first | exact h | exact absurd h (by decide)
    subst hc
    cases hh with
    | same hs hh =>
      cases hs with
      | all hm =>
        simp only [List.mem_cons, List.not_mem_nil, or_false] at hm
        rcases hm with rfl | rfl
        · obtain ⟨q1, q2⟩ := q
          simp only at hh ⊢
          generalize he : Constraint.ref q1 q2 = e at hh
          cases hh with
          | refl =>
            cases he
            decide
          | same hs => cases hs
        · cases hh with
          | same hs => cases hs
  · exact absurd hq (leaf p hp q)

end Jsval
