import Verif.Lemmas.Tracks
import Verif.Lemmas.BuilderRefs
import Verif.Lemmas.BuilderTypes
/-!
# The constraint built for one type decides that type's keywords
-/
namespace Jsval
open Tracks
variable {ext : Ext} {cls : DocClass} {ρ : RefSem} {S : Type}

theorem Tracks.leaf {D : GoVal → Prop} {c : Constraint} {P : GoVal → Prop} (hr : ∀ m n, c ≠ .ref m n) (hc : ∀ d, ¬ c.Child d)
    (hp : Plain c) (h : ∀ σ v, D v → ((denote ext ρ c).AcceptsBy σ v ↔ P v)) : Tracks ext D (denote ext ρ c) P :=
  of_step hr hp (fun d hd => absurd hd (hc d)) (fun σ v hv ho => (h σ v hv).1 ho)
    (fun σ v e hv he hP => by
      have := (h σ v hv).2 hP
      unfold Sem.AcceptsBy at this
      rw [this] at he; cases he)

/-- What the value rules say about a value of a given kind. -/
theorem valueRules_num {s : SchemaF (GoVal → Prop)} {f : F64} : s.ValueRules ext (.float .f64 f) ↔
    (s.enum ≠ [] → ∃ e ∈ s.enum, JsonEq e (.float .f64 f)) ∧ s.NumberRules f :=
  ⟨fun h => ⟨h.enum, h.number f rfl⟩, fun h => ⟨h.1, fun g hg => (by cases hg; exact h.2), fun _ h => (by cases h),
    fun _ h => (by cases h), fun _ h => (by cases h)⟩⟩

theorem valueRules_str {s : SchemaF (GoVal → Prop)} {t : GoStr} : s.ValueRules ext (.str t) ↔
    (s.enum ≠ [] → ∃ e ∈ s.enum, JsonEq e (.str t)) ∧ s.StringRules ext t :=
  ⟨fun h => ⟨h.enum, h.string t rfl⟩, fun h => ⟨h.1, fun _ h => (by cases h), fun g hg => (by cases hg; exact h.2),
    fun _ h => (by cases h), fun _ h => (by cases h)⟩⟩

theorem valueRules_arr {s : SchemaF (GoVal → Prop)} {xs : List GoVal} : s.ValueRules ext (.slice false xs) ↔
    (s.enum ≠ [] → ∃ e ∈ s.enum, JsonEq e (.slice false xs)) ∧ s.ArrayRules xs :=
  ⟨fun h => ⟨h.enum, h.array xs rfl⟩, fun h => ⟨h.1, fun _ h => (by cases h), fun _ h => (by cases h),
    fun g hg => (by cases hg; exact h.2), fun _ h => (by cases h)⟩⟩

theorem valueRules_obj {s : SchemaF (GoVal → Prop)} {kvs : List (GoStr × GoVal)} : s.ValueRules ext (.map false kvs) ↔
    (s.enum ≠ [] → ∃ e ∈ s.enum, JsonEq e (.map false kvs)) ∧ s.ObjectRules ext (.map false kvs) kvs :=
  ⟨fun h => ⟨h.enum, h.object kvs rfl⟩, fun h => ⟨h.1, fun _ h => (by cases h), fun _ h => (by cases h),
    fun _ h => (by cases h), fun g hg => (by cases hg; exact h.2)⟩⟩

theorem valueRules_bool {s : SchemaF (GoVal → Prop)} {b : Bool} : s.ValueRules ext (.bool b) ↔
    (s.enum ≠ [] → ∃ e ∈ s.enum, JsonEq e (.bool b)) :=
  ⟨fun h => h.enum, fun h => ⟨h, fun _ h => (by cases h), fun _ h => (by cases h), fun _ h => (by cases h),
    fun _ h => (by cases h)⟩⟩

theorem valueRules_null {s : SchemaF (GoVal → Prop)} : s.ValueRules ext .nil ↔
    (s.enum ≠ [] → ∃ e ∈ s.enum, JsonEq e .nil) :=
  ⟨fun h => h.enum, fun h => ⟨h, fun _ h => (by cases h), fun _ h => (by cases h), fun _ h => (by cases h),
    fun _ h => (by cases h)⟩⟩

/-! ## Strings -/

theorem stringOf_fields (s : SchemaF S) (hd : s.dflt = .nil) : stringOf s =
    { maxLength := s.maxLength.getD (-1), minLength := s.minLength.getD 0, regexp := s.pattern, format := s.format,
      enums := if s.enum = [] then none else some s.enum, dflt := none } := by
  unfold stringOf applyIf
  rw [hd]
  have hf : ∀ c : StrC, c.format = [] → (if s.format ≠ [] then c.Format s.format else c) = { c with format := s.format } := by
    intro c hc
    by_cases h : s.format = []
    · rw [if_neg (by simpa using h), h]; rw [← hc]
    · rw [if_pos h]; rfl
  have he : ∀ c : StrC, c.enums = none → (if 0 < s.enum.length then c.Enum s.enum else c) =
      { c with enums := if s.enum = [] then none else some s.enum } := by
    intro c hc
    by_cases h : s.enum = []
    · rw [if_neg (by simp [h]), if_pos h, ← hc]
    · rw [if_pos (List.length_pos_iff.2 h), if_neg h]; rfl
  cases s.maxLength <;> cases s.minLength <;> cases s.pattern <;> simp only [Option.getD] <;>
    rw [hf _ rfl, he _ rfl] <;> rfl

theorem runeCount_ascii : ∀ {t : GoStr}, (∀ c ∈ t, c < 128) → runeCount t = t.length := by
  intro t h
  unfold runeCount
  rw [List.countP_eq_length]
  intro c hc
  simp [h c hc]

/-- A text that does not begin inside a character is empty exactly if it has no characters. -/
theorem runeCount_pos {t : GoStr} (h : StartsWhole t) : 1 ≤ runeCount t ↔ 1 ≤ t.length := by
  cases t with
  | nil => simp [runeCount]
  | cons c t =>
    have hc := h c rfl
    have : 1 ≤ runeCount (c :: t) := by
      unfold runeCount
      exact List.countP_pos_iff.2 ⟨c, by simp, by simpa using hc⟩
    simp [this]

/-- The two ways of counting agree on the bounds of the fragment. -/
theorem min_chars {t : GoStr} {n : Int} (ha : cls.ascii → ∀ c ∈ t, c < 128) (hu : cls.utf8 → StartsWhole t)
    (h : cls.ascii ∨ n = 0 ∨ (n = 1 ∧ cls.utf8)) : n ≤ runeCount t ↔ n ≤ t.length := by
  rcases h with h | h | ⟨h, h'⟩
  · rw [runeCount_ascii (ha h)]
  · subst h; omega
  · have := runeCount_pos (hu h')
    subst h; omega

theorem max_chars {t : GoStr} {n : Int} (ha : cls.ascii → ∀ c ∈ t, c < 128) (hu : cls.utf8 → StartsWhole t)
    (h : cls.ascii ∨ (n = 0 ∧ cls.utf8)) : runeCount t ≤ n ↔ t.length ≤ n := by
  rcases h with h | ⟨h, h'⟩
  · rw [runeCount_ascii (ha h)]
  · have := runeCount_pos (hu h')
    subst h; omega

theorem doc_target {v x : GoVal} (hv : Doc cls v) (hx : Target v x) : v = x := by
  cases hx with
  | ptr => cases hv
  | iface => cases hv
  | self => rfl

theorem target_self {x : GoVal} (hv : Doc cls x) : Target x x := by
  refine .self x (fun p h => ?_) (fun p h => ?_) <;> (subst h; cases hv)

theorem format_iff {s : SchemaF Schema} (h : s.Conforming ext formats cls) (t : GoStr) :
    FormatOk ext s.format t ↔ FormatMeaning ext s.format t := by
  have h0 := h.format
  simp only [List.mem_cons, List.not_mem_nil, or_false, not_or] at h0
  constructor
  · rintro ⟨-, h2, h3, h4, -, h6⟩
    exact ⟨fun h => absurd h h0.2.1, h2, h3, fun h => ⟨(h4 h).2, (h4 h).1⟩, fun h => absurd h h0.2.2, h6⟩
  · intro h
    exact ⟨fun h => absurd h h0.1, h.email, h.hostname, fun h' => ⟨(h.ipv4 h').2, (h.ipv4 h').1⟩,
      fun h => absurd h h0.2.2, h.uri⟩

theorem strOk_iff {s : SchemaF Schema} (h : s.Conforming ext formats cls) (V : Schema → GoVal → Prop) {t : GoStr}
    (ht : cls.ascii → ∀ c ∈ t, c < 128) (hu : cls.utf8 → StartsWhole t) :
    StrOk ext (stringOf s) t ↔ (s.map V).StringRules ext t ∧ (s.enum ≠ [] → .str t ∈ s.enum) := by
  rw [stringOf_fields s h.dflt]
  constructor
  · intro hs
    refine ⟨⟨fun n hn => ?_, fun n hn => ?_, hs.regexp, (format_iff h t).1 hs.format⟩, fun he => ?_⟩
    · have hn : s.minLength = some n := hn
      obtain ⟨h0, ha⟩ := h.minLength n hn
      have := hs.min (by simp [hn, h0])
      exact (min_chars ht hu ha).2 (by simpa [hn] using this)
    · have hn : s.maxLength = some n := hn
      obtain ⟨h0, ha⟩ := h.maxLength n hn
      have := hs.max (by simp [hn, h0])
      exact (max_chars ht hu ha).2 (by simpa [hn] using this)
    · exact hs.enums s.enum (by simp [he])
  · rintro ⟨hs, he⟩
    refine ⟨fun h0 => ?_, fun h0 => ?_, (format_iff h t).2 hs.format, hs.pattern, fun l hl => ?_⟩
    · cases hn : s.maxLength with
      | none => simp [hn] at h0
      | some n =>
        have := hs.maxLength n hn
        exact (max_chars ht hu (h.maxLength n hn).2).1 this
    · cases hn : s.minLength with
      | none => simp
      | some n =>
        have := hs.minLength n hn
        exact (min_chars ht hu (h.minLength n hn).2).1 this
    · by_cases hn : s.enum = []
      · simp [hn] at hl
      · simp [hn] at hl; rw [← hl]; exact he hn

theorem string_tracks {s : SchemaF Schema} (h : s.Conforming ext formats cls) (V : Schema → GoVal → Prop) :
    Tracks ext (Doc cls) (denote ext ρ (.string (stringOf s))) (fun v => HasType .string v ∧ (s.map V).ValueRules ext v) := by
  refine Tracks.leaf (by simp) (fun d hd => by cases hd) ⟨?_, fun x hx => ?_⟩ (fun σ v hv => ?_)
  · rw [stringOf_fields s h.dflt]; rfl
  · rw [stringOf_fields s h.dflt] at hx
    simp only [Constraint.enumOf] at hx
    split at hx
    · simp at hx
    · exact h.enumScalar x (by simpa using hx)
  · rw [C10_string_exact]
    constructor
    · rintro ⟨t, h1, h2⟩
      have := doc_target hv h1
      subst this
      cases hv with
      | str _ ht _ hu =>
        obtain ⟨h3, h4⟩ := (strOk_iff h V ht hu).1 h2
        exact ⟨.string t, valueRules_str.2 ⟨fun he => ⟨_, h4 he, .str t⟩, h3⟩⟩
    · rintro ⟨ht, hr⟩
      cases ht with
      | string t =>
        have hd := hv
        cases hd with
        | str _ ht _ hu =>
          rw [valueRules_str] at hr
          refine ⟨t, target_self hv, (strOk_iff h V ht hu).2 ⟨hr.2, fun he => ?_⟩⟩
          obtain ⟨e, h1, h2⟩ := hr.1 he
          cases h2
          exact h1

/-! ## Null and booleans -/

theorem null_tracks {s : SchemaF Schema} (h : s.Conforming ext formats cls) (ht : .null ∈ s.type) (V : Schema → GoVal → Prop) :
    Tracks ext (Doc cls) (denote ext ρ .null) (fun v => HasType .null v ∧ (s.map V).ValueRules ext v) := by
  refine Tracks.leaf (by simp) (fun d hd => by cases hd) ⟨rfl, fun x hx => by simp [Constraint.enumOf] at hx⟩
    (fun σ v hv => ?_)
  rw [C07_null_exact]
  constructor
  · intro hn
    have : v = .nil := by cases hn <;> first | rfl | cases hv
    subst this
    refine ⟨.null, valueRules_null.2 (fun he => ?_)⟩
    have := h.enumTyped he _ ht
    simp only [reduceCtorEq, false_or, true_and, false_and, or_false] at this
    exact ⟨_, this, .null⟩
  · rintro ⟨hn, -⟩; cases hn; exact .nil

theorem boolean_tracks {s : SchemaF Schema} (h : s.Conforming ext formats cls) (ht : .boolean ∈ s.type) (V : Schema → GoVal → Prop) :
    Tracks ext (Doc cls) (denote ext ρ (.boolean none)) (fun v => HasType .boolean v ∧ (s.map V).ValueRules ext v) := by
  refine Tracks.leaf (by simp) (fun d hd => by cases hd) ⟨rfl, fun x hx => by simp [Constraint.enumOf] at hx⟩
    (fun σ v hv => ?_)
  rw [C08_boolean_exact]
  constructor
  · rintro ⟨b, rfl⟩
    refine ⟨.boolean b, valueRules_bool.2 (fun he => ?_)⟩
    have := h.enumTyped he _ ht
    simp only [reduceCtorEq, false_or, true_and, false_and] at this
    cases b with
    | true => exact ⟨_, this.1, .bool _⟩
    | false => exact ⟨_, this.2, .bool _⟩
  · rintro ⟨hn, -⟩; cases hn; exact ⟨_, rfl⟩

/-! ## Numbers -/

theorem boundsOf_fields (s : SchemaF S) : boundsOf s =
    { Number' with
      minimum := s.minimum, maximum := s.maximum, multipleOf := s.multipleOf
      exclMin := if s.minimum = none then false else s.exclMin.getD false
      exclMax := if s.maximum = none then false else s.exclMax.getD false } := by
  unfold boundsOf applyIf
  cases s.minimum <;> cases s.maximum <;> cases s.exclMin <;> cases s.exclMax <;> cases s.multipleOf <;> rfl

theorem num_of_ne_nan {x : F64} (hx : x ≠ .nan) : ∃ y, x.num = some y := by
  rcases x with _ | n | _
  · exact absurd rfl hx
  · cases n <;> exact ⟨_, rfl⟩
  · exact ⟨_, rfl⟩

theorem F64.le_iff_not_lt {a b : F64} (ha : a ≠ .nan) (hb : b ≠ .nan) : F64.Le a b ↔ ¬ F64.Lt b a := by
  obtain ⟨x, hx⟩ := num_of_ne_nan ha
  obtain ⟨y, hy⟩ := num_of_ne_nan hb
  unfold F64.Le F64.Lt
  simp only [hx, hy, Option.some.injEq]
  constructor
  · rintro ⟨_, _, rfl, rfl, h⟩ ⟨_, _, rfl, rfl, h'⟩; exact absurd h (not_le.2 h')
  · intro h
    exact ⟨x, y, rfl, rfl, not_lt.1 (fun h' => h ⟨y, x, rfl, rfl, h'⟩)⟩

theorem F64.lt_iff_le_ne {a b : F64} : F64.Lt a b ↔ F64.Le a b ∧ ¬ F64.Eq a b := by
  unfold F64.Le F64.Lt F64.Eq
  constructor
  · rintro ⟨x, y, h1, h2, h⟩
    refine ⟨⟨x, y, h1, h2, le_of_lt h⟩, ?_⟩
    rintro ⟨z, h3, h4⟩
    rw [h1] at h3; rw [h2] at h4
    simp only [Option.some.injEq] at h3 h4
    rw [h3, h4] at h; exact lt_irrefl _ h
  · rintro ⟨⟨x, y, h1, h2, h⟩, hn⟩
    refine ⟨x, y, h1, h2, lt_of_le_of_ne h (fun he => hn ⟨x, h1, by rw [h2, he]⟩)⟩

theorem F64.eq_comm' {a b : F64} : F64.Eq a b ↔ F64.Eq b a :=
  ⟨fun ⟨x, h1, h2⟩ => ⟨x, h2, h1⟩, fun ⟨x, h1, h2⟩ => ⟨x, h2, h1⟩⟩

/-- The bounds set by the builder, for a number that is not NaN. -/
theorem numOk_iff {s : SchemaF Schema} (h : s.Conforming ext formats cls) (V : Schema → GoVal → Prop) {f : F64} (hf : f ≠ .nan)
    (en : Option (List GoVal)) (df : Option GoVal) :
    NumOk { boundsOf s with enums := en, dflt := df } f ↔
      (s.map V).NumberRules f ∧ (∀ l, en = some l → ∃ g, GoVal.float .f64 g ∈ l ∧ F64.Eq g f) := by
  rw [boundsOf_fields s]
  constructor
  · intro hn
    refine ⟨⟨fun m hm => ?_, fun m hm hx => ?_, fun m hm => ?_, fun m hm hx => ?_, fun m hm => ?_⟩, hn.enums⟩
    · exact (F64.le_iff_not_lt (h.minimum m hm) hf).2 (hn.min m hm)
    · have hm' : s.minimum = some m := hm
      have hx' : s.exclMin = some true := hx
      rw [F64.lt_iff_le_ne]
      refine ⟨(F64.le_iff_not_lt (h.minimum m hm) hf).2 (hn.min m hm), fun he => ?_⟩
      exact hn.exclMin m hm (by simp [hm', hx']) (F64.eq_comm'.1 he)
    · exact (F64.le_iff_not_lt hf (h.maximum m hm)).2 (hn.max m hm)
    · have hm' : s.maximum = some m := hm
      have hx' : s.exclMax = some true := hx
      rw [F64.lt_iff_le_ne]
      exact ⟨(F64.le_iff_not_lt hf (h.maximum m hm)).2 (hn.max m hm), hn.exclMax m hm (by simp [hm', hx'])⟩
    · exact hn.mult m hm (h.multipleOf m hm)
  · rintro ⟨hn, he⟩
    refine ⟨fun m hm => ?_, fun m hm hx => ?_, fun m hm => ?_, fun m hm hx => ?_, fun m hm _ => hn.multipleOf m hm, he⟩
    · exact (F64.le_iff_not_lt (h.minimum m hm) hf).1 (hn.minimum m hm)
    · have hm' : s.minimum = some m := hm
      have hx' : s.exclMin = some true := by
        simp only [hm'] at hx
        cases hh : s.exclMin with
        | none => simp [hh] at hx
        | some b => cases b with
          | true => rfl
          | false => simp [hh] at hx
      exact fun he => (F64.lt_iff_le_ne.1 (hn.exclMin m hm hx')).2 (F64.eq_comm'.1 he)
    · exact (F64.le_iff_not_lt hf (h.maximum m hm)).1 (hn.maximum m hm)
    · have hm' : s.maximum = some m := hm
      have hx' : s.exclMax = some true := by
        simp only [hm'] at hx
        cases hh : s.exclMax with
        | none => simp [hh] at hx
        | some b => cases b with
          | true => rfl
          | false => simp [hh] at hx
      exact (F64.lt_iff_le_ne.1 (hn.exclMax m hm hx')).2

theorem integerOf_fields (s : SchemaF S) (hd : s.dflt = .nil) : integerOf s =
    { boundsOf s with enums := if s.enum = [] then none else some s.enum, dflt := none } := by
  unfold integerOf
  simp only [hd]
  by_cases h : s.enum = []
  · rw [if_neg (by simp [h]), if_pos h, boundsOf_fields s]; rfl
  · rw [if_pos (List.length_pos_iff.2 h), if_neg h]
    simp only [NumC.Enum, boundsOf_fields s]
    rfl

theorem integer_tracks {s : SchemaF Schema} (h : s.Conforming ext formats cls) (V : Schema → GoVal → Prop) :
    Tracks ext (Doc cls) (denote ext ρ (.integer (integerOf s)))
      (fun v => HasType .integer v ∧ (s.map V).ValueRules ext v) := by
  have hen : ∀ f, (∀ l, (if s.enum = [] then none else some s.enum) = some l → ∃ g, GoVal.float .f64 g ∈ l ∧ F64.Eq g f) ↔
      (s.enum ≠ [] → ∃ e ∈ s.enum, JsonEq e (.float .f64 f)) := by
    intro f
    constructor
    · intro hl he
      obtain ⟨g, hg, hgf⟩ := hl s.enum (by simp [he])
      exact ⟨_, hg, .num g f hgf⟩
    · intro hl l hll
      by_cases he : s.enum = []
      · simp [he] at hll
      · simp only [he, if_false, Option.some.injEq] at hll
        subst hll
        obtain ⟨e, h1, h2⟩ := hl he
        cases h2 with
        | num a b hab => exact ⟨a, h1, hab⟩
  rw [integerOf_fields s h.dflt]
  refine Tracks.leaf (by simp) (fun d hd => by cases hd) ⟨rfl, fun x hx => ?_⟩ (fun σ v hv => ?_)
  · simp only [Constraint.enumOf] at hx
    split at hx
    · simp at hx
    · exact h.enumScalar x (by simpa using hx)
  · rw [C18_integer_exact]
    constructor
    · rintro ⟨x, f, h1, h2, h3⟩
      have := doc_target hv h1
      subst this
      cases h2 with
      | int => cases hv
      | uint => cases hv
      | float k f hw =>
        cases hv with
        | num n m =>
          rw [numOk_iff h V (by simp)] at h3
          exact ⟨.integer _ hw, valueRules_num.2 ⟨(hen _).1 h3.2, h3.1⟩⟩
    · rintro ⟨ht, hr⟩
      cases ht with
      | integer f hw =>
        rw [valueRules_num] at hr
        refine ⟨_, f, target_self hv, .float _ f hw, ?_⟩
        cases hv with
        | num n m =>
          rw [numOk_iff h V (by simp)]
          exact ⟨hr.2, (hen _).2 hr.1⟩

theorem numberOf_fields (s : SchemaF S) (hd : s.dflt = .nil) (he : s.enum = []) : numberOf s =
    { boundsOf s with enums := none, dflt := none } := by
  unfold numberOf
  simp only [hd]
  rw [if_neg (by simp [he]), boundsOf_fields s]; rfl

theorem number_tracks {s : SchemaF Schema} (h : s.Conforming ext formats cls) (ht : .number ∈ s.type) (V : Schema → GoVal → Prop) :
    Tracks ext (Doc cls) (denote ext ρ (.number (numberOf s)))
      (fun v => HasType .number v ∧ (s.map V).ValueRules ext v) := by
  have he : s.enum = [] := by
    by_contra he
    have := h.enumTyped he _ ht
    simp at this
  rw [numberOf_fields s h.dflt he]
  refine Tracks.leaf (by simp) (fun d hd => by cases hd) ⟨rfl, fun x hx => by simp [Constraint.enumOf] at hx⟩ (fun σ v hv => ?_)
  rw [C16_number_exact]
  constructor
  · rintro ⟨k, f, h1, h3⟩
    have := doc_target hv h1
    subst this
    cases hv with
    | num n m =>
      rw [numOk_iff h V (by simp)] at h3
      exact ⟨.number _, valueRules_num.2 ⟨fun hh => absurd he hh, h3.1⟩⟩
  · rintro ⟨ht, hr⟩
    cases ht with
    | number f =>
      rw [valueRules_num] at hr
      refine ⟨_, f, target_self hv, ?_⟩
      cases hv with
      | num n m =>
        rw [numOk_iff h V (by simp)]
        exact ⟨hr.2, by simp⟩

end Jsval
