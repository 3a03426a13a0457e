import Verif.Lemmas.Basic
import Verif.Lemmas.Float
import Verif.Lemmas.Domain
/-!
# Helper lemmas for scalar constraints
-/
namespace Jsval

theorem Res.andThen_ok {r k : Res} : r.andThen k = .ok ↔ r = .ok ∧ k = .ok := by
  cases r <;> simp [Res.andThen]

theorem goEq_scalar (e v : GoVal) (hv : Scalar v) : ∃ b, goEq e v = .ok b ∧ (b = true ↔ SameGo e v) := by
  cases hv <;> cases e
  case float.float k f k' f' =>
    refine ⟨_, rfl, ?_⟩
    rw [Bool.and_eq_true, F64.eq_iff, beq_iff_eq]
    constructor
    · rintro ⟨rfl, h⟩; exact .float _ _ _ h
    · intro h; cases h; exact ⟨rfl, by assumption⟩
  case nil.nil => exact ⟨true, rfl, by simp [SameGo.nil]⟩
  case bool.bool b b' =>
    refine ⟨_, rfl, ?_⟩
    rw [beq_iff_eq]
    constructor
    · rintro rfl; exact .bool _
    · intro h; cases h; rfl
  case int.int k n k' n' =>
    refine ⟨_, rfl, ?_⟩
    rw [Bool.and_eq_true, beq_iff_eq, beq_iff_eq]
    constructor
    · rintro ⟨rfl, rfl⟩; exact .int _ _
    · intro h; cases h; exact ⟨rfl, rfl⟩
  case uint.uint k n k' n' =>
    refine ⟨_, rfl, ?_⟩
    rw [Bool.and_eq_true, beq_iff_eq, beq_iff_eq]
    constructor
    · rintro ⟨rfl, rfl⟩; exact .uint _ _
    · intro h; cases h; exact ⟨rfl, rfl⟩
  case str.str s s' =>
    refine ⟨_, rfl, ?_⟩
    rw [beq_iff_eq]
    constructor
    · rintro rfl; exact .str _
    · intro h; cases h; rfl
  all_goals exact ⟨false, rfl, by constructor <;> intro h <;> cases h⟩

theorem enumCheck_scalar {v : GoVal} (hv : Scalar v) : ∀ es : List GoVal,
    (enumCheck es v = .ok ↔ ∃ e ∈ es, SameGo e v) ∧ (enumCheck es v).Normal
  | [] => by simp [enumCheck]; exact Res.Normal_err _
  | e :: es => by
    obtain ⟨b, h1, h2⟩ := goEq_scalar e v hv
    have ih := enumCheck_scalar hv es
    cases b with
    | true => simp [enumCheck, h1, h2.1 rfl, Res.Normal_ok]
    | false =>
      have : ¬ SameGo e v := fun h => by simpa using h2.2 h
      simp only [enumCheck, h1]
      exact ⟨by rw [ih.1]; simp [this], ih.2⟩

theorem sameGo_str {e : GoVal} {s : GoStr} : SameGo e (.str s) ↔ e = .str s := by
  constructor
  · intro h; cases h; rfl
  · rintro rfl; exact .str _

theorem sameGo_float64 {e : GoVal} {f : F64} :
    SameGo e (.float .f64 f) ↔ ∃ g, e = .float .f64 g ∧ F64.Eq g f := by
  constructor
  · intro h; cases h; exact ⟨_, rfl, by assumption⟩
  · rintro ⟨g, rfl, h⟩; exact .float _ _ _ h

/-- What the checks see behind one pointer. -/
theorem indirect_iff {v x : GoVal} (hx : x ≠ .nil) (hp : ∀ p, x ≠ .ptr p) (hi : ∀ y, x ≠ .iface y) :
    (valueOf v).indirect = some x ↔ Target v x := by
  constructor
  · intro h
    cases v <;> simp [valueOf, RV.indirect] at h
    case ptr p =>
      cases p with
      | none => simp [RV.indirect] at h
      | some y => simp [RV.indirect] at h; subst h; exact .ptr _
    case iface y =>
      cases y <;> simp [valueOf] at h <;> subst h <;> exact .iface _
    all_goals subst h; exact .self _ (by simp) (by simp)
  · intro h
    cases h with
    | ptr => rfl
    | iface => cases x <;> first | rfl | exact absurd rfl hx
    | self =>
      cases v <;> first | rfl | exact absurd rfl hx | exact absurd rfl (hp _) | exact absurd rfl (hi _)

theorem minCheck_ok (c : NumC) (f : F64) : minCheck c f = .ok ↔
    (∀ m, c.minimum = some m → ¬ F64.Lt f m) ∧ (∀ m, c.minimum = some m → c.exclMin = true → ¬ F64.Eq f m) := by
  unfold minCheck
  cases hm : c.minimum with
  | none => simp
  | some m =>
    cases he : c.exclMin with
    | true =>
      have := F64.le_iff f m
      cases hl : F64.le f m <;> simp [hl] at this ⊢
      · exact this
      · intro h; exact this.resolve_left h
    | false =>
      have := F64.lt_iff f m
      cases hl : F64.lt f m <;> simp [hl] at this ⊢
      · exact this
      · exact this

theorem maxCheck_ok (c : NumC) (f : F64) : maxCheck c f = .ok ↔
    (∀ m, c.maximum = some m → ¬ F64.Lt m f) ∧ (∀ m, c.maximum = some m → c.exclMax = true → ¬ F64.Eq f m) := by
  unfold maxCheck
  cases hm : c.maximum with
  | none => simp
  | some m =>
    cases he : c.exclMax with
    | true =>
      have := F64.le_iff m f
      cases hl : F64.le m f <;> simp [hl] at this ⊢
      · exact ⟨this.1, fun h => this.2 h.symm⟩
      · intro h; exact (this.resolve_left h).symm
    | false =>
      have := F64.lt_iff m f
      cases hl : F64.lt m f <;> simp [hl] at this ⊢
      · exact this
      · exact this

theorem multCheck_ok (c : NumC) (f : F64) : multCheck c f = .ok ↔
    ∀ m, c.multipleOf = some m → ¬ m.IsZero → F64.MultOf f m := by
  unfold multCheck
  cases hm : c.multipleOf with
  | none => simp
  | some m =>
    have h0 := F64.isZero_iff m
    by_cases hz : m.IsZero
    · simp [hz, h0.2 hz]
    · have hz' : F64.eq m F64.zero = false := by
        rw [← Bool.not_eq_true]; exact fun h => hz (h0.1 h)
      have := F64.mod_iff f m hz
      by_cases hd : F64.MultOf f m
      · simp [hz', this.2 hd, hd]
      · have hd' : F64.eq (F64.mod f m) F64.zero = false := by
          rw [← Bool.not_eq_true]; exact fun h => hd (this.1 h)
        simp [hz', hd', hd, hz]

theorem numCheckF_ok (c : NumC) (f : F64) : numCheckF c f = .ok ↔ NumOk c f := by
  unfold numCheckF
  rw [Res.andThen_ok, Res.andThen_ok, Res.andThen_ok, minCheck_ok, maxCheck_ok, multCheck_ok]
  have henum : enumOptCheck c.enums (.float .f64 f) = .ok ↔
      ∀ l, c.enums = some l → ∃ g, GoVal.float .f64 g ∈ l ∧ F64.Eq g f := by
    unfold enumOptCheck
    cases he : c.enums with
    | none => simp
    | some l =>
      simp only [Option.some.injEq, forall_eq']
      rw [(enumCheck_scalar (.float .f64 f) l).1]
      simp only [sameGo_float64]
      constructor
      · rintro ⟨e, h1, g, rfl, h2⟩; exact ⟨g, h1, h2⟩
      · rintro ⟨g, h1, h2⟩; exact ⟨_, h1, g, rfl, h2⟩
  rw [henum]
  constructor
  · rintro ⟨⟨h1, h2⟩, ⟨h3, h4⟩, h5, h6⟩; exact ⟨h1, h2, h3, h4, h5, h6⟩
  · rintro ⟨h1, h2, h3, h4, h5, h6⟩; exact ⟨⟨h1, h2⟩, ⟨h3, h4⟩, h5, h6⟩

theorem numCheckF_normal (c : NumC) (f : F64) : (numCheckF c f).Normal := by
  intro a h
  unfold numCheckF Res.andThen at h
  have h1 : ∀ a, minCheck c f ≠ .abort a := by
    intro a; unfold minCheck; split <;> [simp; (split <;> split <;> simp)]
  have h2 : ∀ a, maxCheck c f ≠ .abort a := by
    intro a; unfold maxCheck; split <;> [simp; (split <;> split <;> simp)]
  have h3 : ∀ a, multCheck c f ≠ .abort a := by
    intro a; unfold multCheck; split <;> [simp; (split <;> [(split <;> simp); simp])]
  have h4 : ∀ a, enumOptCheck c.enums (.float .f64 f) ≠ .abort a := by
    intro a; unfold enumOptCheck; split
    · simp
    · exact (enumCheck_scalar (.float .f64 f) _).2 a
  split at h
  · split at h
    · split at h
      · exact h4 a h
      · exact h3 a h
    · exact h2 a h
  · exact h1 a h

theorem numCheck_float (c : NumC) (k : FloatKind) (f : F64) : numCheck c (.float k f) = numCheckF c f := rfl

theorem formatCheck_ok (ext : Ext) (fmt s : GoStr) : formatCheck ext fmt s = .ok ↔ FormatOk ext fmt s := by
  have h4 : ipv4Chars s = true ↔ ∀ c ∈ s, c = 46 ∨ (48 ≤ c ∧ c ≤ 57) := by
    simp [ipv4Chars, List.all_eq_true]
  have h6 : ipv6Chars s = true ↔ ∀ c ∈ s, c = 58 ∨ (48 ≤ c ∧ c ≤ 57) := by
    simp [ipv6Chars, List.all_eq_true]
  unfold formatCheck FormatOk
  by_cases e1 : fmt = b! "datetime"
  · subst e1
    cases ht : ext.timeParse s <;> simp
  by_cases e2 : fmt = b! "email"
  · subst e2; simp
  by_cases e3 : fmt = b! "hostname"
  · subst e3
    have := isDomainName_iff s
    cases hd : isDomainName s <;> simp [hd] at this ⊢ <;> exact this
  by_cases e4 : fmt = b! "ipv4"
  · subst e4
    rw [← h4]
    cases hd : ipv4Chars s <;> simp
  by_cases e5 : fmt = b! "ipv6"
  · subst e5
    rw [← h6]
    cases hd : ipv6Chars s <;> simp
  by_cases e6 : fmt = b! "uri"
  · subst e6; simp
  simp [e1, e2, e3, e4, e5, e6]

theorem strCheckS_ok (ext : Ext) (c : StrC) (s : GoStr) : strCheckS ext c s = .ok ↔ StrOk ext c s := by
  unfold strCheckS
  rw [Res.andThen_ok, Res.andThen_ok, Res.andThen_ok, Res.andThen_ok, formatCheck_ok]
  have h1 : maxLenCheck c s = .ok ↔ (0 ≤ c.maxLength → (s.length : ℤ) ≤ c.maxLength) := by
    unfold maxLenCheck; split <;> simp <;> omega
  have h2 : minLenCheck c s = .ok ↔ (0 ≤ c.minLength → c.minLength ≤ (s.length : ℤ)) := by
    unfold minLenCheck; split <;> simp <;> omega
  have h3 : regexpCheck ext c s = .ok ↔ ∀ rx, c.regexp = some rx → ext.reMatch rx s = true := by
    unfold regexpCheck; cases c.regexp <;> simp
  have h4 : enumOptCheck c.enums (.str s) = .ok ↔ ∀ l, c.enums = some l → GoVal.str s ∈ l := by
    unfold enumOptCheck
    cases c.enums with
    | none => simp
    | some l =>
      simp only [Option.some.injEq, forall_eq']
      rw [(enumCheck_scalar (.str s) l).1]
      simp [sameGo_str]
  rw [h1, h2, h3, h4]
  constructor
  · rintro ⟨a, b, c, d, e⟩; exact ⟨a, b, c, d, e⟩
  · rintro ⟨a, b, c, d, e⟩; exact ⟨a, b, c, d, e⟩

theorem strCheckS_normal (ext : Ext) (c : StrC) (s : GoStr) : (strCheckS ext c s).Normal := by
  intro a h
  have h1 : ∀ a, maxLenCheck c s ≠ .abort a := by intro a; unfold maxLenCheck; split <;> simp
  have h2 : ∀ a, minLenCheck c s ≠ .abort a := by intro a; unfold minLenCheck; split <;> simp
  have h3 : ∀ a, formatCheck ext c.format s ≠ .abort a := by
    intro a; unfold formatCheck
    repeat' split
    all_goals simp
  have h4 : ∀ a, regexpCheck ext c s ≠ .abort a := by
    intro a; unfold regexpCheck; split <;> [simp; (split <;> simp)]
  have h5 : ∀ a, enumOptCheck c.enums (.str s) ≠ .abort a := by
    intro a; unfold enumOptCheck; split
    · simp
    · exact (enumCheck_scalar (.str s) _).2 a
  unfold strCheckS Res.andThen at h
  split at h
  · split at h
    · split at h
      · split at h
        · exact h5 a h
        · exact h4 a h
      · exact h3 a h
    · exact h2 a h
  · exact h1 a h

end Jsval
