import Verif.Lemmas.Rounding
import Verif.Lemmas.Extend
import Verif.Props.Scalars
import Verif.Props.Arrays
import Verif.Props.Objects
import Verif.Props.Builder
/-!
# What the code does where a documented property fails

C11, C17, C19, C28, C31, C37, C64 and C65 are false as worded. Here is, for each of them, what holds instead, without
restricting the inputs.
-/
namespace Jsval

variable (ext : Ext) (ρ : RefSem) (σ : Sched)

/-! ## C11 -/

theorem utf8_length (cs : List Char) : (utf8 cs).length = (cs.map Char.utf8Size).sum := by
  induction cs with
  | nil => rfl
  | cons c cs ih =>
    simp only [utf8, List.flatMap_cons, List.length_append, List.map_cons, List.sum_cons, String.length_utf8EncodeChar] at ih ⊢
    omega

/-- C11: the limits count the bytes of the UTF-8 encoding, one to four for each character. -/
theorem C11_exact (cs : List Char) (n : ℕ) :
    ((denote ext ρ (.string (String'.MaxLength n))).AcceptsBy σ (.str (utf8 cs)) ↔ (cs.map Char.utf8Size).sum ≤ n) ∧
    ((denote ext ρ (.string (String'.MinLength n))).AcceptsBy σ (.str (utf8 cs)) ↔ n ≤ (cs.map Char.utf8Size).sum) := by
  rw [C10_string_exact, C10_string_exact, ← utf8_length]
  constructor
  · constructor
    · rintro ⟨s, h1, h2⟩
      cases h1 with
      | self => have := h2.max (by simp [StrC.MaxLength]); simpa [StrC.MaxLength] using this
    · intro h
      refine ⟨utf8 cs, .self _ (by simp) (by simp), ?_, ?_, ?_, ?_, ?_⟩
      · intro _; simpa [StrC.MaxLength] using h
      · intro _; simp [StrC.MaxLength, String']
      · simp [StrC.MaxLength, String', FormatOk]
      · simp [StrC.MaxLength, String']
      · simp [StrC.MaxLength, String']
  · constructor
    · rintro ⟨s, h1, h2⟩
      cases h1 with
      | self => have := h2.min (by simp [StrC.MinLength]); simpa [StrC.MinLength] using this
    · intro h
      refine ⟨utf8 cs, .self _ (by simp) (by simp), ?_, ?_, ?_, ?_, ?_⟩
      · intro h'; simp [StrC.MinLength, String'] at h'
      · intro _; simpa [StrC.MinLength] using h
      · simp [StrC.MinLength, String', FormatOk]
      · simp [StrC.MinLength, String']
      · simp [StrC.MinLength, String']

/-- one, two, three and four bytes -/
example : (['a', 'é', '€', '𝄞'].map Char.utf8Size).sum = 10 ∧
    (sem0 (.string (String'.MaxLength 10))).AcceptsBy sched0 (.str (utf8 ['a', 'é', '€', '𝄞'])) ∧
    ¬ (sem0 (.string (String'.MaxLength 9))).AcceptsBy sched0 (.str (utf8 ['a', 'é', '€', '𝄞'])) := by
  refine ⟨by decide, ?_, ?_⟩ <;> unfold Sem.AcceptsBy <;> decide

/-! ## C17 -/

/-- C17: between the bounds, except that NaN passes always and a bound that is NaN asks for nothing. -/
theorem C17_exact (a b f : F64) :
    (denote ext ρ (.number ((Number'.Minimum a).Maximum b))).AcceptsBy σ (.float .f64 f) ↔
      f = .nan ∨ (a = .nan ∨ F64.Le a f) ∧ (b = .nan ∨ F64.Le f b) := by
  have hnum : ∀ x : F64, x = .nan ∨ ∃ y, x.num = some y := by
    intro x
    rcases x with _ | n | _
    · exact .inl rfl
    · cases n <;> exact .inr ⟨_, rfl⟩
    · exact .inr ⟨_, rfl⟩
  have hkey : ∀ p q : F64, ¬ F64.Lt q p ↔ q = .nan ∨ p = .nan ∨ F64.Le p q := by
    intro p q
    rcases hnum p with rfl | ⟨x, hx⟩
    · simp only [true_or, or_true, iff_true]
      rintro ⟨_, _, _, h, _⟩; cases h
    · rcases hnum q with rfl | ⟨y, hy⟩
      · simp only [true_or, iff_true]
        rintro ⟨_, _, h, _⟩; cases h
      · have hp : p ≠ .nan := by rintro rfl; cases hx
        have hq : q ≠ .nan := by rintro rfl; cases hy
        simp only [hp, hq, false_or]
        constructor
        · intro h; exact ⟨x, y, hx, hy, not_lt.1 fun h' => h ⟨y, x, hy, hx, h'⟩⟩
        · rintro ⟨x', y', h1, h2, h3⟩ ⟨y'', x'', h4, h5, h6⟩
          rw [h1] at h5; rw [h2] at h4; cases h4; cases h5
          exact absurd h6 (not_lt.2 h3)
  have hmain : (denote ext ρ (.number ((Number'.Minimum a).Maximum b))).AcceptsBy σ (.float .f64 f) ↔
      ¬ F64.Lt f a ∧ ¬ F64.Lt b f := by
    rw [C16_number_exact]
    constructor
    · rintro ⟨k, g, h1, h2⟩
      cases h1 with
      | self => exact ⟨h2.min a rfl, h2.max b rfl⟩
    · rintro ⟨h1, h2⟩
      refine ⟨.f64, f, .self _ (by simp) (by simp), ?_, ?_, ?_, ?_, ?_, ?_⟩
      · intro m hm; cases hm; exact h1
      · intro m _ h; simp [NumC.Minimum, NumC.Maximum, Number'] at h
      · intro m hm; cases hm; exact h2
      · intro m _ h; simp [NumC.Minimum, NumC.Maximum, Number'] at h
      · intro m h; simp [NumC.Minimum, NumC.Maximum, Number'] at h
      · intro m h; simp [NumC.Minimum, NumC.Maximum, Number'] at h
  rw [hmain, hkey, hkey]
  tauto

/-- NaN between 0 and 1; 7 up to NaN; 7 not up to 5 -/
example : (sem0 (.number ((Number'.Minimum (F64.exactInt 0)).Maximum (F64.exactInt 1)))).AcceptsBy sched0 (.float .f64 .nan) ∧
    (sem0 (.number ((Number'.Minimum (F64.exactInt 0)).Maximum .nan))).AcceptsBy sched0 (fl 7) ∧
    ¬ (sem0 (.number ((Number'.Minimum .nan).Maximum (F64.exactInt 5)))).AcceptsBy sched0 (fl 7) := by
  refine ⟨?_, ?_, ?_⟩ <;> unfold Sem.AcceptsBy <;> decide +kernel

/-! ## C19 -/

theorem integer_bounds (na nb : Bool) (a b : ℕ) {x : GoVal} {f : F64} {z : ℤ}
    (hx : IntView x f) (hz : f.num = some (WithBot.some (WithTop.some z))) (ht : Target x x)
    (hu : ∀ y, Target x y → y = x) (hv : ∀ g, IntView x g → g = f) :
    (denote ext ρ (.integer ((Number'.Minimum (.fin na a)).Maximum (.fin nb b)))).AcceptsBy σ x ↔
      F64.signed na a ≤ z ∧ z ≤ F64.signed nb b := by
  rw [C18_integer_exact]
  have hlt : ∀ {p q : F64} {x y}, p.num = some x → q.num = some y → (F64.Lt p q ↔ x < y) := by
    intro p q x y hp hq
    constructor
    · rintro ⟨x', y', h1, h2, h⟩
      rw [hp] at h1; rw [hq] at h2; cases h1; cases h2; exact h
    · intro h; exact ⟨x, y, hp, hq, h⟩
  constructor
  · rintro ⟨y, g, h1, h2, h3⟩
    obtain rfl := hu y h1
    obtain rfl := hv g h2
    have m1 := h3.min _ rfl
    have m2 := h3.max _ rfl
    rw [hlt hz (F64.num_fin na a)] at m1
    rw [hlt (F64.num_fin nb b) hz] at m2
    exact ⟨by exact_mod_cast not_lt.1 m1, by exact_mod_cast not_lt.1 m2⟩
  · rintro ⟨h1, h2⟩
    refine ⟨x, f, ht, hx, ?_, ?_, ?_, ?_, ?_, ?_⟩
    · intro m hm; cases hm; rw [hlt hz (F64.num_fin na a)]; exact not_lt.2 (by exact_mod_cast h1)
    · intro m _ h; simp [NumC.Minimum, NumC.Maximum, Number'] at h
    · intro m hm; cases hm; rw [hlt (F64.num_fin nb b) hz]; exact not_lt.2 (by exact_mod_cast h2)
    · intro m _ h; simp [NumC.Minimum, NumC.Maximum, Number'] at h
    · intro m h; simp [NumC.Minimum, NumC.Maximum, Number'] at h
    · intro m h; simp [NumC.Minimum, NumC.Maximum, Number'] at h

theorem signed_value {n : Bool} {a : ℕ} (h : F64.Mag a) : F64.Value (F64.signed n a) := by
  unfold F64.Value F64.signed
  split
  · rwa [Int.natAbs_neg, Int.natAbs_natCast]
  · rwa [Int.natAbs_natCast]

/-- C19: an integer of any size and kind is accepted exactly if it is between the bounds or rounds to the bound it is
beyond. (`F64.signed na a` is the exact lower bound in units of 2^-1074, and `F64.Mag` says that a float64 can hold it.) -/
theorem C19_exact (na nb : Bool) {a b : ℕ} (ha : F64.Mag a) (hb : F64.Mag b) (n : ℤ) (k : IntKind) :
    (denote ext ρ (.integer ((Number'.Minimum (.fin na a)).Maximum (.fin nb b)))).AcceptsBy σ (.int k n) ↔
      (F64.signed na a ≤ n * F64.unit ∨ F64.Rounds (n * F64.unit) (F64.signed na a)) ∧
      (n * F64.unit ≤ F64.signed nb b ∨ F64.Rounds (n * F64.unit) (F64.signed nb b)) := by
  obtain ⟨z, hz, hr⟩ := ofInt_rounds n
  rw [integer_bounds ext ρ σ na nb a b (.int k n) hz (.self _ (by simp) (by simp)) (fun y h => by cases h; rfl)
    (fun g h => by cases h; rfl), hr.ge_iff (signed_value ha), hr.le_iff (signed_value hb)]

/-- C19, for the unsigned kinds. -/
theorem C19_exact_unsigned (na nb : Bool) {a b : ℕ} (ha : F64.Mag a) (hb : F64.Mag b) (n : ℕ) (k : UintKind) :
    (denote ext ρ (.integer ((Number'.Minimum (.fin na a)).Maximum (.fin nb b)))).AcceptsBy σ (.uint k n) ↔
      (F64.signed na a ≤ n * F64.unit ∨ F64.Rounds (n * F64.unit) (F64.signed na a)) ∧
      ((n : ℤ) * F64.unit ≤ F64.signed nb b ∨ F64.Rounds (n * F64.unit) (F64.signed nb b)) := by
  obtain ⟨z, hz, hr⟩ := ofInt_rounds n
  rw [integer_bounds ext ρ σ na nb a b (.uint k n) hz (.self _ (by simp) (by simp)) (fun y h => by cases h; rfl)
    (fun g h => by cases h; rfl), hr.ge_iff (signed_value ha), hr.le_iff (signed_value hb)]

/-- C19: so no integer between the bounds is ever rejected. -/
theorem C19_never_rejects (na nb : Bool) {a b : ℕ} (ha : F64.Mag a) (hb : F64.Mag b) (n : ℤ) (k : IntKind)
    (h1 : F64.signed na a ≤ n * F64.unit) (h2 : n * F64.unit ≤ F64.signed nb b) :
    (denote ext ρ (.integer ((Number'.Minimum (.fin na a)).Maximum (.fin nb b)))).AcceptsBy σ (.int k n) :=
  (C19_exact ext ρ σ na nb ha hb n k).2 ⟨.inl h1, .inl h2⟩

/-- with maximum 2^60, the integers up to 2^60 + 128 are accepted: 2^60 + 128 is halfway to the next float64, and 2^60 is the
even one -/
example : F64.Mag (2 ^ 60 * F64.unit) ∧
    (sem0 (.integer ((Number'.Minimum (.fin false 0)).Maximum (.fin false (2 ^ 60 * F64.unit))))).AcceptsBy sched0
      (.int .int64 (2 ^ 60 + 128)) ∧
    ¬ (sem0 (.integer ((Number'.Minimum (.fin false 0)).Maximum (.fin false (2 ^ 60 * F64.unit))))).AcceptsBy sched0
      (.int .int64 (2 ^ 60 + 129)) := by
  refine ⟨⟨2 ^ 52, 8 + 1074, by norm_num, by rw [unit_eq, pow_add, ← mul_assoc]; norm_num⟩, ?_, ?_⟩ <;> unfold Sem.AcceptsBy <;> decide +kernel

/-! ## C28 -/

/-- C28: the slice passes exactly if no two elements are printed alike. -/
theorem C28_exact (n : Bool) (xs : List GoVal) :
    (denote ext ρ (.array (Array'.UniqueItems true))).AcceptsBy σ (.slice n xs) ↔ (xs.map ext.sprint).Nodup := by
  rw [arrayV_within]
  have hu : UniqOk ext (Array'.UniqueItems true) xs ↔ (xs.map ext.sprint).Nodup := by
    have := not_nodup_map_iff ext.sprint xs
    unfold UniqOk
    have e : (Array'.UniqueItems true : ArrC Constraint).unique = true := rfl
    rw [e]
    constructor
    · intro h; by_contra h'; exact h rfl (this.1 h')
    · intro h _ h'; exact this.2 h' h
  rw [hu]
  constructor
  · exact fun h => h.2.1
  · exact fun h => ⟨by simp [LenOk, Array', ArrC.UniqueItems], h,
      by simp [arrayElems, ArrC.map, Array', ArrC.UniqueItems, runPos, runAdditional]⟩

/-- a string that is printed like nil -/
example : ¬ ([.nil, .str (b! "%!s(<nil>)")].map demoExt.sprint).Nodup ∧
    ([.nil, .str (b! "a"), .str (b! "b")].map demoExt.sprint).Nodup := by decide

/-! ## C31 -/

/-- C31: requiring further names adds exactly this: those of them that are declared have to be there. Whatever is accepted is
left as it would have been. -/
theorem C31_exact (o : ObjC Constraint) (hw : o.Wf) (l : List GoStr) {v w : GoVal} {kvs raws : List (GoStr × GoVal)}
    (hv : IsObj v kvs raws) :
    (denote ext ρ (.object (o.Required l))).val σ v = (.ok, w) ↔
      (denote ext ρ (.object o)).val σ v = (.ok, w) ∧ ∀ p ∈ l, o.Declares p → Has kvs p := by
  rw [denote_object, denote_object]
  have h := objectV_more_required (ext := ext) (o.map (denote ext ρ)) ((ObjC.map_wf _ o).2 hw) l σ (w := w) hv
  simp only [ObjC.map_declares] at h
  exact h

/-- of `name` and `other`, only `name` is declared -/
example : ∃ o : ObjC Constraint, o.Wf ∧ o.Declares (b! "name") ∧ ¬ o.Declares (b! "other") ∧
    ((sem0 (.object (o.Required [b! "name", b! "other"]))).val sched0 (.map false [(b! "name", .nil)])).1 = .ok ∧
    ((sem0 (.object (o.Required [b! "name", b! "other"]))).val sched0 (.map false [])).1 = .err (.required (b! "name")) := by
  refine ⟨Object'.AddProp (b! "name") .empty, ⟨by decide⟩, ⟨.empty, by simp [ObjC.AddProp, Object', ainsert]⟩, ?_, by decide, by decide⟩
  rintro ⟨c, hc⟩
  simp [ObjC.AddProp, Object', ainsert] at hc

/-! ## C37 -/

/-- C37: a further property dependency adds exactly this: if the property is there and declared or matched by a pattern, then
so are those it depends on. Whatever is accepted is left as it would have been. -/
theorem C37_exact (o : ObjC Constraint) (hw : o.Wf) (k : GoStr) (tos : List GoStr) (hs : o.GetSchemaDependency k = none)
    {v w : GoVal} {kvs raws : List (GoStr × GoVal)} (hv : IsObj v kvs raws) :
    (denote ext ρ (.object (o.PropDependency k tos))).val σ v = (.ok, w) ↔
      (denote ext ρ (.object o)).val σ v = (.ok, w) ∧
      (Has kvs k → o.Covers ext k → ∀ d ∈ tos, Has kvs d ∧ o.Covers ext d) := by
  rw [denote_object, denote_object]
  have h := objectV_more_deps (ext := ext) (o.map (denote ext ρ)) ((ObjC.map_wf _ o).2 hw) k tos
    (by
      have : (o.map (denote ext ρ)).GetSchemaDependency k = (o.GetSchemaDependency k).map (denote ext ρ) := alookup_map _ k o.schemadeps
      rw [this, hs]; rfl) σ (w := w) hv
  simp only [ObjC.map_covers] at h
  exact h

/-- `a` is declared and needs `b`, which is not: no object with `a` is accepted -/
example : ((sem0 (.object (((Object'.AddProp (b! "a") .empty).AdditionalProperties (some .empty)).PropDependency (b! "a") [b! "b"]))).val
      sched0 (.map false [(b! "a", .nil), (b! "b", .nil)])).1 = .err (.depMissing (b! "b")) ∧
    ((sem0 (.object (((Object'.AddProp (b! "b") .empty).AdditionalProperties (some .empty)).PropDependency (b! "a") [b! "b"]))).val
      sched0 (.map false [(b! "a", .nil)])).1 = .ok := by decide

/-! ## C64, C65 -/

variable {lib : SchemaLib} {m : Nat}

theorem buildTypes_congr {s s' : SchemaF Act} : ∀ (l : List PrimType) (i : Nat) (τ : Sched),
    (∀ t ∈ l, ∀ τ, buildType s τ t = buildType s' τ t) → buildTypes s τ i l = buildTypes s' τ i l
  | [], _, _, _ => rfl
  | t :: l, i, τ, h => by
    unfold buildTypes
    rw [h t (by simp), buildTypes_congr l (i + 1) τ fun t ht => h t (by simp [ht])]

theorem buildNode_congr {s s' : SchemaF Act} (h1 : s.reference = s'.reference) (h2 : ∀ τ, buildCombo s τ = buildCombo s' τ)
    (h3 : schemaTypes lib s = schemaTypes lib s') (h4 : ∀ t ∈ schemaTypes lib s', ∀ τ, buildType s τ t = buildType s' τ t)
    (h5 : 0 < (schemaTypes lib s').length ∨ s.enum = s'.enum) : buildNode lib m s = buildNode lib m s' := by
  funext τ
  unfold buildNode
  rw [h1, h2, h3]
  simp only [buildTypes_congr _ 0 _ h4]
  rcases h5 with h5 | h5
  · simp only [h5, if_true]
  · rw [h5]

/-- C64: the first of not, allOf, anyOf and oneOf that is there counts; exactly the same is built when the later ones are
left out. -/
theorem C64_later_ignored (s : SchemaF Schema) :
    (s.not ≠ none → build lib m (.mk s) = build lib m (.mk { s with allOf := [], anyOf := [], oneOf := [] })) ∧
    (s.allOf ≠ [] → build lib m (.mk s) = build lib m (.mk { s with anyOf := [], oneOf := [] })) ∧
    (s.anyOf ≠ [] → build lib m (.mk s) = build lib m (.mk { s with oneOf := [] })) := by
  refine ⟨fun h => ?_, fun h => ?_, fun h => ?_⟩
  · obtain ⟨d, hd⟩ := Option.ne_none_iff_exists'.1 h
    rw [build_mk, build_mk]
    refine buildNode_congr rfl (fun σ => ?_) rfl (fun t _ τ => ?_) (.inr rfl)
    · simp only [buildCombo, SchemaF.map, hd, Option.map_some]
    · cases t <;> rfl
  · rw [build_mk, build_mk]
    refine buildNode_congr rfl (fun σ => ?_) rfl (fun t _ τ => ?_) (.inr rfl)
    · simp only [buildCombo, SchemaF.map, List.length_map, List.length_pos_iff.2 h, if_true]
    · cases t <;> rfl
  · rw [build_mk, build_mk]
    refine buildNode_congr rfl (fun σ => ?_) rfl (fun t _ τ => ?_) (.inr rfl)
    · simp only [buildCombo, SchemaF.map, List.length_map, List.length_pos_iff.2 h, if_true]
    · cases t <;> rfl

example : exTwoCombos.not ≠ none ∧ build lib0 0 (.mk exTwoCombos) sched0 [] = .ok (.not (some (.string String')), []) :=
  ⟨by simp [exTwoCombos], rfl⟩

/-- C65: next to types among boolean, array, object and null, enum has no effect at all. -/
theorem C65_ignored (s : SchemaF Schema) (h : s.type ≠ []) (h' : ∀ t ∈ s.type, t ∉ [PrimType.string, .number, .integer]) :
    build lib m (.mk s) = build lib m (.mk { s with enum := [] }) := by
  rw [build_mk, build_mk]
  have hlen : 0 < s.type.length := List.length_pos_iff.2 h
  have hst : ∀ l, schemaTypes lib (SchemaF.map (build lib m) { s with enum := l }) = sortTypes lib s.type := by
    intro l; simp [schemaTypes, SchemaF.map, hlen]
  refine buildNode_congr rfl (fun σ => rfl) ((hst s.enum).trans (hst []).symm) (fun t ht τ => ?_) (.inl ?_)
  · rw [hst] at ht
    have ht' := h' t ((List.perm_insertionSort _ _).mem_iff.1 ht)
    cases t <;> first | rfl | (exfalso; simp at ht')
  · rw [hst]; unfold sortTypes; rw [List.length_insertionSort]; exact hlen

example : build lib0 0 (.mk { type := [.boolean, .null], enum := [.bool true] }) sched0 [] =
    .ok (.any [.null, .boolean none], []) := rfl

end Jsval
