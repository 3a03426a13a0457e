import Verif.Lemmas.BuildTable
import Verif.Lemmas.Rewritten
import Verif.Lemmas.Buildable
import Verif.Lemmas.Stricter
import Verif.Lemmas.BuildDet
import Verif.Lemmas.SchemaTypes
import Verif.Spec.Narrower
/-!
# A narrower schema builds a stricter constraint
-/
namespace Jsval

section
variable {ext : Ext} {env : Env}

theorem RestTighter.mono {S S' : Constraint → Constraint → Prop} (hS : ∀ c d, S c d → S' c d) {a b : Option Constraint} (h : RestTighter S a b) :
    RestTighter S' a b :=
  ⟨h.1, fun d hd => (h.2 d hd).imp id fun ⟨c, h1, h2⟩ => ⟨c, h1, hS _ _ h2⟩⟩

theorem Tightens.mono {S S' : Constraint → Constraint → Prop} (hS : ∀ c d, S c d → S' c d) {c d : Constraint} (h : Tightens ext env S c d) :
    Tightens ext env S' c d := by
  cases h with
  | same => exact .same
  | anything => exact .anything
  | boolean => exact .boolean
  | string h => exact .string h
  | number h => exact .number h
  | integer h => exact .integer h
  | enum h => exact .enum h
  | array h =>
    refine .array ⟨h.min, h.max, h.unique, fun d hd => ?_, fun hi => (h.positional hi).imp id fun ⟨h1, h2, h3, h4⟩ => ?_⟩
    · obtain ⟨c, h1, h2⟩ := h.items d hd
      exact ⟨c, h1, hS _ _ h2⟩
    · exact ⟨h1, h2, fun j c d hc hd => hS _ _ (h3 j c d hc hd), h4.mono hS⟩
  | object h =>
    refine .object ⟨h.min, h.max, fun k d hd => ?_, h.fresh, h.required, h.sources, fun id src d hd => ?_, h.additional.mono hS, h.propDeps, fun k d h1 h2 => ?_⟩
    · obtain ⟨c, h1, h2⟩ := h.props k d hd
      exact ⟨c, h1, hS _ _ h2⟩
    · obtain ⟨id', c, h1, h2⟩ := h.patterns id src d hd
      exact ⟨id', c, h1, hS _ _ h2⟩
    · obtain ⟨h3, c, h4, h5⟩ := h.schemaDeps k d h1 h2
      exact ⟨h3, c, h4, hS _ _ h5⟩
  | anyLeft h => exact .anyLeft fun c hc => hS _ _ (h c hc)
  | anyRight h1 h2 => exact .anyRight h1 (hS _ _ h2)
  | allLeft h1 h2 => exact .allLeft h1 (hS _ _ h2)
  | allRight h => exact .allRight fun c hc => hS _ _ (h c hc)
  | oneOfLeft h => exact .oneOfLeft fun c hc => hS _ _ (h c hc)
  | oneOfRight h1 h2 h3 => exact .oneOfRight h1 (hS _ _ h2) fun j x hj hx => hS _ _ (h3 j x hj hx)
  | oneOf h1 h2 => exact .oneOf h1 fun j x y hx hy => ⟨hS _ _ (h2 j x y hx hy).1, hS _ _ (h2 j x y hx hy).2⟩
  | not h => exact .not (hS _ _ h)
  | apart h1 h2 h3 => exact .apart h1 h2 h3
  | refLeft h1 h2 => exact .refLeft h1 (hS _ _ h2)
  | refRight h1 h2 => exact .refRight h1 (hS _ _ h2)
  | refNowhere h => exact .refNowhere h

/-- What follows from the pairs of `B` by comparing keyword by keyword. -/
def Tight (ext : Ext) (env : Env) (B : Constraint → Constraint → Prop) (c d : Constraint) : Prop :=
  ∀ R : Constraint → Constraint → Prop, (∀ c d, B c d → R c d) → (∀ c d, Tightens ext env R c d → R c d) → R c d

variable {B : Constraint → Constraint → Prop}

theorem Tight.base {c d : Constraint} (h : B c d) : Tight ext env B c d := fun _ h1 _ => h1 _ _ h

theorem Tight.step {c d : Constraint} (h : Tightens ext env (Tight ext env B) c d) : Tight ext env B c d :=
  fun R h1 h2 => h2 _ _ (h.mono fun _ _ h => h R h1 h2)

theorem Tight.unfold (hB : ∀ c d, B c d → Tightens ext env (Tight ext env B) c d) {c d : Constraint} (h : Tight ext env B c d) :
    Tightens ext env (Tight ext env B) c d :=
  (h (fun c d => Tightens ext env (Tight ext env B) c d ∧ Tight ext env B c d) (fun c d h => ⟨hB c d h, .base h⟩) fun c d h =>
    have := h.mono fun _ _ h => h.2
    ⟨this, .step this⟩).1

/-! ## One constraint of several -/

theorem tight_all {c : Constraint} {ds : List Constraint} (h : ∀ d ∈ ds, Tightens ext env (Tight ext env B) c d) :
    Tightens ext env (Tight ext env B) c (reduceAll ds) := by
  unfold reduceAll reduceCombined
  split
  · exact h _ (by simp)
  · exact .allRight fun d hd => .step (h d hd)

theorem all_tight {c d : Constraint} {cs : List Constraint} (hc : c ∈ cs) (h : Tightens ext env (Tight ext env B) c d) :
    Tightens ext env (Tight ext env B) (reduceAll cs) d := by
  unfold reduceAll reduceCombined
  split
  · simp only [List.mem_singleton] at hc
    subst hc
    exact h
  · exact .allLeft hc (.step h)

theorem any_tight {d : Constraint} {cs : List Constraint} (h : ∀ c ∈ cs, Tightens ext env (Tight ext env B) c d) :
    Tightens ext env (Tight ext env B) (reduceAny cs) d := by
  unfold reduceAny reduceCombined
  split
  · exact h _ (by simp)
  · exact .anyLeft fun c hc => .step (h c hc)

theorem tight_any {c d : Constraint} {ds : List Constraint} (hd : d ∈ ds) (h : Tightens ext env (Tight ext env B) c d) :
    Tightens ext env (Tight ext env B) c (reduceAny ds) := by
  unfold reduceAny reduceCombined
  split
  · simp only [List.mem_singleton] at hd
    subst hd
    exact h
  · exact .anyRight hd (.step h)

theorem oneOf_tight {d : Constraint} {cs : List Constraint} (h : ∀ c ∈ cs, Tightens ext env (Tight ext env B) c d) :
    Tightens ext env (Tight ext env B) (reduceOneOf cs) d := by
  unfold reduceOneOf reduceCombined
  split
  · exact h _ (by simp)
  · exact .oneOfLeft fun c hc => .step (h c hc)

theorem tight_oneOf {cs ds : List Constraint} (hl : cs.length = ds.length) (h : ∀ (j : ℕ) (x y : Constraint), cs[j]? = some x → ds[j]? = some y →
    Tightens ext env (Tight ext env B) x y ∧ Tight ext env B y x) : Tightens ext env (Tight ext env B) (reduceOneOf cs) (reduceOneOf ds) := by
  unfold reduceOneOf reduceCombined
  match cs, ds, hl, h with
  | [], [], _, _ => exact .same
  | [x], [y], _, h => exact (h 0 x y rfl rfl).1
  | x :: x' :: cs, y :: y' :: ds, hl, h => exact .oneOf hl fun j x y hx hy => ⟨.step (h j x y hx hy).1, (h j x y hx hy).2⟩
end

/-! ## The parts of an object constraint -/

section
variable {s : SchemaF Constraint} (hk : s.Keyed) {e : Constraint}
include hk

theorem objC_props {p : GoStr × Constraint} : p ∈ (objC s e).props ↔ p ∈ s.properties := by
  have h := ((shuffle_perm s.properties 0).map (·.1)).nodup_iff.2 hk.propNames
  show p ∈ (shuffle 0 s.properties).foldl (fun acc q => ainsert q.1 q.2 acc) [] ↔ _
  rw [foldl_ainsert_new _ _ (by simpa using h), List.nil_append, mem_shuffle]

theorem objC_wf : (objC s e).Wf := by
  have h := ((shuffle_perm s.properties 0).map (·.1)).nodup_iff.2 hk.propNames
  refine ⟨?_⟩
  show (((shuffle 0 s.properties).foldl (fun acc q => ainsert q.1 q.2 acc) []).map (·.1)).Nodup
  rw [foldl_ainsert_new _ _ (by simpa using h), List.nil_append]
  exact h

theorem objC_patterns {p : Nat × GoStr × Constraint} : p ∈ (objC s e).patterns ↔ p ∈ s.patternProps := by
  have h := ((shuffle_perm s.patternProps 0).map (·.1)).nodup_iff.2 hk.patternIds
  show p ∈ (shuffle 0 s.patternProps).foldl (fun acc q => patInsert q.1 q.2.1 q.2.2 acc) [] ↔ _
  rw [foldl_patInsert_new _ _ (by simpa using h), List.nil_append, mem_shuffle]

theorem objC_propDeps {k d : GoStr} : d ∈ (objC s e).GetPropDependencies k ↔ ∃ ns, (k, ns) ∈ s.depNames ∧ d ∈ ns := by
  have h := ((shuffle_perm s.depNames 0).map (·.1)).nodup_iff.2 hk.depNameKeys
  show d ∈ (alookup k ((shuffle 0 s.depNames).foldl (fun o d => o.PropDependency d.1 d.2) Object').propdeps).getD [] ↔ _
  rw [foldl_propDep_new _ _ (by simpa [Object'] using h)]
  show d ∈ (alookup k (shuffle 0 s.depNames)).getD [] ↔ _
  constructor
  · intro hd
    rcases hl : alookup k (shuffle 0 s.depNames) with _ | ns
    · rw [hl] at hd; cases hd
    · rw [hl] at hd
      exact ⟨ns, mem_shuffle.1 (alookup_mem hl), hd⟩
  · rintro ⟨ns, hm, hd⟩
    rw [alookup_of_mem h (mem_shuffle.2 hm)]
    exact hd

theorem objC_schemaDep {k : GoStr} {c : Constraint} : (objC s e).GetSchemaDependency k = some c ↔ (k, c) ∈ s.depSchemas := by
  have h := ((shuffle_perm s.depSchemas 0).map (·.1)).nodup_iff.2 hk.depSchemaKeys
  show alookup k ((shuffle 0 s.depSchemas).foldl (fun acc q => ainsert q.1 q.2 acc) []) = some c ↔ _
  rw [foldl_ainsert_new _ _ (by simpa using h), List.nil_append, alookup_iff_mem h, mem_shuffle]

omit hk in
theorem objC_required {k : GoStr} : k ∈ (objC s e).required ↔ k ∈ s.required := by
  show k ∈ (objectStart s).required ↔ _
  unfold objectStart
  have h : ∀ o : ObjC Constraint, (applyIf s.maxProps ObjC.MaxProperties (applyIf s.minProps ObjC.MinProperties o)).required = o.required := by
    intro o
    rcases s.maxProps with _ | _ <;> rcases s.minProps with _ | _ <;> rfl
  rw [h]
  split
  · show k ∈ s.required.foldl (fun acc p => addName p acc) [] ↔ _
    rw [foldl_addName_mem]
    simp
  · rename_i hz
    have : s.required = [] := by rcases hr : s.required with _ | ⟨a, l⟩ <;> simp_all
    rw [this]
    rfl

omit hk in
theorem objC_min : (objC s e).minProps = s.minProps.getD (-1) := by
  show (objectStart s).minProps = _
  unfold objectStart
  rcases s.maxProps with _ | _ <;> rcases s.minProps with _ | _ <;> simp only [applyIf] <;> split <;> rfl

omit hk in
theorem objC_max : (objC s e).maxProps = s.maxProps.getD (-1) := by
  show (objectStart s).maxProps = _
  unfold objectStart
  rcases s.maxProps with _ | _ <;> rcases s.minProps with _ | _ <;> simp only [applyIf] <;> split <;> rfl
end

theorem keyed_map {α β : Type} {f : α → β} {s : SchemaF α} (h : s.Keyed) : (s.map f).Keyed := by
  refine ⟨?_, ?_, ?_, h.depNameKeys, ?_⟩
  · simpa [SchemaF.map, Function.comp_def] using h.propNames
  · simpa [SchemaF.map, Function.comp_def] using h.patternIds
  · simpa [SchemaF.map, Function.comp_def] using h.patternTexts
  · simpa [SchemaF.map, Function.comp_def] using h.depSchemaKeys

/-! ## Type by type -/

section
variable {ext : Ext} {env : Env} {B : Constraint → Constraint → Prop} {N : Schema → Schema → Prop} {s t : SchemaF Schema} {f g : Schema → Constraint}

theorem lower_getD {a b : Option ℤ} (h : LowerLimit a b) {x : ℤ} (hx : x ≤ 0) (hb : 0 < b.getD x) : b.getD x ≤ a.getD x := by
  rcases b with _ | n
  · simp only [Option.getD_none] at hb; omega
  · obtain ⟨n', rfl, h1⟩ := h n rfl hb
    exact h1

theorem upper_getD {a b : Option ℤ} (h : UpperLimit a b) (hb : 0 ≤ b.getD (-1)) : 0 ≤ a.getD (-1) ∧ a.getD (-1) ≤ b.getD (-1) := by
  rcases b with _ | n
  · simp only [Option.getD_none] at hb; omega
  · obtain ⟨n', rfl, h1, h2⟩ := h n rfl hb
    exact ⟨h1, h2⟩

theorem string_narrower (hs : s.dflt = .nil) (ht : t.dflt = .nil) (h : StringNarrower s t) : (stringOf (s.map f)).Tighter (stringOf (t.map g)) := by
  rw [stringOf_fields (s.map f) hs, stringOf_fields (t.map g) ht]
  refine ⟨fun h0 => upper_getD h.max h0, fun h0 => lower_getD h.min (le_refl _) h0, h.format, fun rx hr => h.pattern rx hr, fun l hl => ?_⟩
  change (if t.enum = [] then none else some t.enum) = some l at hl
  change ∃ l', (if s.enum = [] then none else some s.enum) = some l' ∧ _
  split at hl
  · cases hl
  · rename_i hne
    cases hl
    obtain ⟨h1, h2⟩ := h.enum hne
    exact ⟨s.enum, by rw [if_neg h1], h2⟩

theorem bounds_narrower (h : BoundsNarrower s t) {l l' : Option (List GoVal)} (he : ∀ x, l' = some x → ∃ y, l = some y ∧ ∀ z ∈ y, z ∈ x) :
    NumC.Tighter { boundsOf (s.map f) with enums := l, dflt := none } { boundsOf (t.map g) with enums := l', dflt := none } := by
  have e : ∀ {s : SchemaF Schema} {f : Schema → Constraint}, boundsOf (s.map f) = { Number' with
      minimum := s.minimum, maximum := s.maximum, multipleOf := s.multipleOf
      exclMin := if s.minimum = none then false else s.exclMin.getD false
      exclMax := if s.maximum = none then false else s.exclMax.getD false } := fun {s f} => boundsOf_fields (s.map f)
  rw [e, e]
  refine ⟨fun m hm => ?_, fun m hm => ?_, fun m hm => h.mult m hm, he⟩
  · change t.minimum = some m at hm
    obtain ⟨m', h1, h2⟩ := h.min m hm
    refine ⟨m', h1, h2.imp id fun ⟨h3, h4⟩ => ⟨h3, fun hx => ?_⟩⟩
    change (if t.minimum = none then false else t.exclMin.getD false) = true at hx
    change (if s.minimum = none then false else s.exclMin.getD false) = true
    rw [if_neg (by rw [hm]; simp)] at hx
    rw [if_neg (by rw [h1]; simp), h4 (by rcases ht : t.exclMin with _ | _ | _ <;> simp_all)]
    rfl
  · change t.maximum = some m at hm
    obtain ⟨m', h1, h2⟩ := h.max m hm
    refine ⟨m', h1, h2.imp id fun ⟨h3, h4⟩ => ⟨h3, fun hx => ?_⟩⟩
    change (if t.maximum = none then false else t.exclMax.getD false) = true at hx
    change (if s.maximum = none then false else s.exclMax.getD false) = true
    rw [if_neg (by rw [hm]; simp)] at hx
    rw [if_neg (by rw [h1]; simp), h4 (by rcases ht : t.exclMax with _ | _ | _ <;> simp_all)]
    rfl

theorem integer_narrower (hs : s.dflt = .nil) (ht : t.dflt = .nil) (h : BoundsNarrower s t) (he : t.enum ≠ [] → s.enum ≠ [] ∧ ∀ x ∈ s.enum, x ∈ t.enum) :
    (integerOf (s.map f)).Tighter (integerOf (t.map g)) := by
  rw [integerOf_fields (s.map f) hs, integerOf_fields (t.map g) ht]
  refine bounds_narrower h fun l hl => ?_
  change (if t.enum = [] then none else some t.enum) = some l at hl
  change ∃ l', (if s.enum = [] then none else some s.enum) = some l' ∧ _
  split at hl
  · cases hl
  · rename_i hne
    cases hl
    obtain ⟨h1, h2⟩ := he hne
    exact ⟨s.enum, by rw [if_neg h1], h2⟩

theorem numberOf_enum {S : Type} (s : SchemaF S) (hd : s.dflt = .nil) : numberOf s =
    { boundsOf s with enums := if s.enum = [] then none else some [.slice false s.enum], dflt := none } := by
  unfold numberOf
  simp only [hd]
  by_cases h : s.enum = []
  · rw [if_neg (by simp [h]), if_pos h, boundsOf_fields s]; rfl
  · rw [if_pos (List.length_pos_iff.2 h), if_neg h]
    simp only [NumC.Enum, boundsOf_fields s]
    rfl

theorem number_narrower (hs : s.dflt = .nil) (ht : t.dflt = .nil) (h : BoundsNarrower s t) (he : t.enum ≠ [] → s.enum = t.enum) :
    (numberOf (s.map f)).Tighter (numberOf (t.map g)) := by
  rw [numberOf_enum (s.map f) hs, numberOf_enum (t.map g) ht]
  refine bounds_narrower h fun l hl => ?_
  change (if t.enum = [] then none else some [.slice false t.enum]) = some l at hl
  change ∃ l', (if s.enum = [] then none else some [GoVal.slice false s.enum]) = some l' ∧ _
  split at hl
  · cases hl
  · rename_i hne
    cases hl
    exact ⟨[.slice false s.enum], by rw [if_neg (by rw [he hne]; exact hne)], by rw [he hne]; exact fun _ h => h⟩

theorem rest_narrower {a b : Extra Schema} (hN : ∀ x y, a = .schema x → b = .schema y → N x y → Tight ext env B (f x) (g y)) (h : RestNarrower N a b) :
    RestTighter (Tight ext env B) (extraC .empty (a.map f)) (extraC .empty (b.map g)) := by
  cases b with
  | nil =>
    rw [h.1 rfl]
    exact ⟨fun _ => rfl, fun d hd => by cases hd⟩
  | allow =>
    refine ⟨fun hd => (by cases hd), fun d hd => ?_⟩
    cases hd
    cases a with
    | nil => exact .inl rfl
    | allow => exact .inr ⟨_, rfl, .step .same⟩
    | schema x => exact .inr ⟨_, rfl, .step .anything⟩
  | schema y =>
    refine ⟨fun hd => (by cases hd), fun d hd => ?_⟩
    cases hd
    rcases h.2 y rfl with rfl | ⟨x, rfl, hx⟩
    · exact .inl rfl
    · exact .inr ⟨_, rfl, hN x y rfl rfl hx⟩

theorem array_narrower (hN : ∀ x y, s.Child x → t.Child y → N x y → Tight ext env B (f x) (g y)) (h : ArrayNarrower N s t) :
    (arrC (s.map f) .empty).Tighter (Tight ext env B) (arrC (t.map g) .empty) := by
  refine ⟨fun h0 => lower_getD h.min (by omega) h0, fun h0 => upper_getD h.max h0, fun hu => ?_, fun d hd => ?_, fun hi => ?_⟩
  · change t.uniqueItems.getD false = true at hu
    change s.uniqueItems.getD false = true
    rw [h.unique (by rcases ht : t.uniqueItems with _ | _ | _ <;> simp_all)]
    rfl
  · simp only [arrC, SchemaF.map] at hd ⊢
    rcases ht : t.items with _ | (_ | ⟨y, l⟩) | l <;> rw [ht] at hd <;> simp only [ItemSpec.map, List.map_cons, List.map_nil, reduceCtorEq] at hd
    cases hd
    obtain ⟨x, l', h1, h2⟩ := h.items y l ht
    refine ⟨f x, ?_, hN x y (.list h1 (by simp)) (.list ht (by simp)) h2⟩
    rw [h1]
    rfl
  · simp only [arrC, SchemaF.map] at hi ⊢
    rcases ht : t.items with _ | (_ | ⟨y, l⟩) | l <;> rw [ht] at hi <;> simp only [ItemSpec.map, List.map_cons, List.map_nil, reduceCtorEq] at hi
    · exact .inl rfl
    · exact .inl rfl
    · by_cases hl : l = []
      · subst hl; exact .inl rfl
      · right
        obtain ⟨xs, h1, h2, h3, h4⟩ := h.tuple l ht hl
        rw [h1]
        simp only [ItemSpec.map]
        refine ⟨trivial, by simpa using h2, fun j c d hc hd => ?_, rest_narrower (fun x y hx hy => hN x y (.additionalItems hx) (.additionalItems hy)) h4⟩
        rw [List.getElem?_map, Option.map_eq_some_iff] at hc hd
        obtain ⟨x, hx, rfl⟩ := hc
        obtain ⟨y, hy, rfl⟩ := hd
        exact hN x y (.tuple h1 (List.mem_of_getElem? hx)) (.tuple ht (List.mem_of_getElem? hy)) (h3 j x y hx hy)

theorem map_property {k : GoStr} {c : Constraint} : (k, c) ∈ (s.map f).properties ↔ ∃ x, (k, x) ∈ s.properties ∧ c = f x := by
  simp only [SchemaF.map, List.mem_map, Prod.mk.injEq, Prod.exists]
  exact ⟨fun ⟨a, b, h1, h2, h3⟩ => ⟨b, h2 ▸ h1, h3.symm⟩, fun ⟨x, h1, h2⟩ => ⟨k, x, h1, rfl, h2.symm⟩⟩

theorem map_dependency {k : GoStr} {c : Constraint} : (k, c) ∈ (s.map f).depSchemas ↔ ∃ x, (k, x) ∈ s.depSchemas ∧ c = f x := by
  simp only [SchemaF.map, List.mem_map, Prod.mk.injEq, Prod.exists]
  exact ⟨fun ⟨a, b, h1, h2, h3⟩ => ⟨b, h2 ▸ h1, h3.symm⟩, fun ⟨x, h1, h2⟩ => ⟨k, x, h1, rfl, h2.symm⟩⟩

theorem map_pattern {i : Nat} {k : GoStr} {c : Constraint} : (i, k, c) ∈ (s.map f).patternProps ↔ ∃ x, (i, k, x) ∈ s.patternProps ∧ c = f x := by
  simp only [SchemaF.map, List.mem_map, Prod.mk.injEq, Prod.exists]
  exact ⟨fun ⟨a, b, x, h1, h2, h3, h4⟩ => ⟨x, h2 ▸ h3 ▸ h1, h4.symm⟩, fun ⟨x, h1, h2⟩ => ⟨i, k, x, h1, rfl, rfl, h2.symm⟩⟩

theorem objC_declares (hk : s.Keyed) {k : GoStr} : (objC (s.map f) .empty).Declares k ↔ ∃ x, (k, x) ∈ s.properties := by
  unfold ObjC.Declares
  constructor
  · rintro ⟨c, hc⟩
    obtain ⟨x, hx, -⟩ := map_property.1 ((objC_props (keyed_map hk)).1 hc)
    exact ⟨x, hx⟩
  · rintro ⟨x, hx⟩
    exact ⟨f x, (objC_props (keyed_map hk)).2 (map_property.2 ⟨x, hx, rfl⟩)⟩

theorem object_narrower (hks : s.Keyed) (hkt : t.Keyed) (hN : ∀ x y, s.Child x → t.Child y → N x y → Tight ext env B (f x) (g y)) (h : ObjectNarrower ext N s t) :
    (objC (s.map f) .empty).Tighter ext (Tight ext env B) (objC (t.map g) .empty) := by
  have ks : (s.map f).Keyed := keyed_map hks
  have kt : (t.map g).Keyed := keyed_map hkt
  refine ⟨?_, ?_, fun k d hd => ?_, fun k h1 h2 => ?_, fun k hr hd => ?_, fun id src c hc => ?_, fun id src d hd => ?_, 
    rest_narrower (fun x y hx hy => hN x y (.additionalProps hx) (.additionalProps hy)) h.additional,
    fun k d hd => ?_, fun k d h1 h2 => ?_⟩
  · rw [objC_min, objC_min]
    exact fun h0 => lower_getD h.min (by omega) h0
  · rw [objC_max, objC_max]
    exact fun h0 => upper_getD h.max h0
  · obtain ⟨y, hy, rfl⟩ := map_property.1 ((objC_props kt).1 hd)
    obtain ⟨x, h1, h2⟩ := h.properties k y hy
    exact ⟨f x, (objC_props ks).2 (map_property.2 ⟨x, h1, rfl⟩), hN x y (.property h1) (.property hy) h2⟩
  · obtain ⟨x, hx⟩ := (objC_declares hks).1 h1
    rcases h.fresh k x hx with h3 | ⟨h3, h4⟩
    · exact absurd ((objC_declares hkt).2 h3) h2
    · refine ⟨by show extraC _ (t.additionalProps.map g) = _; rw [h3]; rfl, ?_⟩
      rintro ⟨id, src, d, hd, hm⟩
      obtain ⟨y, hy, rfl⟩ := map_pattern.1 ((objC_patterns kt).1 hd)
      rw [h4 id src y hy] at hm
      cases hm
  · exact objC_required.2 (h.required k (objC_required.1 hr) ((objC_declares hkt).1 hd))
  · obtain ⟨x, hx, rfl⟩ := map_pattern.1 ((objC_patterns ks).1 hc)
    obtain ⟨id', y, hy⟩ := h.sources id src x hx
    exact ⟨id', g y, (objC_patterns kt).2 (map_pattern.2 ⟨y, hy, rfl⟩)⟩
  · obtain ⟨y, hy, rfl⟩ := map_pattern.1 ((objC_patterns kt).1 hd)
    obtain ⟨id', x, hx, h2⟩ := h.patterns id src y hy
    exact ⟨id', f x, (objC_patterns ks).2 (map_pattern.2 ⟨x, hx, rfl⟩), hN x y (.patternProp hx) (.patternProp hy) h2⟩
  · obtain ⟨ns, h1, h2⟩ := (objC_propDeps kt).1 hd
    obtain ⟨h3, h4⟩ := h.depNames k ns h1 d h2
    exact ⟨(objC_propDeps ks).2 h3, fun hs => (objC_declares hkt).2 (h4 ((objC_declares hks).1 hs))⟩
  · obtain ⟨y, hy, rfl⟩ := map_dependency.1 ((objC_schemaDep kt).1 h2)
    rcases h.depSchemas k y hy with ⟨n, ns, hn⟩ | ⟨h3, x, hx, h4⟩
    · have : n ∈ (objC (t.map g) .empty).GetPropDependencies k := (objC_propDeps kt).2 ⟨_, hn, by simp⟩
      rw [h1] at this
      cases this
    · refine ⟨?_, f x, (objC_schemaDep ks).2 (map_dependency.2 ⟨x, hx, rfl⟩), hN x y (.dependency hx) (.dependency hy) h4⟩
      rcases hg : (objC (s.map f) .empty).GetPropDependencies k with _ | ⟨d, l⟩
      · rfl
      · obtain ⟨ns, h5, h6⟩ := (objC_propDeps (d := d) ks (e := .empty)).1 (by rw [hg]; simp)
        rw [h3 ns h5] at h6
        cases h6

theorem type_narrower (hks : s.Keyed) (hkt : t.Keyed) (hs : s.dflt = .nil) (ht : t.dflt = .nil) (hN : ∀ x y, s.Child x → t.Child y → N x y → Tight ext env B (f x) (g y))
    {p : PrimType} (h : TypeNarrower ext N s t p) : Tightens ext env (Tight ext env B) (typeC (s.map f) p) (typeC (t.map g) p) := by
  cases p with
  | string => exact .string (string_narrower hs ht h)
  | integer => exact .integer (integer_narrower hs ht h.1 h.2)
  | number => exact .number (number_narrower hs ht h.1 h.2)
  | array => exact .array (array_narrower hN h)
  | object => exact .object (object_narrower hks hkt hN h)
  | boolean =>
    simp only [typeC]
    rw [show (s.map f).dflt = .nil from hs, show (t.map g).dflt = .nil from ht]
    exact .same
  | null => exact .same
  | unspecified => exact .same
  | other n => exact .same
end

/-! ## Schema by schema -/

theorem SchemaF.Child.size {s : SchemaF Schema} {c : Schema} (h : s.Child c) : sizeOf c < sizeOf (Schema.mk s) := by
  obtain ⟨rf, n, al, an, on, ty, en, df, mo, mi, ma, emi, ema, mil, mal, pa, fo, it, ai, mii, mai, ui, rq, mip, map, pr, pp, ap, dn, ds⟩ := s
  cases h with
  | not h => simp only at h; subst h; simp; omega
  | allOf h => have := List.sizeOf_lt_of_mem h; simp at this ⊢; omega
  | anyOf h => have := List.sizeOf_lt_of_mem h; simp at this ⊢; omega
  | oneOf h => have := List.sizeOf_lt_of_mem h; simp at this ⊢; omega
  | list h hm => simp only at h; subst h; have := List.sizeOf_lt_of_mem hm; simp at this ⊢; omega
  | tuple h hm => simp only at h; subst h; have := List.sizeOf_lt_of_mem hm; simp at this ⊢; omega
  | additionalItems h => simp only at h; subst h; simp; omega
  | property h => have := List.sizeOf_lt_of_mem h; simp at this ⊢; omega
  | patternProp h => have := List.sizeOf_lt_of_mem h; simp at this ⊢; omega
  | additionalProps h => simp only at h; subst h; simp; omega
  | dependency h => have := List.sizeOf_lt_of_mem h; simp at this ⊢; omega

/-- What goes with the types. -/
def valueC (lib : SchemaLib) (s : SchemaF Constraint) : List Constraint :=
  if 0 < (schemaTypes lib s).length then [reduceAny ((schemaTypes lib s).map (typeC s))] else if 0 < s.enum.length then [.enum s.enum] else []

theorem nodeC_eq (lib : SchemaLib) (m : Nat) {s : SchemaF Constraint} (hr : s.reference = []) : nodeC lib m s = reduceAll (comboC s ++ valueC lib s) := by
  unfold nodeC valueC
  rw [if_neg (by simp [hr])]
  split
  · rfl
  split
  · rfl
  · rw [List.append_nil]

theorem buildC_node (lib : SchemaLib) (m : Nat) {s : SchemaF Schema} (hr : s.reference = []) :
    buildC lib m (.mk s) = reduceAll (comboC (s.map (buildC lib m)) ++ valueC lib (s.map (buildC lib m))) := by
  rw [buildC_mk, nodeC_eq lib m (show (s.map (buildC lib m)).reference = [] from hr)]

theorem buildC_refFree (lib : SchemaLib) (m m' : Nat) {a : Schema} (h : a.RefFree) : buildC lib m a = buildC lib m' a := by
  induction h with
  | nil => rfl
  | @node s hr _ ih =>
    rw [buildC_node lib m hr, buildC_node lib m' hr, SchemaF.map_congr ih]

theorem Schema.Bare.child {ext : Ext} {s : SchemaF Schema} (h : (Schema.mk s).Bare ext) (hr : s.reference = []) {c : Schema} (hc : s.Child c) : c.Bare ext := by
  cases h with
  | ref _ h => exact absurd hr h
  | node _ _ _ _ _ h => exact h c hc

theorem Schema.Bare.own {ext : Ext} {s : SchemaF Schema} (h : (Schema.mk s).Bare ext) (hr : s.reference = []) : s.Keyed ∧ s.dflt = .nil := by
  cases h with
  | ref _ h => exact absurd hr h
  | node _ _ h1 h2 _ _ => exact ⟨h1, h2⟩

section
variable {ext : Ext} {env : Env} {lib : SchemaLib} {M : Bool → Nat} {L : Bool → GoStr → Schema → Prop} {N : Bool → Schema → Schema → Prop}

/-- Pairs of built constraints whose schemas are compared. -/
def BuiltPairs (ext : Ext) (lib : SchemaLib) (M : Bool → Nat) (N : Bool → Schema → Schema → Prop) (c d : Constraint) : Prop :=
  ∃ side a b, N side a b ∧ a.Bare ext ∧ b.Bare ext ∧ c = buildC lib (M side) a ∧ d = buildC lib (M !side) b

theorem narrower_tight (henv : ∀ side n t, L side n t → env (M side) n = some (buildC lib (M side) t)) (hL : ∀ side n t, L side n t → t.Bare ext)
    (hN : ∀ side a b, N side a b → Narrows ext lib.formats L N side a b) : ∀ (k : ℕ) (side : Bool) (a b : Schema), sizeOf a + sizeOf b = k → N side a b →
      a.Bare ext → b.Bare ext →
      Tightens ext env (Tight ext env (BuiltPairs ext lib M N)) (buildC lib (M side) a) (buildC lib (M !side) b) := by
  intro k
  induction k using Nat.strong_induction_on with
  | _ k ih =>
    rintro side a b rfl h ha hb
    have base : ∀ {side a b}, N side a b → a.Bare ext → b.Bare ext → Tight ext env (BuiltPairs ext lib M N) (buildC lib (M side) a) (buildC lib (M !side) b) :=
      fun h1 h2 h3 => .base ⟨_, _, _, h1, h2, h3, rfl, rfl⟩
    have swap : ∀ {a b}, N (!side) b a → b.Bare ext → a.Bare ext → Tight ext env (BuiltPairs ext lib M N) (buildC lib (M !side) b) (buildC lib (M side) a) := by
      intro a b h1 h2 h3
      have := base h1 h2 h3
      rwa [Bool.not_not] at this
    have combos : ∀ {t : SchemaF Schema}, b = .mk t → t.reference = [] → CombosNarrower N side a t →
        ∀ d ∈ comboC (t.map (buildC lib (M !side))), Tightens ext env (Tight ext env (BuiltPairs ext lib M N)) (buildC lib (M side) a) d := by
      rintro t rfl hr h d hd
      simp only [comboC, SchemaF.map, List.length_map] at hd
      rcases hn : t.not with _ | y
      · rw [hn] at hd
        simp only [Option.map_none] at hd
        split at hd
        · simp only [List.mem_singleton] at hd
          subst hd
          refine tight_all fun d hd => ?_
          obtain ⟨y, hy, rfl⟩ := List.mem_map.1 hd
          have hc : t.Child y := .allOf hy
          exact ih _ (by have := hc.size; omega) side a y rfl (h.allOf hn y hy) ha (hb.child hr hc)
        rename_i hal
        have hal : t.allOf = [] := by rcases hx : t.allOf with _ | _ <;> simp_all
        split at hd
        · rename_i han
          simp only [List.mem_singleton] at hd
          subst hd
          rcases h.anyOf hn hal (List.length_pos_iff.1 han) with ⟨y, hy, hay⟩ | ⟨s, rfl, h1, h2, h3, h4, h5⟩
          · have hc : t.Child y := .anyOf hy
            exact tight_any (List.mem_map.2 ⟨y, hy, rfl⟩) (ih _ (by have := hc.size; omega) side a y rfl hay ha (hb.child hr hc))
          · rw [buildC_node lib _ h1]
            refine all_tight (c := reduceAny (s.anyOf.map (buildC lib (M side)))) ?_ (any_tight fun c hc => ?_)
            · refine List.mem_append_left _ ?_
              simp only [comboC, SchemaF.map, h2, h3, Option.map_none, List.map_nil, List.length_nil, lt_irrefl, if_false, List.length_map]
              rw [if_pos (List.length_pos_iff.2 h4)]
              simp
            · obtain ⟨x, hx, rfl⟩ := List.mem_map.1 hc
              obtain ⟨y, hy, hxy⟩ := h5 x hx
              have hcx : s.Child x := .anyOf hx
              have hcy : t.Child y := .anyOf hy
              exact tight_any (List.mem_map.2 ⟨y, hy, rfl⟩)
                (ih _ (by have := hcx.size; have := hcy.size; omega) side x y rfl hxy (ha.child h1 hcx) (hb.child hr hcy))
        rename_i han
        have han : t.anyOf = [] := by rcases hx : t.anyOf with _ | _ <;> simp_all
        split at hd
        · rename_i hon
          simp only [List.mem_singleton] at hd
          subst hd
          obtain ⟨s, rfl, h1, h2, h3, h4, h5, h6⟩ := h.oneOf hn hal han (List.length_pos_iff.1 hon)
          rw [buildC_node lib _ h1]
          refine all_tight (c := reduceOneOf (s.oneOf.map (buildC lib (M side)))) ?_ (tight_oneOf (by simpa using h5) fun j c d hc hd => ?_)
          · refine List.mem_append_left _ ?_
            simp only [comboC, SchemaF.map, h2, h3, h4, Option.map_none, List.map_nil, List.length_nil, lt_irrefl, if_false, List.length_map]
            rw [if_pos (by rw [h5]; exact hon)]
            simp
          · rw [List.getElem?_map, Option.map_eq_some_iff] at hc hd
            obtain ⟨x, hx, rfl⟩ := hc
            obtain ⟨y, hy, rfl⟩ := hd
            have hcx : s.Child x := .oneOf (List.mem_of_getElem? hx)
            have hcy : t.Child y := .oneOf (List.mem_of_getElem? hy)
            obtain ⟨h7, h8⟩ := h6 j x y hx hy
            exact ⟨ih _ (by have := hcx.size; have := hcy.size; omega) side x y rfl h7 (ha.child h1 hcx) (hb.child hr hcy),
              swap h8 (hb.child hr hcy) (ha.child h1 hcx)⟩
        · cases hd
      · rw [hn] at hd
        simp only [Option.map_some, List.mem_singleton] at hd
        subst hd
        obtain ⟨s, x, rfl, h1, h2, h3⟩ := h.not y hn
        rw [buildC_node lib _ h1]
        refine all_tight (c := .not (some (buildC lib (M side) x))) ?_ (.not (swap h3 (hb.child hr (.not hn)) (ha.child h1 (.not h2))))
        refine List.mem_append_left _ ?_
        simp only [comboC, SchemaF.map, h2, Option.map_some]
        simp
    cases hN side a b h with
    | same hf =>
      rw [buildC_refFree lib (M side) (M !side) hf]
      exact .same
    | @follow s a b hr hl hn =>
      rw [buildC_ref hr]
      exact .refLeft (henv side _ a hl) (base hn (hL _ _ _ hl) hb)
    | @into t a b hr hl hn =>
      rw [buildC_ref hr]
      exact .refRight (henv _ _ b hl) (base hn ha (hL _ _ _ hl))
    | @allOf s x b hr hnot hx hn =>
      have hc : s.Child x := .allOf hx
      rw [buildC_node lib _ hr]
      refine all_tight (c := reduceAll (s.allOf.map (buildC lib (M side)))) ?_ (all_tight (List.mem_map.2 ⟨x, hx, rfl⟩)
        (ih _ (by have := hc.size; omega) side x b rfl hn (ha.child hr hc) hb))
      refine List.mem_append_left _ ?_
      simp only [comboC, SchemaF.map, hnot, Option.map_none, List.length_map]
      rw [if_pos (List.length_pos_of_mem hx)]
      simp
    | @anyOf s b hr hnot hal han hn =>
      rw [buildC_node lib _ hr]
      refine all_tight (c := reduceAny (s.anyOf.map (buildC lib (M side)))) ?_ (any_tight fun c hc => ?_)
      · refine List.mem_append_left _ ?_
        simp only [comboC, SchemaF.map, hnot, hal, Option.map_none, List.map_nil, List.length_nil, lt_irrefl, if_false, List.length_map]
        rw [if_pos (List.length_pos_iff.2 han)]
        simp
      · obtain ⟨x, hx, rfl⟩ := List.mem_map.1 hc
        have hc : s.Child x := .anyOf hx
        exact ih _ (by have := hc.size; omega) side x b rfl (hn x hx) (ha.child hr hc) hb
    | @oneOf s b hr hnot hal han hon hn =>
      rw [buildC_node lib _ hr]
      refine all_tight (c := reduceOneOf (s.oneOf.map (buildC lib (M side)))) ?_ (oneOf_tight fun c hc => ?_)
      · refine List.mem_append_left _ ?_
        simp only [comboC, SchemaF.map, hnot, hal, han, Option.map_none, List.map_nil, List.length_nil, lt_irrefl, if_false, List.length_map]
        rw [if_pos (List.length_pos_iff.2 hon)]
        simp
      · obtain ⟨x, hx, rfl⟩ := List.mem_map.1 hc
        have hc : s.Child x := .oneOf hx
        exact ih _ (by have := hc.size; omega) side x b rfl (hn x hx) (ha.child hr hc) hb
    | @combos a t hr hcm htr hen =>
      rw [buildC_node lib _ hr]
      refine tight_all fun d hd => ?_
      rcases List.mem_append.1 hd with hd | hd
      · exact combos rfl hr hcm d hd
      · have : schemaTypes lib t = [] := by
          rcases hx : schemaTypes lib t with _ | ⟨p, l⟩
          · rfl
          · exact absurd (mem_schemaTypes_treats.1 (show p ∈ schemaTypes lib t by rw [hx]; simp)) (htr p)
        simp only [valueC, types_of_map, this, List.length_nil, lt_irrefl, if_false] at hd
        rw [if_neg (by rw [show (t.map (buildC lib (M !side))).enum = t.enum from rfl, hen]; simp)] at hd
        cases hd
    | @keywords s t hr hcm hty =>
      conv => arg 5; rw [buildC_node lib _ hr]
      refine tight_all fun d hd => ?_
      rcases List.mem_append.1 hd with hd | hd
      · exact combos rfl hr hcm d hd
      · obtain ⟨ks, ds⟩ := ha.own hty.noRef
        obtain ⟨kt, dt⟩ := hb.own hr
        rw [buildC_node lib _ hty.noRef]
        simp only [valueC, types_of_map] at hd
        split at hd
        · rename_i hpos
          simp only [List.mem_singleton] at hd
          subst hd
          obtain ⟨p0, hp0⟩ := List.exists_mem_of_length_pos hpos
          obtain ⟨⟨q, hq⟩, h2⟩ := hty.types ⟨p0, mem_schemaTypes_treats.1 hp0⟩
          have hq := (mem_schemaTypes_treats (lib := lib)).2 hq
          refine all_tight (c := reduceAny ((schemaTypes lib s).map (typeC (s.map (buildC lib (M side)))))) ?_ (any_tight fun c hc => ?_)
          · refine List.mem_append_right _ ?_
            simp only [valueC, types_of_map]
            rw [if_pos (List.length_pos_of_mem hq)]
            simp
          · obtain ⟨p, hp, rfl⟩ := List.mem_map.1 hc
            obtain ⟨h3, h4⟩ := h2 p (mem_schemaTypes_treats.1 hp)
            exact tight_any (List.mem_map.2 ⟨p, mem_schemaTypes_treats.2 h3, rfl⟩) (type_narrower ks kt ds dt
              (fun x y hx hy hxy => base hxy (ha.child hty.noRef hx) (hb.child hr hy)) h4)
        · rename_i hpos
          split at hd
          · rename_i hen
            simp only [List.mem_singleton] at hd
            subst hd
            have none : ∀ p, ¬ t.Treats lib.formats p := fun p hp => hpos (List.length_pos_of_mem (mem_schemaTypes_treats.2 hp))
            obtain ⟨h1, h2, h3⟩ := hty.enum none (List.length_pos_iff.1 hen)
            refine all_tight (c := .enum s.enum) ?_ (.enum h3)
            refine List.mem_append_right _ ?_
            have hz : schemaTypes lib s = [] := by
              rcases hx : schemaTypes lib s with _ | ⟨p, l⟩
              · rfl
              · exact absurd (mem_schemaTypes_treats.1 (show p ∈ schemaTypes lib s by rw [hx]; simp)) (h1 p)
            simp only [valueC, types_of_map, hz, List.length_nil, lt_irrefl, if_false]
            rw [if_pos (show 0 < (s.map (buildC lib (M side))).enum.length from List.length_pos_iff.2 h2)]
            exact List.mem_singleton.2 rfl
          · cases hd
end

/-! ## What is built from a bare schema -/

section
variable {ext : Ext} {lib : SchemaLib} {m : Nat}

theorem orderly_node {c : Constraint} (h : Orderly ext c) (hk : ∀ d, c.Child d → d.Every (Orderly ext)) : c.Every (Orderly ext) := by
  intro e he
  cases he with
  | refl => exact h
  | child hd he => exact hk _ hd e he

theorem orderly_reduce {l : List Constraint} (h : ∀ c ∈ l, c.Every (Orderly ext)) :
    (reduceAll l).Every (Orderly ext) ∧ (reduceAny l).Every (Orderly ext) ∧ (reduceOneOf l).Every (Orderly ext) := by
  unfold reduceAll reduceAny reduceOneOf reduceCombined
  match l, h with
  | [c], h => exact ⟨h c (by simp), h c (by simp), h c (by simp)⟩
  | [], h => exact ⟨orderly_node ⟨rfl, trivial⟩ fun d hd => (by cases hd; exact h _ (by assumption)),
      orderly_node ⟨rfl, trivial⟩ fun d hd => (by cases hd; exact h _ (by assumption)), orderly_node ⟨rfl, trivial⟩ fun d hd => (by cases hd; exact h _ (by assumption))⟩
  | c :: d :: l, h => exact ⟨orderly_node ⟨rfl, trivial⟩ fun d hd => (by cases hd; exact h _ (by assumption)),
      orderly_node ⟨rfl, trivial⟩ fun d hd => (by cases hd; exact h _ (by assumption)), orderly_node ⟨rfl, trivial⟩ fun d hd => (by cases hd; exact h _ (by assumption))⟩

theorem bare_orderly {a : Schema} (h : a.Bare ext) : (buildC lib m a).Every (Orderly ext) := by
  have leaf : ∀ {c : Constraint}, Orderly ext c → (∀ d, ¬ c.Child d) → c.Every (Orderly ext) := fun h1 h2 => orderly_node h1 fun d hd => absurd hd (h2 d)
  have empty : (Constraint.empty).Every (Orderly ext) := leaf ⟨rfl, trivial⟩ fun d hd => by cases hd
  induction h with
  | nil => exact empty
  | ref s hr =>
    rw [buildC_ref hr]
    exact leaf ⟨rfl, trivial⟩ fun d hd => by cases hd
  | node s hr hk hd hp _ ih =>
    rw [buildC_node lib m hr]
    have ih' : ∀ c, (s.map (buildC lib m)).Child c → c.Every (Orderly ext) := by
      intro c hc
      obtain ⟨x, hx, rfl⟩ := SchemaF.child_map hc
      exact ih x hx
    refine (orderly_reduce fun c hc => ?_).1
    rcases List.mem_append.1 hc with hc | hc
    · unfold comboC at hc
      split at hc
      · rename_i x hx
        simp only [List.mem_singleton] at hc
        subst hc
        exact orderly_node ⟨rfl, trivial⟩ fun d hd => by cases hd; exact ih' _ (.not hx)
      split at hc
      · simp only [List.mem_singleton] at hc
        subst hc
        exact (orderly_reduce fun c hc => ih' c (.allOf hc)).1
      split at hc
      · simp only [List.mem_singleton] at hc
        subst hc
        exact (orderly_reduce fun c hc => ih' c (.anyOf hc)).2.1
      split at hc
      · simp only [List.mem_singleton] at hc
        subst hc
        exact (orderly_reduce fun c hc => ih' c (.oneOf hc)).2.2
      · cases hc
    · unfold valueC at hc
      split at hc
      · simp only [List.mem_singleton] at hc
        subst hc
        refine (orderly_reduce fun c hc => ?_).2.1
        obtain ⟨p, -, rfl⟩ := List.mem_map.1 hc
        cases p with
        | string => exact leaf ⟨by show (stringOf (s.map (buildC lib m))).dflt = none; rw [stringOf_fields (s.map (buildC lib m)) hd], trivial⟩ fun d hd => by cases hd
        | integer => exact leaf ⟨by show (integerOf (s.map (buildC lib m))).dflt = none; rw [integerOf_fields (s.map (buildC lib m)) hd], trivial⟩ fun d hd => by cases hd
        | number => exact leaf ⟨by show (numberOf (s.map (buildC lib m))).dflt = none; rw [numberOf_enum (s.map (buildC lib m)) hd], trivial⟩ fun d hd => by cases hd
        | boolean =>
          simp only [typeC]
          rw [show (s.map (buildC lib m)).dflt = .nil from hd]
          exact leaf ⟨rfl, trivial⟩ fun d hd => by cases hd
        | null => exact leaf ⟨rfl, trivial⟩ fun d hd => by cases hd
        | unspecified => exact empty
        | other n => exact empty
        | array =>
          refine orderly_node ⟨rfl, trivial⟩ fun d hd => ?_
          cases hd with
          | array hd =>
            rcases arrC_child hd with rfl | hd
            · exact empty
            · exact ih' d hd
        | object =>
          have ks : (s.map (buildC lib m)).Keyed := keyed_map hk
          refine orderly_node ⟨rfl, objC_wf ks, fun k hdec p hp1 q hq1 hm1 hm2 => ?_⟩ fun d hd => ?_
          · obtain ⟨i, src, c⟩ := p
            obtain ⟨i', src', c'⟩ := q
            have hp2 := (objC_patterns ks).1 hp1
            have hq2 := (objC_patterns ks).1 hq1
            obtain ⟨x, hx, rfl⟩ := map_pattern.1 hp2
            obtain ⟨y, hy, rfl⟩ := map_pattern.1 hq2
            have := hp k (fun x hx => hdec ((objC_declares hk).2 ⟨x, hx⟩)) _ hx _ hy hm1 hm2
            have heq := List.inj_on_of_nodup_map hk.patternTexts hx hy this
            cases heq
            rfl
          · cases hd with
            | object hd =>
              rcases objC_child hd with rfl | hd
              · exact empty
              · exact ih' d hd
      split at hc
      · simp only [List.mem_singleton] at hc
        subst hc
        exact leaf ⟨rfl, trivial⟩ fun d hd => by cases hd
      · cases hc

/-! ## Two documents -/

/-- The constraint a name of the document stands for. -/
def docEnv (lib : SchemaLib) (m : Nat) (resolve : Resolver) (s : Schema) (n : GoStr) : Option Constraint :=
  if n = b! "#" then some (buildC lib m s) else match (resolve n).target with
    | .ok t => some (buildC lib m t)
    | .error _ => none

theorem docEnv_leads {resolve : Resolver} {s t : Schema} {n : GoStr} (h : Leads resolve s n t) : docEnv lib m resolve s n = some (buildC lib m t) := by
  unfold docEnv
  rcases h with ⟨rfl, rfl⟩ | ⟨hn, ht⟩
  · rw [if_pos rfl]
  · rw [if_neg hn, ht]

theorem leads_docEnv {resolve : Resolver} {s : Schema} {n : GoStr} {c : Constraint} (h : docEnv lib m resolve s n = some c) :
    ∃ t, Leads resolve s n t ∧ c = buildC lib m t := by
  unfold docEnv at h
  split at h
  · rename_i hn
    cases h
    exact ⟨s, .inl ⟨hn, rfl⟩, rfl⟩
  · rename_i hn
    split at h
    · rename_i t ht
      cases h
      exact ⟨t, .inr ⟨hn, ht⟩, rfl⟩
    · cases h

/-- All maps of the two documents. -/
def pairEnv (lib : SchemaLib) (m m' : Nat) (resolve resolve' : Resolver) (s s' : Schema) : Env := fun a n =>
  if a = m then docEnv lib m resolve s n else if a = m' then docEnv lib m' resolve' s' n else none

theorem built_mentioned {resolve : Resolver} {s : Schema} {fuel : Nat} {b : Built} {σ : Sched} (h : BuildWithCtx lib m resolve fuel σ s = .ok b)
    {a : Nat} {n : GoStr} (hm : Mentioned (b.env m) b.root a n) : a = m ∧ ∃ d, b.env m m n = some d := by
  cases hm with
  | here hi =>
    obtain ⟨rfl, d, hd⟩ := allFound_root h a n hi
    exact ⟨rfl, d, hd⟩
  | there _ he hi =>
    rename_i a' n' d' hm'
    have ha : a' = m := by
      unfold Built.env at he
      split at he
      · assumption
      · cases he
    subst ha
    obtain ⟨rfl, d, hd⟩ := allFound_entry h he a n hi
    exact ⟨rfl, d, hd⟩

theorem built_docEnv {resolve : Resolver} {s : Schema} {fuel : Nat} {b : Built} (hroot : ∀ t, (resolve (b! "#")).target = .ok t → t = s)
    (h : BuildWithCtx lib m resolve fuel zeroSched s = .ok b) {n : GoStr} {d : Constraint} (hd : b.env m m n = some d) : docEnv lib m resolve s n = some d := by
  obtain ⟨⟨t, ht⟩, h1⟩ := entry_leads hroot h hd
  rw [docEnv_leads ht, h1 t ht]
end

/-! ## Checking that a schema is bare -/

/-- Enough for `Bare`: at most one pattern everywhere. -/
def Schema.bareB : Schema → Bool :=
  Schema.fold true fun s => decide (s.reference ≠ []) || (decide (s.properties.map (·.1)).Nodup && decide (s.patternProps.length ≤ 1) &&
    decide (s.depNames.map (·.1)).Nodup && decide (s.depSchemas.map (·.1)).Nodup && (match s.dflt with | .nil => true | _ => false) && s.childList.all id)

theorem Schema.bare_of_check {ext : Ext} : ∀ s : Schema, s.bareB = true → s.Bare ext := by
  refine Schema.ind (fun _ => .nil) fun s ih h => ?_
  rw [Schema.bareB, Schema.fold_mk] at h
  simp only [Bool.or_eq_true, Bool.and_eq_true, decide_eq_true_eq, List.all_eq_true, id] at h
  rcases h with h | ⟨⟨⟨⟨⟨h1, h2⟩, h4⟩, h5⟩, h3⟩, h6⟩
  · exact .ref s h
  · by_cases hr : s.reference = []
    · have h2 : s.patternProps.length ≤ 1 := by simpa [SchemaF.map] using h2
      have one : ∀ {α β : Type} (f : α → β) (l : List α), l.length ≤ 1 → (l.map f).Nodup ∧ ∀ x ∈ l, ∀ y ∈ l, x = y := by
        intro α β f l hl
        match l, hl with
        | [], _ => simp
        | [x], _ => simp
      refine .node s hr ⟨?_, (one _ _ h2).1, (one _ _ h2).1, h4, ?_⟩ ?_ (fun k _ p hp q hq _ _ => by rw [(one id _ h2).2 p hp q hq])
        (fun c hc => ih c hc (h6 _ (by rw [SchemaF.childList_map]; exact List.mem_map_of_mem hc.mem_childList)))
      · simpa [SchemaF.map, Function.comp_def] using h1
      · simpa [SchemaF.map, Function.comp_def] using h5
      · change (match s.dflt with | .nil => true | _ => false) = true at h3
        split at h3
        · assumption
        · cases h3
    · exact .ref s hr

theorem Schema.Bare.keyed {ext : Ext} {s : Schema} (h : s.Bare ext) : s.Keyed := by
  induction h with
  | nil => exact .nil
  | ref s hr => exact .ref s hr
  | node s hr hk _ _ _ ih => exact .node s hr hk ih

theorem BareDocument.keyedAll {ext : Ext} {formats : List GoStr} {resolve : Resolver} {s : Schema} (h : BareDocument ext resolve s)
    (hroot : ∀ t, (resolve (b! "#")).target = .ok t → t = s) : KeyedAll formats resolve s where
  self := h.1.keyed
  refs n t _ ht := by
    by_cases hn : n = b! "#"
    · subst hn
      rw [hroot t ht]
      exact h.1.keyed
    · exact (h.2 n t (.inr ⟨hn, ht⟩)).keyed

end Jsval
