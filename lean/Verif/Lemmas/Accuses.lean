import Verif.Spec.Accuses
import Verif.Lemmas.Blames
import Verif.Lemmas.BuildUnseen
import Verif.Lemmas.SchemaRefs
import Verif.Lemmas.SchemaObject
/-!
# The messages of built validators come from the schema
-/
namespace Jsval

section
variable {S : Type} {s : SchemaF S} {lib : SchemaLib}

theorem stringOf_undflt (s : SchemaF S) : ∃ d, stringOf s = { stringOf { s with dflt := .nil } with dflt := d } := by
  unfold stringOf
  cases s.dflt <;> exact ⟨_, rfl⟩

theorem integerOf_undflt (s : SchemaF S) : ∃ l d, integerOf s = { boundsOf s with enums := l, dflt := d } ∧ (l ≠ none → s.enum ≠ []) := by
  have hb : boundsOf s = { boundsOf s with enums := none, dflt := none } := by rw [boundsOf_fields]; rfl
  have key : ∀ c : NumC, ∃ d, (match s.dflt with | .nil => c | v => c.Default v) = { c with dflt := d } := by
    intro c; cases s.dflt <;> exact ⟨_, rfl⟩
  unfold integerOf
  by_cases h : s.enum = []
  · simp only [h, List.length_nil, Nat.lt_irrefl, if_false]
    obtain ⟨d, hd⟩ := key (boundsOf s)
    exact ⟨none, d, hd.trans (by rw [hb]), fun h => absurd rfl h⟩
  · have h0 : 0 < s.enum.length := List.length_pos_iff.2 h
    simp only [h0, if_true]
    obtain ⟨d, hd⟩ := key ((boundsOf s).Enum s.enum)
    exact ⟨_, d, hd, fun _ => h⟩

theorem numberOf_undflt (s : SchemaF S) : ∃ l d, numberOf s = { boundsOf s with enums := l, dflt := d } ∧ (l ≠ none → s.enum ≠ []) := by
  have hb : boundsOf s = { boundsOf s with enums := none, dflt := none } := by rw [boundsOf_fields]; rfl
  have key : ∀ c : NumC, ∃ d, (match s.dflt with | .nil => c | v => c.Default v) = { c with dflt := d } := by
    intro c; cases s.dflt <;> exact ⟨_, rfl⟩
  unfold numberOf
  by_cases h : s.enum = []
  · simp only [h, List.length_nil, Nat.lt_irrefl, if_false]
    obtain ⟨d, hd⟩ := key (boundsOf s)
    exact ⟨none, d, hd.trans (by rw [hb]), fun h => absurd rfl h⟩
  · have h0 : 0 < s.enum.length := List.length_pos_iff.2 h
    simp only [h0, if_true]
    obtain ⟨d, hd⟩ := key ((boundsOf s).Enum [.slice false s.enum])
    exact ⟨_, d, hd, fun _ => h⟩

theorem accuses_string {e : Err} (h : StrBlames (stringOf s) e) : s.StrAccuses e := by
  obtain ⟨d, hd⟩ := stringOf_undflt s
  rw [hd, stringOf_fields _ rfl] at h
  cases h with
  | notString => exact .type
  | tooLong h =>
    simp only at h ⊢
    cases hm : s.maxLength with
    | none => rw [hm] at h; simp at h
    | some n => rw [hm] at h; exact .maxLength hm h
  | tooShort h =>
    simp only at h ⊢
    cases hm : s.minLength with
    | none => rw [hm] at h; simp at h
    | some n => rw [hm] at h; exact .minLength hm h
  | datetime h => exact .datetime h
  | email h => exact .email h
  | hostname h => exact .hostname h
  | ipv4 h => exact .ipv4 h
  | ipv6 h => exact .ipv6 h
  | uri h => exact .uri h
  | regexp h => exact .pattern h
  | enums h =>
    simp only at h
    split at h
    · cases h
    · rename_i hne; exact .enum hne

theorem accuses_bounds {e : Err} {l : Option (List GoVal)} {d : Option GoVal} (hl : l ≠ none → s.enum ≠ [])
    (h : NumBlames { boundsOf s with enums := l, dflt := d } e) : s.NumAccuses e := by
  rw [boundsOf_fields] at h
  have hx : ∀ {o : Option Bool}, o.getD false = true → o = some true := by intro o h; cases o with | none => cases h | some b => cases h; rfl
  cases h with
  | belowMin h h2 =>
    have h : s.minimum = some _ := h
    simp only [h, reduceCtorEq, if_false] at h2
    exact .minimum h (fun hh => by rw [hh] at h2; cases h2)
  | belowMinExcl h h2 =>
    have h : s.minimum = some _ := h
    simp only [h, reduceCtorEq, if_false] at h2
    exact .exclusiveMinimum h (hx h2)
  | aboveMax h h2 =>
    have h : s.maximum = some _ := h
    simp only [h, reduceCtorEq, if_false] at h2
    exact .maximum h (fun hh => by rw [hh] at h2; cases h2)
  | aboveMaxExcl h h2 =>
    have h : s.maximum = some _ := h
    simp only [h, reduceCtorEq, if_false] at h2
    exact .exclusiveMaximum h (hx h2)
  | notMultiple h h2 => exact .multipleOf h h2
  | enums h => exact .enum (hl (by simp only at h; simp [h]))

theorem sole_of_types {t : PrimType} (h : schemaTypes lib s = [t]) : s.Sole lib.formats t := by
  unfold schemaTypes sortTypes at h
  have hp := (List.perm_insertionSort (fun a b => lib.rank a ≤ lib.rank b) (if 0 < s.type.length then s.type else guessSchemaType lib s)).symm
  rw [h] at hp
  have hp := List.perm_singleton.1 hp
  by_cases h0 : s.type = []
  · rw [h0] at hp
    simp only [List.length_nil, Nat.lt_irrefl, if_false] at hp
    exact .inr ⟨h0, fun u => by rw [← mem_guess, hp]; simp⟩
  · rw [if_pos (List.length_pos_iff.2 h0)] at hp
    exact .inl hp

theorem several_of_types (h : 1 < (schemaTypes lib s).length) : s.Several lib.formats := by
  unfold schemaTypes sortTypes at h
  rw [List.length_insertionSort] at h
  by_cases h0 : s.type = []
  · rw [h0] at h
    simp only [List.length_nil, Nat.lt_irrefl, if_false] at h
    have hn := guess_nodup (s := s) lib
    have hm := @mem_guess _ s lib
    generalize guessSchemaType lib s = l at h hn hm
    match l, h with
    | a :: b :: l, _ =>
      refine .inr ⟨h0, a, b, ?_, hm.1 (by simp), hm.1 (by simp)⟩
      rintro rfl
      simp at hn
  · rw [if_pos (List.length_pos_iff.2 h0)] at h
    exact .inl h

end

section
variable {ext : Ext} {lib : SchemaLib} {m : Nat} {resolve : Resolver} {root : Schema}

/-- A relation on what a built part says. -/
abbrev Traced (ext : Ext) (lib : SchemaLib) (m : Nat) (resolve : Resolver) (root : Schema) (env : Env) (k : Nat) (x : Schema) : Prop :=
  ∀ c, BuiltFrom lib m x c → ∀ e, Blames ext env k c e → (∀ n, e.reason ≠ .refNotFound n) → Accuses ext lib.formats resolve root x e

theorem blames_reduceAll {env : Env} {k : Nat} {e : Err} {cs : List Constraint} (h : Blames ext env k (reduceAll cs) e) :
    ∃ c ∈ cs, Blames ext env k c e := by
  unfold reduceAll reduceCombined at h
  split at h
  · exact ⟨_, by simp, h⟩
  · cases h with | all hc h => exact ⟨_, hc, h⟩

theorem blames_reduceAny {env : Env} {k : Nat} {e : Err} {cs : List Constraint} (h0 : cs ≠ []) (h : Blames ext env k (reduceAny cs) e) :
    (1 < cs.length ∧ e = .anyNone) ∨ ∃ c, cs = [c] ∧ Blames ext env k c e := by
  match cs with
  | [] => exact absurd rfl h0
  | [c] => exact .inr ⟨c, rfl, h⟩
  | a :: b :: l => cases (show Blames ext env k (.any (a :: b :: l)) e from h); exact .inl ⟨by simp, rfl⟩

theorem blames_reduceOneOf {env : Env} {k : Nat} {e : Err} {cs : List Constraint} (h0 : cs ≠ []) (h : Blames ext env k (reduceOneOf cs) e) :
    (1 < cs.length ∧ (e = .oneOfNone ∨ e = .oneOfMany)) ∨ ∃ c, cs = [c] ∧ Blames ext env k c e := by
  match cs with
  | [] => exact absurd rfl h0
  | [c] => exact .inr ⟨c, rfl, h⟩
  | a :: b :: l =>
    cases (show Blames ext env k (.oneOf (a :: b :: l)) e from h) with
    | oneOfNone => exact .inl ⟨by simp, .inl rfl⟩
    | oneOfMany => exact .inl ⟨by simp, .inr rfl⟩

theorem not_blames_empty {env : Env} {k : Nat} {e : Err} (h : Blames ext env k .empty e) : False := by cases h

variable {env : Env} (htab : TableFrom lib resolve root env)

section
variable {k : Nat} {s : SchemaF Schema} {R : List GoStr} (hr : s.reference = []) (ih : ∀ x, s.Child x → Traced ext lib m resolve root env k x)
include hr ih

theorem accuses_combo {ct : List Constraint} (h : ComboBuilt (fun a _ c => BuiltBy a c) R (s.map (build lib m)) ct) {c : Constraint} (hc : c ∈ ct)
    {e : Err} (hb : Blames ext env k c e) (hn : ∀ n, e.reason ≠ .refNotFound n) : Accuses ext lib.formats resolve root (.mk s) e := by
  have none_map : (s.map (build lib m)).not = none → s.not = none := fun h => by simpa [SchemaF.map] using h
  have all_map : (s.map (build lib m)).allOf = [] → s.allOf = [] := fun h => by simpa [SchemaF.map] using h
  have any_map : (s.map (build lib m)).anyOf = [] → s.anyOf = [] := fun h => by simpa [SchemaF.map] using h
  cases h with
  | not h t =>
    simp only [List.mem_singleton] at hc
    subst hc
    cases hb
    refine .not hr (fun h0 => ?_)
    simp [SchemaF.map, h0] at h
  | allOf h1 h2 t =>
    simp only [List.mem_singleton] at hc
    subst hc
    obtain ⟨d, hd, hb⟩ := blames_reduceAll hb
    obtain ⟨a, ha, ht⟩ := forall2_right t d hd
    simp only [SchemaF.map, List.mem_map] at ha
    obtain ⟨x, hx, rfl⟩ := ha
    exact .allOf hr (none_map h1) hx (ih x (.allOf hx) d ht e hb hn)
  | anyOf h1 h2 h3 t =>
    simp only [List.mem_singleton] at hc
    subst hc
    have hl := t.length_eq
    simp only [SchemaF.map, List.length_map] at hl
    rcases blames_reduceAny (fun h0 => h3 (by rw [h0, List.forall₂_nil_right_iff] at t; exact t)) hb with ⟨h4, rfl⟩ | ⟨d, rfl, hb⟩
    · exact .anyOf hr (none_map h1) (all_map h2) (by omega)
    · obtain ⟨x, hx⟩ := List.length_eq_one_iff.1 (show s.anyOf.length = 1 by simpa using hl)
      simp only [SchemaF.map, hx, List.map_cons, List.map_nil] at t
      cases t with
      | cons t _ => exact .oneAnyOf hr (none_map h1) (all_map h2) hx (ih x (.anyOf (by simp [hx])) d t e hb hn)
  | oneOf h1 h2 h3 h4 t =>
    simp only [List.mem_singleton] at hc
    subst hc
    have hl := t.length_eq
    simp only [SchemaF.map, List.length_map] at hl
    rcases blames_reduceOneOf (fun h0 => h4 (by rw [h0, List.forall₂_nil_right_iff] at t; exact t)) hb with ⟨h5, rfl | rfl⟩ | ⟨d, rfl, hb⟩
    · exact .oneOfNone hr (none_map h1) (all_map h2) (any_map h3) (by omega)
    · exact .oneOfMany hr (none_map h1) (all_map h2) (any_map h3) (by omega)
    · obtain ⟨x, hx⟩ := List.length_eq_one_iff.1 (show s.oneOf.length = 1 by simpa using hl)
      simp only [SchemaF.map, hx, List.map_cons, List.map_nil] at t
      cases t with
      | cons t _ => exact .oneOneOf hr (none_map h1) (all_map h2) (any_map h3) hx (ih x (.oneOf (by simp [hx])) d t e hb hn)
  | none => cases hc

theorem accuses_array (hs : s.Sole lib.formats .array) {a : ArrC Constraint} (h : ItemsBuilt (fun a _ c => BuiltBy a c) R (s.map (build lib m)) a)
    {e : Err} (hb : Blames ext env k (.array (arrayEnd (s.map (build lib m)) a)) e) (hn : ∀ n, e.reason ≠ .refNotFound n) :
    Accuses ext lib.formats resolve root (.mk s) e := by
  obtain ⟨e1, e2, e3⟩ := arrayEnd_items (s := s.map (build lib m)) a
  have hlim : a.minItems = -1 ∧ a.maxItems = -1 ∧ a.unique = false := by cases h <;> exact ⟨rfl, rfl, rfl⟩
  have hmin : (arrayEnd (s.map (build lib m)) a).minItems = s.minItems.getD (-1) := by
    unfold arrayEnd applyIf
    show _ = (s.map (build lib m)).minItems.getD (-1)
    cases (s.map (build lib m)).uniqueItems <;> cases (s.map (build lib m)).maxItems <;> cases (s.map (build lib m)).minItems <;>
      first | rfl | exact hlim.1
  have hmax : (arrayEnd (s.map (build lib m)) a).maxItems = s.maxItems.getD (-1) := by
    unfold arrayEnd applyIf
    show _ = (s.map (build lib m)).maxItems.getD (-1)
    cases (s.map (build lib m)).uniqueItems <;> cases (s.map (build lib m)).maxItems <;> cases (s.map (build lib m)).minItems <;>
      first | rfl | exact hlim.2.1
  have huni : (arrayEnd (s.map (build lib m)) a).unique = s.uniqueItems.getD false := by
    unfold arrayEnd applyIf
    show _ = (s.map (build lib m)).uniqueItems.getD false
    cases (s.map (build lib m)).uniqueItems <;> cases (s.map (build lib m)).maxItems <;> cases (s.map (build lib m)).minItems <;>
      first | rfl | exact hlim.2.2
  have htup : ∀ l, (s.map (build lib m)).items = .tuple l → ∃ l', s.items = .tuple l' ∧ l = l'.map (build lib m) := by
    intro l hl
    cases hi : s.items with
    | tuple l' => simp only [SchemaF.map, hi, ItemSpec.map, ItemSpec.tuple.injEq] at hl; exact ⟨l', rfl, hl.symm⟩
    | nil => simp [SchemaF.map, hi, ItemSpec.map] at hl
    | list l' => simp [SchemaF.map, hi, ItemSpec.map] at hl
  cases hb with
  | array hb =>
    refine .array hr hs ?_
    cases hb with
    | notSlice => exact .type
    | fewItems h =>
      rw [hmin] at h
      cases hm : s.minItems with
      | none => rw [hm] at h; simp at h
      | some n => rw [hm] at h; exact .minItems hm h
    | manyItems h =>
      rw [hmax] at h
      cases hm : s.maxItems with
      | none => rw [hm] at h; simp at h
      | some n => rw [hm] at h; exact .maxItems hm h
    | dupItem h =>
      rw [huni] at h
      cases hm : s.uniqueItems with
      | none => rw [hm] at h; simp at h
      | some n => rw [hm] at h; simp only [Option.getD_some] at h; exact .uniqueItems (by rw [hm, h])
    | addlItems h1 h2 h3 =>
      rw [e1] at h1; rw [e2] at h3; rw [e3] at h2
      cases h with
      | nil => cases h2
      | list => cases h1
      | tuple hi t x =>
        obtain ⟨l, hl, rfl⟩ := htup _ hi
        refine .additionalItems hl ?_ ?_
        · rintro rfl
          cases t
          exact h3 rfl
        · cases hx : s.additionalItems with
          | nil => rfl
          | allow => simp only [SchemaF.map, hx, Extra.map] at x; cases x; cases h2
          | schema y => simp only [SchemaF.map, hx, Extra.map] at x; cases x; cases h2
  | item h1 hb =>
    rw [e1] at h1
    cases h with
    | nil => cases h1
    | @list b l c hi t =>
      cases h1
      cases hi' : s.items with
      | list l' =>
        simp only [SchemaF.map, hi', ItemSpec.map, ItemSpec.list.injEq] at hi
        cases l' with
        | nil => cases hi
        | cons x l' =>
          simp only [List.map_cons, List.cons.injEq] at hi
          obtain ⟨rfl, -⟩ := hi
          exact .items hr hs hi' (ih x (.list hi' (by simp)) _ t e hb hn)
      | nil => simp [SchemaF.map, hi', ItemSpec.map] at hi
      | tuple l' => simp [SchemaF.map, hi', ItemSpec.map] at hi
    | tuple => cases h1
  | positional h1 h2 hb =>
    rw [e1] at h1; rw [e2] at h2
    cases h with
    | nil => cases h2
    | list => cases h1
    | tuple hi t x =>
      obtain ⟨l, hl, rfl⟩ := htup _ hi
      obtain ⟨y, hy, ht⟩ := forall2_right t _ h2
      obtain ⟨z, hz, rfl⟩ := List.mem_map.1 hy
      exact .tuple hr hs hl hz (ih z (.tuple hl hz) _ ht e hb hn)
  | extra h1 h2 h3 hb =>
    rw [e1] at h1; rw [e3] at h2; rw [e2] at h3
    cases h with
    | nil => cases h2; exact (not_blames_empty hb).elim
    | list => cases h1
    | tuple hi t x =>
      obtain ⟨l, hl, rfl⟩ := htup _ hi
      have h2 : _ = some _ := h2
      cases hx : s.additionalItems with
      | nil => simp only [SchemaF.map, hx, Extra.map] at x; cases x; cases h2
      | allow => simp only [SchemaF.map, hx, Extra.map] at x; cases x; cases h2; exact (not_blames_empty hb).elim
      | schema y =>
        simp only [SchemaF.map, hx, Extra.map] at x
        cases x with
        | schema x =>
          cases h2
          refine .additionalItems hr hs hl ?_ hx (ih y (.additionalItems hx) _ x e hb hn)
          rintro rfl
          cases t
          exact h3 rfl

include htab in
theorem accuses_object (hs : s.Sole lib.formats .object) {o : ObjC Constraint} (h : ObjectBuilt (fun a _ c => BuiltBy a c) R (s.map (build lib m)) o)
    {e : Err} (hb : Blames ext env k (.object o) e) (hn : ∀ n, e.reason ≠ .refNotFound n) : Accuses ext lib.formats resolve root (.mk s) e := by
  obtain ⟨q1, q2, q3⟩ := objectStart_more (s.map (build lib m))
  have hreq : ∀ p, p ∈ o.required ↔ p ∈ s.required := fun p => by rw [h.required]; exact q1 p
  have hmin : o.minProps = s.minProps.getD (-1) := by rw [h.minProps]; exact q2
  have hmax : o.maxProps = s.maxProps.getD (-1) := by rw [h.maxProps]; exact q3
  have hprop : ∀ p c, (p, c) ∈ o.props → ∃ x, (p, x) ∈ s.properties ∧ BuiltFrom lib m x c := by
    intro p c hp
    obtain ⟨k, cs, hn, he⟩ := h.props
    rw [he] at hp
    rcases mem_foldl_ainsert hp with hp | hp
    · obtain ⟨⟨n, a⟩, ha, h1, ht⟩ := forall2_right hn _ hp
      have ha := mem_shuffle.1 ha
      simp only [SchemaF.map, List.mem_map] at ha
      obtain ⟨⟨n, x⟩, hx, he⟩ := ha
      cases he
      cases h1
      exact ⟨x, hx, ht⟩
    · cases hp
  cases hb with
  | object hb =>
    refine .object hr hs ?_
    cases hb with
    | notObject => exact .type
    | mapKeys => exact .keys
    | fewProps h =>
      rw [hmin] at h
      cases hm : s.minProps with
      | none => rw [hm] at h; simp at h
      | some n => rw [hm] at h; exact .minProperties hm h
    | manyProps h =>
      rw [hmax] at h
      cases hm : s.maxProps with
      | none => rw [hm] at h; simp at h
      | some n => rw [hm] at h; exact .maxProperties hm h
    | required h1 h2 =>
      obtain ⟨c, h2⟩ := h2
      obtain ⟨x, hx, -⟩ := hprop _ _ h2
      exact .required ((hreq _).1 h1) hx
    | addlNotAllowed h1 =>
      have x := h.additional
      rw [h1] at x
      refine .additionalProperties ?_
      cases hx : s.additionalProps with
      | nil => rfl
      | allow => simp only [SchemaF.map, hx, Extra.map] at x; cases x
      | schema y => simp only [SchemaF.map, hx, Extra.map] at x; cases x
    | @depMissing q d h1 =>
      obtain ⟨k, he⟩ := h.propdeps
      unfold ObjC.GetPropDependencies at h1
      rw [he] at h1
      rcases (mem_propDep_fold _ Object').1 h1 with h1 | ⟨t, h1, h2⟩
      · cases h1
      · exact .dependencies (mem_shuffle.1 h1) h2
  | prop hp hb =>
    obtain ⟨x, hx, ht⟩ := hprop _ _ hp
    exact .property hr hs hx (ih x (.property hx) _ ht _ hb hn)
  | setDefault hp h1 h2 h3 =>
    obtain ⟨x, hx, ht⟩ := hprop _ _ hp
    exact .default hr hs hx (fun h => h1 ((hreq _).2 h)) (hasDefault_of_defaulted htab ht h2) h3
  | pattern hp h1 hb =>
    obtain ⟨k, cs, hn', he⟩ := h.patterns
    rw [he] at hp
    rcases mem_foldl_patInsert hp with hp | hp
    · obtain ⟨⟨i, n, a⟩, ha, h2, h3, ht⟩ := forall2_right hn' _ hp
      have ha := mem_shuffle.1 ha
      simp only [SchemaF.map, List.mem_map] at ha
      obtain ⟨⟨i, n, x⟩, hx, he⟩ := ha
      cases he
      cases h2
      cases h3
      exact .patternProperty hr hs hx h1 (ih x (.patternProp hx) _ ht _ hb hn)
    · cases hp
  | addlProp h1 hb =>
    have x := h.additional
    rw [h1] at x
    cases hx : s.additionalProps with
    | nil => simp only [SchemaF.map, hx, Extra.map] at x; cases x
    | allow => simp only [SchemaF.map, hx, Extra.map] at x; cases x; exact (not_blames_empty hb).elim
    | schema y =>
      simp only [SchemaF.map, hx, Extra.map] at x
      cases x with
      | schema x => exact .additionalProperty hr hs hx (ih y (.additionalProps hx) _ x _ hb hn)
  | dependency _ h1 hb =>
    have h1 := alookup_mem h1
    obtain ⟨k, cs, hn', he⟩ := h.schemadeps
    rw [he] at h1
    rcases mem_foldl_ainsert h1 with hp | hp
    · obtain ⟨⟨n, a⟩, ha, h2, ht⟩ := forall2_right hn' _ hp
      have ha := mem_shuffle.1 ha
      simp only [SchemaF.map, List.mem_map] at ha
      obtain ⟨⟨n, x⟩, hx, he⟩ := ha
      cases he
      cases h2
      exact .dependency hr hs hx (ih x (.dependency hx) _ ht _ hb hn)
    · cases hp

include htab in
theorem accuses_type {t : PrimType} (hs : s.Sole lib.formats t) {c : Constraint}
    (h : TypeBuilt (fun a _ c => BuiltBy a c) R (s.map (build lib m)) t c) {e : Err} (hb : Blames ext env k c e)
    (hn : ∀ n, e.reason ≠ .refNotFound n) : Accuses ext lib.formats resolve root (.mk s) e := by
  have str : ∀ {e}, (s.map (build lib m)).StrAccuses e → s.StrAccuses e := fun h => by
    cases h with
    | type => exact .type
    | maxLength h h2 => exact .maxLength h h2
    | minLength h h2 => exact .minLength h h2
    | datetime h => exact .datetime h
    | email h => exact .email h
    | hostname h => exact .hostname h
    | ipv4 h => exact .ipv4 h
    | ipv6 h => exact .ipv6 h
    | uri h => exact .uri h
    | pattern h => exact .pattern h
    | enum h => exact .enum h
  have num : ∀ {e}, (s.map (build lib m)).NumAccuses e → s.NumAccuses e := fun h => by
    cases h with
    | minimum h h2 => exact .minimum h h2
    | exclusiveMinimum h h2 => exact .exclusiveMinimum h h2
    | maximum h h2 => exact .maximum h h2
    | exclusiveMaximum h h2 => exact .exclusiveMaximum h h2
    | multipleOf h h2 => exact .multipleOf h h2
    | enum h => exact .enum h
  cases h with
  | string => cases hb with | string h => exact .string hr hs (str (accuses_string h))
  | number =>
    cases hb with
    | notFloat => exact .notFloat hr hs
    | number h =>
      obtain ⟨l, d, he, hl⟩ := numberOf_undflt (s.map (build lib m))
      rw [he] at h
      exact .number hr hs (num (accuses_bounds hl h))
  | integer =>
    cases hb with
    | notNumeric => exact .notNumeric hr hs
    | notIntegral => exact .notIntegral hr hs
    | integer h =>
      obtain ⟨l, d, he, hl⟩ := integerOf_undflt (s.map (build lib m))
      rw [he] at h
      exact .integer hr hs (num (accuses_bounds hl h))
  | booleanDflt => cases hb; exact .boolean hr hs
  | boolean => cases hb; exact .boolean hr hs
  | array h => exact accuses_array hr ih hs h hb hn
  | object h => exact accuses_object htab hr ih hs h hb hn
  | null => cases hb; exact .null hr hs
end

include htab

/-- What a built constraint says is asked for by the schema it was built from. -/
theorem accuses_of_blames : ∀ k m s, Traced ext lib m resolve root env k s := by
  intro k
  induction k with
  | zero => exact fun m => step 0 m (fun h => absurd h (by simp))
  | succ k ihk => exact fun m => step (k + 1) m (fun _ => ihk)
where
  step (k m) (ihk : k ≠ 0 → ∀ m s, Traced ext lib m resolve root env (k - 1) s) : ∀ s, Traced ext lib m resolve root env k s := by
    refine Schema.ind ?_ ?_
    · intro c hb
      obtain ⟨σ, R, R', hb⟩ := hb
      rw [build_nil] at hb; cases hb
    · intro s ih c hb e he hn
      obtain ⟨R, hb⟩ := node_of_build hb
      cases hb with
      | ref hr _ =>
        cases he with
        | ref h1 h2 =>
          obtain ⟨s1, m1, h3, h4⟩ := htab _ _ _ h1
          exact .ref hr h3 (ihk (by simp) m1 s1 _ h4 e h2 hn)
        | refNotFound => exact absurd rfl (hn _)
      | typed hr hc h0 ht =>
        obtain ⟨d, hd, he⟩ := blames_reduceAll he
        rcases List.mem_append.1 hd with hd | hd
        · exact accuses_combo hr ih hc hd he hn
        · simp only [List.mem_singleton] at hd
          subst hd
          have hl := ht.length_eq
          rw [schemaTypes_map] at h0 hl ht
          rcases blames_reduceAny (fun h1 => h0 (by rw [h1, List.forall₂_nil_right_iff] at ht; exact ht)) he with ⟨h1, rfl⟩ | ⟨d, rfl, he⟩
          · exact .types hr (several_of_types (by omega))
          · obtain ⟨t, h1⟩ := List.length_eq_one_iff.1 (show (schemaTypes lib s).length = 1 by simpa using hl)
            rw [h1] at ht
            cases ht with
            | cons ht _ => exact accuses_type htab hr ih (sole_of_types h1) ht he hn
      | enum hr hc h0 h1 =>
        obtain ⟨d, hd, he⟩ := blames_reduceAll he
        rcases List.mem_append.1 hd with hd | hd
        · exact accuses_combo hr ih hc hd he hn
        · simp only [List.mem_singleton] at hd
          subst hd
          cases he
          rw [schemaTypes_map] at h0
          exact .enum hr (fun t ht => by rw [← mem_schemaTypes_treats, h0] at ht; cases ht) h1
      | plain hr hc h0 h1 =>
        obtain ⟨d, hd, he⟩ := blames_reduceAll he
        exact accuses_combo hr ih hc hd he hn
end

end Jsval
