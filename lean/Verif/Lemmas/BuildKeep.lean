import Verif.Spec.KeepSchema
import Verif.Lemmas.Keep
import Verif.Lemmas.KeepTwice
import Verif.Lemmas.BuildPlain
import Verif.Lemmas.Buildable
import Verif.Lemmas.SchemaNode
/-!
# What is kept of a built constraint is built from what is kept of the schema
-/
namespace Jsval

theorem Schema.keep_nil : Schema.keep .nil = .nil := by rw [Schema.keep, Schema.fold]
theorem Schema.keep_mk (s : SchemaF Schema) : Schema.keep (.mk s) = .mk (s.map Schema.keep).keep := Schema.fold_mk _ _ s

theorem SchemaF.keep_map {α β : Type} (g : α → β) (s : SchemaF α) : s.keep.map g = (s.map g).keep := by
  unfold SchemaF.keep SchemaF.map
  cases s.additionalItems <;> rfl

/-! ## Runs -/

/-- If the first run succeeds, so does the second, from whatever names, with what `k` gives. -/
def KeptRun {α β : Type} (k : α → β) (x : BM α) (y : BM β) : Prop := ∀ R a R1, x R = .ok (a, R1) → ∀ R', ∃ R1', y R' = .ok (k a, R1')

section
variable {α β γ δ : Type} {k : α → β}

theorem KeptRun.pure {a : α} {b : β} (h : k a = b) : KeptRun k (Pure.pure a) (Pure.pure b) := by
  intro R a' R1 h1 R'
  rw [bm_pure] at h1
  obtain ⟨rfl, rfl⟩ := h1
  exact ⟨R', by rw [bm_pure]; exact ⟨h.symm, rfl⟩⟩

theorem KeptRun.throw {e : BuildStop} {y : BM β} : KeptRun k (MonadExcept.throw e : BM α) y := by
  intro R a' R1 h1
  rw [bm_throw] at h1
  exact absurd h1 id

theorem KeptRun.bind {x : BM α} {y : BM β} {f : α → BM γ} {g : β → BM δ} {l : γ → δ} (h : KeptRun k x y)
    (hf : ∀ a, KeptRun l (f a) (g (k a))) : KeptRun l (x >>= f) (y >>= g) := by
  intro R c R1 h1 R'
  obtain ⟨a, R2, h2, h3⟩ := bm_bind.1 h1
  obtain ⟨R3, h4⟩ := h R a R2 h2 R'
  obtain ⟨R4, h5⟩ := hf a R2 c R1 h3 R3
  exact ⟨R4, bm_bind.2 ⟨_, _, h4, h5⟩⟩

/-- The first run does more. -/
theorem KeptRun.drop {x : BM α} {f : α → BM γ} {l : γ → δ} {y : BM δ} (hf : ∀ R a R1, x R = .ok (a, R1) → KeptRun l (f a) y) :
    KeptRun l (x >>= f) y := by
  intro R c R1 h1 R'
  obtain ⟨a, R2, h2, h3⟩ := bm_bind.1 h1
  exact hf R a R2 h2 R2 c R1 h3 R'
end

/-- Object constraints without what is not kept. -/
def keepO (o : ObjC Constraint) : ObjC Constraint := (o.map Constraint.keep).keep

theorem keep_reduceAll (l : List Constraint) : (reduceAll l).keep = reduceAll (l.map Constraint.keep) := by
  unfold reduceAll reduceCombined
  match l with
  | [] => simp [Constraint.keep, keepList]
  | [c] => rfl
  | c :: d :: l => simp [Constraint.keep, keepList_eq]
theorem keep_reduceAny {l : List Constraint} (h : l ≠ []) : (reduceAny l).keep = reduceAny (l.map Constraint.keep) := by
  unfold reduceAny reduceCombined
  match l with
  | [] => exact absurd rfl h
  | [c] => rfl
  | c :: d :: l => simp [Constraint.keep, keepList_eq]
theorem keep_reduceOneOf {l : List Constraint} (h : l ≠ []) : (reduceOneOf l).keep = reduceOneOf (l.map Constraint.keep) := by
  unfold reduceOneOf reduceCombined
  match l with
  | [] => exact absurd rfl h
  | [c] => rfl
  | c :: d :: l => simp [Constraint.keep, keepList_eq]

section
variable {f g : Schema → Act} {σ : Sched}

theorem buildList_keep : ∀ {l : List Schema} {i : Nat}, (∀ x ∈ l, ∀ σ, KeptRun Constraint.keep (f x σ) (g x σ)) →
    KeptRun (List.map Constraint.keep) (buildList σ i (l.map f)) (buildList σ i (l.map g))
  | [], i, _ => .pure rfl
  | a :: l, i, h => by
    simp only [List.map_cons, buildList]
    refine (h a (by simp) _).bind fun c => ?_
    refine (buildList_keep fun x hx => h x (by simp [hx])).bind fun cs => .pure rfl

theorem buildList_length {l : List Act} : ∀ {i : Nat} {R R' : List GoStr} {cs : List Constraint},
    buildList σ i l R = .ok (cs, R') → cs.length = l.length := by
  induction l with
  | nil => intro i R R' cs h; rw [buildList, bm_pure] at h; rw [← h.1]; rfl
  | cons a l ih =>
    intro i R R' cs h
    rw [buildList, bm_bind] at h
    obtain ⟨c, R1, -, h⟩ := h
    rw [bm_bind] at h
    obtain ⟨cs', R2, h2, h⟩ := h
    rw [bm_pure] at h
    rw [← h.1, List.length_cons, List.length_cons, ih h2]

theorem buildProps_keep : ∀ {l : List (GoStr × Schema)} {i : Nat} {o : ObjC Constraint},
    (∀ p ∈ l, ∀ σ, KeptRun Constraint.keep (f p.2 σ) (g p.2 σ)) →
    KeptRun keepO (buildProps σ i (l.map fun p => (p.1, f p.2)) o) (buildProps σ i (l.map fun p => (p.1, g p.2)) (keepO o))
  | [], i, o, _ => .pure rfl
  | (n, a) :: l, i, o, h => by
    have ha : ∀ c : Constraint, (keepO o).AddProp n c.keep = keepO (o.AddProp n c) := fun c => by
      simp only [ObjC.AddProp, keepO, ObjC.keep, ObjC.map, ainsert_map]
    simp only [List.map_cons, buildProps]
    refine (h (n, a) (by simp) _).bind fun c => ?_
    rw [ha]
    exact buildProps_keep fun p hp => h p (by simp [hp])

theorem buildPats_keep : ∀ {l : List (Nat × GoStr × Schema)} {i : Nat} {o : ObjC Constraint},
    (∀ p ∈ l, ∀ σ, KeptRun Constraint.keep (f p.2.2 σ) (g p.2.2 σ)) →
    KeptRun keepO (buildPats σ i (l.map fun p => (p.1, p.2.1, f p.2.2)) o) (buildPats σ i (l.map fun p => (p.1, p.2.1, g p.2.2)) (keepO o))
  | [], i, o, _ => .pure rfl
  | (n, src, a) :: l, i, o, h => by
    have ha : ∀ c : Constraint, (keepO o).PatternProperties n src c.keep = keepO (o.PatternProperties n src c) := fun c => by
      simp only [ObjC.PatternProperties, keepO, ObjC.keep, ObjC.map, patInsert_map]
    simp only [List.map_cons, buildPats]
    refine (h (n, src, a) (by simp) _).bind fun c => ?_
    rw [ha]
    exact buildPats_keep fun p hp => h p (by simp [hp])

/-- Dependencies on schemas are not kept. -/
theorem buildDeps_keep : ∀ {l : List (GoStr × Act)} {i : Nat} {o o' : ObjC Constraint} {R R' : List GoStr},
    buildDeps σ i l o R = .ok (o', R') → keepO o' = keepO o
  | [], i, o, o', R, R', h => by rw [buildDeps, bm_pure] at h; rw [h.1]
  | (n, a) :: l, i, o, o', R, R', h => by
    rw [buildDeps, bm_bind] at h
    obtain ⟨c, R1, -, h⟩ := h
    rw [buildDeps_keep h]
    rfl

theorem depNames_keep : ∀ (l : List (GoStr × List GoStr)) (o : ObjC Constraint),
    l.foldl (fun o d => o.PropDependency d.1 d.2) (keepO o) = keepO (l.foldl (fun o d => o.PropDependency d.1 d.2) o)
  | [], _ => rfl
  | d :: l, o => by rw [List.foldl_cons, List.foldl_cons, ← depNames_keep l]; rfl

variable {s : SchemaF Schema} (h : ∀ x, s.Child x → ∀ σ, KeptRun Constraint.keep (f x σ) (g x σ))

theorem objectStart_keep : objectStart (s.keep.map g) = keepO (objectStart (s.map f)) := by
  unfold objectStart applyIf
  simp only [SchemaF.keep, SchemaF.map]
  by_cases h : 0 < s.required.length <;> simp only [h, if_true, if_false] <;> cases s.minProps <;> cases s.maxProps <;> rfl

include h

theorem buildObject_keep : KeptRun Constraint.keep (buildObject (s.map f) σ) (buildObject (s.keep.map g) σ) := by
  unfold buildObject
  rw [objectStart_keep (f := f)]
  simp only [SchemaF.map, SchemaF.keep]
  rw [shuffle_map (f := fun p : GoStr × Schema => (p.1, f p.2)), shuffle_map (f := fun p : GoStr × Schema => (p.1, g p.2))]
  refine (buildProps_keep fun p hp => h p.2 (.property (mem_shuffle.1 hp))).bind fun o => ?_
  rw [shuffle_map (f := fun p : Nat × GoStr × Schema => (p.1, p.2.1, f p.2.2)), shuffle_map (f := fun p : Nat × GoStr × Schema => (p.1, p.2.1, g p.2.2))]
  refine (buildPats_keep fun p hp => h p.2.2 (.patternProp (mem_shuffle.1 hp))).bind fun o => ?_
  have hend : ∀ o : ObjC Constraint, KeptRun Constraint.keep (buildDeps (σ.sub 6) 0 (shuffle (σ.sub 7).key (s.depSchemas.map fun p => (p.1, f p.2)))
      ((shuffle (σ.sub 5).key s.depNames).foldl (fun o d => o.PropDependency d.1 d.2) o) >>= fun o => pure (.object o))
      (buildDeps (σ.sub 6) 0 (shuffle (σ.sub 7).key ([].map fun p : GoStr × Schema => (p.1, g p.2)))
      ((shuffle (σ.sub 5).key s.depNames).foldl (fun o d => o.PropDependency d.1 d.2) (keepO o)) >>= fun o => pure (.object o)) := by
    intro o
    refine .drop fun R o' R1 ho => ?_
    simp only [List.map_nil, shuffle, buildDeps, pure_bind, depNames_keep]
    refine .pure ?_
    rw [keep_object, ← buildDeps_keep ho]
    rfl
  cases hx : s.additionalProps with
  | nil => simp only [Extra.map, pure_bind]; exact hend o
  | allow => simp only [Extra.map, pure_bind]; exact hend (o.AdditionalProperties (some .empty))
  | schema x =>
    simp only [Extra.map, bind_assoc, pure_bind]
    exact (h x (.additionalProps hx) _).bind fun c => hend (o.AdditionalProperties (some c))

theorem buildArray_keep : KeptRun Constraint.keep (buildArray (s.map f) σ) (buildArray (s.keep.map g) σ) := by
  have hend : ∀ a : ArrC Constraint, (Constraint.array (applyIf s.uniqueItems ArrC.UniqueItems (applyIf s.maxItems ArrC.MaxItems
      (applyIf s.minItems ArrC.MinItems a)))).keep = .array (applyIf s.uniqueItems ArrC.UniqueItems (applyIf s.maxItems ArrC.MaxItems
      (applyIf s.minItems ArrC.MinItems (a.map Constraint.keep).keep))) := fun a => by
    rw [keep_array]
    unfold applyIf
    cases s.uniqueItems <;> cases s.maxItems <;> cases s.minItems <;> rfl
  unfold buildArray
  simp only [SchemaF.map, SchemaF.keep]
  refine KeptRun.bind (k := fun a => (a.map Constraint.keep).keep) ?_ (fun a => KeptRun.pure (k := Constraint.keep) (hend a))
  cases hi : s.items with
  | nil => simp only [ItemSpec.map]; exact .pure (by simp [Array', ArrC.map, ArrC.keep, Constraint.keep])
  | list l =>
    cases l with
    | nil => simp only [ItemSpec.map, List.map_nil]; exact .throw
    | cons a l =>
      simp only [ItemSpec.map, List.map_cons]
      exact (h a (.list hi (by simp)) _).bind fun c => .pure (by simp [Array', ArrC.Items, ArrC.map, ArrC.keep, Constraint.keep])
  | tuple l =>
    simp only [ItemSpec.map]
    refine (buildList_keep fun x hx => h x (.tuple hi hx)).bind fun cs => ?_
    cases hx : s.additionalItems with
    | nil => simp only [Extra.map]; exact .pure (by simp [Array', ArrC.PositionalItems, ArrC.AdditionalItems, ArrC.map, ArrC.keep])
    | allow => simp only [Extra.map]; exact .pure (by simp [Array', ArrC.PositionalItems, ArrC.AdditionalItems, ArrC.map, ArrC.keep, Constraint.keep])
    | schema x =>
      simp only [Extra.map]
      exact (h x (.additionalItems hx) _).bind fun c => .pure (by simp [Array', ArrC.PositionalItems, ArrC.AdditionalItems, ArrC.map, ArrC.keep])

theorem buildCombo_keep (hnot : s.not = none) : KeptRun (List.map Constraint.keep) (buildCombo (s.map f) σ) (buildCombo (s.keep.map g) σ) := by
  have hlen : ∀ {R : List GoStr} {l : List Schema} {cs R1}, 0 < (l.map f).length → buildList σ 0 (l.map f) R = .ok (cs, R1) → cs ≠ [] := by
    rintro R l cs R1 h1 h2 rfl
    have := buildList_length h2
    rw [← this] at h1
    exact absurd h1 (by simp)
  unfold buildCombo
  simp only [SchemaF.map, SchemaF.keep, hnot, Option.map_none, List.length_map]
  split
  · exact (buildList_keep fun x hx => h x (.allOf hx)).bind fun cs => .pure (by simp [keep_reduceAll])
  split
  · rename_i h2
    intro R cs R1 h1 R'
    obtain ⟨a, R2, h3, h4⟩ := bm_bind.1 h1
    obtain ⟨R3, h5⟩ := buildList_keep (f := f) (g := g) (fun x hx => h x (.anyOf hx)) R a R2 h3 R'
    rw [bm_pure] at h4
    obtain ⟨rfl, rfl⟩ := h4
    exact ⟨R3, bm_bind.2 ⟨_, _, h5, by rw [bm_pure, List.map_singleton, keep_reduceAny (hlen (by simpa using h2) h3)]; exact ⟨rfl, rfl⟩⟩⟩
  split
  · rename_i h2
    intro R cs R1 h1 R'
    obtain ⟨a, R2, h3, h4⟩ := bm_bind.1 h1
    obtain ⟨R3, h5⟩ := buildList_keep (f := f) (g := g) (fun x hx => h x (.oneOf hx)) R a R2 h3 R'
    rw [bm_pure] at h4
    obtain ⟨rfl, rfl⟩ := h4
    exact ⟨R3, bm_bind.2 ⟨_, _, h5, by rw [bm_pure, List.map_singleton, keep_reduceOneOf (hlen (by simpa using h2) h3)]; exact ⟨rfl, rfl⟩⟩⟩
  · exact .pure rfl

omit h in
/-- Names are registered in both runs. -/
theorem KeptRun.modify {u : List GoStr → List GoStr} : KeptRun (fun x => x) (_root_.modify u : BM PUnit) (_root_.modify u) := by
  intro R a R1 h1 R'
  exact ⟨u R', rfl⟩

variable {ext : Ext} {cls : DocClass} {lib : SchemaLib} (hc : s.Conforming ext lib.formats cls) (hk : s.Keepable)

omit h in
include hc in
/-- Without types, nothing relevant is lost. -/
theorem untyped_keep (ht : s.type = []) : s.multipleOf = none ∧ s.minimum = none ∧ s.maximum = none ∧ s.additionalItems = .allow ∧
    s.minProps = none ∧ s.maxProps = none := by
  have hs : ∀ t, Suggests lib.formats s t → t = .string := by
    rcases hc.typed with h | h | h
    · exact absurd ht h
    · exact fun t hs => absurd hs (h.1 t)
    · exact h.2.2
  have hb : s.firstBound = none := by
    cases hf : s.firstBound with
    | none => rfl
    | some f =>
      by_cases hw : f.Whole
      · exact absurd (hs _ (.whole hf hw)) (by decide)
      · exact absurd (hs _ (.fractional hf hw)) (by decide)
  have hb : s.multipleOf = none ∧ s.minimum = none ∧ s.maximum = none := by
    unfold SchemaF.firstBound at hb
    cases h1 : s.multipleOf <;> cases h2 : s.minimum <;> cases h3 : s.maximum <;> simp_all
  refine ⟨hb.1, hb.2.1, hb.2.2, ?_, ?_, ?_⟩
  · by_contra h; exact absurd (hs _ (.additionalItems h)) (by decide)
  · by_contra h; exact absurd (hs _ (.minProps h)) (by decide)
  · by_contra h; exact absurd (hs _ (.maxProps h)) (by decide)

omit h in
include hc in
theorem keep_untyped (ht : s.type = []) : s.keep = { s with depSchemas := [] } := by
  obtain ⟨h1, h2, h3, h4, h5, h6⟩ := untyped_keep hc ht
  unfold SchemaF.keep
  rw [h2, h3, h4, if_neg (by simp [ht])]
  obtain ⟨⟩ := s
  simp_all

omit h in
include hc in
theorem schemaTypes_keep : schemaTypes lib s.keep = schemaTypes lib s := by
  by_cases ht : s.type = []
  · rw [keep_untyped hc ht]; rfl
  · have : 0 < s.type.length := List.length_pos_iff.2 ht
    unfold schemaTypes
    rw [if_pos this, if_pos (show 0 < s.keep.type.length from this)]
    rfl

omit h in
include hc hk in
theorem string_keep (ht : .string ∈ s.type ∨ s.type = []) : (stringOf (s.map f)).keep = stringOf (s.keep.map g) := by
  have he : s.keep.enum = s.enum := by
    unfold SchemaF.keep
    simp only
    split
    · rename_i hi
      rcases ht with ht | ht
      · symm
        by_contra hne
        obtain ⟨e, he⟩ := List.exists_mem_of_ne_nil _ hne
        obtain ⟨t, rfl, -⟩ := hk.enum (.inl ht) e he
        exact hk.enumTyped hi t he
      · rw [ht] at hi; cases hi
    · rfl
  have hs : s.enum.map GoVal.keep = s.enum := by
    conv_rhs => rw [← List.map_id s.enum]
    refine List.map_congr_left fun e h => ?_
    obtain ⟨t, rfl, -⟩ := hk.enum ht e h
    rfl
  rw [stringOf_fields (s.map f) hc.dflt, stringOf_fields (s.keep.map g) hc.dflt]
  unfold StrC.keep
  have h1 : (s.keep.map g).enum = s.enum := he
  have h2 : (s.map f).enum = s.enum := rfl
  rw [h1, h2]
  by_cases h0 : s.enum = []
  · rw [if_pos h0]; rfl
  · rw [if_neg h0, Option.map_some, hs]; rfl

omit h in
include hc hk in
theorem number_keep (ht : .number ∈ s.type) : (numberOf (s.map f)).keepNum = numberOf (s.keep.map g) := by
  have hen : s.enum = [] := by
    by_contra hne
    have := hc.enumTyped hne _ ht
    simp at this
  have hb : (∀ f, s.minimum = some f → keepBound s.type f = f.reread) ∧ ∀ f, s.maximum = some f → keepBound s.type f = f.reread := by
    unfold keepBound
    split
    · rename_i hi; exact hk.mixed ht hi
    · exact ⟨fun _ _ => rfl, fun _ _ => rfl⟩
  have h1 : s.minimum.map (keepBound s.type) = s.minimum.map F64.reread := by
    cases hm : s.minimum with | none => rfl | some f => simp [hb.1 f hm]
  have h2 : s.maximum.map (keepBound s.type) = s.maximum.map F64.reread := by
    cases hm : s.maximum with | none => rfl | some f => simp [hb.2 f hm]
  rw [numberOf_fields (s.map f) hc.dflt hen, numberOf_fields (s.keep.map g) hc.dflt (by simp [SchemaF.map, SchemaF.keep, hen]),
    boundsOf_fields, boundsOf_fields]
  simp only [SchemaF.map, SchemaF.keep, NumC.keepNum, h1, h2, Option.map_none, Option.map_eq_none_iff]
  congr

omit h in
include hc in
theorem integer_keep (ht : .integer ∈ s.type) : (integerOf (s.map f)).keepInt = integerOf (s.keep.map g) := by
  have hb : keepBound s.type = fun f => F64.ofInt f.truncInt := by
    funext f
    unfold keepBound
    rw [if_pos ht]
  rw [integerOf_fields (s.map f) hc.dflt, integerOf_fields (s.keep.map g) hc.dflt, boundsOf_fields, boundsOf_fields]
  simp only [SchemaF.map, SchemaF.keep, NumC.keepInt, hb, Option.map_none, Option.map_eq_none_iff, if_pos ht, if_true]
  congr

include hc hk in
theorem buildType_keep {t : PrimType} (ht : t ∈ s.type ∨ t = .string ∧ s.type = []) :
    KeptRun Constraint.keep (buildType (s.map f) σ t) (buildType (s.keep.map g) σ t) := by
  have hpos : ∀ {t : PrimType}, ¬ (0 < (s.map f).type.length ∧ t ∉ (s.map f).type) ↔ s.type = [] ∨ t ∈ s.type := fun {t} => by
    rw [show (s.map f).type = s.type from rfl, List.length_pos_iff, Classical.not_and_iff_not_or_not, not_not, not_not]
  cases t with
  | string =>
    simp only [buildType, buildString]
    rw [if_neg (hpos.2 (by rcases ht with h | h; exacts [.inr h, .inl h.2])), if_neg (show ¬ (0 < (s.keep.map g).type.length ∧ _ ∉ (s.keep.map g).type) from hpos.2 (by rcases ht with h | h; exacts [.inr h, .inl h.2]))]
    exact .pure (by rw [Constraint.keep, string_keep hc hk (by rcases ht with h | h; exacts [.inl h, .inr h.2])])
  | number =>
    have ht : .number ∈ s.type := by simpa using ht
    simp only [buildType, buildNumber]
    rw [if_neg (hpos.2 (.inr ht)), if_neg (show ¬ (0 < (s.keep.map g).type.length ∧ _ ∉ (s.keep.map g).type) from hpos.2 (.inr ht))]
    exact .pure (by rw [Constraint.keep, number_keep hc hk ht])
  | integer =>
    have ht : .integer ∈ s.type := by simpa using ht
    simp only [buildType, buildInteger]
    rw [if_neg (hpos.2 (.inr ht)), if_neg (show ¬ (0 < (s.keep.map g).type.length ∧ _ ∉ (s.keep.map g).type) from hpos.2 (.inr ht))]
    exact .pure (by rw [Constraint.keep, integer_keep hc ht])
  | boolean =>
    simp only [buildType, buildBoolean, show (s.map f).dflt = .nil from hc.dflt, show (s.keep.map g).dflt = .nil from hc.dflt]
    exact .pure (by rw [Constraint.keep])
  | array => exact buildArray_keep h
  | object => exact buildObject_keep h
  | null => exact .pure (by rw [Constraint.keep])
  | _ => exact .throw

include hc hk in
theorem buildTypes_keep : ∀ {l : List PrimType} {i : Nat}, (∀ t ∈ l, t ∈ s.type ∨ t = .string ∧ s.type = []) →
    KeptRun (List.map Constraint.keep) (buildTypes (s.map f) σ i l) (buildTypes (s.keep.map g) σ i l)
  | [], i, _ => .pure rfl
  | t :: l, i, hl => by
    simp only [buildTypes]
    refine (buildType_keep h hc hk (hl t (by simp))).bind fun c => ?_
    exact (buildTypes_keep fun t ht => hl t (by simp [ht])).bind fun cs => .pure rfl

omit h in
theorem buildTypes_length {s : SchemaF Act} {l : List PrimType} : ∀ {i : Nat} {R R' : List GoStr} {cs : List Constraint},
    buildTypes s σ i l R = .ok (cs, R') → cs.length = l.length := by
  induction l with
  | nil => intro i R R' cs h; rw [buildTypes, bm_pure] at h; rw [← h.1]; rfl
  | cons a l ih =>
    intro i R R' cs h
    rw [buildTypes, bm_bind] at h
    obtain ⟨c, R1, -, h⟩ := h
    rw [bm_bind] at h
    obtain ⟨cs', R2, h2, h⟩ := h
    rw [bm_pure] at h
    rw [← h.1, List.length_cons, List.length_cons, ih h2]

omit h in
include hc in
theorem schemaTypes_of {t : PrimType} (ht : t ∈ schemaTypes lib s) : t ∈ s.type ∨ t = .string ∧ s.type = [] := by
  by_cases h0 : s.type = []
  · rw [mem_schemaTypes, if_neg (by simp [h0]), mem_guess] at ht
    rcases hc.typed with h1 | h1 | h1
    · exact absurd h0 h1
    · exact absurd ht (h1.1 t)
    · exact .inr ⟨h1.2.2 t ht, h0⟩
  · rw [mem_schemaTypes, if_pos (List.length_pos_iff.2 h0)] at ht
    exact .inl ht

omit h in
include hk in
/-- Something listed is kept along with a type. -/
theorem types_of_enum (hne : s.enum ≠ []) : schemaTypes lib s ≠ [] := by
  intro h0
  by_cases ht : s.type = []
  · obtain ⟨e, he⟩ := List.exists_mem_of_ne_nil _ hne
    obtain ⟨t, rfl, -⟩ := hk.enum (.inr ht) e he
    have : (.string : PrimType) ∈ schemaTypes lib s := by
      rw [mem_schemaTypes, if_neg (by simp [ht]), mem_guess]
      exact .stringEnum he
    rw [h0] at this; cases this
  · obtain ⟨t, htm⟩ := List.exists_mem_of_ne_nil _ ht
    have : t ∈ schemaTypes lib s := by rw [mem_schemaTypes, if_pos (List.length_pos_iff.2 ht)]; exact htm
    rw [h0] at this; cases this

include hc hk in
theorem buildNode_keep {m : Nat} : KeptRun Constraint.keep (buildNode lib m (s.map f) σ) (buildNode lib m (s.keep.map g) σ) := by
  unfold buildNode
  rw [show (s.map f).reference = s.reference from rfl, show (s.keep.map g).reference = s.reference from rfl]
  split
  · exact KeptRun.modify.bind fun _ => .pure (by rw [Constraint.keep])
  · refine (buildCombo_keep h hk.not).bind fun ct => ?_
    rw [schemaTypes_map, schemaTypes_map, schemaTypes_keep hc]
    by_cases h0 : 0 < (schemaTypes lib s).length
    · simp only [if_pos h0]
      intro R c R1 h1 R'
      obtain ⟨cs, R2, h2, h3⟩ := bm_bind.1 h1
      obtain ⟨R3, h4⟩ := buildTypes_keep h hc hk (fun t ht => schemaTypes_of hc ht) R cs R2 h2 R'
      rw [bm_pure] at h3
      obtain ⟨rfl, rfl⟩ := h3
      refine ⟨R3, bm_bind.2 ⟨_, _, h4, ?_⟩⟩
      rw [bm_pure, keep_reduceAll, List.map_append, List.map_singleton, keep_reduceAny]
      · exact ⟨rfl, rfl⟩
      · rintro rfl
        rw [← buildTypes_length h2] at h0
        exact absurd h0 (by simp)
    · have he : s.enum = [] := by
        by_contra he
        exact h0 (List.length_pos_iff.2 (types_of_enum hk he))
      simp only [if_neg h0]
      rw [if_neg (by simp [SchemaF.map, he]), if_neg (by simp [SchemaF.map, SchemaF.keep, he])]
      exact .pure (keep_reduceAll ct)

end

/-- What is kept of a built constraint is built from what is kept of the schema. -/
theorem build_keep {ext : Ext} {cls : DocClass} {lib : SchemaLib} {m : Nat} {s : Schema} (h : s.Conforms ext lib.formats cls) :
    s.Keeps → ∀ σ, KeptRun Constraint.keep (build lib m s σ) (build lib m s.keep σ) := by
  induction h with
  | ref s hne =>
    intro _ σ
    rw [Schema.keep_mk, build_mk, build_mk]
    unfold buildNode
    rw [if_pos (show (s.map (build lib m)).reference ≠ [] from hne), if_pos (show ((s.map Schema.keep).keep.map (build lib m)).reference ≠ [] from hne)]
    exact KeptRun.modify.bind fun _ => .pure (by rw [Constraint.keep]; rfl)
  | node s hr hcf _ ih =>
    intro hk σ
    obtain ⟨hx, hk⟩ : s.Keepable ∧ ∀ c, s.Child c → c.Keeps := by
      cases hk with
      | ref _ h => exact absurd hr h
      | node _ _ h h' => exact ⟨h, h'⟩
    rw [Schema.keep_mk, build_mk, build_mk, ← SchemaF.keep_map, SchemaF.map_map]
    exact buildNode_keep (fun x hx σ => ih x hx (hk x hx) σ) hcf hx

theorem builtFrom_keep {ext : Ext} {cls : DocClass} {lib : SchemaLib} {m : Nat} {s : Schema} (h : s.Conforms ext lib.formats cls)
    (hk : s.Keeps) {c : Constraint} (hb : BuiltFrom lib m s c) : BuiltFrom lib m s.keep c.keep := by
  obtain ⟨σ, R, R', hb⟩ := hb
  obtain ⟨R1, h1⟩ := build_keep h hk σ R c R' hb []
  exact ⟨σ, [], R1, h1⟩

end Jsval
