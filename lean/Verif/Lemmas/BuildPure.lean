import Verif.Lemmas.BuildPlain
import Verif.Lemmas.BuilderShape
import Verif.Lemmas.Matches
/-!
# The builder with all loops in one fixed order, as a function
-/
namespace Jsval

/-- All loops in the order that `shuffle 0` gives. -/
def zeroSched : Sched := fun _ => 0

theorem zero_sub (i : Nat) : zeroSched.sub i = zeroSched := rfl
theorem zero_key : zeroSched.key = 0 := rfl

section
variable {C D : Type}

/-- The additional rule; `e` accepts all. -/
def extraC (e : C) : Extra C → Option C
  | .nil => none
  | .allow => some e
  | .schema c => some c

/-- The array constraint of a schema whose parts are built. -/
def arrC (s : SchemaF C) (e : C) : ArrC C where
  items := match s.items with | .list (c :: _) => some c | _ => none
  positional := match s.items with | .tuple l => l | _ => []
  additional := match s.items with | .tuple _ => extraC e s.additionalItems | _ => some e
  minItems := s.minItems.getD (-1)
  maxItems := s.maxItems.getD (-1)
  unique := s.uniqueItems.getD false

/-- The object constraint of a schema whose parts are built. -/
def objC (s : SchemaF C) (e : C) : ObjC C where
  props := (shuffle 0 s.properties).foldl (fun acc q => ainsert q.1 q.2 acc) []
  patterns := (shuffle 0 s.patternProps).foldl (fun acc q => patInsert q.1 q.2.1 q.2.2 acc) []
  additional := extraC e s.additionalProps
  required := (objectStart s).required
  propdeps := ((shuffle 0 s.depNames).foldl (fun o d => o.PropDependency d.1 d.2) Object').propdeps
  schemadeps := (shuffle 0 s.depSchemas).foldl (fun acc q => ainsert q.1 q.2 acc) []
  minProps := (objectStart s).minProps
  maxProps := (objectStart s).maxProps

theorem extraC_map (f : C → D) (e : C) (x : Extra C) : extraC (f e) (x.map f) = (extraC e x).map f := by cases x <;> rfl

theorem arrC_map (f : C → D) (s : SchemaF C) (e : C) : arrC (s.map f) (f e) = (arrC s e).map f := by
  unfold arrC ArrC.map
  simp only [SchemaF.map, extraC_map]
  rcases s.items with _ | (_ | ⟨a, l⟩) | l <;> rfl

theorem foldl_ainsert_map (f : C → D) : ∀ (l acc : List (GoStr × C)),
    (l.map fun p => (p.1, f p.2)).foldl (fun acc q => ainsert q.1 q.2 acc) (acc.map fun p => (p.1, f p.2)) =
      (l.foldl (fun acc q => ainsert q.1 q.2 acc) acc).map fun p => (p.1, f p.2)
  | [], _ => rfl
  | p :: l, acc => by
    simp only [List.map_cons, List.foldl_cons]
    rw [ainsert_map, foldl_ainsert_map f l]

theorem foldl_patInsert_map (f : C → D) : ∀ (l acc : List (Nat × GoStr × C)),
    (l.map fun p => (p.1, p.2.1, f p.2.2)).foldl (fun acc q => patInsert q.1 q.2.1 q.2.2 acc) (acc.map fun p => (p.1, p.2.1, f p.2.2)) =
      (l.foldl (fun acc q => patInsert q.1 q.2.1 q.2.2 acc) acc).map fun p => (p.1, p.2.1, f p.2.2)
  | [], _ => rfl
  | p :: l, acc => by
    simp only [List.map_cons, List.foldl_cons]
    rw [patInsert_map, foldl_patInsert_map f l]

theorem objC_map (f : C → D) (s : SchemaF C) (e : C) : objC (s.map f) (f e) = (objC s e).map f := by
  have h1 := foldl_ainsert_map f (shuffle 0 s.properties) []
  have h2 := foldl_patInsert_map f (shuffle 0 s.patternProps) []
  have h3 := foldl_ainsert_map f (shuffle 0 s.depSchemas) []
  rw [← shuffle_map] at h1 h2 h3
  unfold objC ObjC.map
  simp only [SchemaF.map, extraC_map]
  simp only [List.map_nil] at h1 h2 h3
  rw [h1, h2, h3]
  rfl

theorem or_of_mem_ainserts {p : GoStr × C} : ∀ {l acc : List (GoStr × C)}, p ∈ l.foldl (fun acc q => ainsert q.1 q.2 acc) acc → p ∈ l ∨ p ∈ acc
  | [], _, h => .inr h
  | q :: l, acc, h => by
    rcases or_of_mem_ainserts (l := l) h with h | h
    · exact .inl (by simp [h])
    · have : ∀ acc : List (GoStr × C), p ∈ ainsert q.1 q.2 acc → p = q ∨ p ∈ acc := by
        intro acc
        induction acc with
        | nil => intro h; simpa [ainsert] using h
        | cons r acc ih =>
          intro h
          simp only [ainsert] at h
          split at h
          · simp only [List.mem_cons] at h ⊢
            tauto
          · simp only [List.mem_cons] at h ⊢
            rcases h with h | h
            · exact .inr (.inl h)
            · rcases ih h with h | h
              · exact .inl h
              · exact .inr (.inr h)
      rcases this acc h with rfl | h
      · exact .inl (by simp)
      · exact .inr h

theorem or_of_mem_patInserts {p : Nat × GoStr × C} : ∀ {l acc : List (Nat × GoStr × C)},
    p ∈ l.foldl (fun acc q => patInsert q.1 q.2.1 q.2.2 acc) acc → p ∈ l ∨ p ∈ acc
  | [], _, h => .inr h
  | q :: l, acc, h => by
    rcases or_of_mem_patInserts (l := l) h with h | h
    · exact .inl (by simp [h])
    · have : ∀ acc : List (Nat × GoStr × C), p ∈ patInsert q.1 q.2.1 q.2.2 acc → p = q ∨ p ∈ acc := by
        intro acc
        induction acc with
        | nil => intro h; simpa [patInsert] using h
        | cons r acc ih =>
          intro h
          simp only [patInsert] at h
          split at h
          · simp only [List.mem_cons] at h ⊢
            tauto
          · simp only [List.mem_cons] at h ⊢
            rcases h with h | h
            · exact .inr (.inl h)
            · rcases ih h with h | h
              · exact .inl h
              · exact .inr (.inr h)
      rcases this acc h with rfl | h
      · exact .inl (by simp)
      · exact .inr h

theorem extraC_child {e c : C} {x : Extra C} (h : extraC e x = some c) : c = e ∨ x = .schema c := by
  cases x with
  | nil => cases h
  | allow => cases h; exact .inl rfl
  | schema d => cases h; exact .inr rfl

theorem arrC_child {s : SchemaF C} {e c : C} (h : (arrC s e).Child c) : c = e ∨ s.Child c := by
  cases h with
  | items h =>
    simp only [arrC] at h
    split at h
    · rename_i hi
      cases h
      exact .inr (.list hi (by simp))
    · cases h
  | positional h =>
    simp only [arrC] at h
    split at h
    · rename_i hi
      exact .inr (.tuple hi h)
    · cases h
  | additional h =>
    simp only [arrC] at h
    split at h
    · exact (extraC_child h).imp_right .additionalItems
    · cases h; exact .inl rfl

theorem objC_child {s : SchemaF C} {e c : C} (h : (objC s e).Child c) : c = e ∨ s.Child c := by
  cases h with
  | prop h =>
    rcases or_of_mem_ainserts h with h | h
    · exact .inr (.property (mem_shuffle.1 h))
    · cases h
  | pattern h =>
    rcases or_of_mem_patInserts h with h | h
    · exact .inr (.patternProp (mem_shuffle.1 h))
    · cases h
  | additional h => exact (extraC_child h).imp_right .additionalProps
  | dependency h =>
    rcases or_of_mem_ainserts (alookup_mem h) with h | h
    · exact .inr (.dependency (mem_shuffle.1 h))
    · cases h
end

theorem types_of_map {α β : Type} (lib : SchemaLib) (g : α → β) (s : SchemaF α) : schemaTypes lib (s.map g) = schemaTypes lib s := by
  unfold schemaTypes
  rw [guess_map]
  rfl

/-- One type of a schema whose parts are built. -/
def typeC (s : SchemaF Constraint) : PrimType → Constraint
  | .string => .string (stringOf s)
  | .number => .number (numberOf s)
  | .integer => .integer (integerOf s)
  | .boolean => match s.dflt with
    | .bool b => .boolean (some (.bool b))
    | _ => .boolean none
  | .array => .array (arrC s .empty)
  | .object => .object (objC s .empty)
  | .null => .null
  | _ => .empty

/-- The combinators. -/
def comboC (s : SchemaF Constraint) : List Constraint :=
  match s.not with
  | some c => [.not (some c)]
  | none =>
    if 0 < s.allOf.length then [reduceAll s.allOf]
    else if 0 < s.anyOf.length then [reduceAny s.anyOf]
    else if 0 < s.oneOf.length then [reduceOneOf s.oneOf]
    else []

/-- The constraint of a schema whose parts are built. -/
def nodeC (lib : SchemaLib) (m : Nat) (s : SchemaF Constraint) : Constraint :=
  if s.reference ≠ [] then .ref m s.reference
  else if 0 < (schemaTypes lib s).length then reduceAll (comboC s ++ [reduceAny ((schemaTypes lib s).map (typeC s))])
  else if 0 < s.enum.length then reduceAll (comboC s ++ [.enum s.enum])
  else reduceAll (comboC s)

/-- What is built from a schema, if anything is. -/
def buildC (lib : SchemaLib) (m : Nat) : Schema → Constraint := Schema.fold .empty (nodeC lib m)

theorem buildC_mk (lib : SchemaLib) (m : Nat) (s : SchemaF Schema) : buildC lib m (.mk s) = nodeC lib m (s.map (buildC lib m)) := Schema.fold_mk _ _ s

/-! ## It is what the builder builds -/

section
variable {S : Type} {f : S → Act} {g : S → Constraint}

/-- If the action succeeds, it builds this. -/
def Gives (a : Act) (c : Constraint) : Prop := ∀ R c' R', a zeroSched R = .ok (c', R') → c' = c

theorem gives_list : ∀ {l : List S} {i : Nat} {R R' : List GoStr} {cs : List Constraint}, (∀ a ∈ l, Gives (f a) (g a)) →
    buildList zeroSched i (l.map f) R = .ok (cs, R') → cs = l.map g
  | [], i, R, R', cs, _, h => by
    simp only [List.map_nil, buildList] at h
    rw [bm_pure] at h
    exact h.1.symm
  | a :: l, i, R, R', cs, hl, h => by
    simp only [List.map_cons, buildList] at h
    rw [bm_bind] at h
    obtain ⟨c, R1, h1, h⟩ := h
    rw [bm_bind] at h
    obtain ⟨cs', R2, h2, h⟩ := h
    rw [bm_pure] at h
    rw [← h.1, hl a (by simp) _ _ _ h1, gives_list (fun b hb => hl b (by simp [hb])) h2]
    rfl

theorem gives_props : ∀ {l : List (GoStr × S)} {i : Nat} {R R' : List GoStr} {o o' : ObjC Constraint}, (∀ p ∈ l, Gives (f p.2) (g p.2)) →
    buildProps zeroSched i (l.map fun p => (p.1, f p.2)) o R = .ok (o', R') →
    o' = { o with props := (l.map fun p => (p.1, g p.2)).foldl (fun acc q => ainsert q.1 q.2 acc) o.props }
  | [], i, R, R', o, o', _, h => by
    simp only [List.map_nil, buildProps] at h
    rw [bm_pure] at h
    exact h.1.symm
  | (n, a) :: l, i, R, R', o, o', hl, h => by
    simp only [List.map_cons, buildProps] at h
    rw [bm_bind] at h
    obtain ⟨c, R1, h1, h⟩ := h
    rw [gives_props (fun b hb => hl b (by simp [hb])) h, hl (n, a) (by simp) _ _ _ h1]
    rfl

theorem gives_deps : ∀ {l : List (GoStr × S)} {i : Nat} {R R' : List GoStr} {o o' : ObjC Constraint}, (∀ p ∈ l, Gives (f p.2) (g p.2)) →
    buildDeps zeroSched i (l.map fun p => (p.1, f p.2)) o R = .ok (o', R') →
    o' = { o with schemadeps := (l.map fun p => (p.1, g p.2)).foldl (fun acc q => ainsert q.1 q.2 acc) o.schemadeps }
  | [], i, R, R', o, o', _, h => by
    simp only [List.map_nil, buildDeps] at h
    rw [bm_pure] at h
    exact h.1.symm
  | (n, a) :: l, i, R, R', o, o', hl, h => by
    simp only [List.map_cons, buildDeps] at h
    rw [bm_bind] at h
    obtain ⟨c, R1, h1, h⟩ := h
    rw [gives_deps (fun b hb => hl b (by simp [hb])) h, hl (n, a) (by simp) _ _ _ h1]
    rfl

theorem gives_pats : ∀ {l : List (Nat × GoStr × S)} {i : Nat} {R R' : List GoStr} {o o' : ObjC Constraint}, (∀ p ∈ l, Gives (f p.2.2) (g p.2.2)) →
    buildPats zeroSched i (l.map fun p => (p.1, p.2.1, f p.2.2)) o R = .ok (o', R') →
    o' = { o with patterns := (l.map fun p => (p.1, p.2.1, g p.2.2)).foldl (fun acc q => patInsert q.1 q.2.1 q.2.2 acc) o.patterns }
  | [], i, R, R', o, o', _, h => by
    simp only [List.map_nil, buildPats] at h
    rw [bm_pure] at h
    exact h.1.symm
  | (n, src, a) :: l, i, R, R', o, o', hl, h => by
    simp only [List.map_cons, buildPats] at h
    rw [bm_bind] at h
    obtain ⟨c, R1, h1, h⟩ := h
    rw [gives_pats (fun b hb => hl b (by simp [hb])) h, hl (n, src, a) (by simp) _ _ _ h1]
    rfl

variable {s : SchemaF S} (hs : ∀ a, s.Child a → Gives (f a) (g a)) {R R' : List GoStr}
include hs

theorem gives_array {c : Constraint} (h : buildArray (s.map f) zeroSched R = .ok (c, R')) : c = .array (arrC (s.map g) .empty) := by
  have he : ∀ a : ArrC Constraint, applyIf s.uniqueItems ArrC.UniqueItems (applyIf s.maxItems ArrC.MaxItems (applyIf s.minItems ArrC.MinItems a)) =
      { a with minItems := s.minItems.getD a.minItems, maxItems := s.maxItems.getD a.maxItems, unique := s.uniqueItems.getD a.unique } := by
    intro a
    unfold applyIf
    cases s.uniqueItems <;> cases s.maxItems <;> cases s.minItems <;> rfl
  unfold buildArray at h
  rw [bm_bind] at h
  obtain ⟨a, R1, h1, h⟩ := h
  rw [bm_pure] at h
  rw [← h.1]
  change Constraint.array (applyIf s.uniqueItems ArrC.UniqueItems (applyIf s.maxItems ArrC.MaxItems (applyIf s.minItems ArrC.MinItems a))) = _
  rw [he]
  simp only [SchemaF.map] at h1
  unfold arrC
  simp only [SchemaF.map]
  cases hi : s.items with
  | nil =>
    simp only [hi, ItemSpec.map] at h1 ⊢
    rw [bm_pure] at h1
    rw [← h1.1]
    rfl
  | list l =>
    cases l with
    | nil =>
      simp only [hi, ItemSpec.map, List.map_nil] at h1
      rw [bm_throw] at h1
      exact h1.elim
    | cons x l =>
      simp only [hi, ItemSpec.map, List.map_cons] at h1 ⊢
      rw [bm_bind] at h1
      obtain ⟨c, R2, h1, h2⟩ := h1
      rw [bm_pure] at h2
      rw [← h2.1, hs x (.list hi (by simp)) _ _ _ h1]
      rfl
  | tuple l =>
    simp only [hi, ItemSpec.map] at h1 ⊢
    rw [bm_bind] at h1
    obtain ⟨cs, R2, h1, h2⟩ := h1
    rw [zero_sub] at h1
    rw [gives_list (fun x hx => hs x (.tuple hi hx)) h1] at h2
    cases hx : s.additionalItems with
    | nil =>
      simp only [hx, Extra.map] at h2 ⊢
      rw [bm_pure] at h2
      rw [← h2.1]
      rfl
    | allow =>
      simp only [hx, Extra.map] at h2 ⊢
      rw [bm_pure] at h2
      rw [← h2.1]
      rfl
    | schema x =>
      simp only [hx, Extra.map] at h2 ⊢
      rw [bm_bind] at h2
      obtain ⟨c, R3, h3, h2⟩ := h2
      rw [bm_pure] at h2
      rw [← h2.1, hs x (.additionalItems hx) _ _ _ h3]
      rfl

theorem gives_object {c : Constraint} (h : buildObject (s.map f) zeroSched R = .ok (c, R')) : c = .object (objC (s.map g) .empty) := by
  unfold buildObject at h
  rw [bm_bind] at h
  obtain ⟨o1, R1, h1, h⟩ := h
  rw [bm_bind] at h
  obtain ⟨o2, R2, h2, h⟩ := h
  rw [bm_bind] at h
  obtain ⟨o3, R3, h3, h⟩ := h
  rw [bm_bind] at h
  obtain ⟨o4, R4, h4, h⟩ := h
  rw [bm_pure] at h
  simp only [zero_sub, zero_key, SchemaF.map] at h1 h2 h3 h4
  rw [shuffle_map (f := fun p : GoStr × S => (p.1, f p.2))] at h1 h4
  rw [shuffle_map (f := fun p : Nat × GoStr × S => (p.1, p.2.1, f p.2.2))] at h2
  have e1 := gives_props (g := g) (fun p hp => hs p.2 (.property (n := p.1) (mem_shuffle.1 hp))) h1
  have e2 := gives_pats (g := g) (fun p hp => hs p.2.2 (.patternProp (i := p.1) (n := p.2.1) (mem_shuffle.1 hp))) h2
  have e4 := gives_deps (g := g) (fun p hp => hs p.2 (.dependency (n := p.1) (mem_shuffle.1 hp))) h4
  have e3 : o3 = { o2 with additional := extraC .empty ((s.map g).additionalProps) } := by
    simp only [SchemaF.map]
    have hn : o2.additional = none := by
      rw [e2, e1]
      change (objectStart (s.map f)).additional = none
      unfold objectStart applyIf
      simp only [SchemaF.map]
      by_cases hq : 0 < s.required.length <;> simp only [hq, if_true, if_false] <;> cases s.minProps <;> cases s.maxProps <;> rfl
    cases hx : s.additionalProps with
    | nil =>
      simp only [hx, Extra.map] at h3 ⊢
      rw [bm_pure] at h3
      rw [← h3.1]
      simp only [extraC, ← hn]
    | allow =>
      simp only [hx, Extra.map] at h3 ⊢
      rw [bm_pure] at h3
      rw [← h3.1]
      rfl
    | schema x =>
      simp only [hx, Extra.map] at h3 ⊢
      rw [bm_bind] at h3
      obtain ⟨c, R3, h5, h3⟩ := h3
      rw [bm_pure] at h3
      rw [← h3.1, hs x (.additionalProps hx) _ _ _ h5]
      rfl
  rw [propDep_fold _ o3 Object' (by
    rw [e3, e2, e1]
    change (objectStart (s.map f)).propdeps = []
    unfold objectStart applyIf
    simp only [SchemaF.map]
    by_cases hq : 0 < s.required.length <;> simp only [hq, if_true, if_false] <;> cases s.minProps <;> cases s.maxProps <;> rfl)] at e4
  have hb : (objectStart (s.map f)).props = [] ∧ (objectStart (s.map f)).patterns = [] ∧ (objectStart (s.map f)).schemadeps = [] := by
    unfold objectStart applyIf
    simp only [SchemaF.map]
    by_cases hq : 0 < s.required.length <;> simp only [hq, if_true, if_false] <;> cases s.minProps <;> cases s.maxProps <;> exact ⟨rfl, rfl, rfl⟩
  rw [← h.1, e4, e3, e2, e1]
  unfold objC
  have k1 := shuffle_map (f := fun p : GoStr × S => (p.1, g p.2)) (k := 0) (l := s.properties)
  have k2 := shuffle_map (f := fun p : Nat × GoStr × S => (p.1, p.2.1, g p.2.2)) (k := 0) (l := s.patternProps)
  have k3 := shuffle_map (f := fun p : GoStr × S => (p.1, g p.2)) (k := 0) (l := s.depSchemas)
  change Constraint.object (ObjC.mk _ _ _ _ _ _ _ _) = _
  change (objectStart (s.map f)).props = [] ∧ (objectStart (s.map f)).patterns = [] ∧ (objectStart (s.map f)).schemadeps = [] at hb
  simp only [SchemaF.map] at hb ⊢
  rw [k1, k2, k3]
  congr 2
  · exact congrArg (List.foldl _ · _) hb.1
  · exact congrArg (List.foldl _ · _) hb.2.1
  · exact congrArg (List.foldl _ · _) hb.2.2
theorem gives_type {t : PrimType} {c : Constraint} (h : buildType (s.map f) zeroSched t R = .ok (c, R')) : c = typeC (s.map g) t := by
  cases t with
  | string =>
    simp only [buildType, buildString] at h
    split at h
    · rw [bm_throw] at h; exact h.elim
    · rw [bm_pure] at h; exact h.1.symm
  | number =>
    simp only [buildType, buildNumber] at h
    split at h
    · rw [bm_throw] at h; exact h.elim
    · rw [bm_pure] at h; exact h.1.symm
  | integer =>
    simp only [buildType, buildInteger] at h
    split at h
    · rw [bm_throw] at h; exact h.elim
    · rw [bm_pure] at h; exact h.1.symm
  | boolean =>
    simp only [buildType, buildBoolean] at h
    change (match s.dflt with | .bool b => pure (.boolean (some (.bool b))) | _ => pure (.boolean none) : BM Constraint) R = _ at h
    change c = match s.dflt with | .bool b => .boolean (some (.bool b)) | _ => .boolean none
    generalize s.dflt = d at h ⊢
    cases d
    case bool b => simp only at h ⊢; rw [bm_pure] at h; exact h.1.symm
    all_goals (simp only at h ⊢; rw [bm_pure] at h; exact h.1.symm)
  | array => exact gives_array hs h
  | object => exact gives_object hs h
  | null =>
    simp only [buildType] at h
    rw [bm_pure] at h
    exact h.1.symm
  | unspecified => simp only [buildType] at h; rw [bm_throw] at h; exact h.elim
  | other n => simp only [buildType] at h; rw [bm_throw] at h; exact h.elim

theorem gives_types : ∀ {l : List PrimType} {i : Nat} {R R' : List GoStr} {cs : List Constraint},
    buildTypes (s.map f) zeroSched i l R = .ok (cs, R') → cs = l.map (typeC (s.map g))
  | [], i, R, R', cs, h => by
    simp only [buildTypes] at h
    rw [bm_pure] at h
    exact h.1.symm
  | t :: l, i, R, R', cs, h => by
    simp only [buildTypes, zero_sub] at h
    rw [bm_bind] at h
    obtain ⟨c, R1, h1, h⟩ := h
    rw [bm_bind] at h
    obtain ⟨cs', R2, h2, h⟩ := h
    rw [bm_pure] at h
    rw [← h.1, gives_type hs h1, gives_types h2]
    rfl

theorem gives_combo {l : List Constraint} (h : buildCombo (s.map f) zeroSched R = .ok (l, R')) : l = comboC (s.map g) := by
  unfold buildCombo at h
  unfold comboC
  simp only [SchemaF.map, List.length_map, zero_sub] at h ⊢
  cases hn : s.not with
  | some a =>
    simp only [hn, Option.map_some] at h ⊢
    rw [bm_bind] at h
    obtain ⟨c, R1, h1, h⟩ := h
    rw [bm_pure] at h
    rw [← h.1, hs a (.not hn) _ _ _ h1]
  | none =>
    simp only [hn, Option.map_none] at h ⊢
    split
    · rename_i hl
      rw [if_pos hl, bm_bind] at h
      obtain ⟨c, R1, h1, h⟩ := h
      rw [bm_pure] at h
      rw [← h.1, gives_list (fun a ha => hs a (.allOf ha)) h1]
    · rename_i hl
      rw [if_neg hl] at h
      split
      · rename_i hl
        rw [if_pos hl, bm_bind] at h
        obtain ⟨c, R1, h1, h⟩ := h
        rw [bm_pure] at h
        rw [← h.1, gives_list (fun a ha => hs a (.anyOf ha)) h1]
      · rename_i hl
        rw [if_neg hl] at h
        split
        · rename_i hl
          rw [if_pos hl, bm_bind] at h
          obtain ⟨c, R1, h1, h⟩ := h
          rw [bm_pure] at h
          rw [← h.1, gives_list (fun a ha => hs a (.oneOf ha)) h1]
        · rename_i hl
          rw [if_neg hl, bm_pure] at h
          exact h.1.symm

theorem gives_node {lib : SchemaLib} {m : Nat} : Gives (buildNode lib m (s.map f)) (nodeC lib m (s.map g)) := by
  intro R c R' h
  unfold buildNode at h
  unfold nodeC
  change (if s.reference ≠ [] then _ else _ : BM Constraint) R = _ at h
  change c = if s.reference ≠ [] then _ else _
  split at h
  · rename_i hr
    rw [if_pos hr]
    rw [bm_bind] at h
    obtain ⟨_, R1, _, h⟩ := h
    rw [bm_pure] at h
    exact h.1.symm
  · rename_i hr
    rw [if_neg hr]
    rw [bm_bind] at h
    obtain ⟨ct, R1, h1, h⟩ := h
    have h1 := gives_combo hs h1
    have hf : schemaTypes lib (s.map f) = schemaTypes lib s := types_of_map lib f s
    have hg : schemaTypes lib (s.map g) = schemaTypes lib s := types_of_map lib g s
    rw [hg]
    simp only [hf] at h
    rw [show (s.map f).enum = s.enum from rfl] at h
    rw [show (s.map g).enum = s.enum from rfl]
    split at h
    · rename_i ht
      rw [if_pos ht]
      rw [bm_bind] at h
      obtain ⟨cs, R2, h2, h⟩ := h
      rw [bm_pure] at h
      rw [← h.1, h1, gives_types hs h2]
    · rename_i ht
      rw [if_neg ht]
      split at h
      · rename_i he
        rw [if_pos he]
        rw [bm_pure] at h
        rw [← h.1, h1]
      · rename_i he
        rw [if_neg he]
        rw [bm_pure] at h
        rw [← h.1, h1]
end

theorem gives_build (lib : SchemaLib) (m : Nat) (s : Schema) : Gives (build lib m s) (buildC lib m s) := by
  induction s using Schema.ind with
  | hn =>
    intro R c R' h
    rw [build_nil, bm_throw] at h
    exact h.elim
  | h s ih =>
    rw [buildC_mk, show build lib m (.mk s) = buildNode lib m (s.map (build lib m)) from Schema.fold_mk _ _ s]
    exact gives_node ih

/-! ## Registered constraints -/

section
variable {lib : SchemaLib} {m : Nat} {resolve : Resolver} {P : GoStr → Constraint → Prop}
  (hP : ∀ n t, (resolve n).target = .ok t → P n (buildC lib m t))
include hP

theorem compile_zero : ∀ k : Nat,
    (∀ ref st st', compileRef lib m resolve k zeroSched ref st = .ok st' → (∀ p ∈ st.table, P p.1 p.2) → ∀ p ∈ st'.table, P p.1 p.2) ∧
    (∀ l st st', compileLoop lib m resolve k zeroSched l st = .ok st' → (∀ p ∈ st.table, P p.1 p.2) → ∀ p ∈ st'.table, P p.1 p.2)
  | 0 => by
    refine ⟨fun ref st st' h => (by rw [compileRef] at h; cases h), fun l st st' h => ?_⟩
    cases l with
    | nil => rw [compileLoop] at h; cases h; exact id
    | cons a l => rw [compileLoop] at h; cases h
  | k + 1 => by
    obtain ⟨ih1, ih2⟩ := compile_zero k
    constructor
    · intro ref st st' h hst
      rw [compileRef] at h
      split at h
      · cases h; exact hst
      · rcases ht : (resolve ref).target with e | s1
        · rw [ht] at h; cases h
        · rw [ht] at h
          simp only [zero_sub] at h
          rcases hb : build lib m s1 zeroSched st.names with e | ⟨c1, names⟩
          · rw [hb] at h; cases h
          · rw [hb] at h
            refine ih2 _ _ _ h fun p hp => ?_
            rcases or_of_mem_ainserts (l := [(ref, c1)]) hp with h' | h'
            · simp only [List.mem_singleton] at h'
              subst h'
              rw [gives_build lib m s1 _ _ _ hb]
              exact hP ref s1 ht
            · exact hst p h'
    · intro l st st' h hst
      cases l with
      | nil => rw [compileLoop] at h; cases h; exact hst
      | cons ref rest =>
        rw [compileLoop] at h
        simp only [zero_sub] at h
        rcases hc : compileRef lib m resolve k zeroSched ref st with e | st1
        · rw [hc] at h; cases h
        · rw [hc] at h
          exact ih2 _ _ _ h (ih1 _ _ _ hc hst)
end

/-- A validator built in the fixed order consists of these constraints. -/
theorem built_zero {lib : SchemaLib} {m : Nat} {resolve : Resolver} {s : Schema} {fuel : Nat} {b : Built}
    (h : BuildWithCtx lib m resolve fuel zeroSched s = .ok b) : b.root = buildC lib m s ∧
      ∀ n c, alookup n b.table = some c → n = b! "#" ∧ c = buildC lib m s ∨ ∃ t, (resolve n).target = .ok t ∧ c = buildC lib m t := by
  cases s with
  | nil => cases h
  | mk s =>
    unfold BuildWithCtx at h
    simp only [zero_sub] at h
    rcases hb : build lib m (.mk s) zeroSched [] with e | ⟨c, names⟩
    · rw [hb] at h; cases h
    · rw [hb] at h
      simp only at h
      have hc := gives_build lib m (.mk s) _ _ _ hb
      generalize hst : (if b! "#" ∈ names then (⟨[(b! "#", c)], names.filter (· ≠ b! "#")⟩ : BState) else ⟨[], names⟩) = st at h
      rcases hl : compileLoop lib m resolve fuel zeroSched (shuffle zeroSched.key st.names) st with e | st'
      · rw [hl] at h; cases h
      · rw [hl] at h
        cases h
        refine ⟨hc, fun n d hd => ?_⟩
        refine (compile_zero (lib := lib) (m := m) (P := fun n d => n = b! "#" ∧ d = buildC lib m (.mk s) ∨ ∃ t, (resolve n).target = .ok t ∧
          d = buildC lib m t) (fun n t ht => .inr ⟨t, ht, rfl⟩) fuel).2 _ _ _ hl ?_ (n, d) (alookup_mem hd)
        intro p hp
        rw [← hst] at hp
        split_ifs at hp
        · simp only [List.mem_singleton] at hp
          subst hp
          exact .inl ⟨rfl, hc⟩
        · cases hp

end Jsval
