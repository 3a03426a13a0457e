import Verif.Spec.SchemaDefaults
import Verif.Lemmas.Pipeline
import Verif.Lemmas.Inert
import Verif.Lemmas.BuilderTypes
import Verif.Lemmas.Buildable
import Verif.Spec.Unseen
/-!
# What discreet schemas are built into
-/
namespace Jsval

/-- A property of the constraints that building this schema makes, beyond those of its sub-schemas. -/
structure NodeHas (L : Constraint → Prop) (lib : SchemaLib) (m : Nat) (T : Act → List GoStr → Constraint → Prop) (R : List GoStr) (s : SchemaF Act) :
    Prop where
  empty : L .empty
  scalar : ∀ t (c : Constraint), t ∈ schemaTypes lib s → TypeBuilt T R s t c → c.ForScalars → L c
  enum : ∀ l, L (.enum l)
  not : ∀ c, L (.not (some c))
  none : L (.all [])
  ref : s.reference ≠ [] → L (.ref m s.reference)
  allOf : ∀ cs, List.Forall₂ (fun a c => T a R c) s.allOf cs → L (.all cs)
  anyOf : ∀ cs, List.Forall₂ (fun a c => T a R c) s.anyOf cs → L (.any cs)
  oneOf : ∀ cs, List.Forall₂ (fun a c => T a R c) s.oneOf cs → L (.oneOf cs)
  types : ∀ cs, List.Forall₂ (TypeBuilt T R s) (schemaTypes lib s) cs → L (.any cs)
  beside : ∀ c x, ComboBuilt T R s [c] → (schemaTypes lib s ≠ [] ∨ s.enum ≠ []) → L (.all [c, x])
  array : ∀ a, ItemsBuilt T R s a → L (.array (arrayEnd s a))
  object : ∀ o, ObjectBuilt T R s o → L (.object o)

section
variable {L : Constraint → Prop} {lib : SchemaLib} {m : Nat} {T : Act → List GoStr → Constraint → Prop} {R : List GoStr} {s : SchemaF Act}
  (hL : NodeHas L lib m T R s) (hT : ∀ a c, s.Child a → T a R c → c.Every L)
include hL hT

omit hL hT in
theorem every_reduceAll_of {cs : List Constraint} (hL : L (.all cs)) (h : ∀ c ∈ cs, c.Every L) : (reduceAll cs).Every L := by
  unfold reduceAll reduceCombined
  split
  · exact h _ (by simp)
  · exact every_of_children hL (fun d hd => by cases hd with | all hd => exact h d hd)
omit hL hT in
theorem every_reduceAny_of {cs : List Constraint} (hL : L (.any cs)) (h : ∀ c ∈ cs, c.Every L) : (reduceAny cs).Every L := by
  unfold reduceAny reduceCombined
  split
  · exact h _ (by simp)
  · exact every_of_children hL (fun d hd => by cases hd with | any hd => exact h d hd)
omit hL hT in
theorem every_reduceOneOf_of {cs : List Constraint} (hL : L (.oneOf cs)) (h : ∀ c ∈ cs, c.Every L) : (reduceOneOf cs).Every L := by
  unfold reduceOneOf reduceCombined
  split
  · exact h _ (by simp)
  · exact every_of_children hL (fun d hd => by cases hd with | oneOf hd => exact h d hd)

theorem every_array {a : ArrC Constraint} (h : ItemsBuilt T R s a) : (Constraint.array (arrayEnd s a)).Every L := by
  refine every_of_children (hL.array a h) (fun d hd => ?_)
  rcases arrayEnd_child h hd with rfl | ⟨x, hx, ht⟩
  · exact every_leaf hL.empty (fun d hd => by cases hd)
  · exact hT x d hx ht

theorem every_object {o : ObjC Constraint} (h : ObjectBuilt T R s o) : (Constraint.object o).Every L := by
  refine every_of_children (hL.object o h) (fun d hd => ?_)
  rcases object_child h hd with rfl | ⟨x, hx, ht⟩
  · exact every_leaf hL.empty (fun d hd => by cases hd)
  · exact hT x d hx ht

theorem every_type {t : PrimType} {c : Constraint} (ht : t ∈ schemaTypes lib s) (h : TypeBuilt T R s t c) : c.Every L := by
  have h' := h
  cases h with
  | array h => exact every_array hL hT h
  | object h => exact every_object hL hT h
  | string => exact every_leaf (hL.scalar _ _ ht h' .string) (fun d hd => by cases hd)
  | number => exact every_leaf (hL.scalar _ _ ht h' .number) (fun d hd => by cases hd)
  | integer => exact every_leaf (hL.scalar _ _ ht h' .integer) (fun d hd => by cases hd)
  | booleanDflt => exact every_leaf (hL.scalar _ _ ht h' .boolean) (fun d hd => by cases hd)
  | boolean => exact every_leaf (hL.scalar _ _ ht h' .boolean) (fun d hd => by cases hd)
  | null => exact every_leaf (hL.scalar _ _ ht h' .null) (fun d hd => by cases hd)

theorem every_combo {l : List Constraint} (h : ComboBuilt T R s l) : ∀ c ∈ l, c.Every L := by
  intro c hc
  cases h with
  | not hn t =>
    simp only [List.mem_singleton] at hc
    subst hc
    exact every_of_children (hL.not _) (fun d hd => by cases hd; exact hT _ _ (.not hn) t)
  | allOf h1 h2 t =>
    simp only [List.mem_singleton] at hc
    subst hc
    exact every_reduceAll_of (hL.allOf _ t)
      (fun c hc => by obtain ⟨a, ha, ht⟩ := forall2_right t c hc; exact hT _ _ (.allOf ha) ht)
  | anyOf h1 h2 h3 t =>
    simp only [List.mem_singleton] at hc
    subst hc
    exact every_reduceAny_of (hL.anyOf _ t) (fun c hc => by obtain ⟨a, ha, ht⟩ := forall2_right t c hc; exact hT _ _ (.anyOf ha) ht)
  | oneOf h1 h2 h3 h4 t =>
    simp only [List.mem_singleton] at hc
    subst hc
    exact every_reduceOneOf_of (hL.oneOf _ t) (fun c hc => by obtain ⟨a, ha, ht⟩ := forall2_right t c hc; exact hT _ _ (.oneOf ha) ht)
  | none => simp at hc

omit hL hT in
theorem combo_short {l : List Constraint} (h : ComboBuilt T R s l) : l = [] ∨ ∃ c, l = [c] := by
  cases h with
  | none => exact Or.inl rfl
  | _ => exact Or.inr ⟨_, rfl⟩

theorem every_beside {ct : List Constraint} {x : Constraint} (hc : ComboBuilt T R s ct) (hx : x.Every L) (hn : schemaTypes lib s ≠ [] ∨ s.enum ≠ []) :
    (reduceAll (ct ++ [x])).Every L := by
  have hall := every_combo hL hT hc
  rcases combo_short hc with rfl | ⟨c, rfl⟩
  · exact hx
  · refine every_reduceAll_of (hL.beside c x hc hn) (fun c hc => ?_)
    · rcases List.mem_append.1 hc with h | h
      · exact hall _ h
      · simp only [List.mem_singleton] at h
        exact h ▸ hx

theorem every_node {c : Constraint} (h : NodeBuilt lib m T R s c) : c.Every L := by
  cases h with
  | ref hr hm => exact every_leaf (hL.ref hr) (fun d hd => by cases hd)
  | typed hr hc hn ht =>
    refine every_beside hL hT hc (every_reduceAny_of (hL.types _ ht) (fun c hc => ?_)) (Or.inl hn)
    obtain ⟨t, hm, ht⟩ := forall2_right ht c hc
    exact every_type hL hT hm ht
  | enum hr hc hn he => exact every_beside hL hT hc (every_leaf (hL.enum _) (fun d hd => by cases hd)) (Or.inr he)
  | plain hr hc hn he =>
    have hall := every_combo hL hT hc
    rcases combo_short hc with rfl | ⟨c, rfl⟩
    · exact every_leaf hL.none (fun d hd => by cases hd with | all hd => cases hd)
    · exact hall c (by simp)
end

/-! ## Defaults of built constraints -/

section
variable {lib : SchemaLib} {m : Nat} {resolve : Resolver} {root : Schema}

theorem TakesFrom.trans {s t u : Schema} (h : TakesFrom resolve root s t) (h2 : TakesFrom resolve root t u) : TakesFrom resolve root s u := by
  induction h with
  | refl => exact h2
  | branch h1 h3 _ ih => exact .branch h1 h3 (ih h2)
  | ref h1 h3 _ ih => exact .ref h1 h3 (ih h2)

theorem UsesSchema.trans {s t u : Schema} (h : UsesSchema resolve root s t) (h2 : UsesSchema resolve root t u) : UsesSchema resolve root s u := by
  induction h with
  | refl => exact h2
  | child h1 h3 _ ih => exact .child h1 h3 (ih h2)
  | ref h1 h3 _ ih => exact .ref h1 h3 (ih h2)

/-- The constraint has a default or is a reference. -/
def Constraint.Single (c : Constraint) : Prop := c.ownDefault ≠ none ∨ ∃ m n, c = .ref m n

theorem single_reduceAll {cs : List Constraint} (h : (reduceAll cs).Single) : ∃ c, cs = [c] ∧ reduceAll cs = c := by
  match cs with
  | [] => rcases h with h | ⟨_, _, h⟩ <;> simp [reduceAll, reduceCombined, Constraint.ownDefault] at h
  | [c] => exact ⟨c, rfl, rfl⟩
  | c :: d :: l => rcases h with h | ⟨_, _, h⟩ <;> simp [reduceAll, reduceCombined, Constraint.ownDefault] at h
theorem single_reduceAny {cs : List Constraint} (h : (reduceAny cs).Single) : ∃ c, cs = [c] ∧ reduceAny cs = c := by
  match cs with
  | [] => rcases h with h | ⟨_, _, h⟩ <;> simp [reduceAny, reduceCombined, Constraint.ownDefault] at h
  | [c] => exact ⟨c, rfl, rfl⟩
  | c :: d :: l => rcases h with h | ⟨_, _, h⟩ <;> simp [reduceAny, reduceCombined, Constraint.ownDefault] at h
theorem single_reduceOneOf {cs : List Constraint} (h : (reduceOneOf cs).Single) : ∃ c, cs = [c] ∧ reduceOneOf cs = c := by
  match cs with
  | [] => rcases h with h | ⟨_, _, h⟩ <;> simp [reduceOneOf, reduceCombined, Constraint.ownDefault] at h
  | [c] => exact ⟨c, rfl, rfl⟩
  | c :: d :: l => rcases h with h | ⟨_, _, h⟩ <;> simp [reduceOneOf, reduceCombined, Constraint.ownDefault] at h

theorem stringOf_dflt {S : Type} {s : SchemaF S} (h : s.dflt = .nil) : (stringOf s).dflt = none := by rw [stringOf_fields s h]

/-- A built constraint with a default, or a reference, was built from a branch with a default, or from a reference. -/
theorem built_single : ∀ s : Schema, ∀ c, BuiltFrom lib m s c → c.Single → ∃ f, TakesFrom resolve root s (.mk f) ∧
    ((f.reference = [] ∧ f.dflt ≠ .nil) ∨ (f.reference ≠ [] ∧ c = .ref m f.reference)) := by
  refine Schema.ind (P := fun s => ∀ c, BuiltFrom lib m s c → c.Single → ∃ f, TakesFrom resolve root s (.mk f) ∧
    ((f.reference = [] ∧ f.dflt ≠ .nil) ∨ (f.reference ≠ [] ∧ c = .ref m f.reference))) ?_ ?_
  · intro c hb
    obtain ⟨σ, R, R', hb⟩ := hb
    rw [build_nil] at hb; cases hb
  · intro s ih c hb hs
    obtain ⟨R, hb⟩ := node_of_build hb
    have combo : ∀ c, s.reference = [] → ComboBuilt (fun a _ c => BuiltBy a c) R (s.map (build lib m)) [c] → c.Single →
        ∃ f, TakesFrom resolve root (.mk s) (.mk f) ∧ ((f.reference = [] ∧ f.dflt ≠ .nil) ∨ (f.reference ≠ [] ∧ c = .ref m f.reference)) := by
      intro c hr hct hs
      generalize hl : [c] = l at hct
      have branch : ∀ x, (x ∈ s.allOf ∨ x ∈ s.anyOf ∨ x ∈ s.oneOf) → s.Child x → BuiltFrom lib m x c →
          ∃ f, TakesFrom resolve root (.mk s) (.mk f) ∧ ((f.reference = [] ∧ f.dflt ≠ .nil) ∨ (f.reference ≠ [] ∧ c = .ref m f.reference)) := by
        intro x hx hxc hb
        obtain ⟨f, h1, h2⟩ := ih x hxc c hb hs
        exact ⟨f, .branch hr hx h1, h2⟩
      cases hct with
      | not hn t =>
        cases hl
        rcases hs with hs | ⟨_, _, hs⟩
        · exact absurd rfl hs
        · cases hs
      | allOf h1 h2 t =>
        cases hl
        obtain ⟨d, rfl, he⟩ := single_reduceAll hs
        obtain ⟨a, ha, ht⟩ := forall2_right t d (by simp)
        simp only [SchemaF.map, List.mem_map] at ha
        obtain ⟨x, hx, rfl⟩ := ha
        exact branch x (Or.inl hx) (.allOf hx) (he ▸ ht)
      | anyOf h1 h2 h3 t =>
        cases hl
        obtain ⟨d, rfl, he⟩ := single_reduceAny hs
        obtain ⟨a, ha, ht⟩ := forall2_right t d (by simp)
        simp only [SchemaF.map, List.mem_map] at ha
        obtain ⟨x, hx, rfl⟩ := ha
        exact branch x (Or.inr (Or.inl hx)) (.anyOf hx) (he ▸ ht)
      | oneOf h1 h2 h3 h4 t =>
        cases hl
        obtain ⟨d, rfl, he⟩ := single_reduceOneOf hs
        obtain ⟨a, ha, ht⟩ := forall2_right t d (by simp)
        simp only [SchemaF.map, List.mem_map] at ha
        obtain ⟨x, hx, rfl⟩ := ha
        exact branch x (Or.inr (Or.inr hx)) (.oneOf hx) (he ▸ ht)
      | none => cases hl
    cases hb with
    | ref hr hm => exact ⟨s, .refl _, Or.inr ⟨hr, rfl⟩⟩
    | typed hr hc hn ht =>
      obtain ⟨d, h1, h2⟩ := single_reduceAll hs
      rcases combo_short hc with rfl | ⟨x, rfl⟩
      · simp only [List.nil_append, List.cons.injEq, and_true] at h1
        rw [h2, ← h1] at hs
        obtain ⟨e, rfl, he⟩ := single_reduceAny hs
        obtain ⟨t, -, ht⟩ := forall2_right ht e (by simp)
        rw [he] at hs
        refine ⟨s, .refl _, Or.inl ⟨hr, fun hd => ?_⟩⟩
        have hd' : (s.map (build lib m)).dflt = .nil := hd
        rcases hs with hs | ⟨_, _, hs⟩
        · cases ht with
          | string => exact hs (stringOf_dflt hd')
          | number => exact hs (numberOf_dflt hd')
          | integer => exact hs (integerOf_dflt hd')
          | booleanDflt hbd => rw [hd'] at hbd; cases hbd
          | _ => exact hs rfl
        · subst hs; cases ht
      · simp at h1
    | enum hr hc hn he =>
      obtain ⟨d, h1, h2⟩ := single_reduceAll hs
      rcases combo_short hc with rfl | ⟨x, rfl⟩
      · simp only [List.nil_append, List.cons.injEq, and_true] at h1
        rw [h2, ← h1] at hs
        rcases hs with hs | ⟨_, _, hs⟩
        · exact absurd rfl hs
        · cases hs
      · simp at h1
    | plain hr hc hn he =>
      obtain ⟨d, rfl, h2⟩ := single_reduceAll hs
      rw [h2] at hs ⊢
      exact combo d hr hc hs

/-- What a registered constraint was built from. -/
def TableFrom (lib : SchemaLib) (resolve : Resolver) (root : Schema) (env : Env) : Prop :=
  ∀ m' n d, env m' n = some d → ∃ s1 k, RefersTo resolve root n s1 ∧ BuiltFrom lib k s1 d

variable {env : Env} (htab : TableFrom lib resolve root env)
include htab

theorem hasDefault_of_defaulted {s : Schema} {c : Constraint} (hb : BuiltFrom lib m s c) (h : Defaulted env c) : HasDefault resolve root s := by
  obtain ⟨d, hr, hd⟩ := h
  induction hr generalizing s m with
  | refl c =>
    obtain ⟨f, h1, h2⟩ := built_single (resolve := resolve) (root := root) s c hb (Or.inl hd)
    rcases h2 with h2 | ⟨-, rfl⟩
    · exact ⟨f, h1, h2⟩
    · exact absurd rfl hd
  | ref he _ ih =>
    obtain ⟨f, h1, h2⟩ := built_single (resolve := resolve) (root := root) s _ hb (Or.inr ⟨_, _, rfl⟩)
    rcases h2 with h2 | ⟨h2, h3⟩
    · exact ⟨f, h1, h2⟩
    · cases h3
      obtain ⟨s1, k, h4, h5⟩ := htab _ _ _ he
      obtain ⟨g, h6, h7⟩ := ih h5 hd
      exact ⟨g, h1.trans (.ref h2 h4 h6), h7⟩

/-- Fills nothing in itself, and refers to quiet schemas only. -/
def Calm (lib : SchemaLib) (resolve : Resolver) (root : Schema) (env : Env) (c : Constraint) : Prop :=
  ¬ c.FillsIn env ∧ ∀ m' n d, c = .ref m' n → env m' n = some d → ∃ s1 k, Quiet resolve root s1 ∧ BuiltFrom lib k s1 d

omit htab in
theorem Quiet.child {s : SchemaF Schema} (h : Quiet resolve root (.mk s)) (hr : s.reference = []) {c : Schema} (hc : s.Child c) :
    Quiet resolve root c := fun f hf => h f (.child hr hc hf)

theorem not_fills {s : SchemaF Schema} (hq : Quiet resolve root (.mk s)) (hr : s.reference = []) {R : List GoStr} {o : ObjC Constraint}
    (h : ObjectBuilt (fun a _ c => BuiltBy a c) R (s.map (build lib m)) o) : ¬ (Constraint.object o).FillsIn env := by
  intro hf
  cases hf with
  | mk hp hd =>
    obtain ⟨k, cs, hn, he⟩ := h.props
    rw [he] at hp
    rcases mem_foldl_ainsert hp with hp | hp
    · obtain ⟨a, ha, ht⟩ := forall2_right hn _ hp
      have ha := mem_shuffle.1 ha
      simp only [SchemaF.map, List.mem_map] at ha
      obtain ⟨⟨n, x⟩, hx, rfl⟩ := ha
      exact hq s (.refl _) hr n x hx (hasDefault_of_defaulted htab ht.2 hd)
    · cases hp

omit htab in
theorem calm_inner {c : Constraint} (h1 : ∀ o, c ≠ .object o) (h2 : ∀ m n, c ≠ .ref m n) : Calm lib resolve root env c :=
  ⟨fun h => (by cases h; exact h1 _ rfl), fun m' n d h => absurd h (h2 m' n)⟩

theorem calm_has {s : SchemaF Schema} (hq : Quiet resolve root (.mk s)) (hr : s.reference = []) (R : List GoStr) :
    NodeHas (Calm lib resolve root env) lib m (fun a _ c => BuiltBy a c) R (s.map (build lib m)) := by
  constructor
  · exact calm_inner (by simp) (by simp)
  · intro t c _ _ hc
    cases hc <;> exact calm_inner (by simp) (by simp)
  · exact fun _ => calm_inner (by simp) (by simp)
  · exact fun _ => calm_inner (by simp) (by simp)
  · exact calm_inner (by simp) (by simp)
  · exact fun h => absurd hr h
  · exact fun _ _ => calm_inner (by simp) (by simp)
  · exact fun _ _ => calm_inner (by simp) (by simp)
  · exact fun _ _ => calm_inner (by simp) (by simp)
  · exact fun _ _ => calm_inner (by simp) (by simp)
  · exact fun _ _ _ _ => calm_inner (by simp) (by simp)
  · exact fun _ _ => calm_inner (by simp) (by simp)
  · exact fun o ho => ⟨not_fills htab hq hr ho, fun m' n d h => by cases h⟩

theorem calm_of_quiet : ∀ s : Schema, Quiet resolve root s → ∀ c, BuiltFrom lib m s c → c.Every (Calm lib resolve root env) := by
  refine Schema.ind (P := fun s => Quiet resolve root s → ∀ c, BuiltFrom lib m s c → c.Every (Calm lib resolve root env)) ?_ ?_
  · intro _ c hb
    obtain ⟨σ, R, R', hb⟩ := hb
    rw [build_nil] at hb; cases hb
  · intro s ih hq c hb
    obtain ⟨R, hb⟩ := node_of_build hb
    by_cases hr : s.reference = []
    · refine every_node (calm_has htab hq hr R) (fun a c ha ht => ?_) hb
      obtain ⟨x, hx, rfl⟩ := SchemaF.child_map ha
      exact ih x hx (hq.child hr hx) c ht
    · cases hb with
      | ref h1 h2 =>
        refine every_leaf ⟨fun h => (by cases h), ?_⟩ (fun d hd => by cases hd)
        intro m' n d he hd
        cases he
        obtain ⟨s1, k, h3, h4⟩ := htab _ _ _ hd
        exact ⟨s1, k, fun f hf => hq f (.ref hr h3 hf), h4⟩
      | typed h => exact absurd h hr
      | enum h => exact absurd h hr
      | plain h => exact absurd h hr

theorem inert_of_calm {c : Constraint} (h : c.Every (Calm lib resolve root env)) : Inert env c := by
  intro e he
  induction he with
  | refl c => exact (h c (.refl _)).1
  | child hd _ ih => exact ih (fun e he => h e (.child hd he))
  | ref hd _ ih =>
    obtain ⟨s1, k, h1, h2⟩ := (h _ (.refl _)).2 _ _ _ rfl hd
    exact ih (calm_of_quiet htab s1 h1 _ h2)

theorem inert_of_quiet {s : Schema} (hq : Quiet resolve root s) {c : Constraint} (hb : BuiltFrom lib m s c) : Inert env c :=
  inert_of_calm htab (calm_of_quiet htab s hq c hb)

omit htab in
theorem pairwise_built {P : Schema → Schema → Prop} {Q : Constraint → Constraint → Prop} {l : List Schema} {cs : List Constraint}
    (h : List.Forall₂ (fun a c => BuiltBy a c) (l.map (build lib m)) cs) (hp : l.Pairwise P)
    (hPQ : ∀ a b c d, P a b → BuiltFrom lib m a c → BuiltFrom lib m b d → Q c d) : cs.Pairwise Q := by
  induction l generalizing cs with
  | nil => cases h; exact .nil
  | cons a l ih =>
    cases h with
    | cons h1 h2 =>
      rw [List.pairwise_cons] at hp ⊢
      refine ⟨fun d hd => ?_, ih h2 hp.2⟩
      obtain ⟨x, hx, ht⟩ := forall2_right h2 d hd
      obtain ⟨b, hb, rfl⟩ := List.mem_map.1 hx
      exact hPQ a b _ d (hp.1 b hb) h1 ht

omit htab in
theorem typeBuilt_clash {T : Act → List GoStr → Constraint → Prop} {R R' : List GoStr} {s s' : SchemaF Act} {a b : PrimType} {c d : Constraint}
    (hc : TypeBuilt T R s a c) (hd : TypeBuilt T R' s' b d) (hab : a ≠ b) (ha : a = .object ∨ a = .array) : Clash env c d := by
  rcases ha with rfl | rfl
  · cases hc
    cases hd with
    | object => exact absurd rfl hab
    | array => exact .objectArray
    | string => exact .objectScalar .string
    | number => exact .objectScalar .number
    | integer => exact .objectScalar .integer
    | booleanDflt => exact .objectScalar .boolean
    | boolean => exact .objectScalar .boolean
    | null => exact .objectScalar .null
  · cases hc
    cases hd with
    | array => exact absurd rfl hab
    | object => exact .arrayObject
    | string => exact .arrayScalar .string
    | number => exact .arrayScalar .number
    | integer => exact .arrayScalar .integer
    | booleanDflt => exact .arrayScalar .boolean
    | boolean => exact .arrayScalar .boolean
    | null => exact .arrayScalar .null

omit htab in
theorem built_typed {s : SchemaF Schema} {t : PrimType} {c : Constraint} (hr : s.reference = []) (hn : s.NoCombos) (ht : s.type = [t])
    (hb : BuiltFrom lib m (.mk s) c) : ∃ R, TypeBuilt (fun a _ c => BuiltBy a c) R (s.map (build lib m)) t c := by
  obtain ⟨R, hb⟩ := node_of_build hb
  obtain ⟨n1, n2, n3, n4⟩ := hn
  have hst : schemaTypes lib (s.map (build lib m)) = [t] := by
    rw [schemaTypes_map, schemaTypes, ht]; rfl
  have hct : ∀ ct, ComboBuilt (fun a _ c => BuiltBy a c) R (s.map (build lib m)) ct → ct = [] := by
    intro ct h
    cases h with
    | none => rfl
    | not h => simp [SchemaF.map, n1] at h
    | allOf _ h => simp [SchemaF.map, n2] at h
    | anyOf _ _ h => simp [SchemaF.map, n3] at h
    | oneOf _ _ _ h => simp [SchemaF.map, n4] at h
  cases hb with
  | ref h => exact absurd hr h
  | typed _ hc _ h =>
    rw [hct _ hc]
    rw [hst] at h
    cases h with
    | cons h h' =>
      cases h'
      exact ⟨R, h⟩
  | enum _ _ h => rw [hst] at h; cases h
  | plain _ _ h => rw [hst] at h; cases h

omit htab in
theorem built_ref {s : SchemaF Schema} {c : Constraint} (hr : s.reference ≠ []) (hb : BuiltFrom lib m (.mk s) c) : c = .ref m s.reference := by
  obtain ⟨R, hb⟩ := node_of_build hb
  cases hb with
  | ref => rfl
  | typed h => exact absurd h hr
  | enum h => exact absurd h hr
  | plain h => exact absurd h hr

omit htab in
theorem refersTo_unique {n : GoStr} {a b : Schema} (ha : RefersTo resolve root n a) (hb : RefersTo resolve root n b) : a = b := by
  cases ha with
  | root =>
    cases hb with
    | root => rfl
    | resolved h => exact absurd rfl h
  | resolved h1 h2 =>
    cases hb with
    | root => exact absurd rfl h1
    | resolved _ h3 => rw [h2] at h3; cases h3; rfl

theorem clash_of_alien {a b : Schema} (h : Schema.Alien resolve root a b) : ∀ {m m' : Nat} {c d : Constraint},
    BuiltFrom lib m a c → BuiltFrom lib m' b d → Clash env c d := by
  induction h with
  | left h1 h2 _ ih =>
    intro m m' c d hc hd
    rw [built_ref h1 hc]
    cases he : env m _ with
    | none => exact .leftNothing he
    | some c1 =>
      obtain ⟨s1, k, h4, h5⟩ := htab _ _ _ he
      cases refersTo_unique h2 h4
      exact .left he (ih h5 hd)
  | right h1 h2 _ ih =>
    intro m m' c d hc hd
    rw [built_ref h1 hd]
    cases he : env m' _ with
    | none => exact .rightNothing he
    | some c1 =>
      obtain ⟨s1, k, h4, h5⟩ := htab _ _ _ he
      cases refersTo_unique h2 h4
      exact .right he (ih hc h5)
  | mk h1 h2 h3 h4 h5 h6 h7 h8 =>
    intro m m' c d hc hd
    obtain ⟨R, hc⟩ := built_typed h1 h3 h5 hc
    obtain ⟨R', hd⟩ := built_typed h2 h4 h6 hd
    exact typeBuilt_clash hc hd h7 h8

omit htab in
theorem scalar_inert {c : Constraint} (h : c.ForScalars) : Inert env c := by
  refine inert_node (fun hf => ?_) (fun m n hn => ?_) (fun d hd => ?_)
  · cases h <;> cases hf
  · subst hn; cases h
  · cases h <;> simp [Constraint.kids] at hd

omit htab in
theorem types_apart {T : Act → List GoStr → Constraint → Prop} {R : List GoStr} {s : SchemaF Act} : ∀ {l : List PrimType} {cs : List Constraint},
    List.Forall₂ (TypeBuilt T R s) l cs → l.Nodup → cs.Pairwise fun a b => Inert env a ∨ Clash env a b
  | _, _, .nil, _ => .nil
  | _, _, .cons (a := t) (b := c) (l₁ := l) h hl, hn => by
    rw [List.nodup_cons] at hn
    refine List.pairwise_cons.2 ⟨fun d hd => ?_, types_apart hl hn.2⟩
    obtain ⟨u, hu, hd⟩ := forall2_right hl d hd
    have hne : t ≠ u := fun e => hn.1 (e ▸ hu)
    by_cases ht : t = .object ∨ t = .array
    · exact Or.inr (typeBuilt_clash h hd hne ht)
    · refine Or.inl (scalar_inert ?_)
      cases h with
      | object => simp at ht
      | array => simp at ht
      | string => exact .string
      | number => exact .number
      | integer => exact .integer
      | booleanDflt => exact .boolean
      | boolean => exact .boolean
      | null => exact .null

theorem unseen_has {s : SchemaF Schema} (hd : s.Discreet lib.formats resolve root) (hr : s.reference = []) (R : List GoStr) :
    NodeHas (Unseen env) lib m (fun a _ c => BuiltBy a c) R (s.map (build lib m)) := by
  have hst : schemaTypes lib (s.map (build lib m)) = schemaTypes lib s := schemaTypes_map _
  constructor
  · trivial
  · intro t c _ _ hc
    cases hc <;> trivial
  · exact fun _ => trivial
  · exact fun _ => trivial
  · exact List.Pairwise.nil
  · exact fun h => trivial
  · exact fun cs h => pairwise_built h hd.allOf (fun a b c d hq hc _ => inert_of_quiet htab hq hc)
  · exact fun cs h => pairwise_built h hd.anyOf (fun a b c d hq hc hd =>
      hq.elim (fun hq => Or.inl (inert_of_quiet htab hq hc)) (fun hq => Or.inr (clash_of_alien htab hq hc hd)))
  · exact fun cs h => pairwise_built h hd.oneOf (fun a b c d hq hc hd =>
      hq.elim (fun hq => Or.inl (inert_of_quiet htab hq hc)) (fun hq => Or.inr (clash_of_alien htab hq hc hd)))
  · intro cs h
    refine types_apart h ?_
    rw [hst, schemaTypes, sortTypes]
    refine (List.perm_insertionSort _ _).nodup_iff.2 ?_
    split
    · exact hd.types
    · exact guess_nodup lib
  · intro c x hc hn
    have hb : s.type ≠ [] ∨ s.enum ≠ [] ∨ ∃ t, Suggests lib.formats s t := by
      rw [hst] at hn
      rcases hn with hn | hn
      · obtain ⟨t, ht⟩ := List.exists_mem_of_ne_nil _ hn
        rcases mem_schemaTypes_treats.1 ht with h | ⟨-, h⟩
        · exact Or.inl (List.ne_nil_of_mem h)
        · exact Or.inr (Or.inr ⟨t, h⟩)
      · exact Or.inr (Or.inl hn)
    have hq := hd.beside hb
    have key : c.Every (Calm lib resolve root env) := by
      have hbr : ∀ a d, a ∈ s.allOf ∨ a ∈ s.anyOf ∨ a ∈ s.oneOf → BuiltBy (build lib m a) d → d.Every (Calm lib resolve root env) :=
        fun a d ha hb => calm_of_quiet htab a (hq a (Or.inr ha)) d hb
      generalize hl : [c] = l at hc
      cases hc with
      | not hn t =>
        cases hl
        simp only [SchemaF.map, Option.map_eq_some_iff] at hn
        obtain ⟨y, hy, rfl⟩ := hn
        exact every_of_children (calm_inner (by simp) (by simp)) (fun d hd => by
          cases hd; exact calm_of_quiet htab y (hq y (Or.inl hy)) _ t)
      | allOf _ _ t =>
        cases hl
        refine every_reduceAll_of (calm_inner (by simp) (by simp)) (fun d hd => ?_)
        obtain ⟨x, hx, ht⟩ := forall2_right t d hd
        obtain ⟨y, hy, rfl⟩ := List.mem_map.1 hx
        exact hbr y d (Or.inl hy) ht
      | anyOf _ _ _ t =>
        cases hl
        refine every_reduceAny_of (calm_inner (by simp) (by simp)) (fun d hd => ?_)
        obtain ⟨x, hx, ht⟩ := forall2_right t d hd
        obtain ⟨y, hy, rfl⟩ := List.mem_map.1 hx
        exact hbr y d (Or.inr (Or.inl hy)) ht
      | oneOf _ _ _ _ t =>
        cases hl
        refine every_reduceOneOf_of (calm_inner (by simp) (by simp)) (fun d hd => ?_)
        obtain ⟨x, hx, ht⟩ := forall2_right t d hd
        obtain ⟨y, hy, rfl⟩ := List.mem_map.1 hx
        exact hbr y d (Or.inr (Or.inr hy)) ht
      | none => cases hl
    refine List.pairwise_cons.2 ⟨fun _ _ => inert_of_calm htab key, List.pairwise_singleton _ _⟩
  · intro a ha d hd'
    rw [(arrayEnd_items a).2.2] at hd'
    rw [(arrayEnd_items a).2.1]
    cases ha with
    | nil => cases hd'; exact Or.inl rfl
    | list => cases hd'; exact Or.inl rfl
    | tuple hi t x =>
      simp only [ArrC.AdditionalItems] at hd'
      rw [hd'] at x
      generalize hx : (s.map (build lib m)).additionalItems = y at x
      cases x with
      | allow => exact Or.inl rfl
      | schema t' =>
        refine Or.inr (fun p hp => ?_)
        obtain ⟨a, ha, ht⟩ := forall2_right t p hp
        cases hi' : s.items with
        | nil => simp [SchemaF.map, hi', ItemSpec.map] at hi
        | list l => simp [SchemaF.map, hi', ItemSpec.map] at hi
        | tuple l =>
          simp only [SchemaF.map, hi', ItemSpec.map, ItemSpec.tuple.injEq] at hi
          subst hi
          obtain ⟨b, hb, rfl⟩ := List.mem_map.1 ha
          cases hx' : s.additionalItems with
          | nil => simp [SchemaF.map, hx', Extra.map] at hx
          | allow => simp [SchemaF.map, hx', Extra.map] at hx
          | schema z => exact inert_of_quiet htab (hd.tuple l z hi' hx' b hb) ht
  · intro o ho
    refine ⟨?_, ?_⟩
    · obtain ⟨k, cs, hn, he⟩ := ho.props
      exact ⟨by rw [he]; exact foldl_ainsert_nodup _ _ (by simp)⟩
    · rcases hd.deps with h | h
      · left
        obtain ⟨k, cs, hn, he⟩ := ho.schemadeps
        have : (s.map (build lib m)).depSchemas = [] := by simp [SchemaF.map, h]
        rw [this] at hn
        simp only [shuffle] at hn
        cases hn
        exact he
      · right
        refine inert_of_calm htab (every_object (calm_has htab h hr R) (fun a c ha ht => ?_) ho)
        obtain ⟨x, hx, rfl⟩ := SchemaF.child_map ha
        exact calm_of_quiet htab x (h.child hr hx) c ht

theorem unseen_of_discreet : ∀ s : Schema, (∀ f, UsesSchema resolve root s (.mk f) → f.reference = [] → f.Discreet lib.formats resolve root) →
    ∀ c, BuiltFrom lib m s c → c.Every (Unseen env) := by
  refine Schema.ind (P := fun s => (∀ f, UsesSchema resolve root s (.mk f) → f.reference = [] → f.Discreet lib.formats resolve root) →
    ∀ c, BuiltFrom lib m s c → c.Every (Unseen env)) ?_ ?_
  · intro _ c hb
    obtain ⟨σ, R, R', hb⟩ := hb
    rw [build_nil] at hb; cases hb
  · intro s ih hq c hb
    obtain ⟨R, hb⟩ := node_of_build hb
    by_cases hr : s.reference = []
    · refine every_node (unseen_has htab (hq s (.refl _) hr) hr R) (fun a c ha ht => ?_) hb
      obtain ⟨x, hx, rfl⟩ := SchemaF.child_map ha
      exact ih x hx (fun f hf => hq f (.child hr hx hf)) c ht
    · cases hb with
      | ref h1 h2 => exact every_leaf trivial (fun d hd => by cases hd)
      | typed h => exact absurd h hr
      | enum h => exact absurd h hr
      | plain h => exact absurd h hr

end
end Jsval
