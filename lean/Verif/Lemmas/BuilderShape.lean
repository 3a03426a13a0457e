import Verif.Model.Builder
import Verif.Spec.Builder
import Verif.Lemmas.SchemaInd
import Verif.Lemmas.Assoc
import Verif.Lemmas.Sched
/-!
# What the builder's loops produce

Inversion of successful runs: the constraint built for a schema, in terms of the constraints built for its children.
-/
namespace Jsval

theorem bm_bind {α β : Type} {x : BM α} {f : α → BM β} {R R' : List GoStr} {b : β} :
    (x >>= f) R = .ok (b, R') ↔ ∃ a R1, x R = .ok (a, R1) ∧ f a R1 = .ok (b, R') := by
  show (x R >>= fun p => f p.1 p.2) = _ ↔ _
  cases hx : x R with
  | error e => simp [bind, Except.bind]
  | ok p => obtain ⟨a, R1⟩ := p; simp [bind, Except.bind]

theorem bm_pure {α : Type} {a b : α} {R R' : List GoStr} :
    (pure a : BM α) R = .ok (b, R') ↔ a = b ∧ R = R' := by
  show (Except.ok (a, R) : Except BuildStop _) = _ ↔ _
  simp

theorem bm_throw {α : Type} {e : BuildStop} {b : α} {R R' : List GoStr} :
    (throw e : BM α) R = .ok (b, R') ↔ False := by
  show (Except.error e : Except BuildStop _) = _ ↔ _
  simp

/-- `R'` is `R` with some of the names `N` added. -/
structure Grow (N : GoStr → Prop) (R R' : List GoStr) : Prop where
  sub : ∀ n ∈ R, n ∈ R'
  new : ∀ n ∈ R', n ∈ R ∨ N n
  nodup : R.Nodup → R'.Nodup

theorem Grow.refl {N : GoStr → Prop} (R : List GoStr) : Grow N R R := ⟨fun _ h => h, fun _ h => Or.inl h, fun h => h⟩

theorem Grow.trans {N : GoStr → Prop} {R R' R'' : List GoStr} (h : Grow N R R') (h' : Grow N R' R'') : Grow N R R'' :=
  ⟨fun n hn => h'.sub n (h.sub n hn), fun n hn => (h'.new n hn).elim (h.new n) Or.inr, fun hn => h'.nodup (h.nodup hn)⟩

theorem Grow.imp {N N' : GoStr → Prop} {R R' : List GoStr} (h : Grow N R R') (hi : ∀ n, N n → N' n) : Grow N' R R' :=
  ⟨h.sub, fun n hn => (h.new n hn).imp_right (hi n), h.nodup⟩

section
variable {N : GoStr → Prop} {T : Act → List GoStr → Constraint → Prop}

/-- Running the action adds names from `N` only, and its result is fine for the names then present. -/
def Obeys (N : GoStr → Prop) (T : Act → List GoStr → Constraint → Prop) (a : Act) : Prop :=
  ∀ σ R c R', a σ R = .ok (c, R') → Grow N R R' ∧ T a R' c

variable (hT : ∀ a R R' c, T a R c → (∀ n ∈ R, n ∈ R') → T a R' c)
include hT

theorem buildList_shape {σ : Sched} : ∀ {l : List Act} {i : Nat} {R R' : List GoStr} {cs : List Constraint},
    (∀ a ∈ l, Obeys N T a) → buildList σ i l R = .ok (cs, R') → Grow N R R' ∧ List.Forall₂ (fun a c => T a R' c) l cs
  | [], i, R, R', cs, _, h => by
    rw [buildList, bm_pure] at h
    obtain ⟨rfl, rfl⟩ := h
    exact ⟨.refl R, .nil⟩
  | a :: l, i, R, R', cs, ha, h => by
    rw [buildList, bm_bind] at h
    obtain ⟨c, R1, h1, h⟩ := h
    rw [bm_bind] at h
    obtain ⟨cs', R2, h2, h⟩ := h
    rw [bm_pure] at h
    obtain ⟨rfl, rfl⟩ := h
    obtain ⟨g1, t1⟩ := ha a (by simp) _ _ _ _ h1
    obtain ⟨g2, t2⟩ := buildList_shape (fun a h => ha a (by simp [h])) h2
    exact ⟨g1.trans g2, .cons (hT _ _ _ _ t1 g2.sub) t2⟩

theorem forall2_mono {l : List Act} {cs : List Constraint} {R R' : List GoStr} (h : List.Forall₂ (fun a c => T a R c) l cs)
    (hs : ∀ n ∈ R, n ∈ R') : List.Forall₂ (fun a c => T a R' c) l cs :=
  h.imp (fun a c h => hT _ _ _ _ h hs)

/-- The results for named schemas. -/
abbrev Named (T : Act → List GoStr → Constraint → Prop) (R : List GoStr) (l : List (GoStr × Act))
    (cs : List (GoStr × Constraint)) : Prop :=
  List.Forall₂ (fun p q => q.1 = p.1 ∧ T p.2 R q.2) l cs

/-- The results for pattern schemas. -/
abbrev Pats (T : Act → List GoStr → Constraint → Prop) (R : List GoStr) (l : List (Nat × GoStr × Act))
    (cs : List (Nat × GoStr × Constraint)) : Prop :=
  List.Forall₂ (fun p q => q.1 = p.1 ∧ q.2.1 = p.2.1 ∧ T p.2.2 R q.2.2) l cs

theorem named_mono {l : List (GoStr × Act)} {cs} {R R' : List GoStr} (h : Named T R l cs)
    (hs : ∀ n ∈ R, n ∈ R') : Named T R' l cs := h.imp (fun _ _ h => ⟨h.1, hT _ _ _ _ h.2 hs⟩)

theorem pats_mono {l : List (Nat × GoStr × Act)} {cs} {R R' : List GoStr} (h : Pats T R l cs)
    (hs : ∀ n ∈ R, n ∈ R') : Pats T R' l cs := h.imp (fun _ _ h => ⟨h.1, h.2.1, hT _ _ _ _ h.2.2 hs⟩)

theorem buildProps_shape {σ : Sched} : ∀ {l : List (GoStr × Act)} {i : Nat} {R R' : List GoStr} {o o' : ObjC Constraint},
    (∀ p ∈ l, Obeys N T p.2) → buildProps σ i l o R = .ok (o', R') →
    Grow N R R' ∧ ∃ cs, Named T R' l cs ∧ o' = { o with props := cs.foldl (fun acc q => ainsert q.1 q.2 acc) o.props }
  | [], i, R, R', o, o', _, h => by
    rw [buildProps, bm_pure] at h
    obtain ⟨rfl, rfl⟩ := h
    exact ⟨.refl R, [], .nil, rfl⟩
  | (n, a) :: l, i, R, R', o, o', ha, h => by
    rw [buildProps, bm_bind] at h
    obtain ⟨c, R1, h1, h⟩ := h
    obtain ⟨g1, t1⟩ := ha (n, a) (by simp) _ _ _ _ h1
    obtain ⟨g2, cs, t2, rfl⟩ := buildProps_shape (fun p h => ha p (by simp [h])) h
    exact ⟨g1.trans g2, (n, c) :: cs, .cons ⟨rfl, hT _ _ _ _ t1 g2.sub⟩ t2, rfl⟩

theorem buildDeps_shape {σ : Sched} : ∀ {l : List (GoStr × Act)} {i : Nat} {R R' : List GoStr} {o o' : ObjC Constraint},
    (∀ p ∈ l, Obeys N T p.2) → buildDeps σ i l o R = .ok (o', R') →
    Grow N R R' ∧ ∃ cs, Named T R' l cs ∧
      o' = { o with schemadeps := cs.foldl (fun acc q => ainsert q.1 q.2 acc) o.schemadeps }
  | [], i, R, R', o, o', _, h => by
    rw [buildDeps, bm_pure] at h
    obtain ⟨rfl, rfl⟩ := h
    exact ⟨.refl R, [], .nil, rfl⟩
  | (n, a) :: l, i, R, R', o, o', ha, h => by
    rw [buildDeps, bm_bind] at h
    obtain ⟨c, R1, h1, h⟩ := h
    obtain ⟨g1, t1⟩ := ha (n, a) (by simp) _ _ _ _ h1
    obtain ⟨g2, cs, t2, rfl⟩ := buildDeps_shape (fun p h => ha p (by simp [h])) h
    exact ⟨g1.trans g2, (n, c) :: cs, .cons ⟨rfl, hT _ _ _ _ t1 g2.sub⟩ t2, rfl⟩

theorem buildPats_shape {σ : Sched} : ∀ {l : List (Nat × GoStr × Act)} {i : Nat} {R R' : List GoStr}
    {o o' : ObjC Constraint}, (∀ p ∈ l, Obeys N T p.2.2) → buildPats σ i l o R = .ok (o', R') →
    Grow N R R' ∧ ∃ cs, Pats T R' l cs ∧
      o' = { o with patterns := cs.foldl (fun acc q => patInsert q.1 q.2.1 q.2.2 acc) o.patterns }
  | [], i, R, R', o, o', _, h => by
    rw [buildPats, bm_pure] at h
    obtain ⟨rfl, rfl⟩ := h
    exact ⟨.refl R, [], .nil, rfl⟩
  | (id, src, a) :: l, i, R, R', o, o', ha, h => by
    rw [buildPats, bm_bind] at h
    obtain ⟨c, R1, h1, h⟩ := h
    obtain ⟨g1, t1⟩ := ha (id, src, a) (by simp) _ _ _ _ h1
    obtain ⟨g2, cs, t2, rfl⟩ := buildPats_shape (fun p h => ha p (by simp [h])) h
    exact ⟨g1.trans g2, (id, src, c) :: cs, .cons ⟨rfl, rfl, hT _ _ _ _ t1 g2.sub⟩ t2, rfl⟩

/-- What is built for an additional-items or -properties schema. -/
inductive ExtraBuilt (T : Act → List GoStr → Constraint → Prop) (R : List GoStr) : Extra Act → Option Constraint → Prop
  | nil : ExtraBuilt T R .nil none
  | allow : ExtraBuilt T R .allow (some .empty)
  | schema {a c} : T a R c → ExtraBuilt T R (.schema a) (some c)

omit hT in
theorem ExtraBuilt.mono (hT : ∀ a R R' c, T a R c → (∀ n ∈ R, n ∈ R') → T a R' c) {R R' : List GoStr} {x : Extra Act}
    {o : Option Constraint} (h : ExtraBuilt T R x o) (hs : ∀ n ∈ R, n ∈ R') : ExtraBuilt T R' x o := by
  cases h with
  | nil => exact .nil
  | allow => exact .allow
  | schema h => exact .schema (hT _ _ _ _ h hs)

/-- What is built for the items of an array schema: the `items`, `positional` and `additional` fields. -/
inductive ItemsBuilt (T : Act → List GoStr → Constraint → Prop) (R : List GoStr) (s : SchemaF Act) : ArrC Constraint → Prop
  | nil : s.items = .nil → ItemsBuilt T R s Array'
  | list {a l c} : s.items = .list (a :: l) → T a R c → ItemsBuilt T R s (Array'.Items (some c))
  | tuple {l cs x} : s.items = .tuple l → List.Forall₂ (fun a c => T a R c) l cs → ExtraBuilt T R s.additionalItems x →
      ItemsBuilt T R s ((Array'.PositionalItems cs).AdditionalItems x)

/-- The array constraint with the limits of the schema. -/
def arrayEnd {S : Type} (s : SchemaF S) (a : ArrC Constraint) : ArrC Constraint :=
  applyIf s.uniqueItems ArrC.UniqueItems (applyIf s.maxItems ArrC.MaxItems (applyIf s.minItems ArrC.MinItems a))

theorem buildArray_shape {s : SchemaF Act} {σ : Sched} {R R' : List GoStr} {c : Constraint}
    (hs : ∀ a, s.Child a → Obeys N T a) (h : buildArray s σ R = .ok (c, R')) :
    Grow N R R' ∧ ∃ a, ItemsBuilt T R' s a ∧ c = .array (arrayEnd s a) := by
  unfold buildArray at h
  rw [bm_bind] at h
  obtain ⟨a, R1, h1, h⟩ := h
  rw [bm_pure] at h
  obtain ⟨rfl, rfl⟩ := h
  suffices hh : Grow N R R1 ∧ ItemsBuilt T R1 s a from ⟨hh.1, a, hh.2, rfl⟩
  cases hi : s.items with
  | nil =>
    rw [hi] at h1
    simp only at h1
    rw [bm_pure] at h1
    obtain ⟨rfl, rfl⟩ := h1
    exact ⟨.refl _, .nil hi⟩
  | list l =>
    rw [hi] at h1
    cases l with
    | nil => simp only at h1; rw [bm_throw] at h1; exact h1.elim
    | cons x l =>
      simp only at h1
      rw [bm_bind] at h1
      obtain ⟨c, R2, h1, h2⟩ := h1
      rw [bm_pure] at h2
      obtain ⟨rfl, rfl⟩ := h2
      obtain ⟨g, t⟩ := hs x (.list hi (by simp)) _ _ _ _ h1
      exact ⟨g, .list hi t⟩
  | tuple l =>
    rw [hi] at h1
    simp only at h1
    rw [bm_bind] at h1
    obtain ⟨cs, R2, h1, h2⟩ := h1
    obtain ⟨g, t⟩ := buildList_shape hT (fun a ha => hs a (.tuple hi ha)) h1
    cases ha : s.additionalItems with
    | nil =>
      rw [ha] at h2; simp only at h2
      rw [bm_pure] at h2
      obtain ⟨rfl, rfl⟩ := h2
      exact ⟨g, .tuple hi t (by rw [ha]; exact .nil)⟩
    | allow =>
      rw [ha] at h2; simp only at h2
      rw [bm_pure] at h2
      obtain ⟨rfl, rfl⟩ := h2
      exact ⟨g, .tuple hi t (by rw [ha]; exact .allow)⟩
    | schema x =>
      rw [ha] at h2; simp only at h2
      rw [bm_bind] at h2
      obtain ⟨c, R3, h2, h3⟩ := h2
      rw [bm_pure] at h3
      obtain ⟨rfl, rfl⟩ := h3
      obtain ⟨g', t'⟩ := hs x (.additionalItems ha) _ _ _ _ h2
      exact ⟨g.trans g', .tuple hi (forall2_mono hT t g'.sub) (by rw [ha]; exact .schema t')⟩

/-- What is built for an object schema. -/
structure ObjectBuilt (T : Act → List GoStr → Constraint → Prop) (R : List GoStr) (s : SchemaF Act)
    (o : ObjC Constraint) : Prop where
  props : ∃ k cs, Named T R (shuffle k s.properties) cs ∧ o.props = cs.foldl (fun acc q => ainsert q.1 q.2 acc) []
  patterns : ∃ k cs, Pats T R (shuffle k s.patternProps) cs ∧
    o.patterns = cs.foldl (fun acc q => patInsert q.1 q.2.1 q.2.2 acc) []
  additional : ExtraBuilt T R s.additionalProps o.additional
  required : o.required = (objectStart s).required
  propdeps : ∃ k, o.propdeps = ((shuffle k s.depNames).foldl (fun o d => o.PropDependency d.1 d.2) Object').propdeps
  schemadeps : ∃ k cs, Named T R (shuffle k s.depSchemas) cs ∧
    o.schemadeps = cs.foldl (fun acc q => ainsert q.1 q.2 acc) []
  minProps : o.minProps = (objectStart s).minProps
  maxProps : o.maxProps = (objectStart s).maxProps

omit hT in
theorem propDep_fold : ∀ (l : List (GoStr × List GoStr)) (o o' : ObjC Constraint), o.propdeps = o'.propdeps →
    (l.foldl (fun o d => o.PropDependency d.1 d.2) o) =
      { o with propdeps := (l.foldl (fun o d => o.PropDependency d.1 d.2) o').propdeps }
  | [], o, o', h => by simp [← h]
  | d :: l, o, o', h => by
    simp only [List.foldl_cons]
    rw [propDep_fold l (o.PropDependency d.1 d.2) (o'.PropDependency d.1 d.2)
      (by simp [ObjC.PropDependency, ObjC.GetPropDependencies, h])]
    rfl

omit hT in
theorem objectStart_fields {S : Type} (s : SchemaF S) : (objectStart s).props = [] ∧ (objectStart s).patterns = [] ∧
    (objectStart s).additional = none ∧ (objectStart s).propdeps = [] ∧ (objectStart s).schemadeps = [] := by
  unfold objectStart applyIf
  by_cases h : 0 < s.required.length
  · simp only [h, if_true]
    cases s.minProps <;> cases s.maxProps <;> exact ⟨rfl, rfl, rfl, rfl, rfl⟩
  · simp only [h, if_false]
    cases s.minProps <;> cases s.maxProps <;> exact ⟨rfl, rfl, rfl, rfl, rfl⟩

theorem buildObject_shape {s : SchemaF Act} {σ : Sched} {R R' : List GoStr} {c : Constraint}
    (hs : ∀ a, s.Child a → Obeys N T a) (h : buildObject s σ R = .ok (c, R')) :
    Grow N R R' ∧ ∃ o, ObjectBuilt T R' s o ∧ c = .object o := by
  obtain ⟨e1, e2, e3, e4, e5⟩ := objectStart_fields s
  unfold buildObject at h
  rw [bm_bind] at h
  obtain ⟨o1, R1, h1, h⟩ := h
  obtain ⟨g1, cs1, n1, rfl⟩ := buildProps_shape (N := N) hT (fun p hp => hs _ (.property (mem_shuffle.1 hp))) h1
  rw [bm_bind] at h
  obtain ⟨o2, R2, h2, h⟩ := h
  obtain ⟨g2, cs2, n2, rfl⟩ := buildPats_shape (N := N) hT (fun p hp => hs _ (.patternProp (mem_shuffle.1 hp))) h2
  rw [bm_bind] at h
  obtain ⟨o3, R3, h3, h⟩ := h
  rw [bm_bind] at h
  obtain ⟨o4, R4, h4, h⟩ := h
  obtain ⟨g4, cs4, n4, rfl⟩ := buildDeps_shape (N := N) hT (fun p hp => hs _ (.dependency (mem_shuffle.1 hp))) h4
  rw [bm_pure] at h
  obtain ⟨rfl, rfl⟩ := h
  simp only at h3
  have h3' : Grow N R2 R3 ∧ ExtraBuilt T R3 s.additionalProps o3.additional ∧
      o3 = { props := cs1.foldl (fun acc q => ainsert q.1 q.2 acc) [],
             patterns := cs2.foldl (fun acc q => patInsert q.1 q.2.1 q.2.2 acc) [],
             additional := o3.additional, required := (objectStart s).required, propdeps := [], schemadeps := [],
             minProps := (objectStart s).minProps, maxProps := (objectStart s).maxProps } := by
    cases ha : s.additionalProps with
    | nil =>
      rw [ha] at h3; simp only at h3
      rw [bm_pure] at h3
      obtain ⟨rfl, rfl⟩ := h3
      simp only [e1, e2, e3, e4, e5, and_true]
      exact ⟨.refl _, .nil⟩
    | allow =>
      rw [ha] at h3; simp only at h3
      rw [bm_pure] at h3
      obtain ⟨rfl, rfl⟩ := h3
      simp only [ObjC.AdditionalProperties, e1, e2, e4, e5, and_true]
      exact ⟨.refl _, .allow⟩
    | schema x =>
      rw [ha] at h3; simp only at h3
      rw [bm_bind] at h3
      obtain ⟨c, R3', h3, h3'⟩ := h3
      rw [bm_pure] at h3'
      obtain ⟨rfl, rfl⟩ := h3'
      obtain ⟨g', t'⟩ := hs x (.additionalProps ha) _ _ _ _ h3
      simp only [ObjC.AdditionalProperties, e1, e2, e4, e5, and_true]
      exact ⟨g', .schema t'⟩
  obtain ⟨g3, x3, ho⟩ := h3'
  refine ⟨((g1.trans g2).trans g3).trans g4, _, ?_, rfl⟩
  rw [propDep_fold _ o3 Object' (by rw [ho]; rfl)]
  exact
    { props := ⟨_, cs1, named_mono hT n1 (fun n hn => g4.sub n (g3.sub n (g2.sub n hn))), by rw [ho]⟩
      patterns := ⟨_, cs2, pats_mono hT n2 (fun n hn => g4.sub n (g3.sub n hn)), by rw [ho]⟩
      additional := x3.mono hT g4.sub
      required := by rw [ho]
      propdeps := ⟨_, rfl⟩
      schemadeps := ⟨_, cs4, n4, by rw [ho]⟩
      minProps := by rw [ho]
      maxProps := by rw [ho] }

/-- What is built for one type. -/
inductive TypeBuilt (T : Act → List GoStr → Constraint → Prop) (R : List GoStr) (s : SchemaF Act) :
    PrimType → Constraint → Prop
  | string : TypeBuilt T R s .string (.string (stringOf s))
  | number : TypeBuilt T R s .number (.number (numberOf s))
  | integer : TypeBuilt T R s .integer (.integer (integerOf s))
  | booleanDflt {b} : s.dflt = .bool b → TypeBuilt T R s .boolean (.boolean (some (.bool b)))
  | boolean : (∀ b, s.dflt ≠ .bool b) → TypeBuilt T R s .boolean (.boolean none)
  | array {a} : ItemsBuilt T R s a → TypeBuilt T R s .array (.array (arrayEnd s a))
  | object {o} : ObjectBuilt T R s o → TypeBuilt T R s .object (.object o)
  | null : TypeBuilt T R s .null .null

omit hT in
theorem ItemsBuilt.mono (hT : ∀ a R R' c, T a R c → (∀ n ∈ R, n ∈ R') → T a R' c) {R R' : List GoStr} {s : SchemaF Act}
    {a : ArrC Constraint} (h : ItemsBuilt T R s a) (hs : ∀ n ∈ R, n ∈ R') : ItemsBuilt T R' s a := by
  cases h with
  | nil h => exact .nil h
  | list h t => exact .list h (hT _ _ _ _ t hs)
  | tuple h t x => exact .tuple h (forall2_mono hT t hs) (x.mono hT hs)

omit hT in
theorem ObjectBuilt.mono (hT : ∀ a R R' c, T a R c → (∀ n ∈ R, n ∈ R') → T a R' c) {R R' : List GoStr} {s : SchemaF Act}
    {o : ObjC Constraint} (h : ObjectBuilt T R s o) (hs : ∀ n ∈ R, n ∈ R') : ObjectBuilt T R' s o :=
  { props := let ⟨k, cs, n, e⟩ := h.props; ⟨k, cs, named_mono hT n hs, e⟩
    patterns := let ⟨k, cs, n, e⟩ := h.patterns; ⟨k, cs, pats_mono hT n hs, e⟩
    additional := h.additional.mono hT hs
    required := h.required
    propdeps := h.propdeps
    schemadeps := let ⟨k, cs, n, e⟩ := h.schemadeps; ⟨k, cs, named_mono hT n hs, e⟩
    minProps := h.minProps
    maxProps := h.maxProps }

omit hT in
theorem TypeBuilt.mono (hT : ∀ a R R' c, T a R c → (∀ n ∈ R, n ∈ R') → T a R' c) {R R' : List GoStr} {s : SchemaF Act}
    {t : PrimType} {c : Constraint} (h : TypeBuilt T R s t c) (hs : ∀ n ∈ R, n ∈ R') : TypeBuilt T R' s t c := by
  cases h with
  | string => exact .string
  | number => exact .number
  | integer => exact .integer
  | booleanDflt h => exact .booleanDflt h
  | boolean h => exact .boolean h
  | array h => exact .array (h.mono hT hs)
  | object h => exact .object (h.mono hT hs)
  | null => exact .null

theorem buildType_shape {s : SchemaF Act} {σ : Sched} {t : PrimType} {R R' : List GoStr} {c : Constraint}
    (hs : ∀ a, s.Child a → Obeys N T a) (h : buildType s σ t R = .ok (c, R')) : Grow N R R' ∧ TypeBuilt T R' s t c := by
  cases t with
  | string =>
    simp only [buildType, buildString] at h
    split at h
    · rw [bm_throw] at h; exact h.elim
    · rw [bm_pure] at h; obtain ⟨rfl, rfl⟩ := h; exact ⟨.refl _, .string⟩
  | number =>
    simp only [buildType, buildNumber] at h
    split at h
    · rw [bm_throw] at h; exact h.elim
    · rw [bm_pure] at h; obtain ⟨rfl, rfl⟩ := h; exact ⟨.refl _, .number⟩
  | integer =>
    simp only [buildType, buildInteger] at h
    split at h
    · rw [bm_throw] at h; exact h.elim
    · rw [bm_pure] at h; obtain ⟨rfl, rfl⟩ := h; exact ⟨.refl _, .integer⟩
  | boolean =>
    simp only [buildType, buildBoolean] at h
    cases hb : s.dflt with
    | bool b =>
      rw [hb] at h; simp only at h
      rw [bm_pure] at h; obtain ⟨rfl, rfl⟩ := h; exact ⟨.refl _, .booleanDflt hb⟩
    | _ =>
      rw [hb] at h; simp only at h
      rw [bm_pure] at h; obtain ⟨rfl, rfl⟩ := h; exact ⟨.refl _, .boolean (fun b hb' => by rw [hb] at hb'; cases hb')⟩
  | array =>
    obtain ⟨g, a, ha, rfl⟩ := buildArray_shape hT hs h
    exact ⟨g, .array ha⟩
  | object =>
    obtain ⟨g, a, ha, rfl⟩ := buildObject_shape hT hs h
    exact ⟨g, .object ha⟩
  | null =>
    simp only [buildType] at h
    rw [bm_pure] at h; obtain ⟨rfl, rfl⟩ := h; exact ⟨.refl _, .null⟩
  | unspecified => simp only [buildType] at h; rw [bm_throw] at h; exact h.elim
  | other n => simp only [buildType] at h; rw [bm_throw] at h; exact h.elim

theorem buildTypes_shape {s : SchemaF Act} {σ : Sched} (hs : ∀ a, s.Child a → Obeys N T a) :
    ∀ {l : List PrimType} {i : Nat} {R R' : List GoStr} {cs : List Constraint},
    buildTypes s σ i l R = .ok (cs, R') → Grow N R R' ∧ List.Forall₂ (TypeBuilt T R' s) l cs
  | [], i, R, R', cs, h => by
    rw [buildTypes, bm_pure] at h
    obtain ⟨rfl, rfl⟩ := h
    exact ⟨.refl R, .nil⟩
  | t :: l, i, R, R', cs, h => by
    rw [buildTypes, bm_bind] at h
    obtain ⟨c, R1, h1, h⟩ := h
    rw [bm_bind] at h
    obtain ⟨cs', R2, h2, h⟩ := h
    rw [bm_pure] at h
    obtain ⟨rfl, rfl⟩ := h
    obtain ⟨g1, t1⟩ := buildType_shape hT hs h1
    obtain ⟨g2, t2⟩ := buildTypes_shape hs h2
    exact ⟨g1.trans g2, .cons (t1.mono hT g2.sub) t2⟩

/-- What is built for the combinator keywords. -/
inductive ComboBuilt (T : Act → List GoStr → Constraint → Prop) (R : List GoStr) (s : SchemaF Act) :
    List Constraint → Prop
  | not {a c} : s.not = some a → T a R c → ComboBuilt T R s [.not (some c)]
  | allOf {cs} : s.not = none → s.allOf ≠ [] → List.Forall₂ (fun a c => T a R c) s.allOf cs →
      ComboBuilt T R s [reduceAll cs]
  | anyOf {cs} : s.not = none → s.allOf = [] → s.anyOf ≠ [] → List.Forall₂ (fun a c => T a R c) s.anyOf cs →
      ComboBuilt T R s [reduceAny cs]
  | oneOf {cs} : s.not = none → s.allOf = [] → s.anyOf = [] → s.oneOf ≠ [] →
      List.Forall₂ (fun a c => T a R c) s.oneOf cs → ComboBuilt T R s [reduceOneOf cs]
  | none : s.not = none → s.allOf = [] → s.anyOf = [] → s.oneOf = [] → ComboBuilt T R s []

omit hT in
theorem ComboBuilt.mono (hT : ∀ a R R' c, T a R c → (∀ n ∈ R, n ∈ R') → T a R' c) {R R' : List GoStr} {s : SchemaF Act}
    {l : List Constraint} (h : ComboBuilt T R s l) (hs : ∀ n ∈ R, n ∈ R') : ComboBuilt T R' s l := by
  cases h with
  | not h t => exact .not h (hT _ _ _ _ t hs)
  | allOf h1 h2 t => exact .allOf h1 h2 (forall2_mono hT t hs)
  | anyOf h1 h2 h3 t => exact .anyOf h1 h2 h3 (forall2_mono hT t hs)
  | oneOf h1 h2 h3 h4 t => exact .oneOf h1 h2 h3 h4 (forall2_mono hT t hs)
  | none h1 h2 h3 h4 => exact .none h1 h2 h3 h4

theorem buildCombo_shape {s : SchemaF Act} {σ : Sched} {R R' : List GoStr} {l : List Constraint}
    (hs : ∀ a, s.Child a → Obeys N T a) (h : buildCombo s σ R = .ok (l, R')) : Grow N R R' ∧ ComboBuilt T R' s l := by
  unfold buildCombo at h
  cases hn : s.not with
  | some a =>
    rw [hn] at h
    simp only at h
    rw [bm_bind] at h
    obtain ⟨c, R1, h1, h⟩ := h
    rw [bm_pure] at h
    obtain ⟨rfl, rfl⟩ := h
    obtain ⟨g, t⟩ := hs a (.not hn) _ _ _ _ h1
    exact ⟨g, .not hn t⟩
  | none =>
    rw [hn] at h
    simp only at h
    split at h
    · rename_i h1
      rw [bm_bind] at h
      obtain ⟨cs, R1, h2, h⟩ := h
      rw [bm_pure] at h
      obtain ⟨rfl, rfl⟩ := h
      obtain ⟨g, t⟩ := buildList_shape hT (fun a ha => hs a (.allOf ha)) h2
      exact ⟨g, .allOf hn (List.length_pos_iff.1 h1) t⟩
    · rename_i h1
      have h1 : s.allOf = [] := by simpa using h1
      split at h
      · rename_i h2
        rw [bm_bind] at h
        obtain ⟨cs, R1, h3, h⟩ := h
        rw [bm_pure] at h
        obtain ⟨rfl, rfl⟩ := h
        obtain ⟨g, t⟩ := buildList_shape hT (fun a ha => hs a (.anyOf ha)) h3
        exact ⟨g, .anyOf hn h1 (List.length_pos_iff.1 h2) t⟩
      · rename_i h2
        have h2 : s.anyOf = [] := by simpa using h2
        split at h
        · rename_i h3
          rw [bm_bind] at h
          obtain ⟨cs, R1, h4, h⟩ := h
          rw [bm_pure] at h
          obtain ⟨rfl, rfl⟩ := h
          obtain ⟨g, t⟩ := buildList_shape hT (fun a ha => hs a (.oneOf ha)) h4
          exact ⟨g, .oneOf hn h1 h2 (List.length_pos_iff.1 h3) t⟩
        · rename_i h3
          have h3 : s.oneOf = [] := by simpa using h3
          rw [bm_pure] at h
          obtain ⟨rfl, rfl⟩ := h
          exact ⟨.refl _, .none hn h1 h2 h3⟩

/-- What is built for a schema. -/
inductive NodeBuilt (lib : SchemaLib) (m : Nat) (T : Act → List GoStr → Constraint → Prop) (R : List GoStr)
    (s : SchemaF Act) : Constraint → Prop
  | ref : s.reference ≠ [] → s.reference ∈ R → NodeBuilt lib m T R s (.ref m s.reference)
  | typed {ct cs} : s.reference = [] → ComboBuilt T R s ct → schemaTypes lib s ≠ [] →
      List.Forall₂ (TypeBuilt T R s) (schemaTypes lib s) cs → NodeBuilt lib m T R s (reduceAll (ct ++ [reduceAny cs]))
  | enum {ct} : s.reference = [] → ComboBuilt T R s ct → schemaTypes lib s = [] → s.enum ≠ [] →
      NodeBuilt lib m T R s (reduceAll (ct ++ [.enum s.enum]))
  | plain {ct} : s.reference = [] → ComboBuilt T R s ct → schemaTypes lib s = [] → s.enum = [] →
      NodeBuilt lib m T R s (reduceAll ct)

theorem buildNode_shape {lib : SchemaLib} {m : Nat} {s : SchemaF Act} {σ : Sched} {R R' : List GoStr} {c : Constraint}
    (hs : s.reference = [] → ∀ a, s.Child a → Obeys N T a) (hN : s.reference ≠ [] → N s.reference)
    (h : buildNode lib m s σ R = .ok (c, R')) : Grow N R R' ∧ NodeBuilt lib m T R' s c := by
  unfold buildNode at h
  by_cases hr : s.reference ≠ []
  · rw [if_pos hr, bm_bind] at h
    obtain ⟨u, R1, h1, h⟩ := h
    rw [bm_pure] at h
    obtain ⟨rfl, rfl⟩ := h
    have : R1 = addName s.reference R := by
      have h1' : (Except.ok ((), addName s.reference R) : Except BuildStop _) = .ok (u, R1) := h1
      simp only [Except.ok.injEq, Prod.mk.injEq] at h1'
      exact h1'.2.symm
    subst this
    refine ⟨⟨fun n hn => mem_addName.2 (Or.inr hn), fun n hn => ?_, nodup_addName⟩, .ref hr (mem_addName.2 (Or.inl rfl))⟩
    rcases mem_addName.1 hn with rfl | hn
    · exact Or.inr (hN hr)
    · exact Or.inl hn
  · rw [if_neg hr, bm_bind] at h
    have hr : s.reference = [] := by simpa using hr
    obtain ⟨ct, R1, h1, h⟩ := h
    obtain ⟨g1, t1⟩ := buildCombo_shape hT (hs hr) h1
    split at h
    · rename_i ht
      rw [bm_bind] at h
      obtain ⟨cs, R2, h2, h⟩ := h
      rw [bm_pure] at h
      obtain ⟨rfl, rfl⟩ := h
      obtain ⟨g2, t2⟩ := buildTypes_shape hT (hs hr) h2
      exact ⟨g1.trans g2, .typed hr (t1.mono hT g2.sub) (List.length_pos_iff.1 ht) t2⟩
    · rename_i ht
      have ht : schemaTypes lib s = [] := by simpa using ht
      split at h
      · rename_i he
        rw [bm_pure] at h
        obtain ⟨rfl, rfl⟩ := h
        exact ⟨g1, .enum hr t1 ht (List.length_pos_iff.1 he)⟩
      · rename_i he
        rw [bm_pure] at h
        obtain ⟨rfl, rfl⟩ := h
        exact ⟨g1, .plain hr t1 ht (by simpa using he)⟩

end

/-! ## Whole schemas -/

theorem build_nil (lib : SchemaLib) (m : Nat) : build lib m .nil = fun _ => throw .panic := rfl

theorem build_mk (lib : SchemaLib) (m : Nat) (s : SchemaF Schema) :
    build lib m (.mk s) = buildNode lib m (s.map (build lib m)) := Schema.fold_mk _ _ s

/-- Induction over successful builds: a property of (schema, constraint, names) that follows from the children's. -/
theorem build_ind {lib : SchemaLib} {m : Nat} (Q : Schema → List GoStr → Constraint → Prop)
    (hQ : ∀ s R R' c, Q s R c → (∀ n ∈ R, n ∈ R') → Q s R' c)
    (h : ∀ (s : SchemaF Schema) (R : List GoStr) (c : Constraint),
      NodeBuilt lib m (fun a R c => ∀ d, s.Child d → a = build lib m d → Q d R c) R (s.map (build lib m)) c → Q (.mk s) R c) :
    ∀ (s : Schema) σ R c R', build lib m s σ R = .ok (c, R') → Grow (s.Mentions ·) R R' ∧ Q s R' c := by
  intro s
  induction s using Schema.ind with
  | hn => intro σ R c R' h; rw [build_nil, bm_throw] at h; exact h.elim
  | h s ih =>
    intro σ R c R' hb
    rw [build_mk] at hb
    have hs : (s.map (build lib m)).reference = [] → ∀ a, (s.map (build lib m)).Child a →
        Obeys ((Schema.mk s).Mentions ·) (fun a R c => ∀ d, s.Child d → a = build lib m d → Q d R c) a := by
      intro hr a ha σ R c R' hrun
      obtain ⟨d, hd, rfl⟩ := SchemaF.child_map ha
      obtain ⟨g, q⟩ := ih d hd σ R c R' hrun
      exact ⟨g.imp (fun n hn => .child hr hd hn), fun d' hd' he => (ih d' hd' σ R c R' (by rw [← he]; exact hrun)).2⟩
    obtain ⟨g, t⟩ := buildNode_shape (fun a R R' c h hs d h1 h2 => hQ _ _ _ _ (h d h1 h2) hs) hs
      (fun hr => Schema.Mentions.here hr rfl) hb
    exact ⟨g, h s R' c t⟩

end Jsval
