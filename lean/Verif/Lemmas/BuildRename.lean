import Verif.Lemmas.Matches
import Verif.Lemmas.BuildPlain
/-!
# Building a schema with other names for its references
-/
namespace Jsval

variable (ρ : Equiv.Perm GoStr) (m m' : Nat)

theorem Schema.rename_nil (ρ : GoStr → GoStr) : Schema.rename ρ .nil = .nil := by rw [Schema.rename, Schema.fold]
theorem Schema.rename_mk (ρ : GoStr → GoStr) (s : SchemaF Schema) :
    Schema.rename ρ (.mk s) = .mk { s.map (Schema.rename ρ) with reference := ρ s.reference } := Schema.fold_mk _ _ s

/-- References to map `m'` under other names. -/
abbrev Constraint.moved (c : Constraint) : Constraint := c.rename fun _ n => (m', ρ n)

/-- The same with other names in `ctx.R`. -/
def renBM {α : Type} (x : BM α) : BM α := fun R => (x (R.map ρ.symm)).map fun p => (p.1, p.2.map ρ)

variable {ρ m m'}

theorem map_symm_map (R : List GoStr) : (R.map ρ).map ρ.symm = R := by simp [List.map_map, Function.comp_def]

@[simp] theorem renBM_pure {α : Type} (a : α) : renBM ρ (pure a : BM α) = pure a := by
  funext R
  show Except.map _ (Except.ok (a, R.map ρ.symm)) = Except.ok (a, R)
  simp [Except.map, List.map_map, Function.comp_def]

@[simp] theorem renBM_throw {α : Type} (e : BuildStop) : renBM ρ (throw e : BM α) = throw e := rfl

@[simp] theorem renBM_bind {α β : Type} (x : BM α) (f : α → BM β) : renBM ρ (x >>= f) = renBM ρ x >>= fun a => renBM ρ (f a) := by
  funext R
  simp only [bind, StateT.bind, renBM]
  rcases x (R.map ρ.symm) with e | ⟨a, R'⟩
  · rfl
  · simp only [Except.map, Except.bind, map_symm_map]

@[simp] theorem renBM_map {α β : Type} (f : α → β) (x : BM α) : renBM ρ (f <$> x) = f <$> renBM ρ x := by
  rw [map_eq_pure_bind, map_eq_pure_bind, renBM_bind]
  simp

theorem renBM_addName (n : GoStr) : renBM ρ (modify (addName n)) = modify (addName (ρ n)) := by
  funext R
  show Except.map _ (Except.ok ((), addName n (R.map ρ.symm))) = Except.ok ((), addName (ρ n) R)
  simp only [Except.map]
  congr 2
  unfold addName
  have : n ∈ R.map ρ.symm ↔ ρ n ∈ R := by
    rw [List.mem_map]
    constructor
    · rintro ⟨a, ha, rfl⟩; simpa using ha
    · exact fun h => ⟨ρ n, h, by simp⟩
  simp only [this]
  split <;> simp [List.map_map, Function.comp_def]

/-- The action with other names. -/
def renAct (ρ : Equiv.Perm GoStr) (m' : Nat) (a : Act) : Act := fun σ => Constraint.moved ρ m' <$> renBM ρ (a σ)

theorem moved_reduceAll (l : List Constraint) : (reduceAll l).moved ρ m' = reduceAll (l.map (Constraint.moved ρ m')) := by
  unfold reduceAll reduceCombined
  match l with
  | [] => simp [Constraint.moved, Constraint.rename, Constraint.inline, inlineList]
  | [c] => rfl
  | c :: d :: l => simp [rename_all]
theorem moved_reduceAny (l : List Constraint) : (reduceAny l).moved ρ m' = reduceAny (l.map (Constraint.moved ρ m')) := by
  unfold reduceAny reduceCombined
  match l with
  | [] => simp [Constraint.moved, Constraint.rename, Constraint.inline, inlineList]
  | [c] => rfl
  | c :: d :: l => simp [rename_any]
theorem moved_reduceOneOf (l : List Constraint) : (reduceOneOf l).moved ρ m' = reduceOneOf (l.map (Constraint.moved ρ m')) := by
  unfold reduceOneOf reduceCombined
  match l with
  | [] => simp [Constraint.moved, Constraint.rename, Constraint.inline, inlineList]
  | [c] => rfl
  | c :: d :: l => simp [rename_oneOf]

theorem buildList_rename (σ : Sched) : ∀ (l : List Act) (i : Nat),
    buildList σ i (l.map (renAct ρ m')) = List.map (Constraint.moved ρ m') <$> renBM ρ (buildList σ i l)
  | [], i => by simp [buildList]
  | a :: l, i => by simp [buildList, buildList_rename σ l, renAct]

theorem buildProps_rename (σ : Sched) : ∀ (l : List (GoStr × Act)) (i : Nat) (o : ObjC Constraint),
    buildProps σ i (l.map fun p => (p.1, renAct ρ m' p.2)) (o.map (Constraint.moved ρ m')) = ObjC.map (Constraint.moved ρ m') <$> renBM ρ (buildProps σ i l o)
  | [], i, o => by simp [buildProps]
  | (n, a) :: l, i, o => by
    have h : ∀ c : Constraint, (o.map (Constraint.moved ρ m')).AddProp n (c.moved ρ m') = (o.AddProp n c).map (Constraint.moved ρ m') := fun c => by
      simp only [ObjC.AddProp, ObjC.map, ainsert_map]
    simp [buildProps, renAct, h, buildProps_rename σ l]

theorem buildDeps_rename (σ : Sched) : ∀ (l : List (GoStr × Act)) (i : Nat) (o : ObjC Constraint),
    buildDeps σ i (l.map fun p => (p.1, renAct ρ m' p.2)) (o.map (Constraint.moved ρ m')) = ObjC.map (Constraint.moved ρ m') <$> renBM ρ (buildDeps σ i l o)
  | [], i, o => by simp [buildDeps]
  | (n, a) :: l, i, o => by
    have h : ∀ c : Constraint, (o.map (Constraint.moved ρ m')).SchemaDependency n (c.moved ρ m') =
        (o.SchemaDependency n c).map (Constraint.moved ρ m') := fun c => by
      simp only [ObjC.SchemaDependency, ObjC.map, ainsert_map]
    simp [buildDeps, renAct, h, buildDeps_rename σ l]

theorem buildPats_rename (σ : Sched) : ∀ (l : List (Nat × GoStr × Act)) (i : Nat) (o : ObjC Constraint),
    buildPats σ i (l.map fun p => (p.1, p.2.1, renAct ρ m' p.2.2)) (o.map (Constraint.moved ρ m')) =
      ObjC.map (Constraint.moved ρ m') <$> renBM ρ (buildPats σ i l o)
  | [], i, o => by simp [buildPats]
  | (n, src, a) :: l, i, o => by
    have h : ∀ c : Constraint, (o.map (Constraint.moved ρ m')).PatternProperties n src (c.moved ρ m') =
        (o.PatternProperties n src c).map (Constraint.moved ρ m') :=
      fun c => by simp only [ObjC.PatternProperties, ObjC.map, patInsert_map]
    simp [buildPats, renAct, h, buildPats_rename σ l]

/-- The schema with other names. -/
def renNode (ρ : Equiv.Perm GoStr) (m' : Nat) (s : SchemaF Act) : SchemaF Act := { s.map (renAct ρ m') with reference := ρ s.reference }

theorem buildArray_rename (s : SchemaF Act) (σ : Sched) : buildArray (renNode ρ m' s) σ = Constraint.moved ρ m' <$> renBM ρ (buildArray s σ) := by
  have hend : ∀ a : ArrC Constraint, (Constraint.array (applyIf s.uniqueItems ArrC.UniqueItems (applyIf s.maxItems ArrC.MaxItems
      (applyIf s.minItems ArrC.MinItems a)))).moved ρ m' = .array (applyIf s.uniqueItems ArrC.UniqueItems (applyIf s.maxItems ArrC.MaxItems
      (applyIf s.minItems ArrC.MinItems (a.map (Constraint.moved ρ m'))))) := fun a => by
    rw [Constraint.moved, rename_array]
    unfold applyIf
    cases s.uniqueItems <;> cases s.maxItems <;> cases s.minItems <;> rfl
  unfold buildArray
  simp only [renNode, SchemaF.map]
  cases hi : s.items with
  | nil => simp [ItemSpec.map, hend]; rfl
  | list l =>
    cases l with
    | nil => rfl
    | cons a l => simp [ItemSpec.map, hend, renAct]; rfl
  | tuple l =>
    cases hx : s.additionalItems with
    | nil => simp [ItemSpec.map, Extra.map, hend, buildList_rename, renAct]; rfl
    | allow => simp [ItemSpec.map, Extra.map, hend, buildList_rename, renAct]; rfl
    | schema x => simp [ItemSpec.map, Extra.map, hend, buildList_rename, renAct]; rfl

theorem objectStart_rename (s : SchemaF Act) : objectStart (renNode ρ m' s) = (objectStart s).map (Constraint.moved ρ m') := by
  unfold objectStart applyIf
  simp only [renNode, SchemaF.map]
  by_cases h : 0 < s.required.length <;> simp only [h, if_true, if_false] <;> cases s.minProps <;> cases s.maxProps <;> rfl

theorem depNames_rename : ∀ (l : List (GoStr × List GoStr)) (o : ObjC Constraint),
    l.foldl (fun o d => o.PropDependency d.1 d.2) (o.map (Constraint.moved ρ m')) =
      (l.foldl (fun o d => o.PropDependency d.1 d.2) o).map (Constraint.moved ρ m')
  | [], _ => rfl
  | d :: l, o => by rw [List.foldl_cons, List.foldl_cons, ← depNames_rename l]; rfl

theorem buildObject_rename (s : SchemaF Act) (σ : Sched) : buildObject (renNode ρ m' s) σ = Constraint.moved ρ m' <$> renBM ρ (buildObject s σ) := by
  unfold buildObject
  rw [objectStart_rename]
  simp only [renNode, SchemaF.map]
  rw [shuffle_map (f := fun p : GoStr × Act => (p.1, renAct ρ m' p.2)), buildProps_rename]
  simp only [renBM_bind, bind_map_left, map_bind]
  congr 1; funext o
  rw [shuffle_map (f := fun p : Nat × GoStr × Act => (p.1, p.2.1, renAct ρ m' p.2.2)), buildPats_rename]
  simp only [renBM_bind, bind_map_left, map_bind]
  congr 1; funext o
  have hend : ∀ o : ObjC Constraint, (buildDeps (σ.sub 6) 0 (shuffle (σ.sub 7).key (s.depSchemas.map fun p => (p.1, renAct ρ m' p.2)))
      ((shuffle (σ.sub 5).key s.depNames).foldl (fun o d => o.PropDependency d.1 d.2) (o.map (Constraint.moved ρ m'))) >>= fun o => pure (.object o)) =
      (renBM ρ (buildDeps (σ.sub 6) 0 (shuffle (σ.sub 7).key s.depSchemas)
      ((shuffle (σ.sub 5).key s.depNames).foldl (fun o d => o.PropDependency d.1 d.2) o)) >>= fun o =>
        Constraint.moved ρ m' <$> renBM ρ (pure (.object o))) := by
    intro o
    rw [shuffle_map (f := fun p : GoStr × Act => (p.1, renAct ρ m' p.2)), depNames_rename, buildDeps_rename]
    simp only [bind_map_left, renBM_pure, map_pure, Constraint.moved, rename_object]
  cases hx : s.additionalProps with
  | nil => simp only [Extra.map, renBM_pure, pure_bind, hend]
  | allow =>
    simp only [Extra.map, renBM_pure, pure_bind]
    simp only [renBM_pure] at hend
    rw [← hend]
    rfl
  | schema x =>
    simp only [Extra.map, renBM_bind, renBM_pure, bind_assoc, renAct, bind_map_left, pure_bind]
    congr 1; funext c
    simp only [renBM_pure] at hend
    rw [← hend]
    rfl

theorem buildType_rename (s : SchemaF Act) (σ : Sched) (t : PrimType) :
    buildType (renNode ρ m' s) σ t = Constraint.moved ρ m' <$> renBM ρ (buildType s σ t) := by
  have ht : (renNode ρ m' s).type = s.type := rfl
  have h1 : ∀ c, (Constraint.string c).moved ρ m' = .string c := fun c => by simp [Constraint.moved, Constraint.rename, Constraint.inline]
  have h2 : ∀ c, (Constraint.number c).moved ρ m' = .number c := fun c => by simp [Constraint.moved, Constraint.rename, Constraint.inline]
  have h3 : ∀ c, (Constraint.integer c).moved ρ m' = .integer c := fun c => by simp [Constraint.moved, Constraint.rename, Constraint.inline]
  have h4 : ∀ c, (Constraint.boolean c).moved ρ m' = .boolean c := fun c => by simp [Constraint.moved, Constraint.rename, Constraint.inline]
  have h5 : Constraint.null.moved ρ m' = .null := by simp [Constraint.moved, Constraint.rename, Constraint.inline]
  cases t with
  | string =>
    simp only [buildType, buildString, ht]
    split
    · rfl
    · rw [renBM_pure, map_pure, h1]; rfl
  | number =>
    simp only [buildType, buildNumber, ht]
    split
    · rfl
    · rw [renBM_pure, map_pure, h2]; rfl
  | integer =>
    simp only [buildType, buildInteger, ht]
    split
    · rfl
    · rw [renBM_pure, map_pure, h3]; rfl
  | boolean =>
    simp only [buildType, buildBoolean, show (renNode ρ m' s).dflt = s.dflt from rfl]
    cases s.dflt <;> simp [h4]
  | array => exact buildArray_rename s σ
  | object => exact buildObject_rename s σ
  | null => simp [buildType, h5]
  | unspecified => rfl
  | other n => rfl

theorem buildTypes_rename (s : SchemaF Act) (σ : Sched) : ∀ (l : List PrimType) (i : Nat),
    buildTypes (renNode ρ m' s) σ i l = List.map (Constraint.moved ρ m') <$> renBM ρ (buildTypes s σ i l)
  | [], i => by simp [buildTypes]
  | t :: l, i => by simp [buildTypes, buildType_rename, buildTypes_rename s σ l]

theorem buildCombo_rename (s : SchemaF Act) (σ : Sched) :
    buildCombo (renNode ρ m' s) σ = List.map (Constraint.moved ρ m') <$> renBM ρ (buildCombo s σ) := by
  unfold buildCombo
  simp only [renNode, SchemaF.map]
  cases s.not with
  | some a => simp [renAct, rename_not]
  | none =>
    simp only [Option.map_none, List.length_map, buildList_rename]
    split
    · simp [moved_reduceAll]
    split
    · simp [moved_reduceAny]
    split
    · simp [moved_reduceOneOf]
    · rw [renBM_pure]; rfl

variable (lib : SchemaLib)

theorem buildNode_rename (h0 : ρ [] = []) (s : SchemaF Act) (σ : Sched) :
    buildNode lib m' (renNode ρ m' s) σ = Constraint.moved ρ m' <$> renBM ρ (buildNode lib m s σ) := by
  have hs : schemaTypes lib (renNode ρ m' s) = schemaTypes lib s :=
    (rfl : schemaTypes lib (renNode ρ m' s) = schemaTypes lib (s.map (renAct ρ m'))).trans (schemaTypes_map (lib := lib) (s := s) (renAct ρ m'))
  have hr : (renNode ρ m' s).reference = ρ s.reference := rfl
  have hr0 : ρ s.reference ≠ [] ↔ s.reference ≠ [] := by
    rw [not_iff_not, ← ρ.injective.eq_iff (a := s.reference), h0]
  have he : (renNode ρ m' s).enum = s.enum := rfl
  unfold buildNode
  rw [hr]
  simp only [hr0]
  split
  · simp [renBM_addName, rename_ref]
  · simp only [hs, he, buildCombo_rename, renBM_bind, map_bind, bind_map_left]
    congr 1; funext ct
    split
    · simp only [buildTypes_rename, renBM_bind, map_bind, bind_map_left, renBM_pure, map_pure, moved_reduceAll, List.map_append, List.map_cons,
        List.map_nil, moved_reduceAny]
    split
    · have h : (Constraint.enum s.enum).moved ρ m' = .enum s.enum := by simp [Constraint.moved, Constraint.rename, Constraint.inline]
      simp [moved_reduceAll, h]
    · simp [moved_reduceAll]

theorem build_rename (h0 : ρ [] = []) (s : Schema) : build lib m' (s.rename ρ) = renAct ρ m' (build lib m s) := by
  induction s using Schema.ind with
  | hn => rw [Schema.rename_nil, build, build, Schema.fold, Schema.fold]; rfl
  | h s ih =>
    have h1 : build lib m (.mk s) = buildNode lib m (s.map (build lib m)) := Schema.fold_mk _ _ s
    have h2 : build lib m' ((Schema.mk s).rename ρ) =
        buildNode lib m' ({ s.map (Schema.rename ρ) with reference := ρ s.reference }.map (build lib m')) := by
      rw [Schema.rename_mk]; exact Schema.fold_mk _ _ _
    have h3 : { s.map (Schema.rename ρ) with reference := ρ s.reference }.map (build lib m') = renNode ρ m' (s.map (build lib m)) := by
      have : (s.map (Schema.rename ρ)).map (build lib m') = (s.map (build lib m)).map (renAct ρ m') := by
        rw [SchemaF.map_map, SchemaF.map_map]
        exact SchemaF.map_congr ih
      unfold renNode
      rw [← this]
      rfl
    rw [h1, h2, h3]
    funext σ
    exact buildNode_rename lib h0 _ σ

/-! ## References -/

theorem target_rename (r : Resolved) : (r.rename ρ).target = r.target.map (Schema.rename ρ) := by
  cases r with
  | fail => rfl
  | schema s => rfl
  | other => exact (congrArg Except.ok (Schema.rename_nil ρ)).symm
  | object o =>
    cases o with
    | none => rfl
    | some s => exact (congrArg Except.ok (Schema.rename_mk ρ s)).symm

theorem build_rename_run (h0 : ρ [] = []) (s : Schema) (σ : Sched) (R : List GoStr) :
    build lib m' (s.rename ρ) σ (R.map ρ) = (build lib m s σ R).map fun p => (p.1.moved ρ m', p.2.map ρ) := by
  rw [build_rename (m := m) lib h0]
  change (Constraint.moved ρ m' <$> renBM ρ (build lib m s σ)) (R.map ρ) = _
  simp only [Functor.map, StateT.map, renBM, map_symm_map]
  cases build lib m s σ R <;> rfl

/-- With other names. -/
def BState.rename (ρ : Equiv.Perm GoStr) (m' : Nat) (st : BState) : BState :=
  ⟨st.table.map fun p => (ρ p.1, p.2.moved ρ m'), st.names.map ρ⟩

theorem alookup_ren {β γ : Type} (f : β → γ) (n : GoStr) : ∀ l : List (GoStr × β),
    alookup (ρ n) (l.map fun p => (ρ p.1, f p.2)) = (alookup n l).map f
  | [] => rfl
  | (k, v) :: l => by
    simp only [List.map_cons, alookup, ρ.injective.eq_iff, alookup_ren f n l]
    split <;> rfl

theorem ainsert_ren {β γ : Type} (f : β → γ) (k : GoStr) (v : β) : ∀ l : List (GoStr × β),
    ainsert (ρ k) (f v) (l.map fun p => (ρ p.1, f p.2)) = (ainsert k v l).map fun p => (ρ p.1, f p.2)
  | [] => rfl
  | (k', v') :: l => by
    simp only [List.map_cons, ainsert, ρ.injective.eq_iff]
    split
    · rfl
    · rw [List.map_cons, ainsert_ren f k v l]

theorem pick_map {α β : Type} (f : α → β) : ∀ (l : List α) (k : Nat), pick k (l.map f) = (pick k l).map f
  | [], _ => rfl
  | a :: l, k => by
    simp only [List.map_cons, pick]
    split <;> simp [pick_map f l]

theorem filter_ren (l l' : List GoStr) : (l.map ρ).filter (· ∉ l'.map ρ) = (l.filter (· ∉ l')).map ρ := by
  rw [List.filter_map]
  congr 1
  refine List.filter_congr fun a _ => ?_
  simp only [Function.comp, List.mem_map_of_injective ρ.injective]

variable (resolve : Resolver) (resolve' : Resolver)

theorem compile_rename (h0 : ρ [] = []) (hr : ∀ n, resolve' (ρ n) = (resolve n).rename ρ) : ∀ k : Nat,
    (∀ σ ref st, compileRef lib m' resolve' k σ (ρ ref) (st.rename ρ m') = (compileRef lib m resolve k σ ref st).map (BState.rename ρ m')) ∧
    (∀ σ l st, compileLoop lib m' resolve' k σ (l.map ρ) (st.rename ρ m') = (compileLoop lib m resolve k σ l st).map (BState.rename ρ m'))
  | 0 => by
    refine ⟨fun σ ref st => by rw [compileRef, compileRef]; rfl, fun σ l st => ?_⟩
    cases l with
    | nil => rw [List.map_nil, compileLoop, compileLoop]; rfl
    | cons a l => rw [List.map_cons, compileLoop, compileLoop]; rfl
  | k + 1 => by
    obtain ⟨ih1, ih2⟩ := compile_rename h0 hr k
    constructor
    · intro σ ref st
      rw [compileRef, compileRef]
      have hl : (alookup (ρ ref) (st.rename ρ m').table).isSome = (alookup ref st.table).isSome := by
        rw [BState.rename, alookup_ren, Option.isSome_map]
      rw [hl]
      split
      · rfl
      · rw [hr, target_rename]
        cases ht : (resolve ref).target with
        | error e => rfl
        | ok s1 =>
          simp only [Except.map]
          rw [show (st.rename ρ m').names = st.names.map ρ from rfl, build_rename_run (m := m) lib h0]
          cases hb : build lib m s1 (σ.sub 0) st.names with
          | error e => rfl
          | ok p =>
            obtain ⟨c1, names⟩ := p
            simp only [Except.map]
            have := ih2 (σ.sub 1) (shuffle (σ.sub 2).key names) ⟨ainsert ref c1 st.table, names⟩
            simp only [BState.rename, ← ainsert_ren] at this
            rw [shuffle_map]
            exact this
    · intro σ l st
      cases l with
      | nil => rw [List.map_nil, compileLoop, compileLoop]; rfl
      | cons ref rest =>
        rw [List.map_cons, compileLoop, compileLoop, ih1]
        cases hc : compileRef lib m resolve k (σ.sub 0) ref st with
        | error e => rfl
        | ok st' =>
          have : revisit (σ.sub 2) (rest.map ρ) ((st'.names.map ρ).filter (· ∉ st.names.map ρ)) =
              (revisit (σ.sub 2) rest (st'.names.filter (· ∉ st.names))).map ρ := by
            rw [filter_ren]
            simp only [revisit, pick_map, ← List.map_append, shuffle_map]
          refine Eq.trans ?_ (ih2 _ _ st')
          rw [← this]
          rfl

/-- With other names. -/
def Built.rename (ρ : Equiv.Perm GoStr) (m' : Nat) (b : Built) : Built := ⟨b.root.moved ρ m', b.table.map fun p => (ρ p.1, p.2.moved ρ m')⟩

theorem buildWithCtx_rename (h0 : ρ [] = []) (h1 : ρ (b! "#") = b! "#") (hr : ∀ n, resolve' (ρ n) = (resolve n).rename ρ) (fuel : Nat) (σ : Sched)
    (s : Schema) : BuildWithCtx lib m' resolve' fuel σ (s.rename ρ) = (BuildWithCtx lib m resolve fuel σ s).map (Built.rename ρ m') := by
  cases s with
  | nil => rw [Schema.rename_nil]; rfl
  | mk s =>
    have hp := build_rename_run (m := m) (m' := m') lib h0 (.mk s) (σ.sub 0) []
    rw [Schema.rename_mk] at hp ⊢
    unfold BuildWithCtx
    simp only [List.map_nil] at hp
    simp only [hp]
    cases hb : build lib m (.mk s) (σ.sub 0) [] with
    | error e => rfl
    | ok p =>
      obtain ⟨c, names⟩ := p
      simp only [Except.map]
      have hin : b! "#" ∈ names.map ρ ↔ b! "#" ∈ names := by
        conv_lhs => rw [← h1]
        exact List.mem_map_of_injective ρ.injective
      have hst : (if b! "#" ∈ names.map ρ then (⟨[(b! "#", c.moved ρ m')], (names.map ρ).filter (· ≠ b! "#")⟩ : BState) else ⟨[], names.map ρ⟩) =
          (if b! "#" ∈ names then (⟨[(b! "#", c)], names.filter (· ≠ b! "#")⟩ : BState) else ⟨[], names⟩).rename ρ m' := by
        simp only [hin]
        split
        · have : (names.map ρ).filter (· ≠ b! "#") = (names.filter (· ≠ b! "#")).map ρ := by
            rw [List.filter_map]
            congr 1
            refine List.filter_congr fun a _ => ?_
            have : ρ a = b! "#" ↔ a = b! "#" := by conv_lhs => rw [← h1, ρ.injective.eq_iff]
            simp only [Function.comp, ne_eq, this]
          simp only [BState.rename, List.map_cons, List.map_nil, h1, this]
        · rfl
      rw [hst]
      generalize (if b! "#" ∈ names then (⟨[(b! "#", c)], names.filter (· ≠ b! "#")⟩ : BState) else ⟨[], names⟩) = st
      rw [show (st.rename ρ m').names = st.names.map ρ from rfl, shuffle_map, (compile_rename lib resolve resolve' h0 hr fuel).2]
      cases compileLoop lib m resolve fuel (σ.sub 1) (shuffle (σ.sub 2).key st.names) st <;> rfl

theorem built_env_rename (b : Built) (n : GoStr) : (b.rename ρ m').env m' m' (ρ n) = (b.env m m n).map (Constraint.moved ρ m') := by
  simp only [Built.env, if_true, Built.rename]
  exact alookup_ren _ _ _

end Jsval
