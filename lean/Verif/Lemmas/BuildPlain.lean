import Verif.Spec.SchemaDefaults
import Verif.Lemmas.Erase
import Verif.Lemmas.SchemaInd
import Verif.Lemmas.Buildable
import Verif.Lemmas.BuilderTypes
/-!
# Building without defaults is building and taking the defaults out
-/
namespace Jsval

theorem Schema.plain_nil : Schema.plain .nil = .nil := by rw [Schema.plain, Schema.fold]
theorem Schema.plain_mk (s : SchemaF Schema) : Schema.plain (.mk s) = .mk { s.map Schema.plain with dflt := .nil } := Schema.fold_mk _ _ s

/-- The action followed by taking the defaults out. -/
def plainAct (a : Act) : Act := fun σ => Constraint.plain <$> a σ

theorem plain_reduceAll (l : List Constraint) : (reduceAll l).plain = reduceAll (l.map Constraint.plain) := by
  unfold reduceAll reduceCombined
  match l with
  | [] => simp [Constraint.plain, plainList]
  | [c] => rfl
  | c :: d :: l => simp [Constraint.plain, plainList_eq]
theorem plain_reduceAny (l : List Constraint) : (reduceAny l).plain = reduceAny (l.map Constraint.plain) := by
  unfold reduceAny reduceCombined
  match l with
  | [] => simp [Constraint.plain, plainList]
  | [c] => rfl
  | c :: d :: l => simp [Constraint.plain, plainList_eq]
theorem plain_reduceOneOf (l : List Constraint) : (reduceOneOf l).plain = reduceOneOf (l.map Constraint.plain) := by
  unfold reduceOneOf reduceCombined
  match l with
  | [] => simp [Constraint.plain, plainList]
  | [c] => rfl
  | c :: d :: l => simp [Constraint.plain, plainList_eq]

theorem buildList_plain (σ : Sched) : ∀ (l : List Act) (i : Nat),
    buildList σ i (l.map plainAct) = List.map Constraint.plain <$> buildList σ i l
  | [], i => by simp [buildList]
  | a :: l, i => by simp [buildList, buildList_plain σ l, plainAct]

theorem ainsert_map {β γ : Type} (f : β → γ) (k : GoStr) (v : β) : ∀ l : List (GoStr × β),
    ainsert k (f v) (l.map fun p => (p.1, f p.2)) = (ainsert k v l).map fun p => (p.1, f p.2)
  | [] => rfl
  | (k', v') :: l => by
    simp only [List.map_cons, ainsert]
    split
    · rfl
    · rw [List.map_cons, ainsert_map f k v l]

theorem patInsert_map {β γ : Type} (f : β → γ) (i : Nat) (src : GoStr) (v : β) : ∀ l : List (Nat × GoStr × β),
    patInsert i src (f v) (l.map fun p => (p.1, p.2.1, f p.2.2)) = (patInsert i src v l).map fun p => (p.1, p.2.1, f p.2.2)
  | [] => rfl
  | (i', s', v') :: l => by
    simp only [List.map_cons, patInsert]
    split
    · rfl
    · rw [List.map_cons, patInsert_map f i src v l]

theorem buildProps_plain (σ : Sched) : ∀ (l : List (GoStr × Act)) (i : Nat) (o : ObjC Constraint),
    buildProps σ i (l.map fun p => (p.1, plainAct p.2)) (o.map Constraint.plain) = ObjC.map Constraint.plain <$> buildProps σ i l o
  | [], i, o => by simp [buildProps]
  | (n, a) :: l, i, o => by
    have h : ∀ c : Constraint, (o.map Constraint.plain).AddProp n c.plain = (o.AddProp n c).map Constraint.plain := fun c => by
      simp only [ObjC.AddProp, ObjC.map, ainsert_map]
    simp [buildProps, plainAct, h, buildProps_plain σ l]

theorem buildDeps_plain (σ : Sched) : ∀ (l : List (GoStr × Act)) (i : Nat) (o : ObjC Constraint),
    buildDeps σ i (l.map fun p => (p.1, plainAct p.2)) (o.map Constraint.plain) = ObjC.map Constraint.plain <$> buildDeps σ i l o
  | [], i, o => by simp [buildDeps]
  | (n, a) :: l, i, o => by
    have h : ∀ c : Constraint, (o.map Constraint.plain).SchemaDependency n c.plain = (o.SchemaDependency n c).map Constraint.plain := fun c => by
      simp only [ObjC.SchemaDependency, ObjC.map, ainsert_map]
    simp [buildDeps, plainAct, h, buildDeps_plain σ l]

theorem buildPats_plain (σ : Sched) : ∀ (l : List (Nat × GoStr × Act)) (i : Nat) (o : ObjC Constraint),
    buildPats σ i (l.map fun p => (p.1, p.2.1, plainAct p.2.2)) (o.map Constraint.plain) = ObjC.map Constraint.plain <$> buildPats σ i l o
  | [], i, o => by simp [buildPats]
  | (n, src, a) :: l, i, o => by
    have h : ∀ c : Constraint, (o.map Constraint.plain).PatternProperties n src c.plain = (o.PatternProperties n src c).map Constraint.plain :=
      fun c => by simp only [ObjC.PatternProperties, ObjC.map, patInsert_map]
    simp [buildPats, plainAct, h, buildPats_plain σ l]

/-- The schema whose sub-schemas are built without defaults, and without its own default. -/
def plainNode (s : SchemaF Act) : SchemaF Act := { s.map plainAct with dflt := .nil }

theorem buildArray_plain (s : SchemaF Act) (σ : Sched) : buildArray (plainNode s) σ = Constraint.plain <$> buildArray s σ := by
  have hend : ∀ a : ArrC Constraint, (Constraint.array (applyIf s.uniqueItems ArrC.UniqueItems (applyIf s.maxItems ArrC.MaxItems
      (applyIf s.minItems ArrC.MinItems a)))).plain = .array (applyIf s.uniqueItems ArrC.UniqueItems (applyIf s.maxItems ArrC.MaxItems
      (applyIf s.minItems ArrC.MinItems (a.map Constraint.plain)))) := fun a => by
    rw [plain_array]
    unfold applyIf
    cases s.uniqueItems <;> cases s.maxItems <;> cases s.minItems <;> rfl
  unfold buildArray
  simp only [plainNode, SchemaF.map]
  cases hi : s.items with
  | nil => simp [ItemSpec.map, hend]; rfl
  | list l =>
    cases l with
    | nil => rfl
    | cons a l => simp [ItemSpec.map, hend, plainAct]; rfl
  | tuple l =>
    cases hx : s.additionalItems with
    | nil => simp [ItemSpec.map, Extra.map, hend, buildList_plain, plainAct]; rfl
    | allow => simp [ItemSpec.map, Extra.map, hend, buildList_plain, plainAct]; rfl
    | schema x => simp [ItemSpec.map, Extra.map, hend, buildList_plain, plainAct]; rfl

theorem objectStart_plain (s : SchemaF Act) : objectStart (plainNode s) = (objectStart s).map Constraint.plain := by
  unfold objectStart applyIf
  simp only [plainNode, SchemaF.map]
  by_cases h : 0 < s.required.length <;> simp only [h, if_true, if_false] <;> cases s.minProps <;> cases s.maxProps <;> rfl

theorem depNames_plain : ∀ (l : List (GoStr × List GoStr)) (o : ObjC Constraint),
    l.foldl (fun o d => o.PropDependency d.1 d.2) (o.map Constraint.plain) = (l.foldl (fun o d => o.PropDependency d.1 d.2) o).map Constraint.plain
  | [], _ => rfl
  | d :: l, o => by rw [List.foldl_cons, List.foldl_cons, ← depNames_plain l]; rfl

theorem buildObject_plain (s : SchemaF Act) (σ : Sched) : buildObject (plainNode s) σ = Constraint.plain <$> buildObject s σ := by
  unfold buildObject
  rw [objectStart_plain]
  simp only [plainNode, SchemaF.map]
  rw [shuffle_map (f := fun p : GoStr × Act => (p.1, plainAct p.2)), buildProps_plain]
  simp only [bind_map_left, map_bind]
  congr 1; funext o
  rw [shuffle_map (f := fun p : Nat × GoStr × Act => (p.1, p.2.1, plainAct p.2.2)), buildPats_plain]
  simp only [bind_map_left, map_bind]
  congr 1; funext o
  have hend : ∀ o : ObjC Constraint, (buildDeps (σ.sub 6) 0 (shuffle (σ.sub 7).key (s.depSchemas.map fun p => (p.1, plainAct p.2)))
      ((shuffle (σ.sub 5).key s.depNames).foldl (fun o d => o.PropDependency d.1 d.2) (o.map Constraint.plain)) >>= fun o => pure (.object o)) =
      (buildDeps (σ.sub 6) 0 (shuffle (σ.sub 7).key s.depSchemas)
      ((shuffle (σ.sub 5).key s.depNames).foldl (fun o d => o.PropDependency d.1 d.2) o) >>= fun o => Constraint.plain <$> pure (.object o)) := by
    intro o
    rw [shuffle_map (f := fun p : GoStr × Act => (p.1, plainAct p.2)), depNames_plain, buildDeps_plain]
    simp only [bind_map_left, map_pure, plain_object]
  cases hx : s.additionalProps with
  | nil => simp only [Extra.map, pure_bind, hend]
  | allow => 
    simp only [Extra.map, pure_bind]
    rw [← hend]
    rfl
  | schema x => 
    simp only [Extra.map, bind_assoc, plainAct, bind_map_left, pure_bind]
    congr 1; funext c
    rw [← hend]
    rfl

theorem plain_string (s : SchemaF Act) : (Constraint.string (stringOf s)).plain = .string (stringOf (plainNode s)) := by
  have h : ∀ c : StrC, { c with dflt := none } = c → (Constraint.string (match s.dflt with | .nil => c | v => c.Default v)).plain = .string c :=
    fun c hc => by
    cases s.dflt <;> simp only [Constraint.plain, StrC.Default] <;> rw [← hc]
  unfold stringOf
  refine h _ ?_
  unfold applyIf
  by_cases h1 : s.format = [] <;> by_cases h2 : 0 < s.enum.length <;> simp only [h1, h2, if_true, if_false, ne_eq, not_true, not_false_iff] <;>
    cases s.maxLength <;> cases s.minLength <;> cases s.pattern <;> rfl

theorem plain_bounds (s : SchemaF Act) : { boundsOf s with dflt := none } = boundsOf s := by
  unfold boundsOf applyIf
  cases s.multipleOf <;> cases s.minimum <;> cases s.maximum <;> cases s.exclMin <;> cases s.exclMax <;> rfl

theorem plain_number (s : SchemaF Act) : (Constraint.number (numberOf s)).plain = .number (numberOf (plainNode s)) := by
  have h : ∀ c : NumC, { c with dflt := none } = c → (Constraint.number (match s.dflt with | .nil => c | v => c.Default v)).plain = .number c :=
    fun c hc => by
    cases s.dflt <;> simp only [Constraint.plain, NumC.Default] <;> rw [← hc]
  unfold numberOf
  refine h _ ?_
  by_cases h2 : 0 < s.enum.length <;> simp only [h2, if_true, if_false]
  · simp only [NumC.Enum]; rw [← plain_bounds]
  · exact plain_bounds s

theorem plain_integer (s : SchemaF Act) : (Constraint.integer (integerOf s)).plain = .integer (integerOf (plainNode s)) := by
  have h : ∀ c : NumC, { c with dflt := none } = c → (Constraint.integer (match s.dflt with | .nil => c | v => c.Default v)).plain = .integer c :=
    fun c hc => by
    cases s.dflt <;> simp only [Constraint.plain, NumC.Default] <;> rw [← hc]
  unfold integerOf
  refine h _ ?_
  by_cases h2 : 0 < s.enum.length <;> simp only [h2, if_true, if_false]
  · simp only [NumC.Enum]; rw [← plain_bounds]
  · exact plain_bounds s

theorem buildType_plain (s : SchemaF Act) (σ : Sched) (t : PrimType) :
    buildType (plainNode s) σ t = Constraint.plain <$> buildType s σ t := by
  have ht : (plainNode s).type = s.type := rfl
  cases t with
  | string =>
    simp only [buildType, buildString, ht]
    split
    · rfl
    · rw [map_pure, plain_string]
  | number =>
    simp only [buildType, buildNumber, ht]
    split
    · rfl
    · rw [map_pure, plain_number]
  | integer =>
    simp only [buildType, buildInteger, ht]
    split
    · rfl
    · rw [map_pure, plain_integer]
  | boolean =>
    simp only [buildType, buildBoolean, plainNode]
    cases s.dflt <;> simp [Constraint.plain]
  | array => exact buildArray_plain s σ
  | object => exact buildObject_plain s σ
  | null => simp [buildType, Constraint.plain]
  | unspecified => rfl
  | other n => rfl

theorem buildTypes_plain (s : SchemaF Act) (σ : Sched) : ∀ (l : List PrimType) (i : Nat),
    buildTypes (plainNode s) σ i l = List.map Constraint.plain <$> buildTypes s σ i l
  | [], i => by simp [buildTypes]
  | t :: l, i => by simp [buildTypes, buildType_plain, buildTypes_plain s σ l]

theorem buildCombo_plain (s : SchemaF Act) (σ : Sched) : buildCombo (plainNode s) σ = List.map Constraint.plain <$> buildCombo s σ := by
  unfold buildCombo
  simp only [plainNode, SchemaF.map]
  cases s.not with
  | some a => simp [plainAct, Constraint.plain, plainOpt_eq]
  | none =>
    simp only [Option.map_none, List.length_map, buildList_plain]
    split
    · simp [plain_reduceAll]
    split
    · simp [plain_reduceAny]
    split
    · simp [plain_reduceOneOf]
    · rfl

variable (lib : SchemaLib) (m : Nat)

theorem buildNode_plain (s : SchemaF Act) (σ : Sched) : buildNode lib m (plainNode s) σ = Constraint.plain <$> buildNode lib m s σ := by
  have hs : schemaTypes lib (plainNode s) = schemaTypes lib s :=
    (rfl : schemaTypes lib (plainNode s) = schemaTypes lib (s.map plainAct)).trans (schemaTypes_map (lib := lib) (s := s) plainAct)
  have hr : (plainNode s).reference = s.reference := rfl
  have he : (plainNode s).enum = s.enum := rfl
  unfold buildNode
  rw [hr]
  split
  · simp [Constraint.plain]
  · simp only [hs, he, buildCombo_plain, map_bind, bind_map_left]
    congr 1; funext ct
    split
    · simp only [buildTypes_plain, map_bind, bind_map_left, map_pure, plain_reduceAll, List.map_append, List.map_cons, List.map_nil, plain_reduceAny]
    split
    · simp [plain_reduceAll, Constraint.plain]
    · simp [plain_reduceAll]

theorem build_plain (s : Schema) : build lib m s.plain = plainAct (build lib m s) := by
  induction s using Schema.ind with
  | hn => rw [Schema.plain_nil, build, Schema.fold]; rfl
  | h s ih =>
    have h1 : build lib m (.mk s) = buildNode lib m (s.map (build lib m)) := Schema.fold_mk _ _ s
    have h2 : build lib m (Schema.mk s).plain = buildNode lib m ({ s.map Schema.plain with dflt := .nil }.map (build lib m)) := by
      rw [Schema.plain_mk]; exact Schema.fold_mk _ _ _
    have h3 : { s.map Schema.plain with dflt := .nil }.map (build lib m) = plainNode (s.map (build lib m)) := by
      have : (s.map Schema.plain).map (build lib m) = (s.map (build lib m)).map plainAct := by
        rw [SchemaF.map_map, SchemaF.map_map]
        exact SchemaF.map_congr ih
      unfold plainNode
      rw [← this]
      rfl
    rw [h1, h2, h3]
    funext σ
    exact buildNode_plain lib m _ σ

/-! ## References -/

theorem target_plain (r : Resolved) : r.plain.target = r.target.map Schema.plain := by
  cases r with
  | fail => rfl
  | schema s => rfl
  | other => exact (congrArg Except.ok Schema.plain_nil).symm
  | object o =>
    cases o with
    | none => rfl
    | some s => exact (congrArg Except.ok (Schema.plain_mk s)).symm

theorem build_plain_run (s : Schema) (σ : Sched) (R : List GoStr) :
    build lib m s.plain σ R = (build lib m s σ R).map fun p => (p.1.plain, p.2) := by
  rw [build_plain]
  change (Constraint.plain <$> build lib m s σ) R = _
  simp only [StateT.run, Functor.map, StateT.map]
  cases build lib m s σ R <;> rfl

/-- Without defaults. -/
def BState.plain (st : BState) : BState := ⟨st.table.map fun p => (p.1, p.2.plain), st.names⟩

variable (resolve : Resolver)

theorem compile_plain : ∀ k : Nat,
    (∀ σ ref st, compileRef lib m resolve.plain k σ ref st.plain = (compileRef lib m resolve k σ ref st).map BState.plain) ∧
    (∀ σ l st, compileLoop lib m resolve.plain k σ l st.plain = (compileLoop lib m resolve k σ l st).map BState.plain)
  | 0 => by
    refine ⟨fun σ ref st => by rw [compileRef, compileRef]; rfl, fun σ l st => ?_⟩
    cases l with
    | nil => rw [compileLoop, compileLoop]; rfl
    | cons a l => rw [compileLoop, compileLoop]; rfl
  | k + 1 => by
    obtain ⟨ih1, ih2⟩ := compile_plain k
    constructor
    · intro σ ref st
      rw [compileRef, compileRef]
      have hl : (alookup ref st.plain.table).isSome = (alookup ref st.table).isSome := by
        rw [BState.plain, alookup_map, Option.isSome_map]
      rw [hl]
      split
      · rfl
      · rw [show resolve.plain ref = (resolve ref).plain from rfl, target_plain]
        cases ht : (resolve ref).target with
        | error e => rfl
        | ok s1 =>
          simp only [Except.map]
          rw [build_plain_run, show st.plain.names = st.names from rfl]
          cases hb : build lib m s1 (σ.sub 0) st.names with
          | error e => rfl
          | ok p =>
            obtain ⟨c1, names⟩ := p
            simp only [Except.map]
            have := ih2 (σ.sub 1) (shuffle (σ.sub 2).key names) ⟨ainsert ref c1 st.table, names⟩
            simp only [BState.plain, ← ainsert_map] at this
            exact this
    · intro σ l st
      cases l with
      | nil => rw [compileLoop, compileLoop]; rfl
      | cons ref rest =>
        rw [compileLoop, compileLoop, ih1]
        cases hc : compileRef lib m resolve k (σ.sub 0) ref st with
        | error e => rfl
        | ok st' => exact ih2 _ _ st'

/-- Without defaults. -/
def Built.plain (b : Built) : Built := ⟨b.root.plain, b.table.map fun p => (p.1, p.2.plain)⟩

theorem buildWithCtx_plain (fuel : Nat) (σ : Sched) (s : Schema) :
    BuildWithCtx lib m resolve.plain fuel σ s.plain = (BuildWithCtx lib m resolve fuel σ s).map Built.plain := by
  cases s with
  | nil => rw [Schema.plain_nil]; rfl
  | mk s =>
    have hp := build_plain_run lib m (.mk s) (σ.sub 0) []
    rw [Schema.plain_mk] at hp ⊢
    unfold BuildWithCtx
    simp only [hp]
    cases hb : build lib m (.mk s) (σ.sub 0) [] with
    | error e => rfl
    | ok p =>
      obtain ⟨c, names⟩ := p
      simp only [Except.map]
      have hst : (if b! "#" ∈ names then (⟨[(b! "#", c.plain)], names.filter (· ≠ b! "#")⟩ : BState) else ⟨[], names⟩) =
          (if b! "#" ∈ names then (⟨[(b! "#", c)], names.filter (· ≠ b! "#")⟩ : BState) else ⟨[], names⟩).plain := by
        split <;> rfl
      rw [hst, (compile_plain lib m resolve fuel).2]
      generalize (if b! "#" ∈ names then (⟨[(b! "#", c)], names.filter (· ≠ b! "#")⟩ : BState) else ⟨[], names⟩) = st
      simp only [show st.plain.names = st.names from rfl]
      cases compileLoop lib m resolve fuel (σ.sub 1) (shuffle (σ.sub 2).key st.names) st <;> rfl

theorem buildTop_plain (fuel : Nat) (σ : Sched) (s : Schema) :
    Build lib m resolve.plain fuel σ s.plain = (Build lib m resolve fuel σ s).map Built.plain := by
  have := buildWithCtx_plain lib m resolve fuel σ s
  cases s with
  | nil => rw [Schema.plain_nil]; rfl
  | mk s =>
    rw [Schema.plain_mk] at this ⊢
    exact this

theorem built_env_plain (b : Built) : (b.plain.env m) = Env.plain (b.env m) := by
  funext m' n
  simp only [Built.env, Env.plain]
  split
  · rw [Built.plain, alookup_map]
  · rfl

end Jsval
