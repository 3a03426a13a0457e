import Verif.Props.Shows
import Verif.Props.OrderDefaults
/-!
# Structs with defaults: panics, iteration order, repeated validation, what is filled in (C35, C42, C44, C60)

What is known about decoded JSON carries over to the structs that stand for it (C94).
-/
namespace Jsval
variable {ext : Ext} {env : Env} {c : Constraint} {v w : GoVal} {σ τ : Sched}

theorem fair_data {c : Constraint} (h : c.Fair) : DefaultIn (Data false) c := fun dv hd => by
  have := (h.2 dv hd).1
  cases this <;> constructor

/-- C44: where all missing fields can take the defaults, structs are validated without a panic. -/
theorem C44_structs {v' : GoVal} {r : Res} (henv : env.Every fun c => c.Fair ∧ ScalarEnum c) (hc : c.Every fun c => c.Fair ∧ ScalarEnum c)
    (hv : StandsFor ext env (c.Alongside env) v w) (hw : Data false w) (h : Returns ext env c σ v r v') : r.Normal := by
  obtain ⟨σ', w', ⟨hd, fuel, h'⟩, -⟩ := (C94_same (henv.imp fun _ h => h.1) (hc.imp fun _ h => h.1) hv).1 σ r v' h
  intro a ha
  subst ha
  have := C44_no_panic (henv.imp fun _ h => ⟨fair_data h.1, h.2⟩) (hc.imp fun _ h => ⟨fair_data h.1, h.2⟩) hw fuel a (by rw [h'])
  exact hd (by rw [this])

/-- C35 (partial, as `C35_defaults_json_partial`) for structs that stand for JSON documents: any two calls that come back agree on the
verdict, and if they accept, what they leave stands for the same document, up to the order of keys. -/
theorem C35_structs_partial {v1 v2 : GoVal} {r r' : Res} (hp : PrintsSorted ext)
    (henv : env.Every fun c => c.Fair ∧ DisjointPatterns ext c ∧ DefaultIn IsJson c ∧ TriedInert env c ∧ ScalarEnum c)
    (hc : c.Every fun c => c.Fair ∧ DisjointPatterns ext c ∧ DefaultIn IsJson c ∧ TriedInert env c ∧ ScalarEnum c)
    (hv : StandsFor ext env (c.Alongside env) v w) (hw : IsJson w)
    (h : Returns ext env c σ v r v1) (h' : Returns ext env c τ v r' v2) : (r = .ok ↔ r' = .ok) ∧
    (r = .ok → ∃ w1 w2, StandsFor ext env (c.Alongside env) v1 w1 ∧ StandsFor ext env (c.Alongside env) v2 w2 ∧ Alike w1 w2) := by
  obtain ⟨σ', w1, g, s1⟩ := (C94_same (henv.imp fun _ h => h.1) (hc.imp fun _ h => h.1) hv).1 σ r v1 h
  obtain ⟨τ', w2, g', s2⟩ := (C94_same (henv.imp fun _ h => h.1) (hc.imp fun _ h => h.1) hv).1 τ r' v2 h'
  obtain ⟨k1, k2⟩ := C35_defaults_json_partial hp (henv.imp fun _ h => h.2) (hc.imp fun _ h => h.2) hw g g'
  exact ⟨k1, fun hr => ⟨w1, w2, s1, s2, k2 hr⟩⟩

/-- C42 (partial, as `C42_defaults_json_partial`) for structs that stand for JSON documents: what was accepted, and filled in, is accepted
again, in any order, and then stands for the same document as before. -/
theorem C42_structs_partial {v1 v2 : GoVal} {r : Res} (hp : PrintsSorted ext)
    (henv : env.Every fun c => c.Fair ∧ ((DisjointPatterns ext c ∧ DefaultIn IsJson c ∧ TriedInert env c) ∧ DefaultPasses ext c ∧ FillsApart env c) ∧ ScalarEnum c)
    (hc : c.Every fun c => c.Fair ∧ ((DisjointPatterns ext c ∧ DefaultIn IsJson c ∧ TriedInert env c) ∧ DefaultPasses ext c ∧ FillsApart env c) ∧ ScalarEnum c)
    (hv : StandsFor ext env (c.Alongside env) v w) (hw : IsJson w) (h : Returns ext env c σ v .ok v1) (h' : Returns ext env c τ v1 r v2) : r = .ok ∧
    ∃ w1 w2, StandsFor ext env (c.Alongside env) v1 w1 ∧ StandsFor ext env (c.Alongside env) v2 w2 ∧ Alike w1 w2 := by
  obtain ⟨σ', w1, g, s1⟩ := (C94_same (henv.imp fun _ h => h.1) (hc.imp fun _ h => h.1) hv).1 σ _ v1 h
  obtain ⟨τ', w2, g', s2⟩ := (C94_same (henv.imp fun _ h => h.1) (hc.imp fun _ h => h.1) s1).1 τ r v2 h'
  obtain ⟨k1, k2⟩ := C42_defaults_json_partial hp (henv.imp fun _ h => h.2) (hc.imp fun _ h => h.2) hw g g'
  exact ⟨k1, w1, w2, s1, s2, k2⟩

/-- A pointer to a struct stays one. -/
def shapePolicy (ext : Ext) : Policy ext where
  I := fun _ => True
  J := fun _ => True
  R := fun v v' => ∀ fs, v = .ptr (some (.struct fs)) → ∃ fs', v' = .ptr (some (.struct fs'))
  A := fun _ => True
  D := fun _ => True
  K := fun _ _ => True
  refl := fun _ fs h => ⟨fs, h⟩
  trans := fun h h' fs hf => by
    obtain ⟨gs, hg⟩ := h fs hf
    exact h' gs hg
  scalar := fun _ _ _ => trivial
  slice := fun _ _ _ => trivial
  sliceR := fun _ _ => ⟨trivial, fun fs h => by cases h⟩
  names := fun _ _ _ _ => trivial
  namesA := fun _ _ => trivial
  getA := fun _ _ => trivial
  getI := fun _ _ => trivial
  getK := fun _ _ _ => trivial
  put := by
    intro v p x x' _ _ _ _
    refine ⟨trivial, ?_, fun _ _ => trivial⟩
    rintro fs rfl
    simp only [putProp, putAt]
    split <;> exact ⟨_, rfl⟩
  set := by
    intro v p dv v' _ _ _ hs
    refine ⟨trivial, ?_, fun _ _ => trivial⟩
    rintro fs rfl
    simp only [setProp, setPropRV, setPropAt] at hs
    rcases h : setPropStruct ext true fs p dv with s | gs
    · rw [h] at hs
      cases hs
    · rw [h] at hs
      cases hs
      exact ⟨_, rfl⟩
  setA := fun _ _ _ _ => trivial

/-- A pointer to a struct stays one, whatever the constraint and the verdict. -/
theorem stays_ptr_struct (c : Constraint) (fuel : Nat) (σ : Sched) (fs : List (Field × GoVal)) :
    ∃ fs', ((sem ext env fuel c).val σ (.ptr (some (.struct fs)))).2 = .ptr (some (.struct fs')) :=
  ((Policy.good_sem (shapePolicy ext) rfl trivial (fun _ _ _ _ d _ => local_of_true _ (fun _ => trivial) fun _ _ => trivial)
    (fun d _ => local_of_true _ (fun _ => trivial) fun _ _ => trivial) fuel).val σ _ trivial).2.1 fs rfl

/-- What stands for something has only direct pointers in it. -/
theorem LeafFor.direct {K : Role} {v w : GoVal} (h : LeafFor K v w) : Direct w := by
  have hs : ∀ {v}, IsScalar v → Direct v ∧ NotIndirect v := by
    intro v h
    cases h <;> exact ⟨by constructor, trivial⟩
  induction h with
  | same v h =>
    cases h with
    | scalar h => exact (hs h).1
    | time => exact .time _
    | mapOther => exact .mapOther _ _
    | other => exact .other _ _
    | ptrNil => exact .ptrNil
    | ptr h => exact .ptr _ (hs h).2 (hs h).1
    | ptrTime => exact .ptr _ trivial (.time _)
  | int => exact .float _ _
  | uint => exact .float _ _
  | single => exact .float _ _
  | null => exact .nil
  | behind _ _ _ _ _ ih => exact ih

theorem StandsFor.direct {K : Role} {v w : GoVal} (h : StandsFor ext env K v w) : Direct w := by
  induction h with
  | leaf _ _ _ h => exact h.direct
  | slice K n xs ys hl _ _ ih =>
    refine .slice _ _ fun y hy => ?_
    obtain ⟨i, hi, rfl⟩ := List.mem_iff_getElem.1 hy
    exact ih i xs[i] ys[i] (List.getElem?_eq_getElem _) (List.getElem?_eq_getElem _)
  | map K n kvs kws _ _ hk _ ih =>
    refine .map _ _ fun k y hy => ?_
    obtain ⟨⟨k', x⟩, hx, rfl⟩ := List.mem_map.1 ((hk k).2 (List.mem_map.2 ⟨_, hy, rfl⟩))
    exact ih _ x y hx hy
  | struct K fs kws hs _ _ ih =>
    refine .map _ _ fun k y hy => ?_
    obtain ⟨f, x, z, h1, h2, h3⟩ := (hs.keys k).1 (List.mem_map.2 ⟨_, hy, rfl⟩)
    by_cases hm : HoldsMaybe x
    · obtain ⟨w, h4, h5⟩ := (hs.maybes f x k h1 h2 hm).2 z h3
      have := List.inj_on_of_nodup_map hs.nodup h5 hy rfl
      cases this
      exact h4.direct
    · exact ih f x k y h1 h2 hm hy
  | ptr K fs kws hs _ _ ih =>
    refine .map _ _ fun k y hy => ?_
    obtain ⟨f, x, z, h1, h2, h3⟩ := (hs.keys k).1 (List.mem_map.2 ⟨_, hy, rfl⟩)
    by_cases hm : HoldsMaybe x
    · obtain ⟨w, h4, h5⟩ := (hs.maybes f x k h1 h2 hm).2 z h3
      have := List.inj_on_of_nodup_map hs.nodup h5 hy rfl
      cases this
      exact h4.direct
    · exact ih f x k y h1 h2 hm hy

/-- C60: a struct given by pointer that is accepted has, for every property that was missing and has a default, a field that
shows the default; every property it had before is still there. Any object constraint, schema dependencies included. -/
theorem C60_nested {o : ObjC Constraint} (hwf : o.Wf)
    (henv : env.Every Constraint.Fair) (hc : (Constraint.object o).Every Constraint.Fair) {K : Role} (hK : K = (Constraint.object o).Alongside env)
    {fs : List (Field × GoVal)} {kws : List (GoStr × GoVal)}
    (hv : StandsFor ext env K (.ptr (some (.struct fs))) (.map false kws)) {v' : GoVal} (h : Returns ext env (.object o) σ (.ptr (some (.struct fs))) .ok v') :
    ∃ fs', v' = .ptr (some (.struct fs')) ∧
      (∀ p d dv, (p, d) ∈ o.props → DefaultReturns ext env d (.some dv) → ¬ Has kws p →
        ∃ f x y, (f, x) ∈ unembed fs' ∧ jsonNameSpec f = some p ∧ fieldContent x = some y ∧ StandsFor ext env (K.prop ext env p) y dv) ∧
      ∀ k, Has kws k → ∃ f x y, (f, x) ∈ unembed fs' ∧ jsonNameSpec f = some k ∧ fieldContent x = some y := by
  subst hK
  obtain ⟨σ', w', ⟨-, fuel, g⟩, s⟩ := (C94_same henv hc hv).1 σ _ v' h
  have hfs : ∃ fs', v' = .ptr (some (.struct fs')) := by
    obtain ⟨-, k, h⟩ := h
    obtain ⟨fs', h2⟩ := stays_ptr_struct (ext := ext) (env := env) (.object o) k σ fs
    rw [h] at h2
    exact ⟨fs', h2⟩
  obtain ⟨fs', rfl⟩ := hfs
  have hfd : ∀ c : Constraint, c.Fair → DefaultIn Direct c := by
    intro c hc dv hd
    have := (hc.2 dv hd).1
    cases this <;> constructor
  have hend : ∀ {fuel'}, fuel ≤ fuel' → ∃ kws1 kws', w' = .map false kws' ∧ Extends (.map false kws1) (.map false kws') ∧
      MapFilled o.Declares (fun p dv => ∃ c, (p, c) ∈ o.props ∧ (sem ext env fuel' c).dflt = .some dv) kws kws1 := by
    intro fuel' hle
    have g' := sem_mono hle g (by simp)
    obtain ⟨kws1, -, h2, h3⟩ := C39_then_dependencies (byPtr := false) (n := false) o hwf (henv.imp hfd) (hc.imp hfd) hv.direct g'
    simp only [MapArg, Bool.false_eq_true, if_false] at h2
    cases h2 with
    | refl => exact ⟨kws1, kws1, rfl, .refl _, h3⟩
    | map _ _ kws' gg e1 e2 e3 => exact ⟨kws1, kws', rfl, .map _ _ _ gg e1 e2 e3, h3⟩
  have hkeep : ∀ {k x} {l l' : List (GoStr × GoVal)}, Extends (.map false l) (.map false l') → (k, x) ∈ l → ∃ z, (k, z) ∈ l' ∧ Extends x z := by
    intro k x l l' he hm
    cases he with
    | refl => exact ⟨x, hm, .refl _⟩
    | map _ _ _ gg e1 e2 _ => exact ⟨_, e1 k x hm, e2 k x hm⟩
  obtain ⟨kws1, kws', rfl, he, hm⟩ := hend le_rfl
  cases s with
  | leaf _ _ _ s => exact s.right.notMap.elim
  | ptr _ _ _ hs hx hfill =>
    refine ⟨fs', rfl, fun p d dv hp hd hn => ?_, fun k hk => ?_⟩
    · obtain ⟨-, fuel', hd⟩ := hd
      have hd' := (sem_below (ext := ext) (env := env) (Nat.le_max_right fuel fuel') d).dflt (by rw [hd]; simp)
      rw [hd] at hd'
      obtain ⟨kws2, kws3, e, he2, hm2⟩ := hend (Nat.le_max_left fuel fuel')
      cases e
      have hsc := (even_tree (d := true) henv (even_ref henv fuel') d fun x hx => hc x (.child (.object (.prop hp)) hx)).scalar dv hd
      obtain ⟨z, hin, hz⟩ := hkeep he2 (hm2.filled p ⟨d, hp⟩ hn dv ⟨d, hp, hd'⟩ hsc.2)
      have : z = dv := by
        have hsc := hsc.1
        cases hsc <;> cases hz <;> rfl
      subst this
      obtain ⟨f, x, y, h1, h2, h3⟩ := (hs.keys p).1 (List.mem_map.2 ⟨_, hin, rfl⟩)
      refine ⟨f, x, y, h1, h2, h3, ?_⟩
      by_cases hmb : HoldsMaybe x
      · obtain ⟨-, h4⟩ := hs.maybes f x p h1 h2 hmb
        obtain ⟨z', h5, h6⟩ := h4 y h3
        have : z' = z := by
          have := List.inj_on_of_nodup_map hs.nodup h6 hin rfl
          cases this; rfl
        exact .leaf _ _ _ (this ▸ h5)
      · rw [fieldContent_plain hmb] at h3
        cases h3
        exact hx f x p z h1 h2 hmb hin
    · obtain ⟨z, hz⟩ := hm.kept k hk
      obtain ⟨z', hz', -⟩ := hkeep he hz
      exact (hs.keys k).1 (List.mem_map.2 ⟨_, hz', rfl⟩)

/-! ## Structs without embedded ones, field by field -/

/-- What a field with this JSON name and this content stands for: nothing, if it is a Maybe that is not set. -/
inductive RowOk (ext : Ext) (env : Env) (K : Role) (k : GoStr) : GoVal → Option GoVal → Prop where
  | unset (m) : K.LooksInto ext k → RowOk ext env K k (.maybe false m) none
  | set (m z) : K.LooksInto ext k → LeafFor (K.prop ext env k) m.toGo z → RowOk ext env K k (.maybe true m) (some z)
  | value (x y) : ¬ HoldsMaybe x → StandsFor ext env (K.prop ext env k) x y → RowOk ext env K k x (some y)

/-- A field, its JSON name, its content, and what it stands for. -/
structure StructRow where
  field : Field
  key : GoStr
  content : GoVal
  doc : Option GoVal

/-- The struct with these fields. -/
def rowFields (rows : List StructRow) : List (Field × GoVal) := rows.map fun r => (r.field, r.content)
/-- The properties it shows. -/
def rowProps (rows : List StructRow) : List (GoStr × GoVal) := rows.filterMap fun r => r.doc.map (r.key, ·)

theorem unembed_named : ∀ {fs : List (Field × GoVal)}, (∀ p ∈ fs, p.1.anonymous = false) → unembed fs = fs ∧ allFields fs = fs
  | [], _ => ⟨by simp [unembed], by simp [allFields]⟩
  | (f, x) :: fs, h => by
    obtain ⟨h1, h2⟩ := unembed_named (fs := fs) fun p hp => h p (by simp [hp])
    have := h (f, x) (by simp)
    simp only at this
    simp [unembed, unembedF, allFields, allFieldsF, this, h1, h2]

theorem rows_shown {K : Role} {rows : List StructRow} (hna : ∀ r ∈ rows, r.field.anonymous = false ∧ jsonNameSpec r.field = some r.key)
    (hn : (rows.map fun r => r.field.name).Nodup) (hk : (rows.map (·.key)).Nodup) (hr : ∀ r ∈ rows, RowOk ext env K r.key r.content r.doc) :
    ShownBy ext env K (rowFields rows) (rowProps rows) ∧
    ∀ f x k y, (f, x) ∈ unembed (rowFields rows) → jsonNameSpec f = some k → ¬ HoldsMaybe x → (k, y) ∈ rowProps rows →
      StandsFor ext env (K.prop ext env k) x y := by
  obtain ⟨hu, ha⟩ := unembed_named (fs := rowFields rows) (by
    intro p hp
    obtain ⟨r, hr, rfl⟩ := List.mem_map.1 hp
    exact (hna r hr).1)
  have hmem : ∀ f x, (f, x) ∈ rowFields rows → ∃ r ∈ rows, r.field = f ∧ r.content = x := by
    intro f x h
    obtain ⟨r, hr, e⟩ := List.mem_map.1 h
    cases e
    exact ⟨r, hr, rfl, rfl⟩
  have hprop : ∀ k y, (k, y) ∈ rowProps rows ↔ ∃ r ∈ rows, r.key = k ∧ r.doc = some y := by
    intro k y
    simp only [rowProps, List.mem_filterMap, Option.map_eq_some_iff, Prod.mk.injEq]
    constructor
    · rintro ⟨r, hr, z, h1, h2, rfl⟩
      exact ⟨r, hr, h2, h1⟩
    · rintro ⟨r, hr, h1, h2⟩
      exact ⟨r, hr, y, h2, h1, rfl⟩
  have hnd : ((rowProps rows).map (·.1)).Nodup := by
    refine List.Nodup.sublist ?_ hk
    clear hmem hprop hna hn hk hr hu ha
    induction rows with
    | nil => exact List.Sublist.refl _
    | cons r rows ih =>
      rcases hd : r.doc with _ | y
      · simpa [rowProps, hd] using ih.cons r.key
      · simpa [rowProps, hd] using ih
  have hmerge : Merges (rowFields rows) := by
    refine ⟨fun p hp h => ?_, ?_, ?_⟩
    · rw [ha] at hp
      obtain ⟨r, hr, e⟩ := hmem p.1 p.2 hp
      rw [← e.1, (hna r hr).1] at h
      cases h
    · unfold NoShadowing
      rw [ha, rowFields, List.map_map]
      exact hn
    · rw [hu, rowFields, List.filterMap_map]
      have : List.filterMap ((fun p : Field × GoVal => jsonNameSpec p.1) ∘ fun r : StructRow => (r.field, r.content)) rows = rows.map (·.key) := by
        rw [← List.filterMap_eq_map]
        exact List.filterMap_congr fun r hr => (hna r hr).2
      rw [this]
      exact hk
  refine ⟨⟨hmerge, hnd, fun k => ?_, fun f x k h1 h2 h3 => ?_⟩, fun f x k y h1 h2 h3 h4 => ?_⟩
  · rw [hu]
    constructor
    · intro hk'
      obtain ⟨⟨k, y⟩, hy, rfl⟩ := List.mem_map.1 hk'
      obtain ⟨r, hr', rfl, e⟩ := (hprop k y).1 hy
      have := hr r hr'
      rw [e] at this
      generalize hx : r.content = x at this
      cases this with
      | set m z => exact ⟨r.field, _, _, List.mem_map.2 ⟨r, hr', by rw [hx]⟩, (hna r hr').2, rfl⟩
      | value _ _ h => exact ⟨r.field, _, _, List.mem_map.2 ⟨r, hr', by rw [hx]⟩, (hna r hr').2, fieldContent_plain h⟩
    · rintro ⟨f, x, y, h1, h2, h3⟩
      obtain ⟨r, hr', rfl, rfl⟩ := hmem f x h1
      rw [(hna r hr').2] at h2
      cases h2
      have := hr r hr'
      cases hd : r.doc with
      | some z => exact List.mem_map.2 ⟨(r.key, z), (hprop _ _).2 ⟨r, hr', rfl, hd⟩, rfl⟩
      | none =>
        rw [hd] at this
        generalize r.content = x at this h3
        cases this
        cases h3
  · rw [hu] at h1
    obtain ⟨r, hr', rfl, rfl⟩ := hmem f x h1
    rw [(hna r hr').2] at h2
    cases h2
    have := hr r hr'
    generalize hx : r.content = x at this h3
    generalize hd : r.doc = d at this
    cases this with
    | unset m h => exact ⟨h, fun y hy => by cases hy⟩
    | set m z h hz => exact ⟨h, fun y hy => by cases hy; exact ⟨z, hz, (hprop _ _).2 ⟨r, hr', rfl, hd⟩⟩⟩
    | value _ _ h => exact absurd h3 h
  · rw [hu] at h1
    obtain ⟨r, hr', rfl, rfl⟩ := hmem f x h1
    rw [(hna r hr').2] at h2
    cases h2
    obtain ⟨r2, hr2, e1, e2⟩ := (hprop _ _).1 h4
    have : r2 = r := List.inj_on_of_nodup_map hk hr2 hr' e1
    subst this
    have := hr r2 hr2
    rw [e2] at this
    generalize r2.content = x at this h3
    cases this with
    | set m z => exact absurd (.val _ _) h3
    | value _ _ _ h => exact h

/-! ## The tree of `OrderDefaults`, for structs -/

theorem exFill_fair : exFill.Every Constraint.Fair := by
  have hleaf : ∀ c : Constraint, c.kids = [] → (∀ vals, c ≠ .enum vals) → (∀ dv, c.ownDefault = some dv → IsScalar dv ∧ dv ≠ .nil) → c.Every Constraint.Fair :=
    fun c hk he hd => .intro ⟨fun vals h => absurd h (he vals), hd⟩ (by rw [hk]; simp)
  have hinner : exFillInner.Every Constraint.Fair := by
    refine .intro ⟨fun _ h => (by cases h), fun _ h => (by cases h)⟩ fun d hd => ?_
    rw [show exFillInner.kids = [.boolean (some (.bool true))] from rfl] at hd
    simp only [List.mem_cons, List.not_mem_nil, or_false] at hd
    subst hd
    exact hleaf _ rfl (fun _ h => by cases h) fun dv h => by cases h; exact ⟨by constructor, by simp⟩
  have hempty : Constraint.empty.Every Constraint.Fair := hleaf _ rfl (fun _ h => by cases h) fun _ h => by cases h
  have hnull : Constraint.null.Every Constraint.Fair := hleaf _ rfl (fun _ h => by cases h) fun _ h => by cases h
  refine .intro ⟨fun _ h => (by cases h), fun _ h => (by cases h)⟩ fun d hd => ?_
  rw [show exFill.kids = [.number (Number'.Default (fl 3)), .string (String'.Default (.str (b! "x"))), .ref 0 (b! "self"),
    .array (Array'.Items exFillInner), .all [exFillInner, .object (Object'.AdditionalProperties (some .empty))],
    .any [.null, .string (String'.Default (.str (b! "y")))], .null] from rfl] at hd
  simp only [List.mem_cons, List.not_mem_nil, or_false] at hd
  rcases hd with rfl | rfl | rfl | rfl | rfl | rfl | rfl
  · exact hleaf _ rfl (fun _ h => by cases h) fun dv h => by cases h; exact ⟨by constructor, by simp⟩
  · exact hleaf _ rfl (fun _ h => by cases h) fun dv h => by cases h; exact ⟨by constructor, by simp⟩
  · exact hleaf _ rfl (fun _ h => by cases h) fun dv h => by cases h
  · refine .intro ⟨fun _ h => (by cases h), fun _ h => (by cases h)⟩ fun d hd => ?_
    rw [show Constraint.kids _ = [exFillInner, .empty] from rfl] at hd
    simp only [List.mem_cons, List.not_mem_nil, or_false] at hd
    rcases hd with rfl | rfl
    · exact hinner
    · exact hempty
  · refine .intro ⟨fun _ h => (by cases h), fun _ h => (by cases h)⟩ fun d hd => ?_
    rw [show Constraint.kids _ = [exFillInner, .object (Object'.AdditionalProperties (some .empty))] from rfl] at hd
    simp only [List.mem_cons, List.not_mem_nil, or_false] at hd
    rcases hd with rfl | rfl
    · exact hinner
    · refine .intro ⟨fun _ h => (by cases h), fun _ h => (by cases h)⟩ fun d hd => ?_
      rw [show Constraint.kids _ = [.empty] from rfl] at hd
      simp only [List.mem_cons, List.not_mem_nil, or_false] at hd
      subst hd
      exact hempty
  · refine .intro ⟨fun _ h => (by cases h), fun _ h => (by cases h)⟩ fun d hd => ?_
    rw [show Constraint.kids _ = [.null, .string (String'.Default (.str (b! "y")))] from rfl] at hd
    simp only [List.mem_cons, List.not_mem_nil, or_false] at hd
    rcases hd with rfl | rfl
    · exact hnull
    · exact hleaf _ rfl (fun _ h => by cases h) fun dv h => by cases h; exact ⟨by constructor, by simp⟩
  · exact hnull

theorem exFillEnv_fair : exFillEnv.Every Constraint.Fair := by
  intro m n c h
  unfold exFillEnv at h
  split at h
  · cases h; exact exFill_fair
  · cases h

/-- `&Inner{F: f}` for `type Inner struct { F MaybeBool `json:"f"` }` -/
def exInnerRows (f : Option Bool) : List StructRow := [⟨fld (b! "F") (b! "f"), b! "f", .maybe f.isSome (.bool (f.getD false)), f.map .bool⟩]
/-- the value -/
def exInnerV (f : Option Bool) : GoVal := .ptr (some (.struct (rowFields (exInnerRows f))))
/-- what it stands for -/
def exInnerDoc (f : Option Bool) : GoVal := .map false (rowProps (exInnerRows f))

/-- `exFillInner`, as an object constraint -/
def exInnerO : ObjC Constraint := Object'.AddProp (b! "f") (.boolean (some (.bool true)))

theorem exInner_stands {K : Role} (hK : ∀ o, K (.object o) → o = exInnerO ∨ o = Object'.AdditionalProperties (some .empty)) (f : Option Bool) :
    StandsFor ext exFillEnv K (exInnerV f) (exInnerDoc f) := by
  have hl : K.LooksInto ext (b! "f") := fun o ho => by
    rcases hK o ho with rfl | rfl
    · exact Or.inl ⟨_, List.mem_cons_self⟩
    · exact Or.inr ⟨fun _ _ _ h => (by cases h), fun d h => (by cases h; rfl)⟩
  have hrows := rows_shown (ext := ext) (env := exFillEnv) (K := K) (rows := exInnerRows f)
    (fun r hr => by
      cases List.mem_singleton.1 hr
      exact ⟨rfl, by show jsonNameSpec (fld (b! "F") (b! "f")) = some (b! "f"); decide⟩)
    (by simp [exInnerRows]) (by simp [exInnerRows]) (fun r hr => by
      cases List.mem_singleton.1 hr
      cases f with
      | none => exact .unset _ hl
      | some x => exact .set (.bool x) _ hl (.same _ (.scalar (by constructor))))
  refine .ptr K _ _ hrows.1 hrows.2 ?_
  rintro p dv ⟨o, d, ho, hp, -, fuel, hd⟩ hpn
  rcases hK o ho with rfl | rfl
  · replace hp : (p, d) ∈ [(b! "f", .boolean (some (.bool true)))] := hp
    simp only [List.mem_singleton, Prod.mk.injEq] at hp
    obtain ⟨rfl, rfl⟩ := hp
    cases hd
    cases f with
    | none => exact ⟨_, _, List.mem_cons_self, by show jsonNameSpec (fld (b! "F") (b! "f")) = some (b! "f"); decide, .val _ _ _ (.conv _ _ _ (.bool _)) (.same _ (.scalar (by constructor)))⟩
    | some x => exact absurd (by simp [rowProps, exInnerRows]) hpn
  · cases hp

/-- `exFill`, as an object constraint -/
def exFillO : ObjC Constraint := match exFill with | .object o => o | _ => Object'

/-- `&Fill{N: n, S: s, L: []*Inner{…}, C: &Inner{…}}` for
`type Fill struct { N MaybeFloat `json:"n"`; S MaybeString `json:"s"`; L []*Inner `json:"l"`; C *Inner `json:"c"` }` -/
def exFillRows (n : Option F64) (s : Option GoStr) (l : List (Option Bool)) (c : Option Bool) : List StructRow :=
  [⟨fld (b! "N") (b! "n"), b! "n", .maybe n.isSome (.float (n.getD F64.zero)), n.map (.float .f64 ·)⟩,
    ⟨fld (b! "S") (b! "s"), b! "s", .maybe s.isSome (.str (s.getD [])), s.map .str⟩,
    ⟨fld (b! "L") (b! "l"), b! "l", .slice false (l.map exInnerV), some (.slice false (l.map exInnerDoc))⟩,
    ⟨fld (b! "C") (b! "c"), b! "c", exInnerV c, some (exInnerDoc c)⟩]
/-- the value -/
def exFillV (n : Option F64) (s : Option GoStr) (l : List (Option Bool)) (c : Option Bool) : GoVal := .ptr (some (.struct (rowFields (exFillRows n s l c))))
/-- what it stands for -/
def exFillDoc (n : Option F64) (s : Option GoStr) (l : List (Option Bool)) (c : Option Bool) : GoVal := .map false (rowProps (exFillRows n s l c))

theorem exFill_alongside {e : Constraint} (h : exFill.Alongside exFillEnv e) : e = .object exFillO := by
  cases h with
  | refl => rfl
  | same h _ => cases h with | dependency h => cases h

theorem exFill_props {p : GoStr} {d : Constraint} (h : (p, d) ∈ exFillO.props) :
    (p = b! "n" ∧ d = .number (Number'.Default (fl 3))) ∨ (p = b! "s" ∧ d = .string (String'.Default (.str (b! "x")))) ∨
    (p = b! "next" ∧ d = .ref 0 (b! "self")) ∨ (p = b! "l" ∧ d = .array (Array'.Items exFillInner)) ∨
    (p = b! "c" ∧ d = .all [exFillInner, .object (Object'.AdditionalProperties (some .empty))]) ∨
    (p = b! "e" ∧ d = .any [.null, .string (String'.Default (.str (b! "y")))]) := by
  replace h : (p, d) ∈ [(b! "n", .number (Number'.Default (fl 3))), (b! "s", .string (String'.Default (.str (b! "x")))),
      (b! "next", .ref 0 (b! "self")), (b! "l", .array (Array'.Items exFillInner)),
      (b! "c", .all [exFillInner, .object (Object'.AdditionalProperties (some .empty))]), (b! "e", .any [.null, .string (String'.Default (.str (b! "y")))])] := h
  simpa only [List.mem_cons, List.not_mem_nil, or_false, Prod.mk.injEq] using h

theorem exFill_prop {k : GoStr} (hk : k ∈ exFillO.props.map (·.1)) {e : Constraint}
    (h : Role.prop ext exFillEnv (exFill.Alongside exFillEnv) k e) : ∃ d, (k, d) ∈ exFillO.props ∧ d.Alongside exFillEnv e := by
  obtain ⟨o, d, h1, h2, h3⟩ := h
  cases exFill_alongside h1
  obtain ⟨⟨k', d'⟩, hm, rfl⟩ := List.mem_map.1 hk
  cases h2 with
  | declared h => exact ⟨d, h, h3⟩
  | pattern h => exact absurd ⟨d', hm⟩ h
  | additional h => exact absurd ⟨d', hm⟩ h

theorem exInner_alongside {e : Constraint} (h : exFillInner.Alongside exFillEnv e) : e = .object exInnerO := by
  cases h with
  | refl => rfl
  | same h _ => cases h with | dependency h => cases h

theorem exFill_l {a : ArrC Constraint} (h : Role.prop ext exFillEnv (exFill.Alongside exFillEnv) (b! "l") (.array a)) : a = Array'.Items exFillInner := by
  obtain ⟨d', h1, h2⟩ := exFill_prop (by decide) h
  obtain ⟨h, -⟩ | ⟨h, -⟩ | ⟨h, -⟩ | ⟨-, rfl⟩ | ⟨h, -⟩ | ⟨h, -⟩ := exFill_props h1 <;> try exact absurd h (by decide)
  cases h2 with
  | refl => rfl
  | same h => cases h

theorem exFill_c {o : ObjC Constraint} (h : Role.prop ext exFillEnv (exFill.Alongside exFillEnv) (b! "c") (.object o)) :
    o = exInnerO ∨ o = Object'.AdditionalProperties (some .empty) := by
  obtain ⟨d', h1, h2⟩ := exFill_prop (by decide) h
  obtain ⟨h, -⟩ | ⟨h, -⟩ | ⟨h, -⟩ | ⟨h, -⟩ | ⟨-, rfl⟩ | ⟨h, -⟩ := exFill_props h1 <;> try exact absurd h (by decide)
  cases h2 with
  | same h h' =>
    cases h with
    | all h =>
      simp only [List.mem_cons, List.not_mem_nil, or_false] at h
      rcases h with rfl | rfl
      · exact Or.inl (by simpa using exInner_alongside h')
      · cases h' with
        | refl => exact Or.inr rfl
        | same h _ => cases h with | dependency h => cases h

/-- The struct stands for its document, whichever fields are set. -/
theorem exFill_stands (n : Option F64) (s : Option GoStr) (l : List (Option Bool)) (c : Option Bool) :
    StandsFor ext exFillEnv (exFill.Alongside exFillEnv) (exFillV n s l c) (exFillDoc n s l c) := by
  have hl : ∀ k, exFillO.Declares k → Role.LooksInto ext (exFill.Alongside exFillEnv) k := fun k hk o ho => by
    cases exFill_alongside ho
    exact Or.inl hk
  have hname : ∀ r ∈ exFillRows n s l c, r.field.anonymous = false ∧ jsonNameSpec r.field = some r.key := by
    intro r hr
    simp only [exFillRows, List.mem_cons, List.not_mem_nil, or_false] at hr
    rcases hr with rfl | rfl | rfl | rfl <;> exact ⟨rfl, by dsimp only; decide⟩
  have hrows := rows_shown (ext := ext) (env := exFillEnv) (K := exFill.Alongside exFillEnv) hname
    (by simp [exFillRows]) (by simp [exFillRows]) (fun r hr => by
      simp only [exFillRows, List.mem_cons, List.not_mem_nil, or_false] at hr
      rcases hr with rfl | rfl | rfl | rfl
      · cases n with
        | none => exact .unset _ (hl _ ⟨_, List.mem_cons_self⟩)
        | some x => exact .set (.float x) _ (hl _ ⟨_, List.mem_cons_self⟩) (.same _ (.scalar (by constructor)))
      · cases s with
        | none => exact .unset _ (hl _ ⟨_, List.mem_cons_of_mem _ List.mem_cons_self⟩)
        | some x => exact .set (.str x) _ (hl _ ⟨_, List.mem_cons_of_mem _ List.mem_cons_self⟩) (.same _ (.scalar (by constructor)))
      · refine .value _ _ (fun h => by cases h) (.slice _ _ _ _ (by simp) (fun i x y hx hy => ?_) fun a ha hu => ?_)
        · rw [List.getElem?_map] at hx hy
          obtain ⟨f, hf, rfl⟩ := Option.map_eq_some_iff.1 hx
          rw [hf] at hy
          cases hy
          refine exInner_stands (fun o ho => Or.inl ?_) f
          obtain ⟨a, d, ha, hd, he⟩ := ho
          cases exFill_l ha
          cases hd with
          | items h =>
            cases h
            simpa using exInner_alongside he
          | positional h => cases h
          | additional h => cases h
        · cases exFill_l ha
          cases hu
      · exact .value _ _ (fun h => by cases h) (exInner_stands (fun o ho => exFill_c ho) c))
  refine .ptr _ _ _ hrows.1 hrows.2 ?_
  rintro p dv ⟨o, d, ho, hp, -, fuel, hd⟩ hpn
  cases exFill_alongside ho
  obtain ⟨rfl, rfl⟩ | ⟨rfl, rfl⟩ | ⟨rfl, rfl⟩ | ⟨rfl, rfl⟩ | ⟨rfl, rfl⟩ | ⟨rfl, rfl⟩ := exFill_props hp
  · cases hd
    cases n with
    | none => exact ⟨_, _, List.mem_cons_self, (hname _ List.mem_cons_self).2, .val _ _ _ (.conv _ _ _ (.float _ _)) (.same _ (.scalar (by constructor)))⟩
    | some x => exact absurd (by simp [rowProps, exFillRows]) hpn
  · cases hd
    cases s with
    | none =>
      exact ⟨_, _, List.mem_cons_of_mem _ List.mem_cons_self, (hname _ (List.mem_cons_of_mem _ List.mem_cons_self)).2,
        .val _ _ _ (.conv _ _ _ (.str _)) (.same _ (.scalar (by constructor)))⟩
    | some x => exact absurd (by simp [rowProps, exFillRows]) hpn
  · cases fuel <;> cases hd
  all_goals cases hd

theorem exInner_json (f : Option Bool) : IsJson (exInnerDoc f) := by
  cases f with
  | none => exact .obj _ (by decide) fun k x h => by cases h
  | some b =>
    refine .obj _ (by simp [rowProps, exInnerRows]) fun k x h => ?_
    simp only [rowProps, exInnerRows, List.filterMap_cons, List.filterMap_nil, Option.map_some, List.mem_singleton, Prod.mk.injEq] at h
    rw [h.2]
    exact .bool b

theorem exFill_json (n : Option F64) (s : Option GoStr) (l : List (Option Bool)) (c : Option Bool) : IsJson (exFillDoc n s l c) := by
  refine .obj _ ?_ fun k x h => ?_
  · cases n <;> cases s <;> (simp [rowProps, exFillRows])
  · simp only [rowProps, List.mem_filterMap, exFillRows, List.mem_cons, List.not_mem_nil, or_false] at h
    obtain ⟨r, rfl | rfl | rfl | rfl, h2⟩ := h
    · cases n with
      | none => cases h2
      | some y => cases h2; exact .num y
    · cases s with
      | none => cases h2
      | some y => cases h2; exact .str y
    · cases h2
      refine .arr _ fun x hx => ?_
      obtain ⟨f, -, rfl⟩ := List.mem_map.1 hx
      exact exInner_json f
    · cases h2
      exact exInner_json c

/-- All hypotheses of the four theorems hold: calls on these structs agree, in whatever order they list their properties, -/
example (n : Option F64) (s : Option GoStr) (l : List (Option Bool)) (c : Option Bool) {v1 v2 : GoVal} {r r' : Res}
    (h : Returns demoExt exFillEnv exFill σ (exFillV n s l c) r v1) (h' : Returns demoExt exFillEnv exFill τ (exFillV n s l c) r' v2) : r = .ok ↔ r' = .ok :=
  (C35_structs_partial demoExt_sorted (fun m k c hc x hx => ⟨exFillEnv_fair m k c hc x hx, (exFillEnv_every m k c hc x hx).1.1.1, (exFillEnv_every m k c hc x hx).1.1.2.1,
      (exFillEnv_every m k c hc x hx).1.1.2.2, (exFillEnv_every m k c hc x hx).2⟩)
    (fun x hx => ⟨exFill_fair x hx, (exFill_every x hx).1.1.1, (exFill_every x hx).1.1.2.1, (exFill_every x hx).1.1.2.2, (exFill_every x hx).2⟩)
    (exFill_stands n s l c) (exFill_json n s l c) h h').1

/-- and what they accept they accept again. -/
example (n : Option F64) (s : Option GoStr) (l : List (Option Bool)) (c : Option Bool) {v1 v2 : GoVal} {r : Res}
    (h : Returns demoExt exFillEnv exFill σ (exFillV n s l c) .ok v1) (h' : Returns demoExt exFillEnv exFill τ v1 r v2) : r = .ok :=
  (C42_structs_partial demoExt_sorted (fun m k c hc x hx => ⟨exFillEnv_fair m k c hc x hx, exFillEnv_every m k c hc x hx⟩)
    (fun x hx => ⟨exFill_fair x hx, exFill_every x hx⟩) (exFill_stands n s l c) (exFill_json n s l c) h h').1

/-- None of the calls panics, -/
example (n : Option F64) (s : Option GoStr) (l : List (Option Bool)) (c : Option Bool) {v' : GoVal} {r : Res}
    (h : Returns demoExt exFillEnv exFill σ (exFillV n s l c) r v') : r.Normal :=
  C44_structs (fun m k c hc x hx => ⟨exFillEnv_fair m k c hc x hx, (exFillEnv_every m k c hc x hx).2⟩)
    (fun x hx => ⟨exFill_fair x hx, (exFill_every x hx).2⟩) (exFill_stands n s l c) (exFill_json n s l c).data h

/-- and the string that was missing is there afterwards. -/
example (n : Option F64) (l : List (Option Bool)) (c : Option Bool) {v' : GoVal} (h : Returns demoExt exFillEnv exFill σ (exFillV n none l c) .ok v') :
    ∃ fs', v' = .ptr (some (.struct fs')) ∧ ∃ f x y, (f, x) ∈ unembed fs' ∧ jsonNameSpec f = some (b! "s") ∧ fieldContent x = some y ∧
      StandsFor demoExt exFillEnv (Role.prop demoExt exFillEnv (exFill.Alongside exFillEnv) (b! "s")) y (.str (b! "x")) := by
  obtain ⟨fs', h1, h2, -⟩ := C60_nested (o := exFillO) ⟨by decide⟩ exFillEnv_fair exFill_fair (show exFill.Alongside exFillEnv = (Constraint.object exFillO).Alongside exFillEnv from rfl)
    (exFill_stands n none l c) h
  refine ⟨fs', h1, h2 (b! "s") (.string (String'.Default (.str (b! "x")))) _ (List.mem_cons_of_mem _ List.mem_cons_self) ⟨by simp, 0, rfl⟩ ?_⟩
  rintro ⟨y, hy⟩
  cases n <;> simp [rowProps, exFillRows] at hy

/-- One such call. -/
example : Returns demoExt exFillEnv exFill sched0 (exFillV none none [none, some false] none) .ok
    (exFillV (some (F64.ofInt 3)) (some (b! "x")) [some true, some false] (some true)) := ⟨by simp, 3, by rfl⟩

end Jsval
