import Verif.Spec.PipelineDefaults
import Verif.Lemmas.PipelineRun
import Verif.Lemmas.Intify
import Verif.Lemmas.SchemaPlain
import Verif.Lemmas.BuildUnseen
import Verif.Props.ConformingDefaults
import Verif.Props.Pipeline
/-!
# Generated programs for schemas with defaults
-/
namespace Jsval

/-! ## Jobs without defaults -/

section
variable {ext : Ext} {cls : DocClass} {lib : SchemaLib} {resolve : Resolver} {jobs : List Job}

/-- The job without defaults. -/
def Job.plain (j : Job) : Job := { j with schema := j.schema.plain, built := j.built.plain }

theorem allBuilt_plain (h : AllBuilt lib resolve jobs) : AllBuilt lib resolve.plain (jobs.map Job.plain) := by
  intro j hj
  obtain ⟨i, hi, rfl⟩ := List.mem_map.1 hj
  obtain ⟨fuel, σ, hb⟩ := h i hi
  refine ⟨fuel, σ, ?_⟩
  show BuildWithCtx lib i.map resolve.plain fuel σ i.schema.plain = .ok i.built.plain
  rw [buildWithCtx_plain, hb]
  rfl

theorem oneRoot_plain (h : OneRoot resolve (jobs.map (·.schema))) : OneRoot resolve.plain ((jobs.map Job.plain).map (·.schema)) := by
  have hm : ∀ s, s ∈ (jobs.map Job.plain).map (·.schema) → ∃ t ∈ jobs.map (·.schema), s = t.plain := by
    intro s hs
    obtain ⟨j, hj, rfl⟩ := List.mem_map.1 hs
    obtain ⟨i, hi, rfl⟩ := List.mem_map.1 hj
    exact ⟨i.schema, List.mem_map_of_mem hi, rfl⟩
  constructor
  · intro s hs h1 s1 h2
    obtain ⟨t, ht, rfl⟩ := hm s hs
    rw [show resolve.plain (b! "#") = (resolve (b! "#")).plain from rfl, target_plain] at h2
    cases h3 : (resolve (b! "#")).target with
    | error e => rw [h3] at h2; cases h2
    | ok s2 =>
      rw [h3] at h2
      cases h2
      rw [h.resolved t ht (reaches_plain.1 h1) s2 h3]
  · intro s hs s' hs' h1 h2
    obtain ⟨t, ht, rfl⟩ := hm s hs
    obtain ⟨t', ht', rfl⟩ := hm s' hs'
    rw [h.same t ht t' ht' (reaches_plain.1 h1) (reaches_plain.1 h2)]

theorem FaithfulD.plain {s : Schema} (h : FaithfulD ext lib.formats cls resolve s) : Faithful ext lib.formats cls resolve.plain s.plain := by
  refine ⟨h.conforms, h.expresses, fun n t h1 h2 => ?_, fun n t h1 h2 => ?_⟩
  · obtain ⟨s1, h3, rfl⟩ := refersTo_plain.1 h2
    exact h.refConforms n s1 (reaches_plain.1 h1) h3
  · obtain ⟨s1, h3, rfl⟩ := refersTo_plain.1 h2
    exact h.refExpresses n s1 (reaches_plain.1 h1) h3

theorem firstRef_plain (n : GoStr) : ∀ jobs : List Job, firstRef n ((jobs.map Job.plain).map Job.val) = (firstRef n (jobs.map Job.val)).map Constraint.plain
  | [] => rfl
  | j :: l => by
    have ih := firstRef_plain n l
    unfold firstRef at ih ⊢
    have hj : alookup n j.plain.val.refs = (alookup n j.val.refs).map Constraint.plain := by
      show alookup n j.built.plain.table = _
      rw [Built.plain, alookup_map]
      rfl
    simp only [List.map_cons, List.findSome?_cons, hj]
    cases alookup n j.val.refs with
    | none => exact ih
    | some c => rfl

theorem mergedEnv_plain : mergedEnv (jobs.map Job.plain) = Env.plain (mergedEnv jobs) := by
  funext m n
  exact firstRef_plain n jobs

theorem hasRefs_plain : hasRefs ((jobs.map Job.plain).map Job.val) = hasRefs (jobs.map Job.val) := by
  unfold hasRefs
  rw [List.map_map, List.any_map, List.any_map]
  congr 1
  funext j
  simp only [Function.comp_apply, Job.plain, Job.val, Built.plain]
  exact decide_eq_decide.2 (by simp)

/-! ## From constraints without defaults to those with -/

theorem child_plain {c d : Constraint} (h : c.Child d) : c.plain.Child d.plain := by
  cases h with
  | array h =>
    rw [plain_array]
    refine .array ?_
    cases h with
    | items h => exact .items (by simp [ArrC.map, h])
    | positional h => exact .positional (List.mem_map.2 ⟨_, h, rfl⟩)
    | additional h => exact .additional (by simp [ArrC.map, h])
  | object h =>
    rw [plain_object]
    refine .object ?_
    cases h with
    | prop h => exact .prop (List.mem_map.2 ⟨_, h, rfl⟩)
    | pattern h => exact .pattern (List.mem_map.2 ⟨_, h, rfl⟩)
    | additional h => exact .additional (by simp [ObjC.map, h])
    | @dependency p _ h =>
      refine .dependency (p := p) ?_
      · unfold ObjC.GetSchemaDependency at h ⊢
        simp only [ObjC.map, alookup_map, h]
        rfl
  | any h => rw [Constraint.plain, plainList_eq]; exact .any (List.mem_map.2 ⟨_, h, rfl⟩)
  | all h => rw [Constraint.plain, plainList_eq]; exact .all (List.mem_map.2 ⟨_, h, rfl⟩)
  | oneOf h => rw [Constraint.plain, plainList_eq]; exact .oneOf (List.mem_map.2 ⟨_, h, rfl⟩)
  | not => exact .not

theorem every_of_plain {L W L' : Constraint → Prop} (hL : ∀ c, L c.plain → W c → L' c) {c : Constraint} (h : c.plain.Every L) (hw : c.Every W) :
    c.Every L' := by
  induction c using Constraint.ind with
  | h c ih =>
    exact every_of_children (hL c h.self hw.self) fun d hd => ih d hd (h.child (child_plain hd)) (hw.child hd)

/-- The generator can write the default. -/
def Constraint.Writable : Constraint → Prop
  | .string c => ∀ v, c.dflt = some v → ∃ s, v = .str s ∧ Plain s
  | .number c => ∀ v, c.dflt = some v → ∃ f, v = .float .f64 f ∧ SixDec f
  | .integer c => ∀ v, c.dflt = some v → ∃ f, v = .float .f64 f
  | .boolean d => ∀ v, d = some v → ∃ b, v = .bool b
  | _ => True

theorem genD_of_plain {refs : Bool} (c : Constraint) (h : c.plain.Gen refs) (hw : c.Writable) : c.GenD True refs := by
  cases c with
  | empty => trivial
  | null => trivial
  | boolean d => exact hw
  | string c => exact ⟨h.format, h.regexp, h.enums, hw⟩
  | number c => exact ⟨h.minimum, h.maximum, h.multipleOf, h.enums, hw⟩
  | integer c => exact ⟨h.minimum, h.maximum, h.multipleOf, h.enums, fun v hv => ⟨trivial, hw v hv⟩⟩
  | enum l => exact h
  | array a =>
    rw [plain_array] at h
    simpa [Constraint.Gen, Constraint.GenD, ArrC.map] using h
  | object o =>
    rw [plain_object] at h
    have h : (o.map Constraint.plain).Gen := h
    show o.Gen
    constructor
    · simpa [ObjC.map, Function.comp_def] using h.propNames
    · simpa [ObjC.map, Function.comp_def] using h.patSources
    · exact h.depNames
    · intro p hp; exact h.plainProps (p.1, p.2.plain) (List.mem_map.2 ⟨p, hp, rfl⟩)
    · intro p hp; exact h.plainPats (p.1, p.2.1, p.2.2.plain) (List.mem_map.2 ⟨p, hp, rfl⟩)
    · exact h.plainReq
    · exact h.plainDeps
    · simpa [ObjC.map] using h.schemadeps
    · exact h.minProps
    · exact h.maxProps
  | any l =>
    rw [Constraint.plain, plainList_eq] at h
    intro e; subst e; exact h rfl
  | all l => trivial
  | oneOf l =>
    rw [Constraint.plain, plainList_eq] at h
    intro e; subst e; exact h rfl
  | not c => exact h
  | ref m n => exact h

theorem refsTo_of_plain {m : Nat} {S : GoStr → Prop} (c : Constraint) (h : c.plain.RefsTo m S) : c.RefsTo m S := by
  intro m' n he
  subst he
  exact h m' n rfl

/-! ## Defaults of built constraints can be written -/

theorem stringOf_default {S : Type} {s : SchemaF S} {v : GoVal} (h : (stringOf s).dflt = some v) : s.dflt = v ∧ s.dflt ≠ .nil := by
  by_cases hd : s.dflt = .nil
  · rw [stringOf_dflt hd] at h; cases h
  · refine ⟨?_, hd⟩
    unfold stringOf at h
    simp only at h
    generalize hq : s.dflt = d at h hd ⊢
    cases d with
    | nil => exact absurd rfl hd
    | _ => simpa [StrC.Default] using h

theorem numberOf_default {S : Type} {s : SchemaF S} {v : GoVal} (h : (numberOf s).dflt = some v) : s.dflt = v ∧ s.dflt ≠ .nil := by
  by_cases hd : s.dflt = .nil
  · rw [numberOf_dflt hd] at h; cases h
  · refine ⟨?_, hd⟩
    unfold numberOf at h
    simp only at h
    generalize hq : s.dflt = d at h hd ⊢
    cases d with
    | nil => exact absurd rfl hd
    | _ => simpa [NumC.Default] using h

theorem integerOf_default {S : Type} {s : SchemaF S} {v : GoVal} (h : (integerOf s).dflt = some v) : s.dflt = v ∧ s.dflt ≠ .nil := by
  by_cases hd : s.dflt = .nil
  · rw [integerOf_dflt hd] at h; cases h
  · refine ⟨?_, hd⟩
    unfold integerOf at h
    simp only at h
    generalize hq : s.dflt = d at h hd ⊢
    cases d with
    | nil => exact absurd rfl hd
    | _ => simpa [NumC.Default] using h

theorem writable_has {m : Nat} {s : SchemaF Schema} (hd : s.DefaultWritable lib.formats) (R : List GoStr) :
    NodeHas Constraint.Writable lib m (fun a _ c => BuiltBy a c) R (s.map (build lib m)) := by
  constructor
  · trivial
  · intro t c ht hb _
    rw [schemaTypes_map] at ht
    have hw := fun h => hd h t (mem_schemaTypes_treats.1 ht)
    cases hb with
    | string =>
      intro v hv
      obtain ⟨rfl, h⟩ := stringOf_default hv
      exact hw h
    | number =>
      intro v hv
      obtain ⟨rfl, h⟩ := numberOf_default hv
      exact hw h
    | integer =>
      intro v hv
      obtain ⟨rfl, h⟩ := integerOf_default hv
      exact hw h
    | booleanDflt => intro v hv; cases hv; exact ⟨_, rfl⟩
    | boolean => intro v hv; cases hv
    | null => trivial
    | array => trivial
    | object => trivial
  all_goals intros; trivial

theorem writable_built {m : Nat} {root : Schema} : ∀ s : Schema, (∀ f, UsesSchema resolve root s (.mk f) → f.reference = [] → f.DefaultWritable lib.formats) →
    ∀ c, BuiltFrom lib m s c → c.Every Constraint.Writable := by
  refine Schema.ind (P := fun s => (∀ f, UsesSchema resolve root s (.mk f) → f.reference = [] → f.DefaultWritable lib.formats) →
    ∀ c, BuiltFrom lib m s c → c.Every Constraint.Writable) ?_ ?_
  · intro _ c hb
    obtain ⟨σ, R, R', hb⟩ := hb
    rw [build_nil] at hb; cases hb
  · intro s ih hq c hb
    obtain ⟨R, hb⟩ := node_of_build hb
    by_cases hr : s.reference = []
    · refine every_node (writable_has (hq s (.refl _) hr) R) (fun a c ha ht => ?_) hb
      obtain ⟨x, hx, rfl⟩ := SchemaF.child_map ha
      exact ih x hx (fun f hf => hq f (.child hr hx hf)) c ht
    · cases hb with
      | ref h1 h2 => exact every_leaf trivial (fun d hd => by cases hd)
      | typed h => exact absurd h hr
      | enum h => exact absurd h hr
      | plain h => exact absurd h hr

/-- Every merged entry and every root can be generated, and refers to its own map only. -/
theorem merged_genD (hb : AllBuilt lib resolve jobs) (hone : OneRoot resolve (jobs.map (·.schema)))
    (hf : ∀ j ∈ jobs, FaithfulD ext lib.formats cls resolve j.schema) :
    (∀ j ∈ jobs, ∀ n c, alookup n j.built.table = some c → c.Every (Constraint.GenD True (hasRefs (jobs.map Job.val))) ∧
      c.Every (Constraint.RefsTo j.map (fun _ => True))) ∧
    ∀ j ∈ jobs, j.built.root.Every (Constraint.GenD True (hasRefs (jobs.map Job.val))) ∧
      j.built.root.Every (Constraint.RefsTo j.map (fun _ => True)) := by
  obtain ⟨g1, g2⟩ := merged_gen (allBuilt_plain hb) (oneRoot_plain hone) (ext := ext) (cls := cls) (fun j hj => by
    obtain ⟨i, hi, rfl⟩ := List.mem_map.1 hj
    exact (hf i hi).plain)
  rw [hasRefs_plain] at g1 g2
  have lift : ∀ (c : Constraint) (m : Nat), c.plain.Every (Constraint.Gen (hasRefs (jobs.map Job.val))) ∧ c.plain.Every (Constraint.RefsTo m (fun _ => True)) →
      c.Every Constraint.Writable → c.Every (Constraint.GenD True (hasRefs (jobs.map Job.val))) ∧ c.Every (Constraint.RefsTo m (fun _ => True)) :=
    fun c m h hw => ⟨every_of_plain genD_of_plain h.1 hw, every_of_plain (W := fun _ => True) (fun c h _ => refsTo_of_plain c h) h.2 (fun _ _ => trivial)⟩
  constructor
  · intro j hj n c hc
    refine lift c j.map (g1 j.plain (List.mem_map_of_mem hj) n c.plain ?_) ?_
    · show alookup n j.built.plain.table = _
      rw [Built.plain, alookup_map, hc]
      rfl
    · obtain ⟨bfuel, σ, hbj⟩ := hb j hj
      obtain ⟨-, htab⟩ := built_from (hone.resolved j.schema (List.mem_map_of_mem hj)) hbj
      obtain ⟨h1, s1, h2, h3⟩ := htab _ (alookup_mem hc)
      exact writable_built s1 (fun f hu => (hf j hj).defaults f ((reaches_uses h1 s1 h2).trans hu)) c h3
  · intro j hj
    refine lift _ j.map (g2 j.plain (List.mem_map_of_mem hj)) ?_
    obtain ⟨bfuel, σ, hbj⟩ := hb j hj
    obtain ⟨hbf, -⟩ := built_from (hone.resolved j.schema (List.mem_map_of_mem hj)) hbj
    exact writable_built j.schema (hf j hj).defaults _ hbf

/-! ## Another root that means the same -/

section
variable {i j : Schema} (hag : ∀ n, Reaches resolve j n → ∀ s1, RefersTo resolve i n s1 → RefersTo resolve j n s1)
include hag

/-- All that the schema mentions is reached. -/
def Within (resolve : Resolver) (root s : Schema) : Prop := ∀ n, s.Mentions n → Reaches resolve root n

omit hag in
theorem Within.child {f : SchemaF Schema} (h : Within resolve j (.mk f)) (hr : f.reference = []) {c : Schema} (hc : f.Child c) : Within resolve j c :=
  fun n hn => h n (.child hr hc hn)

omit hag in
theorem Within.ref {f : SchemaF Schema} (h : Within resolve j (.mk f)) (hr : f.reference ≠ []) : Reaches resolve j f.reference :=
  h _ (.here hr rfl)

theorem uses_moved {s t : Schema} (h : UsesSchema resolve i s t) : Within resolve j s → UsesSchema resolve j s t ∧ Within resolve j t := by
  induction h with
  | refl => exact fun h => ⟨.refl _, h⟩
  | child h1 h2 _ ih =>
    intro h
    obtain ⟨h3, h4⟩ := ih (h.child h1 h2)
    exact ⟨.child h1 h2 h3, h4⟩
  | ref h1 h2 _ ih =>
    intro h
    have h2 := hag _ (h.ref h1) _ h2
    obtain ⟨h3, h4⟩ := ih (fun n hn => .step (h.ref h1) h2 hn)
    exact ⟨.ref h1 h2 h3, h4⟩

theorem takes_moved {s t : Schema} (h : TakesFrom resolve i s t) : Within resolve j s → TakesFrom resolve j s t := by
  induction h with
  | refl => exact fun h => .refl _
  | branch h1 h2 _ ih =>
    intro h
    refine .branch h1 h2 (ih (h.child h1 ?_))
    rcases h2 with h2 | h2 | h2
    · exact .allOf h2
    · exact .anyOf h2
    · exact .oneOf h2
  | ref h1 h2 _ ih =>
    intro h
    have h2 := hag _ (h.ref h1) _ h2
    exact .ref h1 h2 (ih (fun n hn => .step (h.ref h1) h2 hn))

theorem quiet_moved {s : Schema} (h : Quiet resolve j s) (hw : Within resolve j s) : Quiet resolve i s := by
  intro f hf hr n p hp ⟨g, h1, h2⟩
  obtain ⟨h3, h4⟩ := uses_moved hag hf hw
  exact h f h3 hr n p hp ⟨g, takes_moved hag h1 (h4.child hr (.property hp)), h2⟩

omit hag in
theorem alien_moved (hag2 : ∀ n, Reaches resolve j n → ∀ s1, RefersTo resolve j n s1 → RefersTo resolve i n s1) {s t : Schema}
    (h : Schema.Alien resolve j s t) : Within resolve j s → Within resolve j t → Schema.Alien resolve i s t := by
  induction h with
  | mk h1 h2 h3 h4 h5 h6 h7 h8 => exact fun _ _ => .mk h1 h2 h3 h4 h5 h6 h7 h8
  | left h1 h2 _ ih =>
    exact fun hs ht => .left h1 (hag2 _ (hs.ref h1) _ h2) (ih (fun n hn => .step (hs.ref h1) h2 hn) ht)
  | right h1 h2 _ ih =>
    exact fun hs ht => .right h1 (hag2 _ (ht.ref h1) _ h2) (ih hs (fun n hn => .step (ht.ref h1) h2 hn))

theorem discreet_moved (hag2 : ∀ n, Reaches resolve j n → ∀ s1, RefersTo resolve j n s1 → RefersTo resolve i n s1) {f : SchemaF Schema} (h : f.Discreet lib.formats resolve j) (hr : f.reference = []) (hw : Within resolve j (.mk f)) :
    f.Discreet lib.formats resolve i := by
  have pair : ∀ {l : List Schema}, (∀ x ∈ l, f.Child x) → l.Pairwise (fun a b => Quiet resolve j a ∨ Schema.Alien resolve j a b) →
      l.Pairwise (fun a b => Quiet resolve i a ∨ Schema.Alien resolve i a b) := fun {l} hl hp =>
    hp.imp_of_mem fun {a b} ha hb h => h.imp (fun h => quiet_moved hag h (hw.child hr (hl a ha))) fun h =>
      alien_moved hag2 h (hw.child hr (hl a ha)) (hw.child hr (hl b hb))
  refine ⟨?_, pair (fun x hx => .anyOf hx) h.anyOf, pair (fun x hx => .oneOf hx) h.oneOf, fun hb c hc => ?_, h.types, fun l x h1 h2 c hc => ?_,
    h.deps.imp id (fun h => quiet_moved hag h hw)⟩
  · exact h.allOf.imp_of_mem fun {a b} ha _ h => quiet_moved hag h (hw.child hr (.allOf ha))
  · refine quiet_moved hag (h.beside hb c hc) (hw.child hr ?_)
    rcases hc with hc | hc | hc | hc
    · exact .not hc
    · exact .allOf hc
    · exact .anyOf hc
    · exact .oneOf hc
  · exact quiet_moved hag (h.tuple l x h1 h2 c hc) (hw.child hr (.tuple h1 hc))

end

/-- One schema of the list gives the meaning of all names that the schemas of the list reach. -/
theorem root_choice (hone : OneRoot resolve (jobs.map (·.schema))) (hne : jobs ≠ []) : ∃ i ∈ jobs, ∀ j ∈ jobs, ∀ n, Reaches resolve j.schema n →
    ∀ s1, RefersTo resolve i.schema n s1 ↔ RefersTo resolve j.schema n s1 := by
  by_cases h : ∃ i ∈ jobs, Reaches resolve i.schema (b! "#")
  · obtain ⟨i, hi, hr⟩ := h
    refine ⟨i, hi, fun j hj n hn s1 => ⟨fun h1 => ?_, fun h1 => ?_⟩⟩ <;> cases h1 with
    | root =>
      rw [hone.same i.schema (List.mem_map_of_mem hi) j.schema (List.mem_map_of_mem hj) hr hn]
      exact .root
    | resolved h1 h2 => exact .resolved h1 h2
  · obtain ⟨i, hi⟩ := List.exists_mem_of_ne_nil _ hne
    refine ⟨i, hi, fun j hj n hn s1 => ⟨fun h1 => ?_, fun h1 => ?_⟩⟩ <;> cases h1 with
    | root => exact absurd ⟨j, hj, hn⟩ h
    | resolved h1 h2 => exact .resolved h1 h2

/-- The merged validators do not look at what they fill in. -/
theorem merged_unseen (hb : AllBuilt lib resolve jobs) (hone : OneRoot resolve (jobs.map (·.schema)))
    (hd : ∀ j ∈ jobs, j.schema.Discreet lib.formats resolve) :
    (mergedEnv jobs).Every (Unseen (mergedEnv jobs)) ∧ ∀ j ∈ jobs, j.built.root.Every (Unseen (mergedEnv jobs)) := by
  by_cases hne : jobs = []
  · subst hne
    exact ⟨fun m n c hc => (by cases hc), fun j hj => (by cases hj)⟩
  obtain ⟨i, hi, hag⟩ := root_choice hone hne
  have htab : TableFrom lib resolve i.schema (mergedEnv jobs) := by
    intro m n c hc
    obtain ⟨j, hj, hjn, ⟨s1, hs1, hbf⟩, -⟩ := firstRef_from hb hone hc
    exact ⟨s1, j.map, (hag j hj n hjn s1).2 hs1, hbf⟩
  have key : ∀ j ∈ jobs, ∀ s, UsesSchema resolve j.schema j.schema s → Within resolve j.schema s → ∀ f, UsesSchema resolve i.schema s (.mk f) → f.reference = [] →
      f.Discreet lib.formats resolve i.schema := by
    intro j hj s hs hw f hf hr
    have hag' := fun n hn s1 => (hag j hj n hn s1).1
    obtain ⟨h1, h2⟩ := uses_moved hag' hf hw
    exact discreet_moved hag' (fun n hn s1 => (hag j hj n hn s1).2) (hd j hj f (hs.trans h1) hr) hr h2
  constructor
  · intro m n c hc
    obtain ⟨j, hj, hjn, ⟨s1, hs1, hbf⟩, -⟩ := firstRef_from hb hone hc
    exact unseen_of_discreet htab s1 (key j hj s1 (reaches_uses hjn s1 hs1) (fun n hn => .step hjn hs1 hn)) c hbf
  · intro j hj
    obtain ⟨bfuel, σ, hbj⟩ := hb j hj
    obtain ⟨hbf, -⟩ := built_from (hone.resolved j.schema (List.mem_map_of_mem hj)) hbj
    exact unseen_of_discreet htab j.schema (key j hj _ (.refl _) (fun n hn => .root hn)) _ hbf

end
end Jsval
