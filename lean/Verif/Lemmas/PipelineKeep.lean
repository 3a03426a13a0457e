import Verif.Lemmas.SchemaKeep
import Verif.Lemmas.PipelineRun
/-!
# Running generated programs: what is kept
-/
namespace Jsval

section
variable {ext : Ext} {cls : DocClass} {lib : SchemaLib} {m : Nat} {s : SchemaF Schema} {R : List GoStr}
  {T : Act → List GoStr → Constraint → Prop}

theorem spell_string (h : s.Conforming ext lib.formats cls) (he : s.Keepable) (ht : .string ∈ s.type ∨ s.type = []) :
    (Constraint.string (stringOf (s.map (build lib m)))).Spellable true := by
  rw [stringOf_fields (s.map (build lib m)) h.dflt]
  refine ⟨he.format, he.pattern, ?_, by simp⟩
  intro l hl
  simp only at hl
  split at hl
  · cases hl
  · rename_i hne
    simp only [Option.some.injEq] at hl
    subst hl
    refine ⟨hne, fun v hv => ?_⟩
    obtain ⟨t, rfl, ht⟩ := he.enum ht v hv
    exact ht

theorem spell_object (h : s.Conforming ext lib.formats cls) (he : s.Keepable) {o : ObjC Constraint}
    (hb : ObjectBuilt T R (s.map (build lib m)) o) :
    (o.props.map (·.1)).Nodup ∧ (o.propdeps.map (·.1)).Nodup ∧ o.Written := by
  obtain ⟨k1, cs1, n1, e1⟩ := hb.props
  obtain ⟨k2, cs2, n2, e2⟩ := hb.patterns
  obtain ⟨k4, e4⟩ := hb.propdeps
  obtain ⟨r1, -, -⟩ := objectStart_more (s.map (build lib m))
  have hpat : o.patterns = cs2 := by
    rw [e2, foldl_patInsert_fresh]
    · rfl
    · have : cs2.map (·.1) = (shuffle k2 (s.map (build lib m)).patternProps).map (·.1) := (pats_keys n2).1
      rw [List.nil_append, this, ← shuffle_map, shuffle_nodup]
      simpa [SchemaF.map, Function.comp_def] using h.patternIds
  have hsrc : cs2.map (·.2.1) = (shuffle k2 (s.map (build lib m)).patternProps).map (·.2.1) := (pats_keys n2).2
  have hpd := propDeps_fold (shuffle k4 (s.map (build lib m)).depNames) Object' (by simp [Object']) (by simp [Object'])
    (fun p hp => he.depNames p (mem_shuffle.1 hp))
  refine ⟨?_, ?_, ?_, ?_, ?_, ?_, ?_⟩
  · rw [e1]; exact foldl_ainsert_nodup _ _ (by simp)
  · rw [e4]; exact hpd.1
  · rw [hpat, hsrc, ← shuffle_map, shuffle_nodup]
    simpa [SchemaF.map, Function.comp_def] using he.patternSources
  · rintro ⟨p, c⟩ hp
    rw [e1] at hp
    rcases mem_foldl_ainsert hp with hp | hp
    · obtain ⟨a, ha, ht⟩ := forall2_right n1 _ hp
      have ha := mem_shuffle.1 ha
      simp only [SchemaF.map, List.mem_map] at ha
      obtain ⟨q, hq, rfl⟩ := ha
      rw [ht.1]
      exact he.properties q hq
    · cases hp
  · intro p hp
    rw [hpat] at hp
    obtain ⟨a, ha, ht⟩ := forall2_right n2 _ hp
    have ha := mem_shuffle.1 ha
    simp only [SchemaF.map, List.mem_map] at ha
    obtain ⟨q, hq, rfl⟩ := ha
    rw [ht.2.1]
    exact he.patternProps q hq
  · intro n hn
    rw [hb.required] at hn
    exact he.required n ((r1 n).1 hn)
  · rw [e4]; exact hpd.2

theorem spell_type (h : s.Conforming ext lib.formats cls) (he : s.Keepable) {t : PrimType} {c : Constraint}
    (ht : t ∈ s.type ∨ t = .string ∧ s.type = []) (hb : TypeBuilt T R (s.map (build lib m)) t c) : Constraint.Spellable true c := by
  cases hb with
  | string => exact spell_string h he (by rcases ht with h | h; exacts [.inl h, .inr h.2])
  | number =>
    have ht : .number ∈ s.type := by simpa using ht
    have hen : s.enum = [] := by
      by_contra hne
      have := h.enumTyped hne _ ht
      simp at this
    rw [numberOf_fields (s.map (build lib m)) h.dflt hen, boundsOf_fields]
    exact ⟨he.finite.1, he.finite.2, by simp⟩
  | integer =>
    rw [integerOf_fields (s.map (build lib m)) h.dflt, boundsOf_fields]
    exact ⟨he.finite.1, he.finite.2, by simp⟩
  | booleanDflt _ => rintro v ⟨⟩; exact ⟨_, rfl⟩
  | boolean _ => rintro v ⟨⟩
  | array hb => trivial
  | object hb => exact spell_object h he hb
  | null => trivial

theorem spell_node (h : s.Conforming ext lib.formats cls) (he : s.Keepable)
    (hr0 : s.reference = []) (hT : ∀ x c, (s.map (build lib m)).Child x → T x R c → c.Every (Constraint.Spellable true))
    {c : Constraint} (hb : NodeBuilt lib m T R (s.map (build lib m)) c) : c.Every (Constraint.Spellable true) := by
  have hempty : Constraint.empty.Every (Constraint.Spellable true) := every_leaf trivial (fun d hd => by cases hd)
  have hcombo : ∀ {l}, ComboBuilt T R (s.map (build lib m)) l → ∀ c ∈ l, c.Every (Constraint.Spellable true) := by
    intro l hl c hc
    cases hl with
    | not hn t => simp [SchemaF.map, he.not] at hn
    | allOf h1 h2 t =>
      simp only [List.mem_singleton] at hc
      subst hc
      exact every_reduceAll (fun _ => trivial) (fun c hc => by obtain ⟨a, ha, ht⟩ := forall2_right t c hc; exact hT _ _ (.allOf ha) ht)
    | anyOf h1 h2 h3 t =>
      simp only [List.mem_singleton] at hc
      subst hc
      refine every_reduceAny (fun _ _ => trivial) ?_ (fun c hc => by obtain ⟨a, ha, ht⟩ := forall2_right t c hc; exact hT _ _ (.anyOf ha) ht)
      rintro rfl
      exact h3 (by generalize (s.map (build lib m)).anyOf = l at t; cases t; rfl)
    | oneOf h1 h2 h3 h4 t =>
      simp only [List.mem_singleton] at hc
      subst hc
      refine every_reduceOneOf (fun _ _ => trivial) ?_ (fun c hc => by obtain ⟨a, ha, ht⟩ := forall2_right t c hc; exact hT _ _ (.oneOf ha) ht)
      rintro rfl
      exact h4 (by generalize (s.map (build lib m)).oneOf = l at t; cases t; rfl)
    | none => simp at hc
  cases hb with
  | ref hr hm => exact absurd hr0 hr
  | @typed ct cs hr hc hn ht =>
    refine every_reduceAll (fun _ => trivial) (fun c h' => ?_)
    rcases List.mem_append.1 h' with h' | h'
    · exact hcombo hc c h'
    · simp only [List.mem_singleton] at h'
      subst h'
      refine every_reduceAny (fun _ _ => trivial) ?_ (fun c hc => ?_)
      · rintro rfl
        exact hn (by generalize schemaTypes lib (s.map (build lib m)) = l at ht; cases ht; rfl)
      · obtain ⟨t, htm, hb⟩ := forall2_right ht c hc
        refine every_of_children (spell_type h he (schemaTypes_of h (by rwa [schemaTypes_map] at htm)) hb) (fun d hd => ?_)
        have key : d = .empty ∨ ∃ x, (s.map (build lib m)).Child x ∧ T x R d := by
          cases hb with
          | array hb => exact arrayEnd_child hb hd
          | object hb => exact object_child hb hd
          | _ => cases hd
        rcases key with rfl | ⟨x, hx, htx⟩
        · exact hempty
        · exact hT x d hx htx
  | enum hr hc hn hen =>
    rw [schemaTypes_map] at hn
    exact absurd hn (types_of_enum he hen)
  | plain hr hc hn hen => exact every_reduceAll (fun _ => trivial) (hcombo hc)

end

/-- What is built from a conforming, keepable schema can be written. -/
theorem spell_built {ext : Ext} {cls : DocClass} {lib : SchemaLib} {m : Nat} {s : Schema} (h : s.Conforms ext lib.formats cls) :
    s.Keeps → ∀ c, BuiltFrom lib m s c → c.Every (Constraint.Spellable true) := by
  induction h with
  | ref s hne =>
    intro he c hb
    have hp : Plain s.reference := by
      cases he with
      | ref _ _ hp => exact hp
      | node _ h => exact absurd h hne
    obtain ⟨R, hb⟩ := node_of_build hb
    cases hb with
    | ref => exact every_leaf ⟨rfl, hp⟩ (fun d hd => by cases hd)
    | typed h => exact absurd h hne
    | enum h => exact absurd h hne
    | plain h => exact absurd h hne
  | node s hr hcf _ ih =>
    intro he c hb
    obtain ⟨hx, hk⟩ : s.Keepable ∧ ∀ c, s.Child c → c.Keeps := by
      cases he with
      | ref _ h => exact absurd hr h
      | node _ _ h h' => exact ⟨h, h'⟩
    obtain ⟨R, hb⟩ := node_of_build hb
    refine spell_node hcf hx hr (fun a c ha ht => ?_) hb
    obtain ⟨d, hd, rfl⟩ := SchemaF.child_map ha
    exact ih d hd (hk d hd) c ht


section
variable {ext : Ext} {cls : DocClass} {lib : SchemaLib} {resolve : Resolver} {jobs : List Job}

theorem kept_tracks (hb : AllBuilt lib resolve jobs) (hone : OneRoot resolve (jobs.map (·.schema))) {i : Job} (hi : i ∈ jobs)
    (hf : CodeFor ext lib.formats cls resolve i.schema) {R : GoStr → GoVal → Prop} (hR : Meaning ext resolve.keep i.schema.keep R) :
    ∀ fuel m n c, Reaches resolve.keep i.schema.keep n → firstRef n (jobs.map Job.val) = some c →
      Tracks ext (Doc cls) (refSem ext (mergedEnv jobs).keep fuel m n) (R n)
  | 0, m, n, c, _, _ => running_tracks
  | k + 1, m, n, c, hn, hc => by
    have : refSem ext (mergedEnv jobs).keep (k + 1) m n = denote ext (refSem ext (mergedEnv jobs).keep k) c.keep := by
      simp only [refSem, Env.keep, mergedEnv, hc, Option.map_some]
    rw [this]
    obtain ⟨j, hj, hjn, ⟨s1, hs1, hbf⟩, hin⟩ := firstRef_from hb hone hc
    have hs1 := hone.refersTo hi hj (reaches_keep hn) hjn hs1
    have hs2 : RefersTo resolve.keep i.schema.keep n s1.keep := refersTo_keep.2 ⟨s1, hs1, rfl⟩
    have hcf := hf.refConforms n s1 (reaches_keep hn) hs1
    have hkp := hf.refKeeps n s1 (reaches_keep hn) hs1
    refine (schema_tracks (conforms_keep hcf hkp) c.keep (builtFrom_keep hcf hkp hbf) (R := R) (fun n' hm hi' => ?_)).congr
      (fun v _ => (hR n s1.keep hn hs2 v).symm)
    obtain ⟨-, d, hd⟩ := hin _ _ (ref_in_keep hi')
    exact kept_tracks hb hone hi hf hR k _ n' d (.step hn hs2 hm) hd

theorem kept_root_tracks (hb : AllBuilt lib resolve jobs) (hone : OneRoot resolve (jobs.map (·.schema))) {i : Job} (hi : i ∈ jobs)
    (hf : CodeFor ext lib.formats cls resolve i.schema) {R : GoStr → GoVal → Prop} (hR : Meaning ext resolve.keep i.schema.keep R) (fuel : Nat) :
    Tracks ext (Doc cls) (sem ext (mergedEnv jobs).keep fuel i.built.root.keep) (i.schema.keep.Valid ext R) := by
  obtain ⟨bfuel, σ, hbi⟩ := hb i hi
  obtain ⟨hbf, -⟩ := built_from (hone.resolved i.schema (List.mem_map_of_mem hi)) hbi
  refine schema_tracks (conforms_keep hf.conforms hf.keeps) _ (builtFrom_keep hf.conforms hf.keeps hbf) (fun n hm hin => ?_)
  obtain ⟨-, c, hc⟩ := C61_no_dangling_ctx hbi (.inl (ref_in_keep hin))
  obtain ⟨d, hd⟩ := firstRef_of_mem hi hc
  exact kept_tracks hb hone hi hf hR fuel _ n d (.root hm) hd

theorem kept_guarded (hb : AllBuilt lib resolve jobs) (hone : OneRoot resolve (jobs.map (·.schema)))
    (hf : ∀ j ∈ jobs, CodeFor ext lib.formats cls resolve j.schema)
    (hg : ∀ j ∈ jobs, Grounded resolve j.schema) : Guarded (mergedEnv jobs).keep := by
  by_cases hne : jobs = []
  · subst hne
    exact ⟨fun p => ⟨_, fun q ⟨c, hc, _⟩ => by cases hc⟩⟩
  · obtain ⟨i, hi, hall⟩ := merged_one hb hone hne
    refine Subrelation.wf (fun {q p} hqp => ?_) (InvImage.wf (fun p : Nat × GoStr => p.2) (hg i hi))
    obtain ⟨c, hc, hh⟩ := hqp
    obtain ⟨c, hc', rfl⟩ := Option.map_eq_some_iff.1 hc
    obtain ⟨j, hj, s1, hs1, hbf, hjn, hjs⟩ := hall p.2 c hc'
    have hb1 := builtFrom_keep ((hf j hj).refConforms _ s1 hjn hjs) ((hf j hj).refKeeps _ s1 hjn hjs) hbf
    exact ⟨s1, hs1, mentionsHere_keep s1 (mentionsHere_of_built s1.keep c.keep hb1 hh).2⟩

theorem kept_noDflt (hb : AllBuilt lib resolve jobs) (hone : OneRoot resolve (jobs.map (·.schema)))
    (hf : ∀ j ∈ jobs, CodeFor ext lib.formats cls resolve j.schema) :
    (mergedEnv jobs).keep.Every (DefaultIn Flat) ∧ ∀ i ∈ jobs, i.built.root.keep.Every (DefaultIn Flat) := by
  have hno : ∀ c : Constraint, c.Every NoDefault → c.Every (DefaultIn Flat) := fun c hc d hd dv e => by
    rw [hc d hd] at e; cases e
  constructor
  · intro m n c hc
    obtain ⟨c, hc', rfl⟩ := Option.map_eq_some_iff.1 hc
    obtain ⟨j, hj, hjn, ⟨s1, hs1, hbf⟩, -⟩ := firstRef_from hb hone hc'
    have h1 := (hf j hj).refConforms n s1 hjn hs1
    have h2 := (hf j hj).refKeeps n s1 hjn hs1
    exact hno _ (noDflt_built (conforms_keep h1 h2) _ (builtFrom_keep h1 h2 hbf))
  · intro i hi
    obtain ⟨bfuel, σ, hbi⟩ := hb i hi
    obtain ⟨hbf, -⟩ := built_from (hone.resolved i.schema (List.mem_map_of_mem hi)) hbi
    have h1 := (hf i hi).conforms
    have h2 := (hf i hi).keeps
    exact hno _ (noDflt_built (conforms_keep h1 h2) _ (builtFrom_keep h1 h2 hbf))

/-- Every merged entry and every root can be written, and refers to its own map only. -/
theorem kept_gen (hb : AllBuilt lib resolve jobs) (hone : OneRoot resolve (jobs.map (·.schema)))
    (hf : ∀ j ∈ jobs, CodeFor ext lib.formats cls resolve j.schema) :
    (∀ j ∈ jobs, ∀ n c, alookup n j.built.table = some c → c.Every (Constraint.Spellable (hasRefs (jobs.map Job.val))) ∧
      c.Every (Constraint.RefsTo j.map (fun _ => True))) ∧
    ∀ j ∈ jobs, j.built.root.Every (Constraint.Spellable (hasRefs (jobs.map Job.val))) ∧
      j.built.root.Every (Constraint.RefsTo j.map (fun _ => True)) := by
  have down : ∀ j ∈ jobs, ∀ c, c.Every (Constraint.Spellable true) →
      (∀ m' n, (Constraint.ref m' n).In c → m' = j.map ∧ ∃ d, alookup n j.built.table = some d) →
      c.Every (Constraint.Spellable (hasRefs (jobs.map Job.val))) ∧ c.Every (Constraint.RefsTo j.map (fun _ => True)) := by
    intro j hj c hc hr
    refine ⟨fun d hd => ?_, fun d hd m' n he => ⟨(hr m' n (he ▸ hd)).1, trivial⟩⟩
    have hd' := hc d hd
    cases d with
    | ref m' n =>
      refine ⟨?_, hd'.2⟩
      obtain ⟨-, e, he⟩ := hr m' n hd
      refine List.any_eq_true.2 ⟨j.val, List.mem_map_of_mem hj, ?_⟩
      simp only [decide_eq_true_eq]
      intro h0
      have h0 : j.built.table = [] := h0
      rw [h0] at he
      cases he
    | _ => exact hd'
  constructor
  · intro j hj n c hc
    obtain ⟨bfuel, σ, hbj⟩ := hb j hj
    obtain ⟨-, htab⟩ := built_from (hone.resolved j.schema (List.mem_map_of_mem hj)) hbj
    obtain ⟨h1, s1, h2, h3⟩ := htab _ (alookup_mem hc)
    exact down j hj c (spell_built ((hf j hj).refConforms n s1 h1 h2) ((hf j hj).refKeeps n s1 h1 h2) c h3)
      (fun m' k hi => C61_no_dangling_ctx hbj (.inr ⟨n, c, hc, hi⟩))
  · intro j hj
    obtain ⟨bfuel, σ, hbj⟩ := hb j hj
    obtain ⟨hbf, -⟩ := built_from (hone.resolved j.schema (List.mem_map_of_mem hj)) hbj
    exact down j hj _ (spell_built (hf j hj).conforms (hf j hj).keeps _ hbf)
      (fun m' k hi => C61_no_dangling_ctx hbj (.inl hi))

theorem kept_together (hb : AllBuilt lib resolve jobs) (hone : OneRoot resolve (jobs.map (·.schema)))
    (hf : ∀ j ∈ jobs, CodeFor ext lib.formats cls resolve j.schema) (hn : GoodNames (jobs.map Job.val))
    (hsame : ∀ j ∈ jobs, ∀ n c, firstRef n (jobs.map Job.val) = some c → j.same n = true → c = j.built.root) :
    GenTogether (fun c => c.Every (Constraint.Spellable (hasRefs (jobs.map Job.val)))) (jobs.map Job.val) := by
  obtain ⟨htab, hroot⟩ := kept_gen hb hone hf
  refine ⟨fun v hv => ?_, hn.idents, hn.distinct, hn.fresh, fun v hv => ?_, fun v hv n c hc => ?_, fun v hv n c hc hs => ?_⟩ <;>
    obtain ⟨j, hj, rfl⟩ := List.mem_map.1 hv
  · obtain ⟨_, _, h⟩ := hb j hj
    exact built_nodup h
  · exact ⟨_, rfl, (hroot j hj).1⟩
  · exact (htab j hj n c hc).1
  · rw [hsame j hj n c hc hs]; rfl

end

end Jsval
