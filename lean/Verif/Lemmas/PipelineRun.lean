import Verif.Lemmas.Pipeline
import Verif.Props.References
/-!
# Running generated programs: the merged tables
-/
namespace Jsval

section
variable {lib : SchemaLib} {m : Nat} {resolve : Resolver}

mutual
theorem compileRef_nodup : ∀ {fuel : Nat} {σ : Sched} {ref : GoStr} {st st' : BState},
    compileRef lib m resolve fuel σ ref st = .ok st' → st.keys.Nodup → st'.keys.Nodup
  | 0, σ, ref, st, st', h, _ => by rw [compileRef] at h; cases h
  | k + 1, σ, ref, st, st', h, hn => by
    rw [compileRef] at h
    split at h
    · cases h; exact hn
    · rcases ht : (resolve ref).target with e | s1
      · rw [ht] at h; cases h
      · rw [ht] at h
        simp only at h
        rcases hb : build lib m s1 (σ.sub 0) st.names with e | ⟨c1, names⟩
        · rw [hb] at h; cases h
        · rw [hb] at h
          exact compileLoop_nodup h (nodup_ainsert hn)

theorem compileLoop_nodup : ∀ {fuel : Nat} {σ : Sched} {l : List GoStr} {st st' : BState},
    compileLoop lib m resolve fuel σ l st = .ok st' → st.keys.Nodup → st'.keys.Nodup
  | 0, σ, [], st, st', h, hn => by rw [compileLoop] at h; cases h; exact hn
  | 0, σ, _ :: _, st, st', h, _ => by rw [compileLoop] at h; cases h
  | k + 1, σ, [], st, st', h, hn => by rw [compileLoop] at h; cases h; exact hn
  | k + 1, σ, ref :: rest, st, st', h, hn => by
    rw [compileLoop] at h
    rcases h1 : compileRef lib m resolve k (σ.sub 0) ref st with e | st1
    · rw [h1] at h; cases h
    · rw [h1] at h
      exact compileLoop_nodup h (compileRef_nodup h1 hn)
end

/-- The table of a built validator is a map. -/
theorem built_nodup {fuel : Nat} {σ : Sched} {s : Schema} {b : Built} (h : BuildWithCtx lib m resolve fuel σ s = .ok b) :
    (b.table.map (·.1)).Nodup := by
  cases s with
  | nil => cases h
  | mk s =>
    simp only [BuildWithCtx] at h
    rcases hb : build lib m (.mk s) (σ.sub 0) [] with e | ⟨c, names⟩
    · rw [hb] at h; cases h
    · rw [hb] at h
      simp only at h
      generalize hst : (if b! "#" ∈ names then (⟨[(b! "#", c)], names.filter (· ≠ b! "#")⟩ : BState) else ⟨[], names⟩) = st at h
      rcases hl : compileLoop lib m resolve fuel (σ.sub 1) (shuffle (σ.sub 2).key st.names) st with e | st'
      · rw [hl] at h; cases h
      · rw [hl] at h
        cases h
        refine compileLoop_nodup hl ?_
        rw [← hst]
        split <;> simp [BState.keys]

end

theorem Tracks.decides {ext : Ext} {cls : DocClass} {s : Sem} {P : GoVal → Prop} (ht : Tracks ext (Doc cls) s P) {v : GoVal}
    (hv : Doc cls v) (τ : Sched) :
    (s.val τ v = (.ok, v) ∧ P v) ∨ ((∃ e, s.val τ v = (.err e, v)) ∧ ¬ P v) ∨ s.val τ v = (.abort .diverge, v) := by
  have hsame := ht.same τ v
  rcases hc : s.val τ v with ⟨r, v'⟩
  rw [hc] at hsame
  obtain rfl : v' = v := hsame
  cases r with
  | ok => exact Or.inl ⟨rfl, ht.ok τ v' hv (by rw [hc])⟩
  | err e => exact Or.inr (Or.inl ⟨⟨e, rfl⟩, ht.err τ v' e hv (by rw [hc])⟩)
  | abort a =>
    refine Or.inr (Or.inr ?_)
    rw [(ht.data.val τ v' hv.json.data).2.2 a (by rw [hc])]

section
variable {ext : Ext} {cls : DocClass} {lib : SchemaLib} {resolve : Resolver} {jobs : List Job}

/-- All constraint maps merged into one. -/
def mergedEnv (jobs : List Job) : Env := fun _ n => firstRef n (jobs.map Job.val)

theorem firstRef_some {n : GoStr} {c : Constraint} (h : firstRef n (jobs.map Job.val) = some c) :
    ∃ j ∈ jobs, alookup n j.built.table = some c := by
  obtain ⟨v, hv, he⟩ := List.exists_of_findSome?_eq_some h
  obtain ⟨j, hj, rfl⟩ := List.mem_map.1 hv
  exact ⟨j, hj, he⟩

theorem firstRef_of_mem {n : GoStr} {j : Job} (hj : j ∈ jobs) {c : Constraint} (h : alookup n j.built.table = some c) :
    ∃ d, firstRef n (jobs.map Job.val) = some d := by
  cases hf : firstRef n (jobs.map Job.val) with
  | some d => exact ⟨d, rfl⟩
  | none =>
    have := List.findSome?_eq_none_iff.1 hf j.val (List.mem_map_of_mem hj)
    have h' : alookup n j.val.refs = some c := h
    rw [h'] at this
    cases this

/-- Where a merged entry comes from. -/
theorem firstRef_from (hb : AllBuilt lib resolve jobs) (hone : OneRoot resolve (jobs.map (·.schema))) {n : GoStr} {c : Constraint}
    (h : firstRef n (jobs.map Job.val) = some c) :
    ∃ j ∈ jobs, Reaches resolve j.schema n ∧ (∃ s1, RefersTo resolve j.schema n s1 ∧ BuiltFrom lib j.map s1 c) ∧
      ∀ m' k, (Constraint.ref m' k).In c → m' = j.map ∧ ∃ d, firstRef k (jobs.map Job.val) = some d := by
  obtain ⟨j, hj, hc⟩ := firstRef_some h
  obtain ⟨fuel, σ, hbj⟩ := hb j hj
  obtain ⟨-, htab⟩ := built_from (hone.resolved j.schema (List.mem_map_of_mem hj)) hbj
  obtain ⟨h1, h2⟩ := htab _ (alookup_mem hc)
  refine ⟨j, hj, h1, h2, fun m' k hi => ?_⟩
  obtain ⟨h3, d, hd⟩ := C61_no_dangling_ctx hbj (.inr ⟨n, c, hc, hi⟩)
  exact ⟨h3, firstRef_of_mem hj hd⟩

theorem OneRoot.refersTo (hone : OneRoot resolve (jobs.map (·.schema))) {i j : Job} (hi : i ∈ jobs) (hj : j ∈ jobs) {n : GoStr} {s1 : Schema}
    (hni : Reaches resolve i.schema n) (hnj : Reaches resolve j.schema n) (h : RefersTo resolve j.schema n s1) :
    RefersTo resolve i.schema n s1 := by
  cases h with
  | root =>
    rw [hone.same i.schema (List.mem_map_of_mem hi) j.schema (List.mem_map_of_mem hj) hni hnj]
    exact .root
  | resolved h1 h2 => exact .resolved h1 h2

theorem merged_tracks (hb : AllBuilt lib resolve jobs) (hone : OneRoot resolve (jobs.map (·.schema))) {i : Job} (hi : i ∈ jobs)
    (hf : Faithful ext lib.formats cls resolve i.schema) {R : GoStr → GoVal → Prop} (hR : Meaning ext resolve i.schema R) :
    ∀ fuel m n c, Reaches resolve i.schema n → firstRef n (jobs.map Job.val) = some c →
      Tracks ext (Doc cls) (refSem ext (mergedEnv jobs) fuel m n) (R n)
  | 0, m, n, c, _, _ => running_tracks
  | k + 1, m, n, c, hn, hc => by
    have : refSem ext (mergedEnv jobs) (k + 1) m n = denote ext (refSem ext (mergedEnv jobs) k) c := by
      simp only [refSem, mergedEnv, hc]
    rw [this]
    obtain ⟨j, hj, hjn, ⟨s1, hs1, hbf⟩, hin⟩ := firstRef_from hb hone hc
    have hs1 := hone.refersTo hi hj hn hjn hs1
    refine (schema_tracks (hf.refConforms n s1 hn hs1) c hbf (R := R) (fun n' hm hi' => ?_)).congr
      (fun v _ => (hR n s1 hn hs1 v).symm)
    obtain ⟨-, d, hd⟩ := hin _ _ hi'
    exact merged_tracks hb hone hi hf hR k _ n' d (.step hn hs1 hm) hd

theorem merged_root_tracks (hb : AllBuilt lib resolve jobs) (hone : OneRoot resolve (jobs.map (·.schema))) {i : Job} (hi : i ∈ jobs)
    (hf : Faithful ext lib.formats cls resolve i.schema) {R : GoStr → GoVal → Prop} (hR : Meaning ext resolve i.schema R) (fuel : Nat) :
    Tracks ext (Doc cls) (sem ext (mergedEnv jobs) fuel i.built.root) (i.schema.Valid ext R) := by
  obtain ⟨bfuel, σ, hbi⟩ := hb i hi
  obtain ⟨hbf, -⟩ := built_from (hone.resolved i.schema (List.mem_map_of_mem hi)) hbi
  refine schema_tracks hf.conforms _ hbf (fun n hm hin => ?_)
  obtain ⟨-, c, hc⟩ := C61_no_dangling_ctx hbi (.inl hin)
  obtain ⟨d, hd⟩ := firstRef_of_mem hi hc
  exact merged_tracks hb hone hi hf hR fuel _ n d (.root hm) hd

/-- One schema of the list gives the meaning of all registered names. -/
theorem merged_one (hb : AllBuilt lib resolve jobs) (hone : OneRoot resolve (jobs.map (·.schema))) (hne : jobs ≠ []) :
    ∃ i ∈ jobs, ∀ n c, firstRef n (jobs.map Job.val) = some c → ∃ j ∈ jobs, ∃ s1, RefersTo resolve i.schema n s1 ∧
      BuiltFrom lib j.map s1 c ∧ Reaches resolve j.schema n ∧ RefersTo resolve j.schema n s1 := by
  by_cases h : ∃ i ∈ jobs, Reaches resolve i.schema (b! "#")
  · obtain ⟨i, hi, hr⟩ := h
    refine ⟨i, hi, fun n c hc => ?_⟩
    obtain ⟨j, hj, hjn, ⟨s1, hs1, hbf⟩, -⟩ := firstRef_from hb hone hc
    refine ⟨j, hj, s1, ?_, hbf, hjn, hs1⟩
    cases hs1 with
    | root => exact hone.refersTo hi hj hr hjn .root
    | resolved h1 h2 => exact .resolved h1 h2
  · obtain ⟨i, hi⟩ := List.exists_mem_of_ne_nil _ hne
    refine ⟨i, hi, fun n c hc => ?_⟩
    obtain ⟨j, hj, hjn, ⟨s1, hs1, hbf⟩, -⟩ := firstRef_from hb hone hc
    refine ⟨j, hj, s1, ?_, hbf, hjn, hs1⟩
    cases hs1 with
    | root => exact absurd ⟨j, hj, hjn⟩ h
    | resolved h1 h2 => exact .resolved h1 h2

theorem merged_guarded (hb : AllBuilt lib resolve jobs) (hone : OneRoot resolve (jobs.map (·.schema)))
    (hg : ∀ j ∈ jobs, Grounded resolve j.schema) : Guarded (mergedEnv jobs) := by
  by_cases hne : jobs = []
  · subst hne
    exact ⟨fun p => ⟨_, fun q ⟨c, hc, _⟩ => by cases hc⟩⟩
  · obtain ⟨i, hi, hall⟩ := merged_one hb hone hne
    refine Subrelation.wf (fun {q p} hqp => ?_) (InvImage.wf (fun p : Nat × GoStr => p.2) (hg i hi))
    obtain ⟨c, hc, hh⟩ := hqp
    obtain ⟨j, -, s1, hs1, hbf, -, -⟩ := hall p.2 c hc
    exact ⟨s1, hs1, (mentionsHere_of_built s1 c hbf hh).2⟩

theorem merged_noDflt (hb : AllBuilt lib resolve jobs) (hone : OneRoot resolve (jobs.map (·.schema)))
    (hf : ∀ j ∈ jobs, Faithful ext lib.formats cls resolve j.schema) :
    (mergedEnv jobs).Every (DefaultIn Flat) ∧ ∀ i ∈ jobs, i.built.root.Every (DefaultIn Flat) := by
  have hno : ∀ c : Constraint, c.Every NoDefault → c.Every (DefaultIn Flat) := fun c hc d hd dv e => by
    rw [hc d hd] at e; cases e
  constructor
  · intro m n c hc
    obtain ⟨j, hj, hjn, ⟨s1, hs1, hbf⟩, -⟩ := firstRef_from hb hone hc
    exact hno _ (noDflt_built ((hf j hj).refConforms n s1 hjn hs1) _ hbf)
  · intro i hi
    obtain ⟨bfuel, σ, hbi⟩ := hb i hi
    obtain ⟨hbf, -⟩ := built_from (hone.resolved i.schema (List.mem_map_of_mem hi)) hbi
    exact hno _ (noDflt_built (hf i hi).conforms _ hbf)

/-- Every merged entry and every root can be generated, and refers to its own map only. -/
theorem merged_gen (hb : AllBuilt lib resolve jobs) (hone : OneRoot resolve (jobs.map (·.schema)))
    (hf : ∀ j ∈ jobs, Faithful ext lib.formats cls resolve j.schema) :
    (∀ j ∈ jobs, ∀ n c, alookup n j.built.table = some c → c.Every (Constraint.Gen (hasRefs (jobs.map Job.val))) ∧
      c.Every (Constraint.RefsTo j.map (fun _ => True))) ∧
    ∀ j ∈ jobs, j.built.root.Every (Constraint.Gen (hasRefs (jobs.map Job.val))) ∧
      j.built.root.Every (Constraint.RefsTo j.map (fun _ => True)) := by
  have down : ∀ j ∈ jobs, ∀ c, c.Every (Constraint.Gen true) →
      (∀ m' n, (Constraint.ref m' n).In c → m' = j.map ∧ ∃ d, alookup n j.built.table = some d) →
      c.Every (Constraint.Gen (hasRefs (jobs.map Job.val))) ∧ c.Every (Constraint.RefsTo j.map (fun _ => True)) := by
    intro j hj c hc hr
    refine ⟨fun d hd => ?_, fun d hd m' n he => ⟨(hr m' n (he ▸ hd)).1, trivial⟩⟩
    have hd' := hc d hd
    cases d with
    | ref m' n =>
      refine ⟨?_, hd'.2⟩
      obtain ⟨-, e, he⟩ := hr m' n hd
      refine List.any_eq_true.2 ⟨j.val, List.mem_map_of_mem hj, ?_⟩
      simp only [decide_eq_true_eq]
      intro h0
      have h0 : j.built.table = [] := h0
      rw [h0] at he
      cases he
    | _ => exact hd'
  constructor
  · intro j hj n c hc
    obtain ⟨bfuel, σ, hbj⟩ := hb j hj
    obtain ⟨-, htab⟩ := built_from (hone.resolved j.schema (List.mem_map_of_mem hj)) hbj
    obtain ⟨h1, s1, h2, h3⟩ := htab _ (alookup_mem hc)
    exact down j hj c (gen_built ((hf j hj).refConforms n s1 h1 h2) ((hf j hj).refExpresses n s1 h1 h2) c h3)
      (fun m' k hi => C61_no_dangling_ctx hbj (.inr ⟨n, c, hc, hi⟩))
  · intro j hj
    obtain ⟨bfuel, σ, hbj⟩ := hb j hj
    obtain ⟨hbf, -⟩ := built_from (hone.resolved j.schema (List.mem_map_of_mem hj)) hbj
    exact down j hj _ (gen_built (hf j hj).conforms (hf j hj).expresses _ hbf)
      (fun m' k hi => C61_no_dangling_ctx hbj (.inl hi))

theorem merged_sim (ext : Ext) {env' : Env} {F : GoStr → Option Constraint} (hb : ∀ n c, F n = some c → ∃ m0 refs,
    c.Every (Constraint.Stays refs) ∧ c.Every (Constraint.RefsTo m0 (fun _ => True)))
    (he : ∀ n, env' 0 n = (F n).map (rebuild 0)) :
    ∀ fuel m n, Sim (refSem ext (fun _ n => F n) fuel m n) (refSem ext env' fuel 0 n)
  | 0, m, n => Sim.refl _
  | k + 1, m, n => by
    cases hc : F n with
    | none => simp only [refSem, he n, hc]; exact Sim.refl _
    | some c =>
      simp only [refSem, he n, hc]
      obtain ⟨m0, refs, h1, h2⟩ := hb n c hc
      exact rebuild_sim (m0 := m0) (fun n _ => merged_sim ext hb he k m0 n) c h1 h2

end

end Jsval
