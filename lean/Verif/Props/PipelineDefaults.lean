import Verif.Lemmas.PipelineDefaults
/-!
# From schemas with defaults to generated programs (C75)

`Spec/PipelineDefaults.lean` says which schemas are considered (`FaithfulD`).
-/
namespace Jsval
open Go
variable {isPrint : Nat → Bool} {ext : Ext} {cls : DocClass} {lib : SchemaLib} {resolve : Resolver} {jobs : List Job}

theorem jobs_supportedD (hb : AllBuilt lib resolve jobs) (hone : OneRoot resolve (jobs.map (·.schema)))
    (hf : ∀ j ∈ jobs, FaithfulD ext lib.formats cls resolve j.schema) (hn : GoodNames (jobs.map Job.val))
    (hsame : ∀ j ∈ jobs, ∀ n c, firstRef n (jobs.map Job.val) = some c → j.same n = true → c = j.built.root) :
    SupportedD True (jobs.map Job.val) := by
  obtain ⟨htab, hroot⟩ := merged_genD hb hone hf
  refine ⟨fun v hv => ?_, hn.idents, hn.distinct, hn.fresh, fun v hv => ?_, fun v hv n c hc => ?_, fun v hv n c hc hs => ?_⟩ <;>
    obtain ⟨j, hj, rfl⟩ := List.mem_map.1 hv
  · obtain ⟨_, _, h⟩ := hb j hj
    exact built_nodup h
  · exact ⟨_, rfl, (hroot j hj).1⟩
  · exact (htab j hj n c hc).1
  · rw [hsame j hj n c hc hs]; rfl

/-- C75 for schemas with defaults: as `C75_generated`, if the schemas are conforming and expressible once the defaults are taken out, the
defaults can be written, and nothing looks at what is filled in. The generated validators may fill in defaults. They still accept exactly
the valid documents and return an error for the others. (An integer default is filled in as an `int` by generated code, while the validator
it was generated from fills in the `float64` of the schema.) -/
theorem C75_defaults (hb : AllBuilt lib resolve jobs) (hone : OneRoot resolve (jobs.map (·.schema)))
    (hf : ∀ j ∈ jobs, FaithfulD ext lib.formats cls resolve j.schema) (hg : ∀ j ∈ jobs, Grounded resolve j.schema)
    (hn : GoodNames (jobs.map Job.val))
    (hsame : ∀ j ∈ jobs, ∀ n c, firstRef n (jobs.map Job.val) = some c → j.same n = true → c = j.built.root) (σ : Sched) :
    ∃ t p mem, process isPrint (jobs.map Job.val) σ = .ok t ∧ parseProg t = some p ∧ p.run = some mem ∧
      ∀ (i : Nat) (j : Job) (x : GoStr), jobs[i]? = some j → (valNames (jobs.map Job.val))[i]? = some x →
      ∃ jv c', alookup x mem.vars = some (.jv jv) ∧ jv.name = x ∧ jv.root = some c' ∧
        (∃ R, Meaning ext resolve j.schema R) ∧ ∀ R, Meaning ext resolve j.schema R → ∀ v, Doc cls v → ∀ τ,
          (j.schema.Valid ext R v ↔ ∃ v', Returns ext mem.env c' τ v .ok v') ∧
          (¬ j.schema.Valid ext R v ↔ ∃ e v', Returns ext mem.env c' τ v (.err e) v') := by
  obtain ⟨t, p, mem, h1, h2, _, h3, hs⟩ := process_setUp (isPrint := isPrint) (jobs_supportedD hb hone hf hn hsame) σ
  obtain ⟨htab, hroots⟩ := merged_genD hb hone hf
  obtain ⟨hu1, hu2⟩ := merged_unseen hb hone (fun j hj => (hf j hj).discreet)
  refine ⟨t, p, mem, h1, h2, h3, fun i j x hj hx => ?_⟩
  have hjm := List.mem_of_getElem? hj
  refine ⟨_, _, hs.roots i j.val j.built.root (by simp [hj]) rfl x hx, rfl, rfl, meaning_exists ext (hg j hjm), ?_⟩
  intro R hR v hv τ
  have hsim : ∀ fuel, Sim (sem ext (mergedEnv jobs).intify fuel j.built.root.intify) (sem ext mem.env fuel (rebuild 0 j.built.root)) := by
    intro fuel
    rw [← intify_rebuild]
    refine rebuild_sim (m0 := j.map) (S := fun _ => True) (fun n _ => ?_) _ (every_intify (fun _ => intify_stays) (hroots j hjm).1)
      (every_intify (fun _ => intify_refsTo) (hroots j hjm).2)
    refine merged_sim ext (F := fun n => (firstRef n (jobs.map Job.val)).map Constraint.intify) (fun n c hc => ?_) (fun n => ?_) fuel j.map n
    · cases hfr : firstRef n (jobs.map Job.val) with
      | none => rw [hfr] at hc; cases hc
      | some d =>
        rw [hfr] at hc
        cases hc
        obtain ⟨k, hk, hkc⟩ := firstRef_some hfr
        exact ⟨k.map, _, every_intify (fun _ => intify_stays) (htab k hk n d hkc).1, every_intify (fun _ => intify_refsTo) (htab k hk n d hkc).2⟩
    · rw [hs.env n]
      cases firstRef n (jobs.map Job.val) with
      | none => rfl
      | some d => exact congrArg some (intify_rebuild d).symm
  have hu1' : (mergedEnv jobs).intify.Every (Unseen (mergedEnv jobs).intify) := by
    intro m n c hc
    unfold Env.intify at hc
    cases hfr : mergedEnv jobs m n with
    | none => rw [hfr] at hc; cases hc
    | some d =>
      rw [hfr] at hc
      cases hc
      exact every_intify (fun _ => intify_unseen) (hu1 m n d hfr)
  have hu2' := every_intify (fun _ => intify_unseen) (hu2 j hjm)
  have hplain : Env.plain (mergedEnv jobs).intify = mergedEnv (jobs.map Job.plain) := by
    rw [mergedEnv_plain]
    funext m n
    show ((mergedEnv jobs m n).map Constraint.intify).map Constraint.plain = (mergedEnv jobs m n).map Constraint.plain
    cases mergedEnv jobs m n with
    | none => rfl
    | some d => exact congrArg some (intify_plain d)
  obtain ⟨N, hN⟩ := merged_decides (ext := ext) (cls := cls) (allBuilt_plain hb) (oneRoot_plain hone) (fun j hj => by
    obtain ⟨i, hi, rfl⟩ := List.mem_map.1 hj
    exact (hf i hi).plain) (fun j hj => by
    obtain ⟨i, hi, rfl⟩ := List.mem_map.1 hj
    exact grounded_plain (hg i hi)) (j := j.plain) (List.mem_map_of_mem hjm) (meaning_plain.2 hR) hv
  obtain ⟨τ', hτ'⟩ := (hsim N).bwd τ
  have hver := C88_verdict (ext := ext) (σ := τ') hu1' hu2' hv.json N
  rw [hplain, intify_plain, hτ' v] at hver
  have hN := hN τ'
  rw [show j.plain.built.root = j.built.root.plain from rfl, show j.plain.schema = j.schema.plain from rfl, valid_plain] at hN
  rcases hrun : (sem ext mem.env N (rebuild 0 j.built.root)).val τ v with ⟨r, v'⟩
  rw [hrun] at hver
  simp only at hver
  rcases hN with ⟨h, hval⟩ | ⟨⟨e, h⟩, hval⟩ <;> rw [h] at hver <;> subst hver
  · simp only [returns_iff hrun (by simp), hval]
    simp
  · simp only [returns_iff hrun (by simp), hval]
    simp

/-! The nodes with colors and ports of `Props/ConformingDefaults.lean`. -/

/-- The one validator to be generated. -/
def exNodesJobs : List Job := [⟨b! "Nodes", exNodes, 7, exNodesBuilt, fun _ => false⟩]

theorem exNodes_expresses : exNodes.plain.Expresses := by
  simp only [exNodes, exPort, exPorts, exName, Schema.plain_mk, SchemaF.map, List.map_cons, List.map_nil, ItemSpec.map, Option.map_none, Extra.map]
  refine .node _ rfl ?_ (fun c hc => ?_)
  · constructor <;> simp [Plain]
  · cases hc with
    | property h =>
      simp only [List.mem_cons, Prod.mk.injEq, List.not_mem_nil, or_false] at h
      rcases h with ⟨-, rfl⟩ | ⟨-, rfl⟩ | ⟨-, rfl⟩
      · exact .ref _ (by decide) (by simp [Plain])
      · exact .ref _ (by decide) (by simp [Plain])
      · refine .node _ rfl ?_ (fun c hc => ?_)
        · constructor <;> simp [Plain]
        · cases hc with
          | anyOf h =>
            simp only [List.mem_cons, List.not_mem_nil, or_false] at h
            rcases h with rfl | rfl
            · refine .node _ rfl ?_ (fun c hc => ?_)
              · constructor <;> simp [Plain]
              · cases hc with
                | list h hm =>
                  cases h
                  simp only [List.mem_singleton] at hm
                  subst hm
                  refine .node _ rfl ?_ (fun c hc => ?_)
                  · constructor <;> simp [Plain]
                  · cases hc with
                    | property h =>
                      simp only [List.mem_cons, Prod.mk.injEq, List.not_mem_nil, or_false] at h
                      obtain ⟨-, rfl⟩ := h
                      refine .node _ rfl ?_ (fun c hc => ?_)
                      · constructor <;> simp [Plain]
                      · cases hc with
                        | _ h => simp at h
                    | _ h => simp at h
                | tuple h => simp at h
                | _ h => simp at h
            · refine .node _ rfl ?_ (fun c hc => ?_)
              · constructor <;> simp [Plain]
              · cases hc with
                | _ h => simp at h
          | _ h => simp at h
    | _ h => simp at h

theorem exColor_expresses : exColor.plain.Expresses := by
  simp only [exColor, Schema.plain_mk, SchemaF.map, List.map_nil, ItemSpec.map, Option.map_none, Extra.map]
  refine .node _ rfl ?_ (fun c hc => ?_)
  · constructor <;> simp [Plain]
  · cases hc with
    | _ h => simp at h

theorem exNodes_faithful (ext : Ext) : FaithfulD ext lib0.formats anyDoc exNodesResolve exNodes := by
  refine ⟨exNodes_conforms ext _ _ (by decide), exNodes_expresses, fun _ s1 _ h => ?_, fun _ s1 _ h => ?_, exNodes_discreet _ (by decide), ?_⟩
  · rcases exNodesResolve_refersTo h with ⟨-, rfl⟩ | ⟨-, rfl⟩
    · exact exNodes_conforms ext _ _ (by decide)
    · exact exColor_conforms ext _ _
  · rcases exNodesResolve_refersTo h with ⟨-, rfl⟩ | ⟨-, rfl⟩
    · exact exNodes_expresses
    · exact exColor_expresses
  · intro f hf hr hd t ht
    rcases exNodes_uses hf with h | h | h | h | h | h | h | h | h <;> cases h <;> try exact absurd rfl hd
    · simp only [List.mem_singleton, List.cons_ne_nil, false_and, or_false] at ht
      subst ht
      exact ⟨_, rfl, by simp [Plain]⟩
    · simp only [List.mem_singleton, List.cons_ne_nil, false_and, or_false] at ht
      subst ht
      exact ⟨_, rfl⟩

/-- All hypotheses of `C75_defaults` hold for it, -/
theorem exNodes_generated (ext : Ext) (σ : Sched) : ∃ t p mem, process isPrint (exNodesJobs.map Job.val) σ = .ok t ∧ parseProg t = some p ∧
    p.run = some mem ∧ ∃ jv c', alookup (b! "Nodes") mem.vars = some (.jv jv) ∧ jv.root = some c' ∧
      ∀ R, Meaning ext exNodesResolve exNodes R → ∀ v, Doc anyDoc v → ∀ τ,
        (exNodes.Valid ext R v ↔ ∃ v', Returns ext mem.env c' τ v .ok v') := by
  have hnames : valNames (exNodesJobs.map Job.val) = [b! "Nodes"] := by rfl
  obtain ⟨t, p, mem, h1, h2, h3, h⟩ := C75_defaults (isPrint := isPrint) (jobs := exNodesJobs) (lib := lib0) (resolve := exNodesResolve)
    (ext := ext) (cls := anyDoc) (fun j hj => by
      simp only [exNodesJobs, List.mem_singleton] at hj
      subst hj
      exact ⟨10, sched0, rfl⟩)
    ⟨fun s _ _ s1 (h : Except.error _ = _) => (nomatch h), fun s hs s' hs' _ _ => by
      simp only [exNodesJobs, List.map_cons, List.map_nil, List.mem_singleton] at hs hs'
      rw [hs, hs']⟩
    (fun j hj => by
      simp only [exNodesJobs, List.mem_singleton] at hj
      subst hj
      exact exNodes_faithful ext)
    (fun j hj => by
      simp only [exNodesJobs, List.mem_singleton] at hj
      subst hj
      exact exNodes_grounded)
    ⟨by
      rw [hnames]
      intro x hx
      simp only [List.mem_singleton] at hx
      subst hx
      exact ⟨⟨_, _, rfl, by decide⟩, by decide, by decide⟩, by rw [hnames]; decide, by
      rw [hnames]
      intro x hx
      simp only [List.mem_singleton] at hx
      subst hx
      exact ⟨by decide, not_own (by decide) (fun k => by simp)⟩⟩
    (fun j hj n c _ h => by
      simp only [exNodesJobs, List.mem_singleton] at hj
      subst hj
      cases h) σ
  obtain ⟨jv, c', a, -, b, -, d⟩ := h 0 _ (b! "Nodes") rfl rfl
  exact ⟨t, p, mem, h1, h2, h3, jv, c', a, b, fun R hR v hv τ => (d R hR v hv τ).1⟩

/-- The rebuilt tables. -/
def exNodesEnv : Env := fun _ n => (firstRef n (exNodesJobs.map Job.val)).map (rebuild 0)

/-- The `int` in the first element of `port`. -/
def firstPort : GoVal → Option Int
  | .map _ l => match alookup (b! "port") l with
    | some (.slice _ (.map _ m :: _)) => match alookup (b! "n") m with
      | some (.int .int i) => some i
      | _ => none
    | _ => none
  | _ => none

/-- and the generated validator fills in the port number in `{"port": [{}]}`, as an `int`. -/
example : firstPort ((sem demoExt exNodesEnv 9 (rebuild 0 exNodesBuilt.root)).val sched0 (.map false
    [(b! "port", .slice false [.map false []])])).2 = some 0 := by decide +kernel

end Jsval
