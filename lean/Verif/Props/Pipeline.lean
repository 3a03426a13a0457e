import Verif.Lemmas.PipelineRun
import Verif.Props.Conforming
import Verif.Props.Generator
/-!
# From schemas to generated programs (C75)

`Spec/Pipeline.lean` says which schemas are considered (`Faithful`) and what `#` may stand for (`OneRoot`).
-/
namespace Jsval
open Go
variable {isPrint : Nat → Bool} {ext : Ext} {cls : DocClass} {lib : SchemaLib} {resolve : Resolver} {jobs : List Job}

theorem jobs_supported (hb : AllBuilt lib resolve jobs) (hone : OneRoot resolve (jobs.map (·.schema)))
    (hf : ∀ j ∈ jobs, Faithful ext lib.formats cls resolve j.schema) (hn : GoodNames (jobs.map Job.val))
    (hsame : ∀ j ∈ jobs, ∀ n c, firstRef n (jobs.map Job.val) = some c → j.same n = true → c = j.built.root) :
    Supported (jobs.map Job.val) := by
  obtain ⟨htab, hroot⟩ := merged_gen hb hone hf
  refine ⟨fun v hv => ?_, hn.idents, hn.distinct, hn.fresh, fun v hv => ?_, fun v hv n c hc => ?_, fun v hv n c hc hs => ?_⟩ <;>
    obtain ⟨j, hj, rfl⟩ := List.mem_map.1 hv
  · obtain ⟨_, _, h⟩ := hb j hj
    exact built_nodup h
  · exact ⟨_, rfl, (hroot j hj).1⟩
  · exact (htab j hj n c hc).1
  · rw [hsame j hj n c hc hs]; rfl

/-- Given enough fuel, the merged validators decide validity, in every run. -/
theorem merged_decides (hb : AllBuilt lib resolve jobs) (hone : OneRoot resolve (jobs.map (·.schema)))
    (hf : ∀ j ∈ jobs, Faithful ext lib.formats cls resolve j.schema) (hg : ∀ j ∈ jobs, Grounded resolve j.schema)
    {j : Job} (hj : j ∈ jobs) {R : GoStr → GoVal → Prop} (hR : Meaning ext resolve j.schema R) {v : GoVal} (hv : Doc cls v) :
    ∃ N, ∀ τ, ((sem ext (mergedEnv jobs) N j.built.root).val τ v = (.ok, v) ∧ j.schema.Valid ext R v) ∨
      ((∃ e, (sem ext (mergedEnv jobs) N j.built.root).val τ v = (.err e, v)) ∧ ¬ j.schema.Valid ext R v) := by
  obtain ⟨hd1, hd2⟩ := merged_noDflt hb hone hf
  obtain ⟨N, hN⟩ := C49_guarded (ext := ext) (merged_guarded hb hone hg) hd1 (hd2 j hj) v
  refine ⟨N, fun τ => ?_⟩
  rcases (merged_root_tracks hb hone hj (hf j hj) hR N).decides hv τ with h | h | h
  · exact Or.inl h
  · exact Or.inr h
  · obtain ⟨r, v', h1, h2⟩ := hN τ
    rw [h] at h2
    cases h2
    exact absurd rfl h1

/-- What a run with some fuel gives, the call returns, and nothing else. -/
theorem returns_iff {env : Env} {c : Constraint} {τ : Sched} {v v1 : GoVal} {N : Nat} {r1 : Res} (h : (sem ext env N c).val τ v = (r1, v1))
    (hr : r1 ≠ .abort .diverge) (r : Res) (v' : GoVal) : Returns ext env c τ v r v' ↔ r = r1 ∧ v' = v1 := by
  constructor
  · rintro ⟨h1, k, h2⟩
    rcases Nat.le_total N k with hk | hk
    · have := sem_mono hk h hr
      rw [h2] at this
      exact Prod.ext_iff.1 this
    · have := sem_mono hk h2 h1
      rw [h] at this
      exact ⟨(Prod.ext_iff.1 this).1.symm, (Prod.ext_iff.1 this).2.symm⟩
  · rintro ⟨rfl, rfl⟩
    exact ⟨hr, N, h⟩

/-- C75: schemas to running code. Take schemas that are conforming and expressible with all they refer to, whose
references cannot go on forever at one place, and which agree on `#`. If validators could be built from them, then
`Process` succeeds for every iteration order of its maps, and writes a program. Running the program sets the variable of
every validator to a validator with this name, and this validator accepts exactly the documents that are valid for the
schema, returning an error for the others, whatever the iteration orders. -/
theorem C75_generated (hb : AllBuilt lib resolve jobs) (hone : OneRoot resolve (jobs.map (·.schema)))
    (hf : ∀ j ∈ jobs, Faithful ext lib.formats cls resolve j.schema) (hg : ∀ j ∈ jobs, Grounded resolve j.schema)
    (hn : GoodNames (jobs.map Job.val))
    (hsame : ∀ j ∈ jobs, ∀ n c, firstRef n (jobs.map Job.val) = some c → j.same n = true → c = j.built.root) (σ : Sched) :
    ∃ t p mem, process isPrint (jobs.map Job.val) σ = .ok t ∧ parseProg t = some p ∧ p.run = some mem ∧
      ∀ (i : Nat) (j : Job) (x : GoStr), jobs[i]? = some j → (valNames (jobs.map Job.val))[i]? = some x →
      ∃ jv c', alookup x mem.vars = some (.jv jv) ∧ jv.name = x ∧ jv.root = some c' ∧
        (∃ R, Meaning ext resolve j.schema R) ∧ ∀ R, Meaning ext resolve j.schema R → ∀ v, Doc cls v → ∀ τ,
          (j.schema.Valid ext R v ↔ Returns ext mem.env c' τ v .ok v) ∧
          (¬ j.schema.Valid ext R v ↔ ∃ e, Returns ext mem.env c' τ v (.err e) v) := by
  obtain ⟨t, p, mem, h1, h2, _, h3, hs⟩ := process_setUp (isPrint := isPrint) (jobs_supported hb hone hf hn hsame) σ
  obtain ⟨htab, hroots⟩ := merged_gen hb hone hf
  refine ⟨t, p, mem, h1, h2, h3, fun i j x hj hx => ?_⟩
  have hjm := List.mem_of_getElem? hj
  refine ⟨_, _, hs.roots i j.val j.built.root (by simp [hj]) rfl x hx, rfl, rfl, meaning_exists ext (hg j hjm), ?_⟩
  intro R hR v hv τ
  have hsim : ∀ fuel, Sim (sem ext (mergedEnv jobs) fuel j.built.root) (sem ext mem.env fuel (rebuild 0 j.built.root)) := by
    intro fuel
    refine rebuild_sim (m0 := j.map) (S := fun _ => True) (fun n _ => ?_) _ ((hroots j hjm).1.imp fun _ => Constraint.Gen.stays) (hroots j hjm).2
    refine merged_sim ext (fun n c hc => ?_) hs.env fuel j.map n
    obtain ⟨k, hk, hkc⟩ := firstRef_some hc
    exact ⟨k.map, _, (htab k hk n c hkc).1.imp fun _ => Constraint.Gen.stays, (htab k hk n c hkc).2⟩
  obtain ⟨N, hN⟩ := merged_decides hb hone hf hg hjm hR hv
  obtain ⟨τ', hτ'⟩ := (hsim N).bwd τ
  rcases hN τ' with ⟨h, hval⟩ | ⟨⟨e, h⟩, hval⟩ <;> rw [hτ' v] at h
  · simp only [returns_iff h (by simp), hval]
    simp
  · simp only [returns_iff h (by simp), hval]
    simp

/-! The linked list of `Props/Conforming.lean` next to a plain object that uses part of the same definitions. -/

/-- `{"type": "object", "properties": {"xs": {"$ref": "#/definitions/v"}}, "required": ["xs"]}`. -/
def exBagSchema : Schema := .mk
  { type := [.object], properties := [(b! "xs", .mk { reference := b! "v" })], required := [b! "xs"] }

def exBagBuilt : Built where
  root := .object (((Object'.AddProp (b! "xs") (.ref 8 (b! "v"))).AdditionalProperties (some .empty)).Required [b! "xs"])
  table := [(b! "v", .array (Array'.Items (some (.ref 8 (b! "w"))))),
    (b! "w", .any [.integer (Number'.Minimum F64.zero), .ref 8 (b! "v")])]

example : BuildWithCtx lib0 8 exListResolve 10 sched0 exBagSchema = .ok exBagBuilt := by rfl

def exJobs : List Job :=
  [⟨b! "List", exListSchema, 7, exListBuilt, fun _ => false⟩, ⟨[], exBagSchema, 8, exBagBuilt, fun _ => false⟩]

theorem exJobs_built : AllBuilt lib0 exListResolve exJobs := by
  intro j hj
  simp only [exJobs, List.mem_cons, List.not_mem_nil, or_false] at hj
  rcases hj with rfl | rfl
  · exact ⟨10, sched0, rfl⟩
  · exact ⟨10, sched0, rfl⟩

theorem exBag_conforms (ext : Ext) (formats : List GoStr) (cls : DocClass) : exBagSchema.Conforms ext formats cls := by
  refine .node _ rfl ?_ (fun c hc => ?_)
  · constructor <;> simp [List.Nodup] <;> decide
  · cases hc with
    | property h =>
      simp only [List.mem_cons, Prod.mk.injEq, List.not_mem_nil, or_false] at h
      rcases h with ⟨-, rfl⟩
      exact .ref _ (by decide)
    | _ h => simp at h

/-- What the second schema's references stand for is what the first one's do. -/
theorem exBag_refersTo {n : GoStr} {s1 : Schema} (h : RefersTo exListResolve exBagSchema n s1) :
    (n = b! "#" ∧ s1 = exBagSchema) ∨ RefersTo exListResolve exListSchema n s1 ∧ n ≠ b! "#" := by
  cases h with
  | root => exact .inl ⟨rfl, rfl⟩
  | resolved h1 h2 => exact .inr ⟨.resolved h1 h2, h1⟩

theorem exBag_reaches {n : GoStr} (h : Reaches exListResolve exBagSchema n) : n = b! "v" ∨ n = b! "w" := by
  induction h with
  | root h =>
    cases h with
    | here h => exact absurd rfl h
    | child _ hc hm =>
      cases hc with
      | property h =>
        simp only [List.mem_cons, Prod.mk.injEq, List.not_mem_nil, or_false] at h
        rcases h with ⟨-, rfl⟩
        cases hm with
        | here _ h => exact .inl h.symm
        | child h => exact absurd h (by decide)
      | _ h => simp at h
  | step _ hr hm ih =>
    rcases exBag_refersTo hr with ⟨rfl, -⟩ | ⟨hr, hne⟩
    · rcases ih with h | h <;> exact absurd h (by decide)
    rcases exListResolve_refersTo hr with ⟨h, -⟩ | ⟨-, rfl⟩ | ⟨-, rfl⟩
    · exact absurd h hne
    · cases hm with
      | here h => exact absurd rfl h
      | child _ hc hm =>
        cases hc with
        | list h hc =>
          cases h
          simp only [List.mem_singleton] at hc
          subst hc
          cases hm with
          | here _ h => exact .inr h.symm
          | child h => exact absurd h (by decide)
        | tuple h => simp at h
        | _ h => simp at h
    · cases hm with
      | here h => exact absurd rfl h
      | child _ hc hm =>
        cases hc with
        | anyOf h =>
          simp only [List.mem_cons, List.not_mem_nil, or_false] at h
          rcases h with rfl | rfl
          · cases hm with
            | here h => exact absurd rfl h
            | child _ hc _ => cases hc with
              | _ h => simp at h
          · cases hm with
            | here _ h => exact .inl h.symm
            | child h => exact absurd h (by decide)
        | _ h => simp at h

theorem exList_expresses : exListSchema.Expresses := by
  refine .node _ rfl ?_ (fun c hc => ?_)
  · constructor <;> simp [Plain]
  · cases hc with
    | property h =>
      simp only [List.mem_cons, Prod.mk.injEq, List.not_mem_nil, or_false] at h
      rcases h with ⟨-, rfl⟩ | ⟨-, rfl⟩ <;> exact .ref _ (by decide) (by simp [Plain])
    | _ h => simp at h

theorem exBag_expresses : exBagSchema.Expresses := by
  refine .node _ rfl ?_ (fun c hc => ?_)
  · constructor <;> simp [Plain]
  · cases hc with
    | property h =>
      simp only [List.mem_cons, Prod.mk.injEq, List.not_mem_nil, or_false] at h
      rcases h with ⟨-, rfl⟩
      exact .ref _ (by decide) (by simp [Plain])
    | _ h => simp at h

theorem exListResolve_expresses {n : GoStr} {s1 : Schema} (h : RefersTo exListResolve exListSchema n s1) : s1.Expresses := by
  rcases exListResolve_refersTo h with ⟨-, rfl⟩ | ⟨-, rfl⟩ | ⟨-, rfl⟩
  · exact exList_expresses
  · refine .node _ rfl ?_ (fun c hc => ?_)
    · constructor <;> simp [Plain]
    · cases hc with
      | list h hm =>
        cases h
        simp only [List.mem_singleton] at hm
        subst hm
        exact .ref _ (by decide) (by simp [Plain])
      | tuple h => simp at h
      | _ h => simp at h
  · refine .node _ rfl ?_ (fun c hc => ?_)
    · constructor <;> simp [Plain]
    · cases hc with
      | anyOf h =>
        simp only [List.mem_cons, List.not_mem_nil, or_false] at h
        rcases h with rfl | rfl
        · refine .node _ rfl ?_ (fun c hc => ?_)
          · constructor <;> simp [Plain, IntBound]
            decide +kernel
          · cases hc with
            | _ h => simp at h
        · exact .ref _ (by decide) (by simp [Plain])
      | _ h => simp at h

theorem exJobs_oneRoot : OneRoot exListResolve (exJobs.map (·.schema)) := by
  refine ⟨fun s _ _ s1 (h : Except.error _ = _) => (nomatch h), fun s hs s' hs' h h' => ?_⟩
  have hno : ¬ Reaches exListResolve exBagSchema (b! "#") := fun h => by
    rcases exBag_reaches h with h | h <;> exact absurd h (by decide)
  simp only [exJobs, List.map_cons, List.map_nil, List.mem_cons, List.not_mem_nil, or_false] at hs hs'
  rcases hs with rfl | rfl
  · rcases hs' with rfl | rfl
    · rfl
    · exact absurd h' hno
  · exact absurd h hno

theorem exJobs_faithful (ext : Ext) (cls : DocClass) : ∀ j ∈ exJobs, Faithful ext lib0.formats cls exListResolve j.schema := by
  intro j hj
  simp only [exJobs, List.mem_cons, List.not_mem_nil, or_false] at hj
  rcases hj with rfl | rfl
  · exact ⟨exListSchema_conforms _ _ _, exList_expresses, fun _ _ _ h => exListResolve_conforms _ _ _ (by decide) h,
      fun _ _ _ h => exListResolve_expresses h⟩
  · refine ⟨exBag_conforms _ _ _, exBag_expresses, fun _ _ _ h => ?_, fun _ _ _ h => ?_⟩
    · rcases exBag_refersTo h with ⟨-, rfl⟩ | ⟨h, -⟩
      · exact exBag_conforms _ _ _
      · exact exListResolve_conforms _ _ _ (by decide) h
    · rcases exBag_refersTo h with ⟨-, rfl⟩ | ⟨h, -⟩
      · exact exBag_expresses
      · exact exListResolve_expresses h

theorem exJobs_grounded : ∀ j ∈ exJobs, Grounded exListResolve j.schema := by
  intro j hj
  simp only [exJobs, List.mem_cons, List.not_mem_nil, or_false] at hj
  rcases hj with rfl | rfl
  · exact exList_grounded
  · refine Subrelation.wf (fun {k n} h => ?_) exList_grounded
    obtain ⟨s1, h1, h2⟩ := h
    rcases exBag_refersTo h1 with ⟨-, rfl⟩ | ⟨h1, -⟩
    · cases h2 with
      | here h => exact absurd rfl h
      | _ _ h => simp at h
    · exact ⟨s1, h1, h2⟩

theorem exJobs_names : GoodNames (exJobs.map Job.val) := by
  have hnames : valNames (exJobs.map Job.val) = [b! "List", b! "V1"] := by rfl
  refine ⟨?_, ?_, ?_⟩
  · rw [hnames]
    intro x hx
    simp only [List.mem_cons, List.not_mem_nil, or_false] at hx
    rcases hx with rfl | rfl
    · exact ⟨⟨_, _, rfl, by decide⟩, by decide, by decide⟩
    · exact ⟨⟨_, _, rfl, by decide⟩, by decide, by decide⟩
  · rw [hnames]; decide
  · rw [hnames]
    intro x hx
    simp only [List.mem_cons, List.not_mem_nil, or_false] at hx
    rcases hx with rfl | rfl <;> exact ⟨by decide, not_own (by decide) (fun k => by simp)⟩

/-- All hypotheses of `C75_generated` hold for the two. -/
example (ext : Ext) (σ : Sched) : ∃ t p mem, process isPrint (exJobs.map Job.val) σ = .ok t ∧ parseProg t = some p ∧
    p.run = some mem ∧
    (∃ jv c', alookup (b! "List") mem.vars = some (.jv jv) ∧ jv.root = some c' ∧
      ∀ R, Meaning ext exListResolve exListSchema R → ∀ v, Doc anyDoc v → ∀ τ,
        (exListSchema.Valid ext R v ↔ Returns ext mem.env c' τ v .ok v)) ∧
    ∃ jv c', alookup (b! "V1") mem.vars = some (.jv jv) ∧ jv.root = some c' ∧
      ∀ R, Meaning ext exListResolve exBagSchema R → ∀ v, Doc anyDoc v → ∀ τ,
        (exBagSchema.Valid ext R v ↔ Returns ext mem.env c' τ v .ok v) := by
  obtain ⟨t, p, mem, h1, h2, h3, h⟩ := C75_generated (isPrint := isPrint) exJobs_built exJobs_oneRoot
    (exJobs_faithful ext anyDoc) exJobs_grounded exJobs_names
    (fun j hj n c _ h => by
      simp only [exJobs, List.mem_cons, List.not_mem_nil, or_false] at hj
      rcases hj with rfl | rfl <;> cases h) σ
  refine ⟨t, p, mem, h1, h2, h3, ?_, ?_⟩
  · obtain ⟨jv, c', a, -, b, -, d⟩ := h 0 _ (b! "List") rfl rfl
    exact ⟨jv, c', a, b, fun R hR v hv τ => (d R hR v hv τ).1⟩
  · obtain ⟨jv, c', a, -, b, -, d⟩ := h 1 _ (b! "V1") rfl rfl
    exact ⟨jv, c', a, b, fun R hR v hv τ => (d R hR v hv τ).1⟩

end Jsval
