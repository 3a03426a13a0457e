import Verif.Lemmas.PipelineKeep
import Verif.Lemmas.KeepValid
import Verif.Props.Pipeline
import Verif.Props.Kept
/-!
# What generated code enforces of a schema (C114)

`Spec/KeepSchema.lean` says which schemas are considered (`CodeFor`), and what is left of them (`Schema.keep`).
-/
namespace Jsval
open Go
variable {isPrint : Nat → Bool} {ext : Ext} {cls : DocClass} {lib : SchemaLib} {resolve : Resolver} {jobs : List Job}

/-- Given enough fuel, what is kept of the merged validators decides validity for what is kept of the schema, in every run. -/
theorem kept_decides (hb : AllBuilt lib resolve jobs) (hone : OneRoot resolve (jobs.map (·.schema)))
    (hf : ∀ j ∈ jobs, CodeFor ext lib.formats cls resolve j.schema) (hg : ∀ j ∈ jobs, Grounded resolve j.schema)
    {j : Job} (hj : j ∈ jobs) {R : GoStr → GoVal → Prop} (hR : Meaning ext resolve.keep j.schema.keep R) {v : GoVal} (hv : Doc cls v) :
    ∃ N, ∀ τ, ((sem ext (mergedEnv jobs).keep N j.built.root.keep).val τ v = (.ok, v) ∧ j.schema.keep.Valid ext R v) ∨
      ((∃ e, (sem ext (mergedEnv jobs).keep N j.built.root.keep).val τ v = (.err e, v)) ∧ ¬ j.schema.keep.Valid ext R v) := by
  obtain ⟨hd1, hd2⟩ := kept_noDflt hb hone hf
  obtain ⟨N, hN⟩ := C49_guarded (ext := ext) (kept_guarded hb hone hf hg) hd1 (hd2 j hj) v
  refine ⟨N, fun τ => ?_⟩
  rcases (kept_root_tracks hb hone hj (hf j hj) hR N).decides hv τ with h | h | h
  · exact Or.inl h
  · exact Or.inr h
  · obtain ⟨r, v', h1, h2⟩ := hN τ
    rw [h] at h2
    cases h2
    exact absurd rfl h1

/-- C114: schemas to running code, with loss. Take conforming schemas for which code is generated, with all they refer to, whose
references cannot go on forever at one place, and which agree on `#`. If validators could be built from them, then `Process`
succeeds for every iteration order of its maps, and writes a program. Running the program sets the variable of every validator to
a validator with this name, and this validator accepts exactly the documents that are valid for what is kept of the schema,
returning an error for the others, whatever the iteration orders. -/
theorem C114_enforced (hb : AllBuilt lib resolve jobs) (hone : OneRoot resolve (jobs.map (·.schema)))
    (hf : ∀ j ∈ jobs, CodeFor ext lib.formats cls resolve j.schema) (hg : ∀ j ∈ jobs, Grounded resolve j.schema)
    (hn : GoodNames (jobs.map Job.val))
    (hsame : ∀ j ∈ jobs, ∀ n c, firstRef n (jobs.map Job.val) = some c → j.same n = true → c = j.built.root) (σ : Sched) :
    ∃ t p mem, process isPrint (jobs.map Job.val) σ = .ok t ∧ parseProg t = some p ∧ p.run = some mem ∧
      ∀ (i : Nat) (j : Job) (x : GoStr), jobs[i]? = some j → (valNames (jobs.map Job.val))[i]? = some x →
      ∃ jv c', alookup x mem.vars = some (.jv jv) ∧ jv.name = x ∧ jv.root = some c' ∧
        (∃ R, Meaning ext resolve.keep j.schema.keep R) ∧ ∀ R, Meaning ext resolve.keep j.schema.keep R → ∀ v, Doc cls v → ∀ τ,
          (j.schema.keep.Valid ext R v ↔ Returns ext mem.env c' τ v .ok v) ∧
          (¬ j.schema.keep.Valid ext R v ↔ ∃ e, Returns ext mem.env c' τ v (.err e) v) := by
  obtain ⟨t, p, mem, h1, h2, _, h3, hs⟩ := process_setUpBy (isPrint := isPrint) carries_keep (kept_together hb hone hf hn hsame) σ
  obtain ⟨htab, hroots⟩ := kept_gen hb hone hf
  refine ⟨t, p, mem, h1, h2, h3, fun i j x hj hx => ?_⟩
  have hjm := List.mem_of_getElem? hj
  refine ⟨_, _, hs.roots i j.val j.built.root (by simp [hj]) rfl x hx, rfl, rfl, meaning_exists ext (grounded_keep (hg j hjm)), ?_⟩
  intro R hR v hv τ
  have hsim : ∀ fuel, Sim (sem ext (mergedEnv jobs).keep fuel j.built.root.keep) (sem ext mem.env fuel (rebuild 0 j.built.root.keep)) := by
    intro fuel
    refine rebuild_sim (m0 := j.map) (S := fun _ => True) (fun n _ => ?_) _ (keep_stays (hroots j hjm).1) (keep_refsTo (hroots j hjm).2)
    refine merged_sim ext (F := fun n => (firstRef n (jobs.map Job.val)).map Constraint.keep) (fun n c hc => ?_) (fun n => ?_) fuel j.map n
    · obtain ⟨c, hc', rfl⟩ := Option.map_eq_some_iff.1 hc
      obtain ⟨k, hk, hkc⟩ := firstRef_some hc'
      exact ⟨k.map, _, keep_stays (htab k hk n c hkc).1, keep_refsTo (htab k hk n c hkc).2⟩
    · rw [hs.env, Option.map_map]; rfl
  obtain ⟨N, hN⟩ := kept_decides hb hone hf hg hjm hR hv
  obtain ⟨τ', hτ'⟩ := (hsim N).bwd τ
  rcases hN τ' with ⟨h, hval⟩ | ⟨⟨e, h⟩, hval⟩ <;> rw [hτ' v] at h
  · simp only [returns_iff h (by simp), hval]
    simp
  · simp only [returns_iff h (by simp), hval]
    simp

/-- C114: what is kept asks for less. If nothing is required of exactly one of several, no bound is narrowed by rounding, and all
references resolve, then documents that are valid for a schema are valid for what is kept of it. -/
theorem C114_weaker {formats : List GoStr} {s : Schema} (hf : CodeFor ext formats cls resolve s) (hg : Grounded resolve s)
    (hd : ∀ n, Reaches resolve s n → ∃ s1, RefersTo resolve s n s1)
    (hl : s.Loosens) (hlr : ∀ n s1, Reaches resolve s n → RefersTo resolve s n s1 → s1.Loosens)
    {R R' : GoStr → GoVal → Prop} (hR : Meaning ext resolve s R) (hR' : Meaning ext resolve.keep s.keep R') {v : GoVal}
    (hv : s.Valid ext R v) : s.keep.Valid ext R' v := by
  have := meaning_keep hg hd (fun n s1 h1 h2 => ⟨hlr n s1 h1 h2, hf.refKeeps n s1 h1 h2⟩) hR hR'
  exact valid_keep s R R' v hl hf.keeps (fun n hn => this (v, n) (.root hn.mentions)) (fun n w hn _ => this (w, n) (.root hn)) hv

/-- C114: hence generated code does not reject what is valid. -/
theorem C114_accepts_valid (hb : AllBuilt lib resolve jobs) (hone : OneRoot resolve (jobs.map (·.schema)))
    (hf : ∀ j ∈ jobs, CodeFor ext lib.formats cls resolve j.schema) (hg : ∀ j ∈ jobs, Grounded resolve j.schema)
    (hn : GoodNames (jobs.map Job.val))
    (hsame : ∀ j ∈ jobs, ∀ n c, firstRef n (jobs.map Job.val) = some c → j.same n = true → c = j.built.root)
    (hd : ∀ j ∈ jobs, ∀ n, Reaches resolve j.schema n → ∃ s1, RefersTo resolve j.schema n s1)
    (hl : ∀ j ∈ jobs, j.schema.Loosens ∧ ∀ n s1, Reaches resolve j.schema n → RefersTo resolve j.schema n s1 → s1.Loosens) (σ : Sched) :
    ∃ t p mem, process isPrint (jobs.map Job.val) σ = .ok t ∧ parseProg t = some p ∧ p.run = some mem ∧
      ∀ (i : Nat) (j : Job) (x : GoStr), jobs[i]? = some j → (valNames (jobs.map Job.val))[i]? = some x →
      ∃ jv c', alookup x mem.vars = some (.jv jv) ∧ jv.root = some c' ∧
        ∀ R, Meaning ext resolve j.schema R → ∀ v, Doc cls v → j.schema.Valid ext R v → ∀ τ, Returns ext mem.env c' τ v .ok v := by
  obtain ⟨t, p, mem, h1, h2, h3, h⟩ := C114_enforced (isPrint := isPrint) hb hone hf hg hn hsame σ
  refine ⟨t, p, mem, h1, h2, h3, fun i j x hj hx => ?_⟩
  have hjm := List.mem_of_getElem? hj
  obtain ⟨jv, c', a1, -, a2, ⟨R', hR'⟩, a3⟩ := h i j x hj hx
  exact ⟨jv, c', a1, a2, fun R hR v hv hval τ => (a3 R' hR' v hv τ).1.1
    (C114_weaker (hf j hjm) (hg j hjm) (hd j hjm) (hl j hjm).1 (hl j hjm).2 hR hR' hval)⟩

/-! ## An order with items -/

theorem F64.Le.of_le {a b : F64} (h : F64.le a b = true) : F64.Le a b := by
  rcases (F64.le_iff a b).1 h with ⟨x, y, hx, hy, h⟩ | ⟨x, hx, hy⟩
  · exact ⟨x, y, hx, hy, h.le⟩
  · exact ⟨x, x, hx, hy, le_rfl⟩

/-- `{"type": "integer", "minimum": 0.5, "multipleOf": 2}` -/
def exCount : SchemaF Schema := { type := [.integer], minimum := some (exF 5 1), multipleOf := some (F64.ofInt 2) }

/-- `{"type": "object", "properties": {"count": {"$ref": "c"}, "ratio": {"type": "number", "minimum": 0.00000125}},
"minProperties": 2, "dependencies": {"ratio": {"type": "object", "properties": {"count": {}}, "required": ["count"]}}}` -/
def exOrder : SchemaF Schema where
  type := [.object]
  properties := [(b! "count", .mk { reference := b! "c" }), (b! "ratio", .mk { type := [.number], minimum := some (exF 125 8) })]
  minProps := some 2
  depSchemas := [(b! "ratio", .mk { type := [.object], properties := [(b! "count", .mk {})], required := [b! "count"] })]

def exOrderResolve : Resolver := fun n => if n = b! "c" then .schema (.mk exCount) else .fail

def exOrderBuilt : Built where
  root := .object { Object' with
    props := [(b! "count", .ref 3 (b! "c")), (b! "ratio", .number { Number' with minimum := some (exF 125 8) })]
    additional := some .empty
    schemadeps := [(b! "ratio", .object { Object' with props := [(b! "count", .all [])], additional := some .empty, required := [b! "count"] })]
    minProps := 2 }
  table := [(b! "c", .integer { Number' with minimum := some (exF 5 1), multipleOf := some (F64.ofInt 2) })]

def exOrders : List Job := [⟨b! "Order", .mk exOrder, 3, exOrderBuilt, fun _ => false⟩]

theorem exOrders_built : AllBuilt lib0 exOrderResolve exOrders := by
  intro j hj
  obtain rfl := List.mem_singleton.1 hj
  exact ⟨10, sched0, rfl⟩

theorem exOrder_refersTo {n : GoStr} {s1 : Schema} (h : RefersTo exOrderResolve (.mk exOrder) n s1) :
    (n = b! "#" ∧ s1 = .mk exOrder) ∨ (n = b! "c" ∧ s1 = .mk exCount) := by
  cases h with
  | root => exact .inl ⟨rfl, rfl⟩
  | resolved hn h =>
    unfold exOrderResolve at h
    split at h
    · rename_i e
      cases h
      exact .inr ⟨e, rfl⟩
    · cases h

theorem exOrder_child {c : Schema} (h : exOrder.Child c) : c = .mk { reference := b! "c" } ∨
    c = .mk { type := [.number], minimum := some (exF 125 8) } ∨
    c = .mk { type := [.object], properties := [(b! "count", .mk {})], required := [b! "count"] } := by
  unfold exOrder at h
  cases h with
  | property h =>
    simp only [List.mem_cons, Prod.mk.injEq, List.not_mem_nil, or_false] at h
    rcases h with ⟨-, rfl⟩ | ⟨-, rfl⟩ <;> simp
  | dependency h =>
    simp only [List.mem_cons, Prod.mk.injEq, List.not_mem_nil, or_false] at h
    rcases h with ⟨-, rfl⟩
    simp
  | _ h => simp at h

theorem exCount_childless {c : Schema} (h : exCount.Child c) : False := by
  unfold exCount at h
  cases h with | _ h => simp at h

theorem exOrder_conforms (ext : Ext) (cls : DocClass) : (Schema.mk exOrder).Conforms ext lib0.formats cls := by
  refine .node _ rfl ?_ fun c hc => ?_
  · constructor <;> simp [List.Nodup, exOrder, SchemaF.Knows]
  · rcases exOrder_child hc with rfl | rfl | rfl
    · exact .ref _ (by decide)
    · refine .node _ rfl ?_ fun c hc => by cases hc with | _ h => simp at h
      constructor <;> simp [List.Nodup, exF]
    · refine .node _ rfl ?_ fun c hc => ?_
      · constructor <;> simp [List.Nodup]
      · cases hc with
        | property h =>
          simp only [List.mem_cons, Prod.mk.injEq, List.not_mem_nil, or_false] at h
          rcases h with ⟨-, rfl⟩
          refine .node _ rfl ?_ fun c hc => by cases hc with | _ h => simp at h
          constructor <;> simp [List.Nodup]
          intro t h
          cases h <;> simp_all [SchemaF.firstBound]
          rename_i h
          exact absurd h (by decide)
        | _ h => simp at h

theorem exCount_conforms (ext : Ext) (cls : DocClass) : (Schema.mk exCount).Conforms ext lib0.formats cls := by
  refine .node _ rfl ?_ fun c hc => (exCount_childless hc).elim
  constructor <;> simp [List.Nodup, exCount, exF]
  rintro ⟨n, h⟩
  exact absurd h (by cases n <;> decide +kernel)

theorem exOrder_keeps : (Schema.mk exOrder).Keeps := by
  refine .node _ rfl ?_ fun c hc => ?_
  · constructor <;> simp [exOrder, Plain]
  · rcases exOrder_child hc with rfl | rfl | rfl
    · exact .ref _ (by decide) (by simp [Plain])
    · refine .node _ rfl ?_ fun c hc => by cases hc with | _ h => simp at h
      constructor <;> simp [Plain]
      exact exF_finite (by decide +kernel)
    · refine .node _ rfl ?_ fun c hc => ?_
      · constructor <;> simp [Plain]
      · cases hc with
        | property h =>
          simp only [List.mem_cons, Prod.mk.injEq, List.not_mem_nil, or_false] at h
          rcases h with ⟨-, rfl⟩
          refine .node _ rfl ?_ fun c hc => by cases hc with | _ h => simp at h
          constructor <;> simp [Plain]
        | _ h => simp at h

theorem exCount_keeps : (Schema.mk exCount).Keeps := by
  refine .node _ rfl ?_ fun c hc => (exCount_childless hc).elim
  constructor <;> simp [exCount, Plain]
  exact exF_finite (by decide +kernel)

theorem exOrders_kept (ext : Ext) (cls : DocClass) : ∀ j ∈ exOrders, CodeFor ext lib0.formats cls exOrderResolve j.schema := by
  intro j hj
  obtain rfl := List.mem_singleton.1 hj
  refine ⟨exOrder_conforms _ _, exOrder_keeps, fun n s1 _ h => ?_, fun n s1 _ h => ?_⟩ <;>
    rcases exOrder_refersTo h with ⟨-, rfl⟩ | ⟨-, rfl⟩
  · exact exOrder_conforms _ _
  · exact exCount_conforms _ _
  · exact exOrder_keeps
  · exact exCount_keeps

theorem exOrders_grounded : ∀ j ∈ exOrders, Grounded exOrderResolve j.schema := by
  intro j hj
  obtain rfl := List.mem_singleton.1 hj
  refine Subrelation.wf (r := fun _ _ => False) (fun {k n} h => ?_) (wellFounded_lt (α := Empty) |> fun _ => ⟨fun a => ⟨_, fun _ h => h.elim⟩⟩)
  obtain ⟨s1, h1, h2⟩ := h
  rcases exOrder_refersTo h1 with ⟨-, rfl⟩ | ⟨-, rfl⟩
  · cases h2 with
    | here h => exact absurd rfl h
    | dependency _ h h2 =>
      simp only [exOrder, List.mem_cons, Prod.mk.injEq, List.not_mem_nil, or_false] at h
      rcases h with ⟨-, rfl⟩
      cases h2 with
      | here h => exact absurd rfl h
      | _ _ h => simp at h
    | _ _ h => simp [exOrder] at h
  · cases h2 with
    | here h => exact absurd rfl h
    | _ _ h => simp [exCount] at h

theorem exOrder_reaches {n : GoStr} (h : Reaches exOrderResolve (.mk exOrder) n) : n = b! "c" := by
  have hm : ∀ {k}, (Schema.mk exOrder).Mentions k → k = b! "c" := by
    intro k hk
    cases hk with
    | here h => exact absurd rfl h
    | child _ hc hm =>
      rcases exOrder_child hc with rfl | rfl | rfl
      · cases hm with
        | here _ h => exact h.symm
        | child h => exact absurd h (by decide)
      · cases hm with
        | here h => exact absurd rfl h
        | child _ hc _ => cases hc with | _ h => simp at h
      · cases hm with
        | here h => exact absurd rfl h
        | child _ hc hm =>
          cases hc with
          | property h =>
            simp only [List.mem_cons, Prod.mk.injEq, List.not_mem_nil, or_false] at h
            rcases h with ⟨-, rfl⟩
            cases hm with
            | here h => exact absurd rfl h
            | child _ hc _ => cases hc with | _ h => simp at h
          | _ h => simp at h
  cases h with
  | root h => exact hm h
  | step _ hr h =>
    rcases exOrder_refersTo hr with ⟨-, rfl⟩ | ⟨-, rfl⟩
    · exact hm h
    · cases h with
      | here h => exact absurd rfl h
      | child _ hc _ => exact (exCount_childless hc).elim

theorem exOrders_oneRoot : OneRoot exOrderResolve (exOrders.map (·.schema)) := by
  refine ⟨fun s _ _ s1 (h : Except.error _ = _) => (nomatch h), fun s hs s' hs' h h' => ?_⟩
  obtain rfl := List.mem_singleton.1 hs
  obtain rfl := List.mem_singleton.1 hs'
  rfl

theorem exOrders_names : GoodNames (exOrders.map Job.val) := by
  have hnames : valNames (exOrders.map Job.val) = [b! "Order"] := by rfl
  refine ⟨?_, ?_, ?_⟩
  · rw [hnames]
    intro x hx
    obtain rfl := List.mem_singleton.1 hx
    exact ⟨⟨_, _, rfl, by decide⟩, by decide, by decide⟩
  · rw [hnames]; decide
  · rw [hnames]
    intro x hx
    obtain rfl := List.mem_singleton.1 hx
    exact ⟨by decide, not_own (by decide) (fun k => by simp)⟩

theorem exOrder_resolves {n : GoStr} (h : Reaches exOrderResolve (.mk exOrder) n) : ∃ s1, RefersTo exOrderResolve (.mk exOrder) n s1 := by
  obtain rfl := exOrder_reaches h
  exact ⟨_, .resolved (by decide) rfl⟩

theorem exOrder_loosens : (Schema.mk exOrder).Loosens := by
  refine .node _ rfl rfl (by simp [exOrder]) (by simp [exOrder]) fun c hc => ?_
  rcases exOrder_child hc with rfl | rfl | rfl
  · exact .ref _ (by decide)
  · refine .node _ rfl rfl ?_ (by simp) fun c hc => by cases hc with | _ h => simp at h
    rintro f ⟨⟩
    have h2 : (exF 125 8).reread = exF 1 6 := by decide +kernel
    simp only [keepBound, List.mem_singleton, reduceCtorEq, if_false, h2]
    exact F64.Le.of_le (by decide +kernel)
  · refine .node _ rfl rfl (by simp) (by simp) fun c hc => ?_
    cases hc with
    | property h =>
      simp only [List.mem_cons, Prod.mk.injEq, List.not_mem_nil, or_false] at h
      rcases h with ⟨-, rfl⟩
      exact .node _ rfl rfl (by simp) (by simp) fun c hc => by cases hc with | _ h => simp at h
    | _ h => simp at h

theorem exCount_loosens : (Schema.mk exCount).Loosens := by
  refine .node _ rfl rfl ?_ (by simp [exCount]) fun c hc => (exCount_childless hc).elim
  rintro f ⟨⟩
  have h1 : F64.ofInt (exF 5 1).truncInt = F64.ofInt 0 := by decide +kernel
  simp only [keepBound, exCount, List.mem_singleton, if_true, h1]
  exact F64.Le.of_le (by decide +kernel)

/-- What is kept: the count is not negative, and the ratio is at least 0.000001. -/
theorem exOrder_keep : (Schema.mk exOrder).keep = .mk
    { type := [.object], properties := [(b! "count", .mk { reference := b! "c" }), (b! "ratio", .mk { type := [.number], minimum := some (exF 1 6) })] } := by
  have h2 : keepBound [.number] (exF 125 8) = exF 1 6 := by decide +kernel
  simp only [Schema.keep_mk, exOrder, SchemaF.map, SchemaF.keep, List.map_cons, List.map_nil]
  simp [h2, ItemSpec.map, Extra.map]

theorem exCount_keep : (Schema.mk exCount).keep = .mk { type := [.integer], minimum := some (F64.ofInt 0) } := by
  have h1 : keepBound [.integer] (exF 5 1) = F64.ofInt 0 := by decide +kernel
  simp only [Schema.keep_mk, exCount, SchemaF.map, SchemaF.keep, List.map_nil]
  simp [h1, ItemSpec.map, Extra.map]

/-- `{"ratio": 1}` -/
def exRatio : GoVal := .map false [(b! "ratio", .float .f64 (F64.ofInt 1))]

theorem exRatio_doc : Doc anyDoc exRatio := by
  refine .obj _ (by simp) (fun _ _ _ h => h.elim) fun k x h => ?_
  simp only [List.mem_singleton, Prod.mk.injEq] at h
  rw [h.2]
  exact .num _ _ fun h => h.elim

theorem exRatio_invalid (ext : Ext) (R : GoStr → GoVal → Prop) : ¬ (Schema.mk exOrder).Valid ext R exRatio := fun h => by
  rw [Schema.valid_mk] at h
  have := ((h.value rfl).object _ rfl).minProps 2 rfl
  simp at this

theorem exRatio_kept (ext : Ext) (R : GoStr → GoVal → Prop) : (Schema.mk exOrder).keep.Valid ext R exRatio := by
  rw [exOrder_keep, Schema.valid_mk]
  refine ⟨fun h => absurd rfl h, fun _ => ⟨?_, ?_, ?_, ?_⟩, fun _ _ => ⟨.object, ?_, .object _⟩, fun _ => ⟨?_, ?_, ?_, ?_, ?_⟩⟩
  any_goals simp [SchemaF.map, exRatio]; done
  rintro kvs ⟨⟩
  constructor <;> simp [SchemaF.map, Extra.map]
  rintro k p x (⟨rfl, -⟩ | ⟨-, rfl⟩) h rfl
  · exact absurd h (by decide)
  rw [Schema.valid_mk]
  refine ⟨fun h => absurd rfl h, fun _ => ⟨?_, ?_, ?_, ?_⟩, fun _ _ => ⟨.number, ?_, .number _⟩, fun _ => ⟨?_, ?_, ?_, ?_, ?_⟩⟩
  any_goals simp [SchemaF.map]; done
  rintro f ⟨⟩
  constructor <;> simp [SchemaF.map]
  exact F64.Le.of_le (by decide +kernel)

/-- Running the generated code gives a validator that accepts `{"ratio": 1}`, which is not valid, and everything that is. -/
example (ext : Ext) (σ : Sched) : ∃ t p mem jv c', process isPrint (exOrders.map Job.val) σ = .ok t ∧ parseProg t = some p ∧
    p.run = some mem ∧ alookup (b! "Order") mem.vars = some (.jv jv) ∧ jv.root = some c' ∧
    (∀ τ, Returns ext mem.env c' τ exRatio .ok exRatio) ∧
    ∀ R, Meaning ext exOrderResolve (.mk exOrder) R → ¬ (Schema.mk exOrder).Valid ext R exRatio ∧
      ∀ v, Doc anyDoc v → (Schema.mk exOrder).Valid ext R v → ∀ τ, Returns ext mem.env c' τ v .ok v := by
  obtain ⟨t, p, mem, h1, h2, h3, h⟩ := C114_enforced (isPrint := isPrint) exOrders_built exOrders_oneRoot (exOrders_kept ext anyDoc)
    exOrders_grounded exOrders_names (fun j hj n c _ h => by obtain rfl := List.mem_singleton.1 hj; cases h) σ
  obtain ⟨jv, c', a1, -, a2, ⟨R', hR'⟩, a3⟩ := h 0 _ (b! "Order") rfl rfl
  refine ⟨t, p, mem, jv, c', h1, h2, h3, a1, a2, fun τ => (a3 R' hR' _ exRatio_doc τ).1.1 (exRatio_kept ext R'), fun R hR =>
    ⟨exRatio_invalid ext R, fun v hv hval τ => (a3 R' hR' v hv τ).1.1 ?_⟩⟩
  have hj : _ ∈ exOrders := List.mem_singleton.2 rfl
  exact C114_weaker (exOrders_kept ext anyDoc _ hj) (exOrders_grounded _ hj) (fun n => exOrder_resolves) exOrder_loosens
    (fun n s1 _ h => by rcases exOrder_refersTo h with ⟨-, rfl⟩ | ⟨-, rfl⟩; exacts [exOrder_loosens, exCount_loosens]) hR hR' hval

/-- and `C114_accepts_valid` applies -/
example (ext : Ext) (σ : Sched) : ∃ t p mem, process isPrint (exOrders.map Job.val) σ = .ok t ∧ parseProg t = some p ∧ p.run = some mem := by
  obtain ⟨t, p, mem, h1, h2, h3, -⟩ := C114_accepts_valid (isPrint := isPrint) (ext := ext) exOrders_built exOrders_oneRoot (exOrders_kept ext anyDoc)
    exOrders_grounded exOrders_names (fun j hj n c _ h => by obtain rfl := List.mem_singleton.1 hj; cases h)
    (fun j hj n h => by obtain rfl := List.mem_singleton.1 hj; exact exOrder_resolves h)
    (fun j hj => by
      obtain rfl := List.mem_singleton.1 hj
      exact ⟨exOrder_loosens, fun n s1 _ h => by rcases exOrder_refersTo h with ⟨-, rfl⟩ | ⟨-, rfl⟩; exacts [exOrder_loosens, exCount_loosens]⟩) σ
  exact ⟨t, p, mem, h1, h2, h3⟩

end Jsval
