import Verif.Lemmas.ObjExact
/-!
# C29–C38: objects
-/
namespace Jsval

variable (ext : Ext) (ρ : RefSem) (σ : Sched)

/-- The running example: a name (required), an age, boolean `x-…` extensions, strings otherwise, at most five
properties; `age` depends on `name`. -/
def exObj : ObjC Constraint :=
  ((((((Object'.AddProp (b! "name") (.string String')).AddProp (b! "age") (.integer Number')).Required [b! "name"]
    ).PatternProperties 0 (b! "x-") (.boolean none)).AdditionalProperties (some (.string String'))
    ).MaxProperties 5).PropDependency (b! "age") [b! "name"]

def exKvs : List (GoStr × GoVal) :=
  [(b! "name", .str (b! "ann")), (b! "age", .int .int 7), (b! "x-ok", .bool true), (b! "note", .str (b! "hi"))]

theorem exKvs_obj : IsObj (.map false exKvs) exKvs exKvs := .map _ _ (by decide)
theorem exObj_wf : exObj.Wf := ⟨by decide⟩

/-! ## C29 -/

/-- C29: an object whose number of properties breaks a set bound is rejected, untouched. -/
theorem C29_count_rejected (o : ObjC Constraint) {v : GoVal} {kvs raws : List (GoStr × GoVal)} (hv : IsObj v kvs raws)
    (h : ¬ CountOk o kvs.length) :
    ((denote ext ρ (.object o)).val σ v).1.Rejects ∧ ((denote ext ρ (.object o)).val σ v).2 = v := by
  rw [denote_object]
  obtain ⟨b, t, ha⟩ := hv.acc
  obtain ⟨fields, hf, hlen, -⟩ := ha.names
  rw [← map_countOk (denote ext ρ), countOk_iff] at h
  generalize o.map (denote ext ρ) = o' at h ⊢
  unfold objectV
  have : getPropNames (valueOf v).indirect = .ok fields := by rw [ha.eq, indirect_wrap ha.plain, hf]
  simp only [this, hlen]
  split
  · exact ⟨⟨_, rfl⟩, rfl⟩
  · split
    · exact ⟨⟨_, rfl⟩, rfl⟩
    · rename_i a c; exact absurd ⟨a, c⟩ h

/-- C29: bounds that hold (or are unset, or negative) have no influence at all. -/
theorem C29_count_irrelevant (o : ObjC Constraint) {v : GoVal} {kvs raws : List (GoStr × GoVal)} (hv : IsObj v kvs raws)
    (h : CountOk o kvs.length) :
    (denote ext ρ (.object o)).val σ v =
      (denote ext ρ (.object ((o.MinProperties (-1)).MaxProperties (-1)))).val σ v := by
  rw [denote_object, denote_object]
  obtain ⟨b, t, ha⟩ := hv.acc
  obtain ⟨fields, hf, hlen, -⟩ := ha.names
  rw [← map_countOk (denote ext ρ), countOk_iff] at h
  have e : ((o.MinProperties (-1)).MaxProperties (-1)).map (denote ext ρ) =
      ((o.map (denote ext ρ)).MinProperties (-1)).MaxProperties (-1) := rfl
  rw [e]
  generalize o.map (denote ext ρ) = o' at h ⊢
  unfold objectV
  have hn : getPropNames (valueOf v).indirect = .ok fields := by rw [ha.eq, indirect_wrap ha.plain, hf]
  simp only [hn, hlen, h.1, h.2, if_false]
  rfl

example : ¬ CountOk (Object'.MaxProperties 3) exKvs.length ∧ CountOk exObj exKvs.length := by
  simp [CountOk, exObj, exKvs, ObjC.MaxProperties, ObjC.PropDependency, ObjC.AdditionalProperties, ObjC.PatternProperties,
    ObjC.Required, ObjC.AddProp, Object']

/-! ## C30, C31 -/

/-- C30: an object lacking a property that is both declared and required is never accepted, default or not. -/
theorem C30_required_declared (o : ObjC Constraint) (hw : o.Wf) {v : GoVal} {kvs raws : List (GoStr × GoVal)}
    (hv : IsObj v kvs raws) (p : GoStr) (hr : p ∈ o.required) (hd : o.Declares p) (hn : ¬ Has kvs p) :
    ¬ (denote ext ρ (.object o)).AcceptsBy σ v := by
  intro h
  unfold Sem.AcceptsBy at h
  rw [denote_object] at h
  exact hn ((objectV_sound ext _ σ hv ((ObjC.map_wf _ o).2 hw) h).2.2.1 p hr ((ObjC.map_declares _ o).2 hd))

/-- an absent, required property with a default -/
example : (sem0 (.object ((Object'.AddProp (b! "a") (.string (String'.Default (.str (b! "d"))))).Required [b! "a"]))).val
    sched0 (.map false []) = (.err (.required (b! "a")), .map false []) := by rfl

/-- C31 fails: a required property that was not declared is not asked for. -/
theorem C31_refuted :
    ¬ ∀ (ext : Ext) (ρ : RefSem) (σ : Sched) (o : ObjC Constraint) (v : GoVal) (kvs raws : List (GoStr × GoVal)),
      o.Wf → IsObj v kvs raws → ∀ p ∈ o.required, ¬ Has kvs p → ¬ (denote ext ρ (.object o)).AcceptsBy σ v := by
  intro h
  refine h demoExt (refSem demoExt env0 0) sched0 (Object'.Required [b! "a"]) (.map false []) [] [] ⟨by decide⟩
    (.map _ _ (by decide)) (b! "a") (by decide) ?_ ?_
  · rintro ⟨x, hx⟩; cases hx
  · unfold Sem.AcceptsBy; decide

/-- C31, the part that holds: constraints whose required properties are all declared. -/
theorem C31_required_partial (o : ObjC Constraint) (hw : o.Wf) (hall : ∀ p ∈ o.required, o.Declares p) {v : GoVal}
    {kvs raws : List (GoStr × GoVal)} (hv : IsObj v kvs raws) (p : GoStr) (hr : p ∈ o.required) (hn : ¬ Has kvs p) :
    ¬ (denote ext ρ (.object o)).AcceptsBy σ v :=
  C30_required_declared ext ρ σ o hw hv p hr (hall p hr) hn

example : (∀ p ∈ exObj.required, exObj.Declares p) ∧ exObj.required = [b! "name"] := by
  refine ⟨fun p hp => ?_, rfl⟩
  have : p = b! "name" := by simpa [exObj, ObjC.PropDependency, ObjC.MaxProperties, ObjC.AdditionalProperties,
    ObjC.PatternProperties, ObjC.Required, ObjC.AddProp, Object', addName] using hp
  subst this
  exact ⟨.string String', by simp [exObj, ObjC.PropDependency, ObjC.MaxProperties, ObjC.AdditionalProperties,
    ObjC.PatternProperties, ObjC.Required, ObjC.AddProp, Object', ainsert]⟩

/-! ## C32 -/

/-- C32: without `AdditionalProperties`, an object with a property neither declared nor matched is not accepted. -/
theorem C32_undeclared_rejected (o : ObjC Constraint) (hw : o.Wf) (hnone : o.additional = none) {v : GoVal}
    {kvs raws : List (GoStr × GoVal)} (hv : IsObj v kvs raws) (k : GoStr) (hk : Has kvs k) (hc : ¬ o.Covers ext k) :
    ¬ (denote ext ρ (.object o)).AcceptsBy σ v := by
  intro h
  unfold Sem.AcceptsBy at h
  rw [denote_object] at h
  obtain ⟨b, t, ha⟩ := hv.acc
  obtain ⟨x, hx⟩ := ha.hasRaw.2 hk
  obtain ⟨c, h1, -⟩ := (objectV_sound ext _ σ hv ((ObjC.map_wf _ o).2 hw) h).2.2.2.2.1 k x hx
    (fun h' => hc (Or.inl ((ObjC.map_declares _ o).1 h'))) (fun h' => hc (Or.inr ((ObjC.map_patternFor _ o).1 h')))
  simp [ObjC.map, hnone] at h1

/-- C32: with `AdditionalProperties(c)`, every such property is accepted by `c`. -/
theorem C32_additional_accepts (o : ObjC Constraint) (hw : o.Wf) (c : Constraint) (hadd : o.additional = some c)
    {v : GoVal} {kvs raws : List (GoStr × GoVal)} (hv : IsObj v kvs raws) (k : GoStr) (x : GoVal) (hx : (k, x) ∈ raws)
    (hc : ¬ o.Covers ext k) (hok : (denote ext ρ (.object o)).AcceptsBy σ v) :
    ∃ τ, (denote ext ρ c).AcceptsBy τ x := by
  unfold Sem.AcceptsBy at hok
  rw [denote_object] at hok
  obtain ⟨d, h1, τ, h2⟩ := (objectV_sound ext _ σ hv ((ObjC.map_wf _ o).2 hw) hok).2.2.2.2.1 k x hx
    (fun h' => hc (Or.inl ((ObjC.map_declares _ o).1 h'))) (fun h' => hc (Or.inr ((ObjC.map_patternFor _ o).1 h')))
  simp only [ObjC.map, hadd, Option.map_some, Option.some.injEq] at h1
  subst h1
  exact ⟨τ, h2⟩

/-- `note` is neither declared nor matched -/
example : Has exKvs (b! "note") ∧ (b! "note", .str (b! "hi")) ∈ exKvs ∧ ¬ exObj.Covers demoExt (b! "note") := by
  refine ⟨⟨.str (b! "hi"), by simp [exKvs]⟩, by simp [exKvs], ?_⟩
  rintro (⟨c, h⟩ | ⟨id, src, c, h, hm⟩)
  · simp [exObj, ObjC.PropDependency, ObjC.MaxProperties, ObjC.AdditionalProperties,
      ObjC.PatternProperties, ObjC.Required, ObjC.AddProp, Object', ainsert] at h
  · simp [exObj, ObjC.PropDependency, ObjC.MaxProperties, ObjC.AdditionalProperties,
      ObjC.PatternProperties, ObjC.Required, ObjC.AddProp, Object', ainsert, patInsert] at h
    obtain ⟨rfl, rfl, rfl⟩ := h
    simp [demoExt] at hm
example : (sem0 (.object exObj)).AcceptsBy sched0 (.map false exKvs) := by unfold Sem.AcceptsBy; decide
example : ¬ (sem0 (.object (exObj.AdditionalProperties none))).AcceptsBy sched0 (.map false exKvs) := by
  unfold Sem.AcceptsBy; decide

/-! ## C33 -/

/-- C33: a map is accepted under every iteration order iff all the rules hold, where each pattern matching an
undeclared property must accept its value. Children may fill in defaults and need not be deterministic; schema
dependencies are excluded because they see the object after the other rules have changed it. -/
theorem C33_all_orders (o : ObjC Constraint) (hw : o.Wf) {v : GoVal} {kvs raws : List (GoStr × GoVal)}
    (hv : IsObj v kvs raws) (hnil : ∃ m, v = .map false m ∨ v = .ptr (some (.map false m)))
    (hd : ∀ p c, (p, c) ∈ o.props → ¬ Has kvs p → ∀ a, (denote ext ρ c).dflt ≠ .abort a)
    (hsd : o.schemadeps = []) :
    (denote ext ρ (.object o)).Accepts v ↔
      ObjRules ext o (fun c x => (denote ext ρ c).Accepts x) v kvs raws := by
  unfold Sem.Accepts
  rw [denote_object, objectV_allOrders ext _ hv ((ObjC.map_wf _ o).2 hw) ?_ ?_, map_objRules]
  · rfl
  · intro p d hpd hn
    obtain ⟨c, hc, rfl⟩ := (ObjC.map_mem_props _ o).1 hpd
    cases hdf : (denote ext ρ c).dflt with
    | none => exact Or.inl rfl
    | some dv => exact Or.inr ⟨dv, rfl, hnil⟩
    | abort a => exact absurd hdf (hd p c hc hn a)
  · intro k
    simp [ObjC.GetSchemaDependency, ObjC.map, hsd, alookup]

/-- C33, stated for one property: if every order accepts, every matching pattern accepts the value. -/
theorem C33_every_pattern (o : ObjC Constraint) (hw : o.Wf) {v : GoVal} {kvs raws : List (GoStr × GoVal)}
    (hv : IsObj v kvs raws) (hnil : ∃ m, v = .map false m ∨ v = .ptr (some (.map false m)))
    (hd : ∀ p c, (p, c) ∈ o.props → ¬ Has kvs p → ∀ a, (denote ext ρ c).dflt ≠ .abort a)
    (hsd : o.schemadeps = []) (hacc : (denote ext ρ (.object o)).Accepts v) (k : GoStr) (x : GoVal) (hx : (k, x) ∈ raws)
    (hk : ¬ o.Declares k) (id : Nat) (src : GoStr) (c : Constraint) (hc : (id, src, c) ∈ o.patterns)
    (hm : ext.reMatch src k = true) : (denote ext ρ c).Accepts x :=
  ((C33_all_orders ext ρ o hw hv hnil hd hsd).1 hacc).pattern k x hx hk id src c hc hm

/-- Two patterns match `ab`; an object accepted by both. -/
def overlapObj (c1 c2 : Constraint) : ObjC Constraint :=
  (Object'.PatternProperties 0 (b! "a") c1).PatternProperties 1 (b! "ab") c2

example : (overlapObj (.string String') .empty).schemadeps = [] ∧ (overlapObj (.string String') .empty).Wf ∧
    (sem0 (.object (overlapObj (.string String') .empty))).AcceptsBy sched0 (.map false [(b! "ab", .str [])]) :=
  ⟨rfl, ⟨by decide⟩, by unfold Sem.AcceptsBy; decide⟩

/-! ## C34 -/

/-- C34: complete characterisation for children that only look, give the same verdict in every iteration order and
supply no default for an absent property, and patterns that do not overlap. -/
theorem C34_exact (o : ObjC Constraint) (hw : o.Wf) {v : GoVal} {kvs raws : List (GoStr × GoVal)}
    (hv : IsObj v kvs raws) (hro : ∀ c, o.Child c → ∀ x, (denote ext ρ c).ReadOnlyOn x)
    (hdet : ∀ c, o.Child c → ∀ x, (denote ext ρ c).DeterminedOn x)
    (hd : ∀ p c, (p, c) ∈ o.props → ¬ Has kvs p → (denote ext ρ c).dflt = .none)
    (hov : ∀ k, Has kvs k → ¬ o.Declares k → ∀ p ∈ o.patterns, ∀ q ∈ o.patterns,
      ext.reMatch p.2.1 k = true → ext.reMatch q.2.1 k = true → p = q) :
    (denote ext ρ (.object o)).AcceptsBy σ v ↔
      ObjRules ext o (fun c x => (denote ext ρ c).Accepts x) v kvs raws := by
  unfold Sem.AcceptsBy
  rw [denote_object, objectV_exact ext _ σ hv ((ObjC.map_wf _ o).2 hw) ?_ ?_ ?_ ?_, map_objRules]
  · intro d h
    obtain ⟨c, h', rfl⟩ := (ObjC.map_child _ o).1 h
    exact hro c h'
  · intro p d hpd hn
    obtain ⟨c, hc, rfl⟩ := (ObjC.map_mem_props _ o).1 hpd
    exact hd p c hc hn
  · intro d h
    obtain ⟨c, h', rfl⟩ := (ObjC.map_child _ o).1 h
    exact hdet c h'
  · rintro k hk hdc ⟨i, s, d⟩ hp ⟨i', s', d'⟩ hq hm hm'
    obtain ⟨c, hc, rfl⟩ := (ObjC.map_mem_pats _ o).1 hp
    obtain ⟨c', hc', rfl⟩ := (ObjC.map_mem_pats _ o).1 hq
    have := hov k hk (fun h' => hdc ((ObjC.map_declares _ o).2 h')) _ hc _ hc' hm hm'
    cases this
    rfl

/-- Scalar children satisfy the hypotheses of C34. -/
theorem pure_child (c : Constraint)
    (h : c = .empty ∨ c = .null ∨ (∃ d, c = .boolean d) ∨ (∃ s, c = .string s) ∨ (∃ n, c = .number n) ∨
      (∃ n, c = .integer n) ∨ ∃ l, c = .enum l) (x : GoVal) :
    (denote ext ρ c).ReadOnlyOn x ∧ (denote ext ρ c).DeterminedOn x := by
  rcases h with rfl | rfl | ⟨d, rfl⟩ | ⟨s, rfl⟩ | ⟨n, rfl⟩ | ⟨n, rfl⟩ | ⟨l, rfl⟩ <;>
  · constructor
    · intro σ; simp [denote, pureV]
    · intro σ σ'; simp [denote, pureV]

/-- The running example meets the hypotheses of C34. -/
example : (∀ c, exObj.Child c → ∀ x, (denote demoExt ρ c).ReadOnlyOn x ∧ (denote demoExt ρ c).DeterminedOn x) ∧
    (∀ p c, (p, c) ∈ exObj.props → ¬ Has exKvs p → (denote demoExt ρ c).dflt = .none) ∧
    NoOverlap demoExt exObj exKvs := by
  have hp : exObj.props = [(b! "name", .string String'), (b! "age", .integer Number')] := rfl
  have hq : exObj.patterns = [(0, b! "x-", .boolean none)] := rfl
  refine ⟨fun c hc x => ?_, fun p c h _ => ?_, fun k _ _ p hp' q hq' _ _ => ?_⟩
  · apply pure_child
    cases hc with
    | prop h => rw [hp] at h; simp at h; rcases h with ⟨-, rfl⟩ | ⟨-, rfl⟩ <;> simp
    | pattern h => rw [hq] at h; simp at h; obtain ⟨-, -, rfl⟩ := h; simp
    | additional h => cases h; simp
    | dependency h => cases h
  · rw [hp] at h; simp at h; rcases h with ⟨-, rfl⟩ | ⟨-, rfl⟩ <;> rfl
  · rw [hq] at hp' hq'; simp at hp' hq'; rw [hp', hq']

/-! ## C35 -/

/-- C35 fails: with two patterns matching the same property, the verdict depends on which one is visited first. -/
theorem C35_refuted :
    ¬ ∀ (ext : Ext) (ρ : RefSem) (c : Constraint) (v : GoVal), (denote ext ρ c).DeterminedOn v := by
  intro h
  have := h demoExt (refSem demoExt env0 0) (.object (overlapObj (.string String') .null)) (.map false [(b! "ab", .str [])])
    sched0 (fun p => if p = [2] then 1 else 0)
  revert this
  decide

/-- C35, the part that holds here: objects with read-only, deterministic children and non-overlapping patterns. (For
whole default-free constraint trees see `C35_tree_partial`.) -/
theorem C35_object_partial (o : ObjC Constraint) (hw : o.Wf) {v : GoVal} {kvs raws : List (GoStr × GoVal)}
    (hv : IsObj v kvs raws) (hro : ∀ c, o.Child c → ∀ x, (denote ext ρ c).ReadOnlyOn x)
    (hdet : ∀ c, o.Child c → ∀ x, (denote ext ρ c).DeterminedOn x)
    (hd : ∀ p c, (p, c) ∈ o.props → ¬ Has kvs p → (denote ext ρ c).dflt = .none)
    (hov : ∀ k, Has kvs k → ¬ o.Declares k → ∀ p ∈ o.patterns, ∀ q ∈ o.patterns,
      ext.reMatch p.2.1 k = true → ext.reMatch q.2.1 k = true → p = q) :
    (denote ext ρ (.object o)).DeterminedOn v := by
  intro σ σ'
  exact (C34_exact ext ρ σ o hw hv hro hdet hd hov).trans (C34_exact ext ρ σ' o hw hv hro hdet hd hov).symm

/-! ## C36, C37 -/

/-- C36: when a declared or matched property is present, all its dependencies are present and themselves declared or
matched. -/
theorem C36_prop_dependencies (o : ObjC Constraint) (hw : o.Wf) {v : GoVal} {kvs raws : List (GoStr × GoVal)}
    (hv : IsObj v kvs raws) (hok : (denote ext ρ (.object o)).AcceptsBy σ v) (k : GoStr) (hk : Has kvs k)
    (hc : o.Covers ext k) (d : GoStr) (hd : d ∈ o.GetPropDependencies k) : Has kvs d ∧ o.Covers ext d := by
  unfold Sem.AcceptsBy at hok
  rw [denote_object] at hok
  obtain ⟨h1, h2⟩ := (objectV_sound ext _ σ hv ((ObjC.map_wf _ o).2 hw) hok).2.2.2.2.2 k hk ((ObjC.map_covers _ o).2 hc) d hd
  exact ⟨h1, (ObjC.map_covers _ o).1 h2⟩

/-- in the running example: `age` is there, so `name` must be -/
example : Has exKvs (b! "age") ∧ exObj.Covers demoExt (b! "age") ∧ b! "name" ∈ exObj.GetPropDependencies (b! "age") := by
  refine ⟨⟨.int .int 7, by simp [exKvs]⟩, Or.inl ⟨.integer Number', ?_⟩, by decide⟩
  simp [exObj, ObjC.PropDependency, ObjC.MaxProperties, ObjC.AdditionalProperties, ObjC.PatternProperties, ObjC.Required,
    ObjC.AddProp, Object', ainsert]

/-- `C37` fails in one direction: a dependency of an undeclared property is not enforced. -/
theorem C37_refuted :
    ¬ ∀ (ext : Ext) (ρ : RefSem) (σ : Sched) (o : ObjC Constraint) (v : GoVal) (kvs raws : List (GoStr × GoVal)),
      o.Wf → IsObj v kvs raws → (denote ext ρ (.object o)).AcceptsBy σ v → ∀ k, Has kvs k →
      ∀ d ∈ o.GetPropDependencies k, Has kvs d := by
  intro h
  have := h demoExt (refSem demoExt env0 0) sched0
    ((Object'.AdditionalProperties (some .empty)).PropDependency (b! "a") [b! "b"]) (.map false [(b! "a", .nil)])
    [(b! "a", .nil)] [(b! "a", .nil)] ⟨by decide⟩ (.map _ _ (by decide)) (by unfold Sem.AcceptsBy; decide) (b! "a")
    ⟨.nil, by simp⟩ (b! "b") (by decide)
  obtain ⟨x, hx⟩ := this
  simp at hx

/-- …and in the other: the object below has `a` and its dependency `b`, breaks no other rule, and is rejected because
`b` is only an additional property. -/
theorem C37_converse_refuted :
    ∃ (o : ObjC Constraint) (kvs : List (GoStr × GoVal)), o.Wf ∧ IsObj (.map false kvs) kvs kvs ∧
      (∀ σ, (sem0 (.object o)).AcceptsBy σ (.map false kvs)) ∧
      (∀ d ∈ [b! "b"], Has kvs d) ∧
      ∀ σ, ¬ (sem0 (.object (o.PropDependency (b! "a") [b! "b"]))).AcceptsBy σ (.map false kvs) := by
  refine ⟨(Object'.AddProp (b! "a") .empty).AdditionalProperties (some .empty), [(b! "a", .nil), (b! "b", .nil)],
    ⟨by decide⟩, .map _ _ (by decide), fun σ => ?_, ?_, fun σ h => ?_⟩
  · refine (C34_exact demoExt (refSem demoExt env0 0) σ _ ⟨by decide⟩
      (kvs := [(b! "a", .nil), (b! "b", .nil)]) (raws := [(b! "a", .nil), (b! "b", .nil)]) (.map _ _ (by decide)) ?_ ?_ ?_ ?_).2 ?_
    · rintro c hc x
      refine (pure_child _ _ c ?_ x).1
      cases hc with
      | prop h => simp [ObjC.AdditionalProperties, ObjC.AddProp, Object', ainsert] at h; simp [h]
      | pattern h => cases h
      | additional h => cases h; simp
      | dependency h => cases h
    · rintro c hc x
      refine (pure_child _ _ c ?_ x).2
      cases hc with
      | prop h => simp [ObjC.AdditionalProperties, ObjC.AddProp, Object', ainsert] at h; simp [h]
      | pattern h => cases h
      | additional h => cases h; simp
      | dependency h => cases h
    · intro p c h _
      simp [ObjC.AdditionalProperties, ObjC.AddProp, Object', ainsert] at h
      rw [h.2]; rfl
    · intro k _ _ p hp; cases hp
    · refine ⟨⟨fun h => by simp [ObjC.AdditionalProperties, ObjC.AddProp, Object'] at h, fun h => by
        simp [ObjC.AdditionalProperties, ObjC.AddProp, Object'] at h⟩, ?_, ?_, ?_, ?_, ?_, ?_⟩
      · intro p c x hp _ σ
        simp [ObjC.AdditionalProperties, ObjC.AddProp, Object', ainsert] at hp
        rw [hp.2]; rfl
      · intro p hp; cases hp
      · intro k x _ _ id src c hc; cases hc
      · intro k x _ _ _
        exact ⟨.empty, rfl, fun σ => rfl⟩
      · intro k _ _ d hd; cases hd
      · intro k _ _ _ c hc; cases hc
  · intro d hd; simp at hd; subst hd; exact ⟨.nil, by simp⟩
  · have := C36_prop_dependencies demoExt (refSem demoExt env0 0) σ _ ⟨by decide⟩
      (kvs := [(b! "a", .nil), (b! "b", .nil)]) (raws := [(b! "a", .nil), (b! "b", .nil)]) (.map _ _ (by decide)) h (b! "a")
      ⟨.nil, by simp⟩ (Or.inl ⟨.empty, by simp [ObjC.PropDependency, ObjC.AdditionalProperties, ObjC.AddProp, Object', ainsert]⟩)
      (b! "b") (by decide)
    rcases this.2 with ⟨c, hc⟩ | ⟨id, src, c, hc, -⟩
    · simp [ObjC.PropDependency, ObjC.AdditionalProperties, ObjC.AddProp, Object', ainsert] at hc
    · cases hc

/-- C37, the part that holds: when the properties involved are declared or matched by a pattern (and no schema
dependency is attached to `from`, which `PropDependency` would disable), adding a property dependency adds exactly the
rule "if `from` is present, so are `to`". -/
theorem C37_dependency_partial (o : ObjC Constraint) (acc : Constraint → GoVal → Prop) (v : GoVal)
    (kvs raws : List (GoStr × GoVal)) (from' : GoStr) (tos : List GoStr) (hto : ∀ d ∈ tos, o.Covers ext d)
    (hfrom : o.Covers ext from') (hs : o.GetSchemaDependency from' = none) :
    ObjRules ext (o.PropDependency from' tos) acc v kvs raws ↔
      ObjRules ext o acc v kvs raws ∧ (Has kvs from' → ∀ d ∈ tos, Has kvs d) := by
  have hdeps : ∀ k, (o.PropDependency from' tos).GetPropDependencies k =
      if k = from' then o.GetPropDependencies from' ++ tos else o.GetPropDependencies k := by
    intro k
    unfold ObjC.GetPropDependencies ObjC.PropDependency
    simp only [alookup_ainsert]
    split <;> rfl
  constructor
  · intro h
    refine ⟨⟨h.count, h.declared, h.required, h.pattern, h.additional, ?_, ?_⟩, ?_⟩
    · intro k hk hc d hd
      refine h.propDeps k hk hc d ?_
      rw [hdeps]
      split
      · rename_i e; subst e; exact List.mem_append_left _ hd
      · exact hd
    · intro k hk hc he c hs'
      by_cases e : k = from'
      · subst e; rw [hs] at hs'; cases hs'
      · exact h.schemaDeps k hk hc (by rw [hdeps, if_neg e]; exact he) c hs'
    · intro hk d hd
      exact (h.propDeps from' hk hfrom d (by rw [hdeps, if_pos rfl]; exact List.mem_append_right _ hd)).1
  · rintro ⟨h, h'⟩
    refine ⟨h.count, h.declared, h.required, h.pattern, h.additional, ?_, ?_⟩
    · intro k hk hc d hd
      rw [hdeps] at hd
      split at hd
      · rename_i e
        subst e
        rcases List.mem_append.1 hd with hd | hd
        · exact h.propDeps k hk hc d hd
        · exact ⟨h' hk d hd, hto d hd⟩
      · exact h.propDeps k hk hc d hd
    · intro k hk hc he c hs'
      by_cases e : k = from'
      · subst e
        have : o.GetSchemaDependency k = some c := hs'
        rw [hs] at this; cases this
      · exact h.schemaDeps k hk hc (by rw [hdeps, if_neg e] at he; exact he) c hs'

example : exObj.Covers demoExt (b! "x-y") ∧ exObj.GetSchemaDependency (b! "x-y") = none :=
  ⟨Or.inr ⟨0, b! "x-", .boolean none, by simp [exObj, ObjC.PropDependency, ObjC.MaxProperties, ObjC.AdditionalProperties,
    ObjC.PatternProperties, ObjC.Required, ObjC.AddProp, Object', patInsert], by decide⟩, rfl⟩

/-! ## C38 -/

/-- C38: with read-only children, an object having a covered property with a schema dependency and no property
dependency is accepted only if the dependency accepts the whole object. -/
theorem C38_schema_dependency (o : ObjC Constraint) (hw : o.Wf) {v : GoVal} {kvs raws : List (GoStr × GoVal)}
    (hv : IsObj v kvs raws) (hro : ∀ c, o.Child c → ∀ x, (denote ext ρ c).ReadOnlyOn x)
    (hd : ∀ p c, (p, c) ∈ o.props → ¬ Has kvs p → (denote ext ρ c).dflt = .none)
    (hok : (denote ext ρ (.object o)).AcceptsBy σ v) (k : GoStr) (hk : Has kvs k) (hc : o.Covers ext k)
    (hdeps : o.GetPropDependencies k = []) (c : Constraint) (hs : o.GetSchemaDependency k = some c) :
    ∃ τ, (denote ext ρ c).AcceptsBy τ v := by
  unfold Sem.AcceptsBy at hok ⊢
  rw [denote_object] at hok
  have hro' : ∀ d, (o.map (denote ext ρ)).Child d → d.ReadOnly := by
    intro d h
    obtain ⟨c, h', rfl⟩ := (ObjC.map_child _ o).1 h
    exact hro c h'
  obtain ⟨b, t, h⟩ := hv.acc
  obtain ⟨τ, hτ, h1, h2⟩ := objectV_core ext _ σ h ((ObjC.map_wf _ o).2 hw)
  obtain ⟨hcnt, hpre⟩ := h1 hok
  obtain ⟨t', pm, ps, a1, a2, a3, a4, a5, a6, -⟩ := h2 hcnt hpre
  have hall : AllReadOnly (o.map (denote ext ρ)) t := by
    refine ⟨fun pc hpc => hro' _ (.prop hpc), fun pc hpc hab dv => ?_, fun pc hpc => hro' _ (.pattern hpc),
      fun c hc => hro' _ (.additional hc), fun k c hc => hro' _ (.dependency hc)⟩
    have hn : ¬ Has kvs pc.1 := by
      rw [← h.present]; rintro ⟨x, s, hx⟩; rw [hab] at hx; cases hx
    obtain ⟨c', hc', e⟩ := (ObjC.map_mem_props _ o).1 (show (pc.1, pc.2) ∈ _ from hpc)
    rw [← e, hd _ _ hc' hn]
    exact fun h => by cases h
  rw [a6 hall, ← h.eq] at a5
  rw [a5] at hok
  unfold depPart at hok
  simp only at hok
  rw [(depLoop_readOnly _ (σ.sub 8) v pm ps (fun k c hc => hro' _ (.dependency hc) _) _ 0).1] at hok
  obtain ⟨j, hj⟩ := List.getElem?_of_mem ((mem_shuffle (k := (σ.sub 7).key)).2
    ((a2 k).2 ⟨hk, (ObjC.map_covers _ o).2 hc⟩))
  exact ⟨_, (hok j k hj).2 hdeps _ (by rw [ObjC.map_schemaDep, hs]; rfl)⟩

/-- a schema dependency that fails: with `a`, there must be at most one property -/
example : ¬ (sem0 (.object ((Object'.AddProp (b! "a") .empty).AddProp (b! "b") .empty |>.SchemaDependency (b! "a")
    (.object (Object'.MaxProperties 1))))).AcceptsBy sched0 (.map false [(b! "a", .nil), (b! "b", .nil)]) := by
  unfold Sem.AcceptsBy; decide

end Jsval
