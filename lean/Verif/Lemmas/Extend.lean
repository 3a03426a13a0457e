import Verif.Lemmas.ObjView
import Verif.Lemmas.RebuildSim
/-!
# Objects with further required names or dependencies
-/
namespace Jsval

variable {ext : Ext}

theorem seqSt_eq_ok {r : Res × ObjSt} {k : ObjSt → Res × ObjSt} {st : ObjSt} :
    seqSt r k = (.ok, st) ↔ ∃ s, r = (.ok, s) ∧ k s = (.ok, st) := by
  rcases r with ⟨r, s⟩
  cases r with
  | ok => simp [seqSt]
  | err e => simp [seqSt]
  | abort a => simp [seqSt]

theorem depStep_seen (o : ObjC Sem) (σ : Sched) (i : Nat) (p : GoStr) (st : ObjSt) : (depStep o σ i p st).2.pseen = st.pseen := by
  unfold depStep
  split
  · rfl
  · split <;> rfl

theorem propDependency_deps (o : ObjC Sem) (f : GoStr) (tos : List GoStr) (k : GoStr) :
    (o.PropDependency f tos).GetPropDependencies k =
      if k = f then o.GetPropDependencies f ++ tos else o.GetPropDependencies k := by
  unfold ObjC.GetPropDependencies ObjC.PropDependency
  simp only [alookup_ainsert]
  split <;> rfl

/-- One step of the last loop with a further dependency. -/
theorem depStep_more (o : ObjC Sem) (f : GoStr) (tos : List GoStr) (hs : o.GetSchemaDependency f = none) (σ : Sched) (i : Nat)
    (p : GoStr) (st s : ObjSt) :
    depStep (o.PropDependency f tos) σ i p st = (.ok, s) ↔
      depStep o σ i p st = (.ok, s) ∧ (p = f → ∀ d ∈ tos, d ∈ st.pseen) := by
  unfold depStep
  rw [propDependency_deps]
  have e : (o.PropDependency f tos).GetSchemaDependency p = o.GetSchemaDependency p := rfl
  rw [e]
  by_cases hp : p = f
  · subst hp
    simp only [if_true, hs, true_implies, Prod.mk.injEq]
    by_cases h0 : o.GetPropDependencies p = []
    · rw [h0, List.nil_append]
      by_cases h1 : tos = []
      · subst h1; simp
      · simp [h1, depsCheck_ok, and_comm]
    · have : o.GetPropDependencies p ++ tos ≠ [] := by simp [h0]
      simp only [ne_eq, this, h0, not_false_eq_true, if_true, Prod.mk.injEq, depsCheck_ok, List.mem_append]
      constructor
      · rintro ⟨h, rfl⟩; exact ⟨⟨fun d hd => h d (.inl hd), rfl⟩, fun d hd => h d (.inr hd)⟩
      · rintro ⟨⟨h, rfl⟩, h'⟩; exact ⟨fun d hd => hd.elim (h d) (h' d), rfl⟩
  · simp [hp]

theorem depLoop_more (o : ObjC Sem) (f : GoStr) (tos : List GoStr) (hs : o.GetSchemaDependency f = none) (σ : Sched) :
    ∀ (l : List GoStr) (i : Nat) (st s : ObjSt),
    forLoop (depStep (o.PropDependency f tos) σ) i l st = (.ok, s) ↔
      forLoop (depStep o σ) i l st = (.ok, s) ∧ (f ∈ l → ∀ d ∈ tos, d ∈ st.pseen)
  | [], i, st, s => by simp [forLoop]
  | p :: l, i, st, s => by
    have h := depStep_more o f tos hs σ i p st
    have hseen := depStep_seen o σ i p st
    unfold forLoop
    rcases h1 : depStep (o.PropDependency f tos) σ i p st with ⟨r1, s1⟩
    rcases h2 : depStep o σ i p st with ⟨r2, s2⟩
    simp only [h1, h2, Prod.mk.injEq] at h hseen ⊢
    cases r1 with
    | ok =>
      obtain ⟨⟨rfl, rfl⟩, h4⟩ := (h s1).1 ⟨rfl, rfl⟩
      simp only
      rw [depLoop_more o f tos hs σ l (i + 1), hseen]
      simp only [List.mem_cons]
      constructor
      · rintro ⟨h5, h6⟩; exact ⟨h5, fun hf => hf.elim (fun e => h4 e.symm) h6⟩
      · rintro ⟨h5, h6⟩; exact ⟨h5, fun hf => h6 (.inr hf)⟩
    | err e =>
      simp only [reduceCtorEq, Prod.mk.injEq, false_and, false_iff]
      rintro ⟨h5, h6⟩
      cases r2 with
      | ok => exact absurd ((h s2).2 ⟨⟨rfl, rfl⟩, fun e => h6 (by simp [e])⟩).1 (by simp)
      | err e => simp at h5
      | abort e => simp at h5
    | abort e =>
      simp only [reduceCtorEq, Prod.mk.injEq, false_and, false_iff]
      rintro ⟨h5, h6⟩
      cases r2 with
      | ok => exact absurd ((h s2).2 ⟨⟨rfl, rfl⟩, fun e => h6 (by simp [e])⟩).1 (by simp)
      | err e => simp at h5
      | abort e => simp at h5

/-- An object, from the properties on. -/
theorem objectV_loops (σ : Sched) {v : GoVal} {kvs raws : List (GoStr × GoVal)} {b : Bool} {t : GoVal}
    (h : ObjAcc v kvs raws b t) : ∃ names, (∀ k, k ∈ names ↔ Present t k) ∧ names.Nodup ∧
      ∀ (o' : ObjC Sem) w, objectV ext o' σ v = (.ok, w) ↔
        CountOk o' kvs.length ∧ ∃ s, objLoops ext o' σ ⟨wrap b t, names, []⟩ = (.ok, s) ∧ s.v = w := by
  obtain ⟨fields, b1, b2, b3⟩ := h.names
  refine ⟨nameSet fields, fun k => by rw [mem_nameSet, b3], nodup_nameSet fields, fun o' w => ?_⟩
  rw [countOk_iff]
  unfold objectV
  rw [h.eq, indirect_wrap h.plain, b1]
  simp only [b2]
  split
  · rename_i hc; simp [hc]
  · split
    · rename_i h0 hc; simp [hc]
    · rename_i h0 h1
      simp only [h0, h1, not_false_eq_true, true_and, Prod.mk.injEq]
      rcases objLoops ext o' σ ⟨wrap b t, nameSet fields, []⟩ with ⟨r, s⟩
      simp

theorem objLoops_pre (o : ObjC Sem) (σ : Sched) (st : ObjSt) :
    objLoops ext o σ st = seqSt (prePart ext o σ st) fun st =>
      forLoop (depStep o (σ.sub 8)) 0 (shuffle (σ.sub 7).key st.pseen) st := by
  unfold objLoops prePart
  rcases forLoop (propStep ext o (σ.sub 1)) 0 (shuffle (σ.sub 0).key o.props) st with ⟨r, s⟩
  cases r <;> simp only [seqSt]
  rcases forLoop (patOuter ext σ) 0 (shuffle (σ.sub 2).key o.patterns) s with ⟨r, s⟩
  cases r <;> simp only

/-- An object constraint with a further dependency. -/
theorem objectV_more_deps (o : ObjC Sem) (hw : o.Wf) (f : GoStr) (tos : List GoStr) (hs : o.GetSchemaDependency f = none)
    (σ : Sched) {v w : GoVal} {kvs raws : List (GoStr × GoVal)} (hv : IsObj v kvs raws) :
    objectV ext (o.PropDependency f tos) σ v = (.ok, w) ↔
      objectV ext o σ v = (.ok, w) ∧ (Has kvs f → o.Covers ext f → ∀ d ∈ tos, Has kvs d ∧ o.Covers ext d) := by
  obtain ⟨b, t, hacc⟩ := hv.acc
  obtain ⟨names, n1, n2, hE⟩ := objectV_loops (ext := ext) σ hacc
  rw [hE, hE]
  have hcnt : CountOk (o.PropDependency f tos) kvs.length ↔ CountOk o kvs.length := Iff.rfl
  rw [hcnt]
  obtain ⟨τ, -, c1, c2⟩ := objLoops_core ext o σ b t names hacc.plain hw.props n1 n2
  have hps : ∀ s, prePart ext o σ ⟨wrap b t, names, []⟩ = (.ok, s) → CountOk o kvs.length →
      ((∃ s', forLoop (depStep o (σ.sub 8)) 0 (shuffle (σ.sub 7).key s.pseen) s = (.ok, s')) →
        ∀ k, k ∈ s.pseen ↔ Has kvs k ∧ o.Covers ext k) := by
    rintro s hs' hc ⟨s', hd⟩
    have hl : (objLoops ext o σ ⟨wrap b t, names, []⟩).1 = .ok := by
      rw [objLoops_pre, hs']; simp only [seqSt, hd]
    obtain ⟨t', pm, ps, -, a2, -, -, -, -, a7⟩ := c2 (c1 hl)
    rw [a7] at hs'
    cases hs'
    intro k
    rw [a2, hacc.present, declares_iff, matched_iff]; rfl
  constructor
  · rintro ⟨hc, s', h, rfl⟩
    rw [objLoops_pre, seqSt_eq_ok] at h
    obtain ⟨s, h1, h2⟩ := h
    have h1' : prePart ext o σ ⟨wrap b t, names, []⟩ = (.ok, s) := h1
    obtain ⟨h3, h4⟩ := (depLoop_more o f tos hs _ _ _ _ _).1 h2
    refine ⟨⟨hc, s', ?_, rfl⟩, fun a b d hd => ?_⟩
    · rw [objLoops_pre, h1']; exact h3
    · have hk := hps s h1' hc ⟨s', h3⟩
      exact (hk d).1 (h4 (mem_shuffle.2 ((hk f).2 ⟨a, b⟩)) d hd)
  · rintro ⟨⟨hc, s', h, rfl⟩, h'⟩
    refine ⟨hc, s', ?_, rfl⟩
    rw [objLoops_pre, seqSt_eq_ok] at h ⊢
    obtain ⟨s, h1, h2⟩ := h
    refine ⟨s, h1, (depLoop_more o f tos hs _ _ _ _ _).2 ⟨h2, fun hf d hd => ?_⟩⟩
    have hk := hps s h1 hc ⟨s', h2⟩
    obtain ⟨a, b⟩ := (hk f).1 (mem_shuffle.1 hf)
    exact (hk d).2 (h' a b d hd)

theorem mem_required {C : Type} (o : ObjC C) (l : List GoStr) (p : GoStr) : p ∈ (o.Required l).required ↔ p ∈ o.required ∨ p ∈ l := by
  unfold ObjC.Required
  simp only
  generalize o.required = acc
  induction l generalizing acc with
  | nil => simp
  | cons q l ih => rw [List.foldl_cons, ih, mem_addName, List.mem_cons]; tauto

/-- One step over a declared property with further required names. -/
theorem propStep_more (o : ObjC Sem) (l : List GoStr) (σ : Sched) (i : Nat) (pc : GoStr × Sem) (st s : ObjSt) :
    propStep ext (o.Required l) σ i pc st = (.ok, s) ↔
      propStep ext o σ i pc st = (.ok, s) ∧ (viewProp (valueOf st.v).indirect pc.1 = .ok .absent → pc.1 ∉ l) := by
  have hm : pc.1 ∈ (o.Required l).required ↔ pc.1 ∈ o.required ∨ pc.1 ∈ l := mem_required o l pc.1
  unfold propStep
  rcases hv : viewProp (valueOf st.v).indirect pc.1 with a | pv
  · simp
  · cases pv with
    | present x b => simp
    | absent =>
      by_cases h1 : pc.1 ∈ o.required
      · simp [h1, hm]
      · by_cases h2 : pc.1 ∈ l
        · simp [h1, h2, hm]
        · simp [h1, h2, hm]

theorem propLoop_more (o : ObjC Sem) (l : List GoStr) (σ : Sched) (b : Bool) : ∀ (L : List (GoStr × Sem)) (i : Nat) (t : GoVal)
    (pm ps : List GoStr) (s : ObjSt), PlainT t → (L.map (·.1)).Nodup →
    (forLoop (propStep ext (o.Required l) σ) i L ⟨wrap b t, pm, ps⟩ = (.ok, s) ↔
      forLoop (propStep ext o σ) i L ⟨wrap b t, pm, ps⟩ = (.ok, s) ∧ ∀ p ∈ L.map (·.1), p ∈ l → Present t p)
  | [], i, t, pm, ps, s, _, _ => by simp [forLoop]
  | (p, c) :: L, i, t, pm, ps, s, hp, hn => by
    simp only [List.map_cons, List.nodup_cons] at hn
    obtain ⟨g1, t1, pm1, ps1, g2, g3, -⟩ := propStep_spec ext o σ i p c b t pm ps hp
    have h := propStep_more (ext := ext) o l σ i (p, c) ⟨wrap b t, pm, ps⟩
    simp only [indirect_wrap hp] at h
    have hsplit : PropOk ext o.required b t (σ.sub i) p c → ((viewProp (some t) p = .ok .absent → p ∉ l) ↔ (p ∈ l → Present t p)) := by
      intro hok
      unfold PropOk at hok
      unfold Present
      rcases hv : viewProp (some t) p with a | pv
      · rw [hv] at hok; exact hok.elim
      · cases pv <;> simp
    have hpres : ∀ q ∈ L.map (·.1), (Present t1 q ↔ Present t q) := fun q hq =>
      g3.present hp (fun e => hn.1 (e ▸ hq))
    unfold forLoop
    rcases h1 : propStep ext (o.Required l) σ i (p, c) ⟨wrap b t, pm, ps⟩ with ⟨r1, s1⟩
    rcases h2 : propStep ext o σ i (p, c) ⟨wrap b t, pm, ps⟩ with ⟨r2, s2⟩
    rw [h2] at g1 g2
    simp only [h1, h2, Prod.mk.injEq] at h g1 g2 ⊢
    have hbad : r1 ≠ .ok → (∀ q ∈ List.map (·.1) ((p, c) :: L), q ∈ l → Present t q) → r2 ≠ .ok := by
      rintro hr h6 rfl
      exact hr ((h s2).2 ⟨⟨rfl, rfl⟩, (hsplit (g1.1 rfl)).2 (h6 p (by simp))⟩).1
    cases r1 with
    | ok =>
      obtain ⟨⟨rfl, rfl⟩, h4⟩ := (h s1).1 ⟨rfl, rfl⟩
      simp only
      subst g2
      rw [propLoop_more o l σ b L (i + 1) t1 pm1 ps1 s (g3.plain hp) hn.2]
      simp only [List.map_cons, List.mem_cons]
      constructor
      · rintro ⟨h5, h6⟩
        refine ⟨h5, fun q hq hl => ?_⟩
        rcases hq with rfl | hq
        · exact (hsplit (g1.1 rfl)).1 h4 hl
        · exact (hpres q hq).1 (h6 q hq hl)
      · rintro ⟨h5, h6⟩
        exact ⟨h5, fun q hq hl => (hpres q hq).2 (h6 q (.inr hq) hl)⟩
    | err e =>
      refine ⟨fun h => by simp at h, fun h => ?_⟩
      have := hbad (by simp) h.2
      cases r2 <;> simp at this h
    | abort e =>
      refine ⟨fun h => by simp at h, fun h => ?_⟩
      have := hbad (by simp) h.2
      cases r2 <;> simp at this h

/-- An object constraint with further required names. -/
theorem objectV_more_required (o : ObjC Sem) (hw : o.Wf) (l : List GoStr) (σ : Sched) {v w : GoVal}
    {kvs raws : List (GoStr × GoVal)} (hv : IsObj v kvs raws) :
    objectV ext (o.Required l) σ v = (.ok, w) ↔
      objectV ext o σ v = (.ok, w) ∧ ∀ p ∈ l, o.Declares p → Has kvs p := by
  obtain ⟨b, t, hacc⟩ := hv.acc
  obtain ⟨names, -, -, hE⟩ := objectV_loops (ext := ext) σ hacc
  rw [hE, hE]
  have hcnt : CountOk (o.Required l) kvs.length ↔ CountOk o kvs.length := Iff.rfl
  have hnK : ((shuffle (σ.sub 0).key o.props).map (·.1)).Nodup := by
    rw [← shuffle_map]; exact shuffle_nodup.2 hw.props
  have hloop : ∀ s, forLoop (propStep ext (o.Required l) (σ.sub 1)) 0 (shuffle (σ.sub 0).key (o.Required l).props) ⟨wrap b t, names, []⟩ = (.ok, s) ↔ _ :=
    fun s => propLoop_more (ext := ext) o l (σ.sub 1) b (shuffle (σ.sub 0).key o.props) 0 t names [] s hacc.plain hnK
  have hdec : (∀ p ∈ (shuffle (σ.sub 0).key o.props).map (·.1), p ∈ l → Present t p) ↔ ∀ p ∈ l, o.Declares p → Has kvs p := by
    constructor
    · intro h p hp hd
      obtain ⟨c, hc⟩ := hd
      exact hacc.present.1 (h p (List.mem_map.2 ⟨_, mem_shuffle.2 hc, rfl⟩) hp)
    · intro h p hp hl
      obtain ⟨⟨p', c⟩, hc, rfl⟩ := List.mem_map.1 hp
      exact hacc.present.2 (h _ hl ⟨c, mem_shuffle.1 hc⟩)
  rw [hcnt]
  unfold objLoops
  simp only [seqSt_eq_ok, hloop, hdec]
  constructor
  · rintro ⟨hc, s, ⟨s1, ⟨h1, h2⟩, h3⟩, rfl⟩
    exact ⟨⟨hc, s, ⟨s1, h1, h3⟩, rfl⟩, h2⟩
  · rintro ⟨⟨hc, s, ⟨s1, h1, h3⟩, rfl⟩, h2⟩
    exact ⟨hc, s, ⟨s1, ⟨h1, h2⟩, h3⟩, rfl⟩

end Jsval
