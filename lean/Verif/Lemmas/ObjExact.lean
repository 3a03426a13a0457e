import Verif.Lemmas.ObjView
/-!
# Object validation against the declarative rules
-/
namespace Jsval

/-! ## Transport along `ObjC.map` -/

section map
variable {C D : Type} (f : C → D) (o : ObjC C)

theorem ObjC.map_declares {k : GoStr} : (o.map f).Declares k ↔ o.Declares k := by
  unfold ObjC.Declares
  simp only [ObjC.map, List.mem_map, Prod.mk.injEq, Prod.exists]
  constructor
  · rintro ⟨_, k', c, h, rfl, _⟩; exact ⟨c, h⟩
  · rintro ⟨c, h⟩; exact ⟨f c, k, c, h, rfl, rfl⟩

theorem ObjC.map_mem_props {p : GoStr} {d : D} : (p, d) ∈ (o.map f).props ↔ ∃ c, (p, c) ∈ o.props ∧ f c = d := by
  simp only [ObjC.map, List.mem_map, Prod.mk.injEq, Prod.exists]
  constructor
  · rintro ⟨k', c, h, rfl, rfl⟩; exact ⟨c, h, rfl⟩
  · rintro ⟨c, h, rfl⟩; exact ⟨p, c, h, rfl, rfl⟩

theorem ObjC.map_mem_pats {id : Nat} {src : GoStr} {d : D} :
    (id, src, d) ∈ (o.map f).patterns ↔ ∃ c, (id, src, c) ∈ o.patterns ∧ f c = d := by
  simp only [ObjC.map, List.mem_map, Prod.mk.injEq, Prod.exists]
  constructor
  · rintro ⟨k', s, c, h, rfl, rfl, rfl⟩; exact ⟨c, h, rfl⟩
  · rintro ⟨c, h, rfl⟩; exact ⟨id, src, c, h, rfl, rfl, rfl⟩

theorem ObjC.map_patternFor {ext : Ext} {k : GoStr} : (o.map f).PatternFor ext k ↔ o.PatternFor ext k := by
  unfold ObjC.PatternFor
  simp only [ObjC.map_mem_pats]
  constructor
  · rintro ⟨id, src, d, ⟨c, h, -⟩, h'⟩; exact ⟨id, src, c, h, h'⟩
  · rintro ⟨id, src, c, h, h'⟩; exact ⟨id, src, f c, ⟨c, h, rfl⟩, h'⟩

theorem ObjC.map_covers {ext : Ext} {k : GoStr} : (o.map f).Covers ext k ↔ o.Covers ext k := by
  unfold ObjC.Covers; rw [ObjC.map_declares, ObjC.map_patternFor]

theorem ObjC.map_wf : (o.map f).Wf ↔ o.Wf := by
  have : (o.map f).props.map (·.1) = o.props.map (·.1) := by simp [ObjC.map, Function.comp_def]
  constructor
  · rintro ⟨h⟩; exact ⟨this ▸ h⟩
  · rintro ⟨h⟩; exact ⟨this ▸ h⟩

theorem ObjC.map_propDeps {p : GoStr} : (o.map f).GetPropDependencies p = o.GetPropDependencies p := rfl

theorem ObjC.map_schemaDep {p : GoStr} : (o.map f).GetSchemaDependency p = (o.GetSchemaDependency p).map f := by
  unfold ObjC.GetSchemaDependency
  simp only [ObjC.map]
  rw [alookup_map]

theorem ObjC.map_child {d : D} : (o.map f).Child d ↔ ∃ c, o.Child c ∧ f c = d := by
  constructor
  · intro h
    cases h with
    | prop h => obtain ⟨c, h2, rfl⟩ := (ObjC.map_mem_props f o).1 h; exact ⟨c, .prop h2, rfl⟩
    | pattern h => obtain ⟨c, h2, rfl⟩ := (ObjC.map_mem_pats f o).1 h; exact ⟨c, .pattern h2, rfl⟩
    | additional h =>
      simp only [ObjC.map, Option.map_eq_some_iff] at h
      obtain ⟨c, h, rfl⟩ := h; exact ⟨c, .additional h, rfl⟩
    | dependency h =>
      rw [ObjC.map_schemaDep, Option.map_eq_some_iff] at h
      obtain ⟨c, h, rfl⟩ := h; exact ⟨c, .dependency h, rfl⟩
  · rintro ⟨c, h, rfl⟩
    cases h with
    | prop h => exact .prop ((ObjC.map_mem_props f o).2 ⟨c, h, rfl⟩)
    | pattern h => exact .pattern ((ObjC.map_mem_pats f o).2 ⟨c, h, rfl⟩)
    | additional h => exact .additional (by simp [ObjC.map, h])
    | dependency h => exact .dependency (by rw [ObjC.map_schemaDep, h]; rfl)

theorem map_countOk {n : Nat} : CountOk (o.map f) n ↔ CountOk o n := Iff.rfl

theorem map_objRules {ext : Ext} {acc : D → GoVal → Prop} {whole : GoVal} {kvs raws : List (GoStr × GoVal)} :
    ObjRules ext (o.map f) acc whole kvs raws ↔ ObjRules ext o (fun c x => acc (f c) x) whole kvs raws := by
  constructor
  · intro h
    refine ⟨h.count, ?_, ?_, ?_, ?_, ?_, ?_⟩
    · intro p c x hp hx; exact h.declared p (f c) x ((ObjC.map_mem_props f o).2 ⟨c, hp, rfl⟩) hx
    · intro p hp hd; exact h.required p hp ((ObjC.map_declares f o).2 hd)
    · intro k x hx hd id src c hc hm
      exact h.pattern k x hx (fun h' => hd ((ObjC.map_declares f o).1 h')) id src (f c) ((ObjC.map_mem_pats f o).2 ⟨c, hc, rfl⟩) hm
    · intro k x hx hd hp
      obtain ⟨d, h1, h2⟩ := h.additional k x hx (fun h' => hd ((ObjC.map_declares f o).1 h'))
        (fun h' => hp ((ObjC.map_patternFor f o).1 h'))
      simp only [ObjC.map, Option.map_eq_some_iff] at h1
      obtain ⟨c, h1, rfl⟩ := h1
      exact ⟨c, h1, h2⟩
    · intro k hk hc d hd
      obtain ⟨a, b⟩ := h.propDeps k hk ((ObjC.map_covers f o).2 hc) d hd
      exact ⟨a, (ObjC.map_covers f o).1 b⟩
    · intro k hk hc hd c hs
      exact h.schemaDeps k hk ((ObjC.map_covers f o).2 hc) hd (f c) (by rw [ObjC.map_schemaDep, hs]; rfl)
  · intro h
    refine ⟨h.count, ?_, ?_, ?_, ?_, ?_, ?_⟩
    · intro p d x hp hx
      obtain ⟨c, hp2, rfl⟩ := (ObjC.map_mem_props f o).1 hp
      exact h.declared p c x hp2 hx
    · intro p hp hd; exact h.required p hp ((ObjC.map_declares f o).1 hd)
    · intro k x hx hd id src d hc hm
      obtain ⟨c, hc2, rfl⟩ := (ObjC.map_mem_pats f o).1 hc
      exact h.pattern k x hx (fun h' => hd ((ObjC.map_declares f o).2 h')) id src c hc2 hm
    · intro k x hx hd hp
      obtain ⟨c, h1, h2⟩ := h.additional k x hx (fun h' => hd ((ObjC.map_declares f o).2 h'))
        (fun h' => hp ((ObjC.map_patternFor f o).2 h'))
      exact ⟨f c, by simp [ObjC.map, h1], h2⟩
    · intro k hk hc d hd
      obtain ⟨a, b⟩ := h.propDeps k hk ((ObjC.map_covers f o).1 hc) d hd
      exact ⟨a, (ObjC.map_covers f o).2 b⟩
    · intro k hk hc hd d hs
      rw [ObjC.map_schemaDep, Option.map_eq_some_iff] at hs
      obtain ⟨c, hs, rfl⟩ := hs
      exact h.schemaDeps k hk ((ObjC.map_covers f o).1 hc) hd c hs
end map

/-! ## The first three loops -/

theorem viewProp_plain {t : GoVal} (h : PlainT t) (k : GoStr) : ∃ pv, viewProp (some t) k = .ok pv := by
  cases h with
  | map n kvs => exact ⟨_, viewProp_map⟩
  | struct fs hf => exact ⟨_, viewProp_struct hf k⟩

theorem ObjAcc.hasRaw {v : GoVal} {kvs raws : List (GoStr × GoVal)} {b : Bool} {t : GoVal} (h : ObjAcc v kvs raws b t)
    {k : GoStr} : Has raws k ↔ Has kvs k := by
  rw [← h.present]
  constructor
  · rintro ⟨x, hx⟩; exact ((h.raw k x).2 hx).2
  · intro hp
    obtain ⟨x, hx⟩ := hp.raw
    exact ⟨x, (h.raw k x).1 ⟨hx, hp⟩⟩

theorem ObjAcc.rawOk {v : GoVal} {kvs raws : List (GoStr × GoVal)} {b : Bool} {t : GoVal} (h : ObjAcc v kvs raws b t)
    {k : GoStr} {x : GoVal} (hx : (k, x) ∈ raws) (τ : Sched) (c : Sem) : RawOk t τ k c ↔ (c.val τ x).1 = .ok := by
  have hg := ((h.raw k x).2 hx).1
  unfold RawOk
  rw [hg]
  simp

/-- The first three loops in terms of the properties, one direction. -/
theorem preOk_rules {ext : Ext} {o : ObjC Sem} {pats : List (Nat × GoStr × Sem)} {v : GoVal}
    {kvs raws : List (GoStr × GoVal)} {b : Bool} {t : GoVal} (h : ObjAcc v kvs raws b t) {τ : GoStr → Sched}
    (hp : PreOk ext o pats b t τ) :
    (∀ p c x, (p, c) ∈ o.props → (p, x) ∈ kvs → (c.val (τ p) x).1 = .ok) ∧
    (∀ p, p ∈ o.required → o.Declares p → Has kvs p) ∧
    (∀ k x, (k, x) ∈ raws → ¬ o.Declares k → ∀ c, firstMatch ext pats k = some c → (c.val (τ k) x).1 = .ok) ∧
    (∀ k x, (k, x) ∈ raws → ¬ o.Declares k → ¬ o.PatternFor ext k →
      ∃ c, o.additional = some c ∧ (c.val (τ k) x).1 = .ok) := by
  refine ⟨?_, ?_, ?_, ?_⟩
  · intro p c x hpc hx
    obtain ⟨s, hs⟩ := (h.view p x).2 hx
    have := hp.declared p c hpc
    unfold PropOk at this
    rw [hs] at this
    exact this
  · rintro p hr ⟨c, hpc⟩
    have := hp.declared p c hpc
    unfold PropOk at this
    obtain ⟨pv, hv⟩ := viewProp_plain h.plain p
    rw [hv] at this
    cases pv with
    | absent => exact absurd hr this.1
    | present x s => exact ⟨x, (h.view p x).1 ⟨s, hv⟩⟩
  · intro k x hx hd c hc
    have hk : Present t k := ((h.raw k x).2 hx).2
    exact (h.rawOk hx _ c).1 (hp.pattern k hk (fun h' => hd (declares_iff.1 h')) c hc)
  · intro k x hx hd hm
    have hk : Present t k := ((h.raw k x).2 hx).2
    obtain ⟨c, hc, hr⟩ := hp.additional k hk (fun h' => hd (declares_iff.1 h')) (fun h' => hm (matched_iff.1 h'))
    exact ⟨c, hc, (h.rawOk hx _ c).1 hr⟩

/-- And back, when the defaults of absent properties can be stored. -/
theorem preOk_of_rules {ext : Ext} {o : ObjC Sem} {pats : List (Nat × GoStr × Sem)} {v : GoVal}
    {kvs raws : List (GoStr × GoVal)} {b : Bool} {t : GoVal} (h : ObjAcc v kvs raws b t) {τ : GoStr → Sched}
    (hset : ∀ p c, (p, c) ∈ o.props → ¬ Has kvs p → c.dflt = .none ∨ ∃ dv, c.dflt = .some dv ∧ CanSet ext b t p dv)
    (h1 : ∀ p c x, (p, c) ∈ o.props → (p, x) ∈ kvs → (c.val (τ p) x).1 = .ok)
    (h2 : ∀ p, p ∈ o.required → o.Declares p → Has kvs p)
    (h3 : ∀ k x, (k, x) ∈ raws → ¬ o.Declares k → ∀ c, firstMatch ext pats k = some c → (c.val (τ k) x).1 = .ok)
    (h4 : ∀ k x, (k, x) ∈ raws → ¬ o.Declares k → ¬ o.PatternFor ext k →
      ∃ c, o.additional = some c ∧ (c.val (τ k) x).1 = .ok) :
    PreOk ext o pats b t τ := by
  have hraw : ∀ k, Present t k → ∃ x, (k, x) ∈ raws := fun k hk => by
    obtain ⟨x, hx⟩ := hk.raw
    exact ⟨x, (h.raw k x).1 ⟨hx, hk⟩⟩
  refine ⟨?_, ?_, ?_⟩
  · intro p c hpc
    unfold PropOk
    obtain ⟨pv, hv⟩ := viewProp_plain h.plain p
    rw [hv]
    cases pv with
    | absent =>
      have hn : ¬ Has kvs p := by
        rw [← h.present]; rintro ⟨x, s, hx⟩; rw [hv] at hx; cases hx
      exact ⟨fun hr => hn (h2 p hr ⟨c, hpc⟩), hset p c hpc hn⟩
    | present x s => exact h1 p c x hpc ((h.view p x).1 ⟨s, hv⟩)
  · intro k hk hd c hc
    obtain ⟨x, hx⟩ := hraw k hk
    exact (h.rawOk hx _ c).2 (h3 k x hx (fun h' => hd (declares_iff.2 h')) c hc)
  · intro k hk hd hm
    obtain ⟨x, hx⟩ := hraw k hk
    obtain ⟨c, hc, hr⟩ := h4 k x hx (fun h' => hd (declares_iff.2 h')) (fun h' => hm (matched_iff.2 h'))
    exact ⟨c, hc, (h.rawOk hx _ c).2 hr⟩

theorem firstMatch_mem {ext : Ext} {l : List (Nat × GoStr × Sem)} {k : GoStr} {c : Sem} (h : firstMatch ext l k = some c) :
    ∃ id src, (id, src, c) ∈ l ∧ ext.reMatch src k = true := by
  unfold firstMatch at h
  obtain ⟨⟨id, src, c'⟩, h1, rfl⟩ := Option.map_eq_some_iff.1 h
  exact ⟨id, src, List.mem_of_find?_eq_some h1, by simpa using List.find?_some h1⟩

theorem firstMatch_unique {ext : Ext} {l l' : List (Nat × GoStr × Sem)} {k : GoStr} {id : Nat} {src : GoStr} {c : Sem}
    (hu : ∀ p ∈ l, ∀ q ∈ l, ext.reMatch p.2.1 k = true → ext.reMatch q.2.1 k = true → p = q)
    (hl : ∀ p, p ∈ l' ↔ p ∈ l) (hc : (id, src, c) ∈ l) (hm : ext.reMatch src k = true) :
    firstMatch ext l' k = some c := by
  have : Matched ext l' k := ⟨_, (hl _).2 hc, hm⟩
  obtain ⟨c', hc'⟩ := firstMatch_matched.2 this
  obtain ⟨id', src', h1, h2⟩ := firstMatch_mem hc'
  have := hu _ ((hl _).1 h1) _ hc h2 hm
  cases this
  exact hc'

/-! ## A schedule with a given pattern order and one schedule for every child -/

/-- Patterns are visited in order number `k`, every child call sees `τ`. -/
def uniSched (k : Nat) (τ : Sched) : Sched
  | [2] => k
  | 1 :: _ :: r => τ r
  | 4 :: _ :: _ :: r => τ r
  | 6 :: _ :: r => τ r
  | 8 :: _ :: r => τ r
  | _ => 0

theorem uniSched_key (k : Nat) (τ : Sched) : ((uniSched k τ).sub 2).key = k := rfl
theorem uniSched_1 (k : Nat) (τ : Sched) (i : Nat) : ((uniSched k τ).sub 1).sub i = τ := by funext p; rfl
theorem uniSched_4 (k : Nat) (τ : Sched) (j i : Nat) : (((uniSched k τ).sub 4).sub j).sub i = τ := by funext p; rfl
theorem uniSched_6 (k : Nat) (τ : Sched) (i : Nat) : ((uniSched k τ).sub 6).sub i = τ := by funext p; rfl
theorem uniSched_8 (k : Nat) (τ : Sched) (i : Nat) : ((uniSched k τ).sub 8).sub i = τ := by funext p; rfl

/-- Some pattern order starts with a given pattern. -/
theorem exists_first {α : Type _} {l : List α} {a : α} (h : a ∈ l) : ∃ k l', shuffle k l = a :: l' := by
  obtain ⟨s, t, rfl⟩ := List.append_of_mem h
  obtain ⟨k, hk⟩ := shuffle_surj (s ++ a :: t) (a :: (s ++ t)) List.perm_middle.symm
  exact ⟨k, s ++ t, hk⟩

/-! ## Soundness: what acceptance implies -/

theorem objectV_sound (ext : Ext) (o : ObjC Sem) (σ : Sched) {v : GoVal} {kvs raws : List (GoStr × GoVal)}
    (hv : IsObj v kvs raws) (hw : o.Wf) (hok : (objectV ext o σ v).1 = .ok) :
    CountOk o kvs.length ∧
    (∀ p c x, (p, c) ∈ o.props → (p, x) ∈ kvs → ∃ τ, (c.val τ x).1 = .ok) ∧
    (∀ p, p ∈ o.required → o.Declares p → Has kvs p) ∧
    (∀ k x, (k, x) ∈ raws → ¬ o.Declares k → o.PatternFor ext k →
      ∃ id src c, (id, src, c) ∈ o.patterns ∧ ext.reMatch src k = true ∧ ∃ τ, (c.val τ x).1 = .ok) ∧
    (∀ k x, (k, x) ∈ raws → ¬ o.Declares k → ¬ o.PatternFor ext k →
      ∃ c, o.additional = some c ∧ ∃ τ, (c.val τ x).1 = .ok) ∧
    (∀ k, Has kvs k → o.Covers ext k → ∀ d ∈ o.GetPropDependencies k, Has kvs d ∧ o.Covers ext d) := by
  obtain ⟨b, t, h⟩ := hv.acc
  obtain ⟨τ, hτ, h1, h2⟩ := objectV_core ext o σ h hw
  obtain ⟨hc, hpre⟩ := h1 hok
  obtain ⟨r1, r2, r3, r4⟩ := preOk_rules h hpre
  obtain ⟨t', pm, ps, a1, a2, a3, a4, a5, a6, -⟩ := h2 hc hpre
  refine ⟨hc, fun p c x hpc hx => ⟨_, r1 p c x hpc hx⟩, r2, fun k x hx hd hm => ?_, fun k x hx hd hm => ?_,
    fun k hk hcov d hd => ?_⟩
  · obtain ⟨c, hc⟩ := firstMatch_matched.2 ((matched_shuffle (k := (σ.sub 2).key)).2 (matched_iff.2 hm))
    obtain ⟨id, src, hp, hm'⟩ := firstMatch_mem hc
    exact ⟨id, src, c, mem_shuffle.1 hp, hm', _, r3 k x hx hd c hc⟩
  · obtain ⟨c, hc, hr⟩ := r4 k x hx hd hm
    exact ⟨c, hc, _, hr⟩
  · rw [a5] at hok
    have hk' : k ∈ shuffle (σ.sub 7).key ps := mem_shuffle.2 ((a2 k).2 ⟨hk, hcov⟩)
    obtain ⟨hsound, -⟩ := depLoop_sound o (σ.sub 8) (fun _ _ => True) (fun _ => trivial) (fun _ _ => trivial) pm ps
      (fun _ _ _ _ _ => trivial) (shuffle (σ.sub 7).key ps) 0 (wrap b t') hok
    obtain ⟨τ', w, -, hdep⟩ := hsound k hk'
    exact (a2 d).1 (hdep.1 d hd)

/-! ## Exactness for read-only children -/

theorem determined_iff {c : Sem} {x : GoVal} (h : c.DeterminedOn x) (τ : Sched) : (c.val τ x).1 = .ok ↔ c.Accepts x :=
  ⟨fun h' σ => (h τ σ).1 h', fun h' => h' τ⟩

section
variable (ext : Ext) (o : ObjC Sem) {v : GoVal} {kvs raws : List (GoStr × GoVal)}

theorem allReadOnly_of {b : Bool} {t : GoVal} (h : ObjAcc v kvs raws b t) (hro : ∀ c, o.Child c → c.ReadOnly)
    (hd : ∀ p c, (p, c) ∈ o.props → ¬ Has kvs p → ∀ dv, c.dflt ≠ .some dv) : AllReadOnly o t := by
  refine ⟨fun pc hpc => hro _ (.prop hpc), fun pc hpc hab dv => ?_, fun pc hpc => hro _ (.pattern hpc),
    fun c hc => hro _ (.additional hc), fun k c hc => hro _ (.dependency hc)⟩
  have hn : ¬ Has kvs pc.1 := by
    rw [← h.present]; rintro ⟨x, s, hx⟩; rw [hab] at hx; cases hx
  exact hd _ _ hpc hn dv

/-- One accepting order: every rule holds, each child accepting in some order. -/
theorem objectV_rules (σ : Sched) (hv : IsObj v kvs raws) (hw : o.Wf) (hro : ∀ c, o.Child c → c.ReadOnly)
    (hd : ∀ p c, (p, c) ∈ o.props → ¬ Has kvs p → ∀ dv, c.dflt ≠ .some dv) (hov : NoOverlap ext o kvs)
    (hok : (objectV ext o σ v).1 = .ok) : ObjRules ext o (fun c x => ∃ τ, (c.val τ x).1 = .ok) v kvs raws := by
  obtain ⟨b, t, h⟩ := hv.acc
  obtain ⟨τ, hτ, h1, h2⟩ := objectV_core ext o σ h hw
  obtain ⟨hc, hpre⟩ := h1 hok
  obtain ⟨r1, r2, r3, r4⟩ := preOk_rules h hpre
  obtain ⟨t', pm, ps, a1, a2, a3, a4, a5, a6, -⟩ := h2 hc hpre
  rw [a6 (allReadOnly_of o h hro hd)] at a5
  rw [a5] at hok
  unfold depPart at hok
  simp only at hok
  rw [(depLoop_readOnly o (σ.sub 8) (wrap b t) pm ps (fun k c hc => hro _ (.dependency hc) _) _ 0).1] at hok
  have hk : ∀ k, Has kvs k → o.Covers ext k → ∃ τ', DepOk o ps (wrap b t) τ' k := by
    intro k hk hcov
    obtain ⟨j, hj⟩ := List.getElem?_of_mem ((mem_shuffle (k := (σ.sub 7).key)).2 ((a2 k).2 ⟨hk, hcov⟩))
    exact ⟨_, hok j k hj⟩
  refine ⟨hc, fun p c x hpc hx => ⟨_, r1 p c x hpc hx⟩, r2, ?_, ?_, fun k hk' hcov d hd' => ?_, fun k hk' hcov he c hc => ?_⟩
  · intro k x hx hdc id src c hpc hm
    have hk : Has kvs k := h.hasRaw.1 ⟨x, hx⟩
    have hf := firstMatch_unique (l' := shuffle (σ.sub 2).key o.patterns) (hov k hk hdc) (fun p => mem_shuffle) hpc hm
    exact ⟨_, r3 k x hx hdc c hf⟩
  · intro k x hx hdc hm
    obtain ⟨c, hc, hr⟩ := r4 k x hx hdc hm
    exact ⟨c, hc, _, hr⟩
  · obtain ⟨τ', hd1, -⟩ := hk k hk' hcov
    exact (a2 d).1 (hd1 d hd')
  · obtain ⟨τ', -, hd2⟩ := hk k hk' hcov
    rw [h.eq]
    exact ⟨_, hd2 he c hc⟩

/-- If every rule holds, each child accepting in every order, the object is accepted. -/
theorem objectV_of_rules (σ : Sched) (hv : IsObj v kvs raws) (hw : o.Wf) (hro : ∀ c, o.Child c → c.ReadOnly)
    (hd : ∀ p c, (p, c) ∈ o.props → ¬ Has kvs p → c.dflt = .none)
    (hr : ObjRules ext o (fun c x => c.Accepts x) v kvs raws) : (objectV ext o σ v).1 = .ok := by
  obtain ⟨b, t, h⟩ := hv.acc
  obtain ⟨τ, hτ, h1, h2⟩ := objectV_core ext o σ h hw
  have hpre : PreOk ext o (shuffle (σ.sub 2).key o.patterns) b t τ := by
    refine preOk_of_rules h (fun p c hpc hn => Or.inl (hd p c hpc hn)) ?_ hr.required ?_ ?_
    · intro p c x hpc hx; exact hr.declared p c x hpc hx _
    · intro k x hx hdc c hc
      obtain ⟨id, src, hp, hm⟩ := firstMatch_mem hc
      exact hr.pattern k x hx hdc id src c (mem_shuffle.1 hp) hm _
    · intro k x hx hdc hm
      obtain ⟨c, hc, hac⟩ := hr.additional k x hx hdc hm
      exact ⟨c, hc, hac _⟩
  obtain ⟨t', pm, ps, a1, a2, a3, a4, a5, a6, -⟩ := h2 hr.count hpre
  rw [a6 (allReadOnly_of o h hro (fun p c hpc hn dv => by rw [hd p c hpc hn]; exact fun h => by cases h))] at a5
  rw [a5]
  unfold depPart
  simp only
  rw [(depLoop_readOnly o (σ.sub 8) (wrap b t) pm ps (fun k c hc => hro _ (.dependency hc) _) _ 0).1]
  intro j k hj
  obtain ⟨hk, hcov⟩ := (a2 k).1 (mem_shuffle.1 (List.mem_of_getElem? hj))
  refine ⟨fun d hd' => (a2 d).2 (hr.propDeps k hk hcov d hd'), fun he c hc => ?_⟩
  have := hr.schemaDeps k hk hcov he c hc
  rw [h.eq] at this
  exact this _

/-- The rules only speak about the object's own properties and the object itself. -/
theorem ObjRules.imp {C : Type} {o : ObjC C} {acc acc' : C → GoVal → Prop} (hr : ObjRules ext o acc v kvs raws)
    (h : ∀ c x, o.Child c → (∃ k, (k, x) ∈ kvs) ∨ (∃ k, (k, x) ∈ raws) ∨ x = v → acc c x → acc' c x) :
    ObjRules ext o acc' v kvs raws :=
  ⟨hr.count, fun p c x hpc hx => h c x (.prop hpc) (Or.inl ⟨p, hx⟩) (hr.declared p c x hpc hx), hr.required,
    fun k x hx hd id src c hpc hm => h c x (.pattern hpc) (Or.inr (Or.inl ⟨k, hx⟩)) (hr.pattern k x hx hd id src c hpc hm),
    fun k x hx hd hm => by
      obtain ⟨c, hc, ha⟩ := hr.additional k x hx hd hm
      exact ⟨c, hc, h c x (.additional hc) (Or.inr (Or.inl ⟨k, hx⟩)) ha⟩,
    hr.propDeps, fun k hk hc he c hs => h c v (.dependency hs) (Or.inr (Or.inr rfl)) (hr.schemaDeps k hk hc he c hs)⟩

theorem objectV_exact (σ : Sched) (hv : IsObj v kvs raws) (hw : o.Wf) (hro : ∀ c, o.Child c → c.ReadOnly)
    (hd : ∀ p c, (p, c) ∈ o.props → ¬ Has kvs p → c.dflt = .none)
    (hdet : ∀ c, o.Child c → ∀ x, c.DeterminedOn x) (hov : NoOverlap ext o kvs) :
    (objectV ext o σ v).1 = .ok ↔ ObjRules ext o (fun c x => c.Accepts x) v kvs raws :=
  ⟨fun hok => (objectV_rules ext o σ hv hw hro (fun p c hpc hn dv => by rw [hd p c hpc hn]; exact fun h => by cases h) hov hok).imp ext
      (fun c x hc _ ⟨τ, h⟩ => (determined_iff (hdet c hc x) τ).1 h),
    objectV_of_rules ext o σ hv hw hro hd⟩

end

/-! ## All iteration orders, children that may fill in defaults -/

theorem objectV_allOrders (ext : Ext) (o : ObjC Sem) {v : GoVal} {kvs raws : List (GoStr × GoVal)}
    (hv : IsObj v kvs raws) (hw : o.Wf)
    (hset : ∀ p c, (p, c) ∈ o.props → ¬ Has kvs p → c.dflt = .none ∨
      ∃ dv, c.dflt = .some dv ∧ ∃ m, v = .map false m ∨ v = .ptr (some (.map false m)))
    (hsd : ∀ k, o.GetSchemaDependency k = none) :
    (∀ σ, (objectV ext o σ v).1 = .ok) ↔ ObjRules ext o (fun c x => c.Accepts x) v kvs raws := by
  obtain ⟨b, t, h⟩ := hv.acc
  have hcan : ∀ p c, (p, c) ∈ o.props → ¬ Has kvs p → c.dflt = .none ∨ ∃ dv, c.dflt = .some dv ∧ CanSet ext b t p dv := by
    intro p c hpc hn
    rcases hset p c hpc hn with h' | ⟨dv, hdv, m, hm⟩
    · exact Or.inl h'
    · refine Or.inr ⟨dv, hdv, ?_⟩
      have ht : ∃ m, t = .map false m := by
        have := h.eq
        cases b
        · rcases hm with hm | hm
          · exact ⟨m, by rw [← hm]; exact this.symm⟩
          · rw [this] at hm
            have hp := h.plain
            simp only [wrap] at hm
            rw [hm] at hp
            cases hp
        · rcases hm with hm | hm
          · rw [this] at hm; cases hm
          · rw [this] at hm
            simp only [wrap, GoVal.ptr.injEq, Option.some.injEq] at hm
            exact ⟨m, hm⟩
      obtain ⟨m, rfl⟩ := ht
      exact canSet_map.2 (Or.inl rfl)
  have hdep : ∀ σ t' ps pm, (∀ k, k ∈ ps ↔ Has kvs k ∧ o.Covers ext k) →
      ((depPart o σ (wrap b t') pm ps).1 = .ok ↔
        (∀ k, Has kvs k → o.Covers ext k → ∀ d ∈ o.GetPropDependencies k, Has kvs d ∧ o.Covers ext d)) := by
    intro σ t' ps pm hps
    unfold depPart
    rw [(depLoop_readOnly o (σ.sub 8) (wrap b t') pm ps (fun k c hc => by rw [hsd] at hc; cases hc) _ 0).1]
    constructor
    · intro hh k hk hcov d hd
      obtain ⟨j, hj⟩ := List.getElem?_of_mem ((mem_shuffle (k := (σ.sub 7).key)).2 ((hps k).2 ⟨hk, hcov⟩))
      exact (hps d).1 ((hh j k hj).1 d hd)
    · intro hh j k hj
      obtain ⟨hk, hcov⟩ := (hps k).1 (mem_shuffle.1 (List.mem_of_getElem? hj))
      exact ⟨fun d hd => (hps d).2 (hh k hk hcov d hd), fun _ c hc => by rw [hsd] at hc; cases hc⟩
  constructor
  · intro hall
    have key : ∀ k2 τ0, CountOk o kvs.length ∧ PreOk ext o (shuffle k2 o.patterns) b t (fun _ => τ0) := by
      intro k2 τ0
      obtain ⟨τ, hτ, h1, -⟩ := objectV_core ext o (uniSched k2 τ0) h hw
      have : τ = fun _ => τ0 := by
        funext k
        rcases hτ k with ⟨i, hi⟩ | ⟨j, i, hi⟩ | ⟨i, hi⟩
        · rw [hi, uniSched_1]
        · rw [hi, uniSched_4]
        · rw [hi, uniSched_6]
      rw [uniSched_key, this] at h1
      exact h1 (hall _)
    have rules := fun k2 τ0 => preOk_rules h (key k2 τ0).2
    refine ⟨(key 0 sched0).1, ?_, (rules 0 sched0).2.1, ?_, ?_, ?_, fun k _ _ _ c hc => by rw [hsd] at hc; cases hc⟩
    · intro p c x hpc hx τ0; exact (rules 0 τ0).1 p c x hpc hx
    · intro k x hx hdc id src c hpc hm τ0
      obtain ⟨k2, l', hk2⟩ := exists_first hpc
      refine (rules k2 τ0).2.2.1 k x hx hdc c ?_
      rw [hk2]
      simp [firstMatch, List.find?, hm]
    · intro k x hx hdc hm
      obtain ⟨c, hc, -⟩ := (rules 0 sched0).2.2.2 k x hx hdc hm
      refine ⟨c, hc, fun τ0 => ?_⟩
      obtain ⟨c', hc', hr⟩ := (rules 0 τ0).2.2.2 k x hx hdc hm
      rw [hc] at hc'
      cases hc'
      exact hr
    · exact (objectV_sound ext o sched0 hv hw (hall _)).2.2.2.2.2
  · intro hr σ
    obtain ⟨τ, hτ, h1, h2⟩ := objectV_core ext o σ h hw
    have hpre : PreOk ext o (shuffle (σ.sub 2).key o.patterns) b t τ := by
      refine preOk_of_rules h hcan ?_ hr.required ?_ ?_
      · intro p c x hpc hx; exact hr.declared p c x hpc hx _
      · intro k x hx hdc c hc
        obtain ⟨id, src, hp, hm⟩ := firstMatch_mem hc
        exact hr.pattern k x hx hdc id src c (mem_shuffle.1 hp) hm _
      · intro k x hx hdc hm
        obtain ⟨c, hc, hac⟩ := hr.additional k x hx hdc hm
        exact ⟨c, hc, hac _⟩
    obtain ⟨t', pm, ps, a1, a2, a3, a4, a5, a6, -⟩ := h2 hr.count hpre
    rw [a5]
    exact (hdep σ t' ps pm a2).2 hr.propDeps

end Jsval
