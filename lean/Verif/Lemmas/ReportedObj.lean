import Verif.Lemmas.ReportedLoops
/-!
# Which fault of an object is reported
-/
namespace Jsval

variable {ext : Ext} {o : ObjC Sem} {v : GoVal} {kvs raws : List (GoStr × GoVal)}

/-- Nothing is wrong with the declared properties. -/
structure DeclaredPassS (o : ObjC Sem) (kvs : List (GoStr × GoVal)) : Prop where
  present : ∀ p c x, (p, c) ∈ o.props → (p, x) ∈ kvs → ∃ τ, (c.val τ x).1 = .ok
  absent : ∀ p c, (p, c) ∈ o.props → ¬ Has kvs p → p ∉ o.required ∧ c.dflt = .none

/-- Nothing is wrong with the undeclared properties whose names match a pattern. -/
def PatternsPassS (ext : Ext) (o : ObjC Sem) (raws : List (GoStr × GoVal)) : Prop :=
  ∀ k x, (k, x) ∈ raws → ¬ o.Declares k → ∀ id src c, (id, src, c) ∈ o.patterns → ext.reMatch src k = true → ∃ τ, (c.val τ x).1 = .ok

/-- Nothing is wrong with the other properties. -/
def OthersPassS (ext : Ext) (o : ObjC Sem) (raws : List (GoStr × GoVal)) : Prop :=
  ∀ k x, (k, x) ∈ raws → ¬ o.Declares k → ¬ o.PatternFor ext k → ∃ c, o.additional = some c ∧ ∃ τ, (c.val τ x).1 = .ok

/-- What an object constraint complains about first. -/
inductive ObjFirst (ext : Ext) (o : ObjC Sem) (v : GoVal) (kvs raws : List (GoStr × GoVal)) : Err → Prop where
  | fewProps : 0 ≤ o.minProps → (kvs.length : ℤ) < o.minProps → ObjFirst ext o v kvs raws .fewProps
  | manyProps : ¬ (0 ≤ o.minProps ∧ (kvs.length : ℤ) < o.minProps) → 0 ≤ o.maxProps → o.maxProps < (kvs.length : ℤ) →
      ObjFirst ext o v kvs raws .manyProps
  | required {p} : CountOk o kvs.length → p ∈ o.required → o.Declares p → ¬ Has kvs p → ObjFirst ext o v kvs raws (.required p)
  | prop {p c x e} : CountOk o kvs.length → (p, c) ∈ o.props → (p, x) ∈ kvs → (∃ τ, (c.val τ x).1 = .err e) →
      ObjFirst ext o v kvs raws (.prop p e)
  | pattern {k id src c x e} : CountOk o kvs.length → DeclaredPassS o kvs → ¬ o.Declares k → (id, src, c) ∈ o.patterns →
      ext.reMatch src k = true → (k, x) ∈ raws → (∃ τ, (c.val τ x).1 = .err e) → ObjFirst ext o v kvs raws (.prop k e)
  | addlNotAllowed {k} : CountOk o kvs.length → DeclaredPassS o kvs → PatternsPassS ext o raws → ¬ o.Declares k → ¬ o.PatternFor ext k →
      Has kvs k → o.additional = none → ObjFirst ext o v kvs raws .addlNotAllowed
  | addlProp {k c x e} : CountOk o kvs.length → DeclaredPassS o kvs → PatternsPassS ext o raws → ¬ o.Declares k → ¬ o.PatternFor ext k →
      o.additional = some c → (k, x) ∈ raws → (∃ τ, (c.val τ x).1 = .err e) → ObjFirst ext o v kvs raws (.addlProp k e)
  | depMissing {k d before after} : CountOk o kvs.length → DeclaredPassS o kvs → PatternsPassS ext o raws → OthersPassS ext o raws → Has kvs k →
      o.Covers ext k → o.GetPropDependencies k = before ++ d :: after → (∀ d' ∈ before, Has kvs d' ∧ o.Covers ext d') →
      ¬ (Has kvs d ∧ o.Covers ext d) → ObjFirst ext o v kvs raws (.depMissing d)
  | dependency {k c e} : CountOk o kvs.length → DeclaredPassS o kvs → PatternsPassS ext o raws → OthersPassS ext o raws → Has kvs k →
      o.Covers ext k → o.GetPropDependencies k = [] → o.GetSchemaDependency k = some c → (∃ τ, (c.val τ v).1 = .err e) →
      ObjFirst ext o v kvs raws e

theorem depsCheck_err_iff {ps : List GoStr} {e : Err} : ∀ {ds : List GoStr}, depsCheck ps ds = .err e ↔
    ∃ before d after, ds = before ++ d :: after ∧ (∀ d' ∈ before, d' ∈ ps) ∧ d ∉ ps ∧ e = .depMissing d
  | [] => by
    constructor
    · intro h; cases h
    · rintro ⟨bf, d, af, h, -⟩; cases bf <;> cases h
  | d :: ds => by
    unfold depsCheck
    by_cases hd : d ∈ ps
    · rw [if_pos hd, depsCheck_err_iff]
      constructor
      · rintro ⟨bf, d', af, rfl, h1, h2, h3⟩
        exact ⟨d :: bf, d', af, rfl, by simpa [hd] using h1, h2, h3⟩
      · rintro ⟨bf, d', af, h, h1, h2, h3⟩
        cases bf with
        | nil => cases h; exact absurd hd h2
        | cons x bf => cases h; exact ⟨bf, d', af, rfl, fun y hy => h1 y (by simp [hy]), h2, h3⟩
    · rw [if_neg hd]
      constructor
      · intro h; cases h; exact ⟨[], d, ds, rfl, by simp, hd, rfl⟩
      · rintro ⟨bf, d', af, h, h1, h2, h3⟩
        cases bf with
        | nil => cases h; rw [h3]
        | cons x bf => cases h; exact absurd (h1 d (by simp)) hd

theorem getProp_of_view_has {b : Bool} {t : GoVal} (ha : ObjAcc v kvs raws b t) {k : GoStr} {x : GoVal}
    (h1 : getProp (some t) k = .ok (some x)) (h2 : Has kvs k) : (k, x) ∈ raws := (ha.raw _ _).1 ⟨h1, ha.present.2 h2⟩

section Done
variable {b : Bool} {t : GoVal} (ha : ObjAcc v kvs raws b t) (hw : o.Wf) (hro : ∀ c, o.Child c → c.ReadOnly)
  (hd : ∀ p c, (p, c) ∈ o.props → ∀ dv, c.dflt ≠ .some dv)
include ha hw hro hd

/-- The loop over declared properties has passed. -/
theorem props_done {σ : Sched} {k0 : ℕ} {names : List GoStr} (hn : ∀ k, k ∈ names ↔ Has kvs k) (hnd : names.Nodup)
    (h : (forLoop (propStep ext o σ) 0 (shuffle k0 o.props) ⟨v, names, []⟩).1 = .ok) :
    DeclaredPassS o kvs ∧ ∃ pm ps, forLoop (propStep ext o σ) 0 (shuffle k0 o.props) ⟨v, names, []⟩ = (.ok, ⟨v, pm, ps⟩) ∧ pm.Nodup ∧ ps.Nodup ∧
      (∀ k, k ∈ pm ↔ Has kvs k ∧ ¬ o.Declares k) ∧ ∀ k, k ∈ ps ↔ Has kvs k ∧ o.Declares k := by
  have hnK : ((shuffle k0 o.props).map (·.1)).Nodup := by
    rw [← shuffle_map]; exact shuffle_nodup.2 hw.props
  have hkey : ∀ {k}, k ∈ (shuffle k0 o.props).map (·.1) ↔ k ∈ o.props.map (·.1) := by
    intro k; rw [← shuffle_map, mem_shuffle]
  obtain ⟨h0, h1'⟩ := propLoop_spec ext o σ b (shuffle k0 o.props) 0 t names [] ha.plain hnK
  rw [← ha.eq] at h1' h0
  obtain ⟨t1, pm1, ps1, e1, -, -, hpm1, hpmn1, hps1, hpsn1⟩ := h1' h
  have ht1 : wrap b t1 = v := by
    have := propLoop_readOnly ext o (σ := σ) (i := 0) (l := shuffle k0 o.props)
      (st := ⟨v, names, []⟩) (fun pc hpc => hro _ (.prop (mem_shuffle.1 hpc)))
      (fun pc hpc _ => hd pc.1 pc.2 (mem_shuffle.1 hpc))
    rw [e1] at this
    exact this
  refine ⟨⟨fun p c x hpc hx => ?_, fun p c hpc hnh => ?_⟩, pm1, ps1, Prod.ext h (by rw [e1, ht1]), hpmn1 hnd, hpsn1 List.nodup_nil, fun k => ?_, fun k => ?_⟩
  · obtain ⟨j, hj⟩ := List.getElem?_of_mem (mem_shuffle.2 hpc : (p, c) ∈ shuffle k0 o.props)
    have := h0.1 h j p c hj
    obtain ⟨s, hs⟩ := (ha.view p x).2 hx
    unfold PropOk at this
    rw [hs] at this
    exact ⟨_, this⟩
  · obtain ⟨j, hj⟩ := List.getElem?_of_mem (mem_shuffle.2 hpc : (p, c) ∈ shuffle k0 o.props)
    have := h0.1 h j p c hj
    unfold PropOk at this
    rw [← ha.present] at hnh
    split at this
    · exact this.elim
    · refine ⟨this.1, this.2.resolve_right ?_⟩
      rintro ⟨dv, h', -⟩
      exact hd p c hpc dv h'
    · rename_i x s hx
      exact absurd ⟨x, s, hx⟩ hnh
  · rw [hpm1, hkey, hn, ← declares_iff, ha.present]
    constructor
    · rintro ⟨a, c⟩; exact ⟨a, fun h => c ⟨h, a⟩⟩
    · rintro ⟨a, c⟩; exact ⟨a, fun h => c h.1⟩
  · rw [hps1, hkey, ha.present, ← declares_iff]
    simp only [List.not_mem_nil, false_or]
    exact and_comm

/-- The loop over patterns has passed. -/
theorem pats_done {σ : Sched} {k2 : ℕ} {pm ps : List GoStr} (hpm : ∀ k, k ∈ pm ↔ Has kvs k ∧ ¬ o.Declares k) (hps : ∀ k, k ∈ ps ↔ Has kvs k ∧ o.Declares k)
    (hn1 : pm.Nodup) (hn2 : ps.Nodup) (hov : NoOverlap ext o kvs) (h : (forLoop (patOuter ext σ) 0 (shuffle k2 o.patterns) ⟨v, pm, ps⟩).1 = .ok) :
    PatternsPassS ext o raws ∧ ∃ pm' ps', forLoop (patOuter ext σ) 0 (shuffle k2 o.patterns) ⟨v, pm, ps⟩ = (.ok, ⟨v, pm', ps'⟩) ∧ pm'.Nodup ∧
      (∀ k, k ∈ pm' ↔ Has kvs k ∧ ¬ o.Declares k ∧ ¬ o.PatternFor ext k) ∧ ∀ k, k ∈ ps' ↔ Has kvs k ∧ o.Covers ext k := by
  obtain ⟨τ, -, h0, h2'⟩ := patLoop_spec ext σ b (shuffle k2 o.patterns) 0 t pm ps ha.plain hn1
  rw [← ha.eq] at h2' h0
  obtain ⟨t2, pm2, ps2, e2, -, -, hpm2, hpmn2, hps2, hpsn2⟩ := h2' h
  have ht2 : wrap b t2 = v := by
    have := patLoop_readOnly ext (σ := σ) (i := 0) (l := shuffle k2 o.patterns) (st := ⟨v, pm, ps⟩)
      (fun pc hpc => hro _ (.pattern (mem_shuffle.1 hpc)))
    rw [e2] at this
    exact this
  refine ⟨fun k x hx hk id src c hpc hm => ?_, pm2, ps2, Prod.ext h (by rw [e2, ht2]), hpmn2, fun k => ?_, fun k => ?_⟩
  · have hhas : Has kvs k := ha.hasRaw.1 ⟨x, hx⟩
    have hfm := firstMatch_unique (l := o.patterns) (l' := shuffle k2 o.patterns) (k := k) (fun p hp q hq => hov k hhas hk p hp q hq)
      (fun p => mem_shuffle) hpc hm
    have := h0.1 h k ((hpm k).2 ⟨hhas, hk⟩) c hfm
    exact ⟨_, (ha.rawOk hx _ c).1 this⟩
  · rw [hpm2, hpm, matched_shuffle, matched_iff, and_assoc]
  · rw [hps2, hps, hpm, matched_shuffle, matched_iff]
    unfold ObjC.Covers
    constructor
    · rintro (⟨a, c⟩ | ⟨⟨a, c⟩, d⟩)
      · exact ⟨a, Or.inl c⟩
      · exact ⟨a, Or.inr d⟩
    · rintro ⟨a, c | c⟩
      · exact Or.inl ⟨a, c⟩
      · by_cases hk : o.Declares k
        · exact Or.inl ⟨a, hk⟩
        · exact Or.inr ⟨⟨a, hk⟩, c⟩

/-- The additional properties have passed. -/
theorem addl_done {σ : Sched} {pm ps : List GoStr} (hpm : ∀ k, k ∈ pm ↔ Has kvs k ∧ ¬ o.Declares k ∧ ¬ o.PatternFor ext k)
    (hn1 : pm.Nodup) (h : (addlPhase o σ ⟨v, pm, ps⟩).1 = .ok) :
    OthersPassS ext o raws ∧ addlPhase o σ ⟨v, pm, ps⟩ = (.ok, ⟨v, pm, ps⟩) := by
  obtain ⟨τ, -, h0, h3'⟩ := addlPhase_spec o σ b t pm ps ha.plain hn1
  rw [← ha.eq] at h3' h0
  obtain ⟨t3, e3, -, -⟩ := h3' h
  have hAll : AllReadOnly o t := allReadOnly_of o ha hro (fun p c hpc _ => hd p c hpc)
  have ht3 : wrap b t3 = v := by
    have := addlPhase_readOnly o (σ := σ) (st := ⟨v, pm, ps⟩) hAll.addl
    rw [e3] at this
    exact this
  refine ⟨fun k x hx hk hm => ?_, Prod.ext h (by rw [e3, ht3])⟩
  have hhas : Has kvs k := ha.hasRaw.1 ⟨x, hx⟩
  obtain ⟨c, h1, h2⟩ := h0.1 h k ((hpm k).2 ⟨hhas, hk, hm⟩)
  exact ⟨c, h1, _, (ha.rawOk hx _ c).1 h2⟩

end Done

/-- The error of an object constraint is one of its first complaints. -/
theorem objectV_first_of {σ : Sched} {e : Err} (hv : IsObj v kvs raws) (hw : o.Wf) (hro : ∀ c, o.Child c → c.ReadOnly)
    (hd : ∀ p c, (p, c) ∈ o.props → ∀ dv, c.dflt ≠ .some dv) (hov : NoOverlap ext o kvs)
    (h : (objectV ext o σ v).1 = .err e) : ObjFirst ext o v kvs raws e := by
  obtain ⟨b, t, ha⟩ := hv.acc
  obtain ⟨fields, hf, hlen, hmem⟩ := ha.names
  have hind : (valueOf v).indirect = some t := by rw [ha.eq, indirect_wrap ha.plain]
  unfold objectV at h
  rw [hind, hf] at h
  simp only [hlen] at h
  split at h
  · rename_i h1; cases h; exact .fewProps (by omega) (by omega)
  rename_i hc1
  split at h
  · rename_i h1; cases h; exact .manyProps (by omega) (by omega) (by omega)
  rename_i hc2
  have hcount : CountOk o kvs.length := ⟨fun _ => by omega, fun _ => by omega⟩
  have hview : ∀ {p}, viewProp (some t) p = .ok .absent → ¬ Has kvs p := by
    intro p hp
    rw [← ha.present]; rintro ⟨x, s, hx⟩; rw [hp] at hx; cases hx
  simp only at h
  unfold objLoops at h
  -- declared properties
  rcases seqSt_err h with h1 | ⟨h1, h⟩
  · obtain ⟨⟨p, c⟩, hpc, j, s', hs', hst⟩ := forLoop_err (fun s => s.v = v) (by
      rintro i ⟨p, c⟩ hpc s hs
      rw [propStep_readOnly ext o (hro c (.prop (mem_shuffle.1 hpc))) (fun _ => hd p c (mem_shuffle.1 hpc)), hs]) rfl h1
    have hpc' := mem_shuffle.1 hpc
    rcases propStep_err (hd p c hpc') hst with ⟨h2, h3, rfl⟩ | ⟨x, s, e', h2, h3, rfl⟩
    · rw [hs', hind] at h2
      exact .required hcount h3 ⟨c, hpc'⟩ (hview h2)
    · rw [hs', hind] at h2
      exact .prop hcount hpc' ((ha.view p x).1 ⟨s, h2⟩) ⟨_, h3⟩
  obtain ⟨hdecl, pm1, ps1, e1, hn1, hn1', hpm1', hps1⟩ := props_done ha hw hro hd (names := nameSet fields)
    (fun k => by rw [mem_nameSet, hmem, ha.present]) (nodup_nameSet fields) h1
  rw [e1] at h
  -- patterns
  rcases seqSt_err h with h2 | ⟨h2, h⟩
  · have hsub : ∀ (s : ObjSt) (id : Nat) (src : GoStr) (c : Sem) (j : Nat), (id, src, c) ∈ o.patterns → (s.v = v ∧ ∀ k ∈ s.premain, k ∈ pm1) →
        ∀ i, ∀ k ∈ shuffle ((σ.sub 3).sub j).key s.premain, ∀ s', (s'.v = v ∧ (∀ k ∈ s'.premain, k ∈ pm1)) →
          (patStep ext src c ((σ.sub 4).sub j) i k s').2.v = v ∧ ∀ k' ∈ (patStep ext src c ((σ.sub 4).sub j) i k s').2.premain, k' ∈ pm1 := by
      intro s id src c j hpc hs i k hk s' hs'
      refine ⟨by rw [patStep_readOnly ext (hro c (.pattern hpc)), hs'.1], fun k' hk' => ?_⟩
      refine hs'.2 k' ?_
      unfold patStep at hk'
      split at hk'
      · exact hk'
      · split at hk'
        · exact hk'
        · exact hk'
        · rename_i x hx
          rcases hcv : c.val (((σ.sub 4).sub j).sub i) x with ⟨r, x'⟩
          simp only [hcv] at hk'
          cases r <;> exact (List.mem_filter.1 hk').1
    obtain ⟨⟨id, src, c⟩, hpc, j, s', hs', hst⟩ := forLoop_err (fun s => s.v = v ∧ ∀ k ∈ s.premain, k ∈ pm1) (by
      rintro j ⟨id, src, c⟩ hpc s hs
      unfold patOuter
      exact forLoop_inv (fun s => s.v = v ∧ ∀ k ∈ s.premain, k ∈ pm1) 0 _ s (hsub s id src c j (mem_shuffle.1 hpc) hs) hs)
      ⟨rfl, fun k hk => hk⟩ h2
    unfold patOuter at hst
    obtain ⟨k, hk, i, s'', hs'', hst⟩ := forLoop_err (fun s => s.v = v ∧ ∀ k ∈ s.premain, k ∈ pm1)
      (hsub s' id src c j (mem_shuffle.1 hpc) hs') hs' hst
    obtain ⟨hm, x, e', h3, h4, rfl⟩ := patStep_err hst
    rw [hs''.1, hind] at h3
    have hk' := (hpm1' k).1 (hs'.2 k (mem_shuffle.1 hk))
    exact .pattern hcount hdecl hk'.2 (mem_shuffle.1 hpc) hm (getProp_of_view_has ha h3 hk'.1) ⟨_, h4⟩
  obtain ⟨hpats, pm2, ps2, e2, hn2, hpm2', hps⟩ := pats_done ha hw hro hd hpm1' hps1 hn1 hn1' hov h2
  rw [e2] at h
  -- additional properties
  rcases seqSt_err h with h3 | ⟨h3, h⟩
  · unfold addlPhase at h3
    split at h3
    · rename_i hl
      cases hadd : o.additional with
      | none =>
        rw [hadd] at h3
        cases h3
        obtain ⟨k, hk⟩ := List.exists_mem_of_length_pos hl
        obtain ⟨a1, a2, a3⟩ := (hpm2' k).1 hk
        exact .addlNotAllowed hcount hdecl hpats a2 a3 a1 hadd
      | some c =>
        rw [hadd] at h3
        obtain ⟨k, hk, j, s', hs', hst⟩ := forLoop_err (fun s => s.v = v) (by
          intro i k _ s hs
          rw [addlStep_readOnly (hro c (.additional hadd)), hs]) rfl h3
        obtain ⟨x, e', h4, h5, rfl⟩ := addlStep_err hst
        rw [hs', hind] at h4
        obtain ⟨a1, a2, a3⟩ := (hpm2' k).1 (mem_shuffle.1 hk)
        exact .addlProp hcount hdecl hpats a2 a3 hadd (getProp_of_view_has ha h4 a1) ⟨_, h5⟩
    · cases h3
  obtain ⟨hoth, e3⟩ := addl_done ha hw hro hd hpm2' hn2 h3
  rw [e3] at h
  -- dependencies
  obtain ⟨k, hk, j, s', hs', hst⟩ := forLoop_err (fun s => s.v = v ∧ s.pseen = ps2) (by
    intro i k _ s hs
    refine ⟨by rw [depStep_readOnly o (fun c hc => hro c (.dependency hc)), hs.1], ?_⟩
    unfold depStep
    split
    · exact hs.2
    · split
      · exact hs.2
      · exact hs.2) ⟨rfl, rfl⟩ h
  obtain ⟨a1, a2⟩ := (hps k).1 (mem_shuffle.1 hk)
  unfold depStep at hst
  split at hst
  · obtain ⟨bf, d, af, h4, h5, h6, rfl⟩ := depsCheck_err_iff.1 hst
    rw [hs'.2, hps] at h6
    exact .depMissing hcount hdecl hpats hoth a1 a2 h4 (fun d' hd' => by have := h5 d' hd'; rwa [hs'.2, hps] at this) h6
  · rename_i hne
    split at hst
    · cases hst
    · rename_i c hc
      rw [hs'.1] at hst
      exact .dependency hcount hdecl hpats hoth a1 a2 (by simpa using hne) hc ⟨_, hst⟩

/-! ## The other way: an order in which it is reported -/

theorem forLoop_congr_from {α S : Type} {step step' : Nat → α → S → Res × S} : ∀ (l : List α) (i : Nat) (s : S), (∀ n, i ≤ n → step n = step' n) →
    forLoop step i l s = forLoop step' i l s
  | [], i, s, _ => rfl
  | a :: l, i, s, h => by
    simp only [forLoop, h i (Nat.le_refl i)]
    rcases e1 : step' i a s with ⟨r, s'⟩
    cases r with
    | ok => exact forLoop_congr_from l (i + 1) s' fun n hn => h n (by omega)
    | err e => rfl
    | abort a => rfl

/-- A loop each of whose steps can be made to pass can be made to pass. -/
theorem forLoop_choose {T α S : Type} (t0 : T) {g : T → α → S → Res × S} (I : S → Prop) : ∀ (l : List α) (i : Nat) (s : S),
    (∀ a ∈ l, ∀ s, I s → ∃ t, (g t a s).1 = .ok ∧ I (g t a s).2) → I s →
    ∃ f : Nat → T, (forLoop (fun n => g (f n)) i l s).1 = .ok ∧ I (forLoop (fun n => g (f n)) i l s).2
  | [], i, s, _, hs => ⟨fun _ => t0, rfl, hs⟩
  | a :: l, i, s, h, hs => by
    obtain ⟨t, h1, h2⟩ := h a (by simp) s hs
    obtain ⟨f, h3, h4⟩ := forLoop_choose t0 I l (i + 1) (g t a s).2 (fun a' ha => h a' (by simp [ha])) h2
    refine ⟨fun n => if n = i then t else f n, ?_⟩
    have hc := forLoop_congr_from (step := fun n => g (if n = i then t else f n)) (step' := fun n => g (f n)) l (i + 1) (g t a s).2
      (fun n hn => by simp only [if_neg (show ¬ n = i by omega)])
    rcases e1 : g t a s with ⟨r, s'⟩
    rw [e1] at h1 hc h3 h4
    simp only at h1; subst h1
    simp only [forLoop, if_true, e1]
    rw [hc]
    exact ⟨h3, h4⟩

/-- A schedule from its parts. -/
def glue (k0 : ℕ) (f1 : ℕ → Sched) (k2 : ℕ) (k3 : ℕ → ℕ) (f4 : ℕ → ℕ → Sched) (k5 : ℕ) (f6 : ℕ → Sched) (k7 : ℕ) (f8 : ℕ → Sched) : Sched :=
  Sched.assemble fun
    | 0 => fun _ => k0
    | 1 => .assemble f1
    | 2 => fun _ => k2
    | 3 => .assemble fun j _ => k3 j
    | 4 => .assemble fun j => .assemble (f4 j)
    | 5 => fun _ => k5
    | 6 => .assemble f6
    | 7 => fun _ => k7
    | _ => .assemble f8

/-- One pattern, with its inner order and the schedules of the calls. -/
def patRun (ext : Ext) (T : ℕ × (ℕ → Sched)) (p : Nat × GoStr × Sem) (st : ObjSt) : Res × ObjSt :=
  forLoop (fun n => patStep ext p.2.1 p.2.2 (.assemble T.2) n) 0 (shuffle T.1 st.premain) st

/-- Additional properties, with their order and the schedules of the calls. -/
def addlRun (o : ObjC Sem) (k5 : ℕ) (f6 : ℕ → Sched) (st : ObjSt) : Res × ObjSt := addlPhase o (glue 0 (fun _ => sched0) 0 (fun _ => 0) (fun _ _ => sched0) k5 f6 0 fun _ => sched0) st

theorem objLoops_glue {k0 f1 k2 k3 f4 k5 f6 k7 f8} {st : ObjSt} : objLoops ext o (glue k0 f1 k2 k3 f4 k5 f6 k7 f8) st =
    seqSt (forLoop (propStep ext o (.assemble f1)) 0 (shuffle k0 o.props) st) fun st =>
    seqSt (forLoop (fun j => patRun ext (k3 j, f4 j)) 0 (shuffle k2 o.patterns) st) fun st =>
    seqSt (addlRun o k5 f6 st) fun st =>
    forLoop (depStep o (.assemble f8)) 0 (shuffle k7 st.pseen) st := rfl

section Run
variable {b : Bool} {t : GoVal} (ha : ObjAcc v kvs raws b t) (hw : o.Wf) (hro : ∀ c, o.Child c → c.ReadOnly)
  (hd : ∀ p c, (p, c) ∈ o.props → ∀ dv, c.dflt ≠ .some dv)
include ha hw hro hd

theorem props_run (hp : DeclaredPassS o kvs) (k0 : ℕ) (names : List GoStr) :
    ∃ f1, (forLoop (propStep ext o (.assemble f1)) 0 (shuffle k0 o.props) ⟨v, names, []⟩).1 = .ok := by
  have hnK : ((shuffle k0 o.props).map (·.1)).Nodup := by
    rw [← shuffle_map]; exact shuffle_nodup.2 hw.props
  obtain ⟨f, hf⟩ := choose_sched (P := fun j τ => ∀ (p : GoStr) (c : Sem), (shuffle k0 o.props)[j]? = some (p, c) → PropOk ext o.required b t τ p c)
  refine ⟨f, ?_⟩
  obtain ⟨h0, -⟩ := propLoop_spec ext o (.assemble f) b (shuffle k0 o.props) 0 t names [] ha.plain hnK
  rw [← ha.eq] at h0
  refine h0.2 fun j p c hj => ?_
  rw [Nat.zero_add]
  refine hf j ?_ p c hj
  have hpc := mem_shuffle.1 (List.mem_of_getElem? hj)
  obtain ⟨pv, hpv⟩ := viewProp_plain ha.plain p
  cases pv with
  | absent =>
    have hnh : ¬ Has kvs p := by rw [← ha.present]; rintro ⟨x, s, hx⟩; rw [hpv] at hx; cases hx
    obtain ⟨h1, h2⟩ := hp.absent p c hpc hnh
    refine ⟨sched0, fun p' c' hj' => ?_⟩
    rw [hj] at hj'; cases hj'
    unfold PropOk
    rw [hpv]
    exact ⟨h1, Or.inl h2⟩
  | present x s =>
    obtain ⟨τ, hτ⟩ := hp.present p c x hpc ((ha.view p x).1 ⟨s, hpv⟩)
    refine ⟨τ, fun p' c' hj' => ?_⟩
    rw [hj] at hj'; cases hj'
    unfold PropOk
    rw [hpv]
    exact hτ

theorem pats_run (hp : PatternsPassS ext o raws) (k2 : ℕ) {pm ps : List GoStr} (hpm : ∀ k, k ∈ pm ↔ Has kvs k ∧ ¬ o.Declares k) :
    ∃ (k3 : ℕ → ℕ) (f4 : ℕ → ℕ → Sched), (forLoop (fun j => patRun ext (k3 j, f4 j)) 0 (shuffle k2 o.patterns) ⟨v, pm, ps⟩).1 = .ok := by
  have hind : (valueOf v).indirect = some t := by rw [ha.eq, indirect_wrap ha.plain]
  obtain ⟨f, hf, -⟩ := forLoop_choose (T := ℕ × (ℕ → Sched)) (0, fun _ => sched0) (g := patRun ext)
    (fun s => s.v = v ∧ ∀ k ∈ s.premain, k ∈ pm) (shuffle k2 o.patterns) 0 ⟨v, pm, ps⟩ (by
      rintro ⟨id, src, c⟩ hpc s hs
      have hpc := mem_shuffle.1 hpc
      obtain ⟨g, hg1, hg2⟩ := forLoop_choose (T := Sched) sched0 (g := fun τ => patStep ext src c (.assemble fun _ => τ) 0)
        (fun s => s.v = v ∧ ∀ k ∈ s.premain, k ∈ pm) (shuffle 0 s.premain) 0 s (by
          intro k hk s' hs'
          have hk' := (hpm k).1 (hs.2 k (mem_shuffle.1 hk))
          by_cases hm : ext.reMatch src k = false
          · exact ⟨sched0, by simp [patStep, hm], by simpa [patStep, hm] using hs'⟩
          · have hm : ext.reMatch src k = true := by simpa using hm
            obtain ⟨x, hx⟩ := (ha.present.2 hk'.1).raw
            have hxr := getProp_of_view_has ha hx hk'.1
            obtain ⟨τ, hτ⟩ := hp k x hxr hk'.2 id src c hpc hm
            have hro' := hro c (.pattern hpc)
            refine ⟨τ, ?_, ?_, ?_⟩
            · unfold patStep
              rw [if_neg (by simp [hm]), hs'.1, hind, hx]
              show Prod.fst (match (c.val τ x).1 with | .ok => _ | .err e => _ | .abort a => _) = _
              rw [hτ]
            · rw [patStep_readOnly ext hro', hs'.1]
            · intro k' hk'
              refine hs'.2 k' ?_
              unfold patStep at hk'
              split at hk'
              · exact hk'
              · split at hk'
                · exact hk'
                · exact hk'
                · rename_i y hy
                  rcases hcv : c.val ((Sched.assemble fun _ => τ).sub 0) y with ⟨r, x'⟩
                  simp only [hcv] at hk'
                  cases r <;> exact (List.mem_filter.1 hk').1) hs
      exact ⟨(0, g), hg1, hg2⟩) ⟨rfl, fun k hk => hk⟩
  exact ⟨fun j => (f j).1, fun j => (f j).2, hf⟩

theorem addl_run (hp : OthersPassS ext o raws) {pm ps : List GoStr} (hpm : ∀ k, k ∈ pm ↔ Has kvs k ∧ ¬ o.Declares k ∧ ¬ o.PatternFor ext k) :
    ∃ (f6 : ℕ → Sched), (addlRun o 0 f6 ⟨v, pm, ps⟩).1 = .ok := by
  have hind : (valueOf v).indirect = some t := by rw [ha.eq, indirect_wrap ha.plain]
  cases pm with
  | nil => exact ⟨fun _ => sched0, rfl⟩
  | cons k pm =>
    cases hadd : o.additional with
    | none =>
      obtain ⟨a1, a2, a3⟩ := (hpm k).1 (by simp)
      obtain ⟨x, hx⟩ := (ha.present.2 a1).raw
      obtain ⟨c, hc, -⟩ := hp k x (getProp_of_view_has ha hx a1) a2 a3
      rw [hadd] at hc; cases hc
    | some c =>
      obtain ⟨f, hf, -⟩ := forLoop_choose (T := Sched) sched0 (g := fun τ => addlStep c (.assemble fun _ => τ) 0)
        (fun s => s.v = v) (shuffle 0 (k :: pm)) 0 ⟨v, k :: pm, ps⟩ (by
          intro q hq s hs
          obtain ⟨a1, a2, a3⟩ := (hpm q).1 (mem_shuffle.1 hq)
          obtain ⟨x, hx⟩ := (ha.present.2 a1).raw
          obtain ⟨c', hc', τ, hτ⟩ := hp q x (getProp_of_view_has ha hx a1) a2 a3
          rw [hadd] at hc'; cases hc'
          refine ⟨τ, ?_, ?_⟩
          · unfold addlStep
            rw [hs, hind, hx]
            show Prod.fst (match (c.val τ x).1 with | .ok => _ | .err e => _ | .abort a => _) = _
            rw [hτ]
          · rw [addlStep_readOnly (hro c (.additional hadd)), hs]) rfl
      refine ⟨f, ?_⟩
      unfold addlRun addlPhase
      rw [if_pos (by simp)]
      simp only [hadd]
      exact hf

end Run

theorem forLoop_head {α S : Type} {step : Nat → α → S → Res × S} {a : α} {l : List α} {i : Nat} {s : S} {e : Err}
    (h : (step i a s).1 = .err e) : (forLoop step i (a :: l) s).1 = .err e := by
  rcases e1 : step i a s with ⟨r, s'⟩
  rw [e1] at h
  simp only at h; subst h
  simp only [forLoop, e1]

theorem seqSt_stop {r : Res × ObjSt} {k : ObjSt → Res × ObjSt} {e : Err} (h : r.1 = .err e) : (seqSt r k).1 = .err e := by
  rcases r with ⟨r, s⟩
  simp only at h; subst h; rfl

/-- Each of the first complaints is reported in some order. -/
theorem objectV_first {e : Err} (hv : IsObj v kvs raws) (hw : o.Wf) (hro : ∀ c, o.Child c → c.ReadOnly)
    (hd : ∀ p c, (p, c) ∈ o.props → ∀ dv, c.dflt ≠ .some dv) (hov : NoOverlap ext o kvs) :
    (∃ σ, (objectV ext o σ v).1 = .err e) ↔ ObjFirst ext o v kvs raws e := by
  refine ⟨fun ⟨σ, h⟩ => objectV_first_of hv hw hro hd hov h, fun h => ?_⟩
  obtain ⟨b, t, ha⟩ := hv.acc
  obtain ⟨fields, hf, hlen, hmem⟩ := ha.names
  have hind : (valueOf v).indirect = some t := by rw [ha.eq, indirect_wrap ha.plain]
  have hnames : ∀ k, k ∈ nameSet fields ↔ Has kvs k := fun k => by rw [mem_nameSet, hmem, ha.present]
  have hnd := nodup_nameSet fields
  have hobj : ∀ σ, objectV ext o σ v = if o.minProps > -1 ∧ (kvs.length : ℤ) < o.minProps then (.err .fewProps, v)
      else if o.maxProps > -1 ∧ (kvs.length : ℤ) > o.maxProps then (.err .manyProps, v)
      else ((objLoops ext o σ ⟨v, nameSet fields, []⟩).1, (objLoops ext o σ ⟨v, nameSet fields, []⟩).2.v) := by
    intro σ
    unfold objectV
    rw [hind, hf]
    simp only [hlen]
  have key : ∀ {e σ}, CountOk o kvs.length → (objLoops ext o σ ⟨v, nameSet fields, []⟩).1 = .err e → ∃ σ, (objectV ext o σ v).1 = .err e := by
    intro e σ hc h
    refine ⟨σ, ?_⟩
    rw [hobj, if_neg (fun h' => by have := hc.1 (by omega); omega), if_neg (fun h' => by have := hc.2 (by omega); omega)]
    exact h
  -- past the declared properties
  have pass1 : ∀ {e}, CountOk o kvs.length → DeclaredPassS o kvs → (∀ pm ps : List GoStr, (∀ k, k ∈ pm ↔ Has kvs k ∧ ¬ o.Declares k) →
      (∀ k, k ∈ ps ↔ Has kvs k ∧ o.Declares k) → pm.Nodup → ps.Nodup → ∃ (k2 : ℕ) (k3 : ℕ → ℕ) (f4 : ℕ → ℕ → Sched) (k5 : ℕ) (f6 : ℕ → Sched) (k7 : ℕ) (f8 : ℕ → Sched),
      (seqSt (forLoop (fun j => patRun ext (k3 j, f4 j)) 0 (shuffle k2 o.patterns) ⟨v, pm, ps⟩) fun st =>
        seqSt (addlRun o k5 f6 st) fun st => forLoop (depStep o (.assemble f8)) 0 (shuffle k7 st.pseen) st).1 = .err e) →
      ∃ σ, (objectV ext o σ v).1 = .err e := by
    intro e hc hdecl hrest
    obtain ⟨f1, h1⟩ := props_run (ext := ext) ha hw hro hd hdecl 0 (nameSet fields)
    obtain ⟨-, pm, ps, e1, hn1, hn2, hpm, hps⟩ := props_done ha hw hro hd hnames hnd h1
    obtain ⟨k2, k3, f4, k5, f6, k7, f8, h⟩ := hrest pm ps hpm hps hn1 hn2
    refine key (σ := glue 0 f1 k2 k3 f4 k5 f6 k7 f8) hc ?_
    rw [objLoops_glue, e1]
    exact h
  have pass2 : ∀ {e}, CountOk o kvs.length → DeclaredPassS o kvs → PatternsPassS ext o raws → (∀ pm ps : List GoStr,
      (∀ k, k ∈ pm ↔ Has kvs k ∧ ¬ o.Declares k ∧ ¬ o.PatternFor ext k) → (∀ k, k ∈ ps ↔ Has kvs k ∧ o.Covers ext k) → pm.Nodup →
      ∃ (k5 : ℕ) (f6 : ℕ → Sched) (k7 : ℕ) (f8 : ℕ → Sched), (seqSt (addlRun o k5 f6 ⟨v, pm, ps⟩) fun st => forLoop (depStep o (.assemble f8)) 0 (shuffle k7 st.pseen) st).1 = .err e) →
      ∃ σ, (objectV ext o σ v).1 = .err e := by
    intro e hc hdecl hpats hrest
    refine pass1 hc hdecl fun pm ps hpm hps hn1 hn2 => ?_
    obtain ⟨k3, f4, h2⟩ := pats_run (ext := ext) ha hw hro hd hpats 0 (ps := ps) hpm
    obtain ⟨-, pm', ps', e2, hn, hpm', hps'⟩ := pats_done (σ := glue 0 (fun _ => sched0) 0 k3 f4 0 (fun _ => sched0) 0 fun _ => sched0)
      ha hw hro hd hpm hps hn1 hn2 hov h2
    obtain ⟨k5, f6, k7, f8, h⟩ := hrest pm' ps' hpm' hps' hn
    refine ⟨0, k3, f4, k5, f6, k7, f8, ?_⟩
    have e2' : forLoop (fun j => patRun ext (k3 j, f4 j)) 0 (shuffle 0 o.patterns) ⟨v, pm, ps⟩ = (.ok, ⟨v, pm', ps'⟩) := e2
    rw [e2']
    exact h
  have pass3 : ∀ {e}, CountOk o kvs.length → DeclaredPassS o kvs → PatternsPassS ext o raws → OthersPassS ext o raws → (∀ pm ps : List GoStr,
      (∀ k, k ∈ ps ↔ Has kvs k ∧ o.Covers ext k) →
      ∃ (k7 : ℕ) (f8 : ℕ → Sched), (forLoop (depStep o (.assemble f8)) 0 (shuffle k7 ps) ⟨v, pm, ps⟩).1 = .err e) → ∃ σ, (objectV ext o σ v).1 = .err e := by
    intro e hc hdecl hpats hoth hrest
    refine pass2 hc hdecl hpats fun pm ps hpm hps hn => ?_
    obtain ⟨f6, h3⟩ := addl_run (ext := ext) ha hw hro hd hoth (ps := ps) hpm
    obtain ⟨-, e3⟩ := addl_done ha hw hro hd hpm hn h3
    obtain ⟨k7, f8, h⟩ := hrest pm ps hps
    refine ⟨0, f6, k7, f8, ?_⟩
    have e3' : addlRun o 0 f6 ⟨v, pm, ps⟩ = (.ok, ⟨v, pm, ps⟩) := e3
    rw [e3']
    exact h
  have hrawget : ∀ {k x}, (k, x) ∈ raws → getProp (valueOf v).indirect k = .ok (some x) := by
    intro k x hx
    rw [hind]
    exact ((ha.raw k x).2 hx).1
  cases h with
  | fewProps h1 h2 =>
    refine ⟨sched0, ?_⟩
    rw [hobj, if_pos (by omega)]
  | manyProps h1 h2 h3 =>
    refine ⟨sched0, ?_⟩
    rw [hobj, if_neg (by omega), if_pos (by omega)]
  | @required p hc h1 h2 h3 =>
    obtain ⟨c, hpc⟩ := h2
    obtain ⟨k0, l', hk0⟩ := exists_first hpc
    refine key (σ := glue k0 (fun _ => sched0) 0 (fun _ => 0) (fun _ _ => sched0) 0 (fun _ => sched0) 0 fun _ => sched0) hc ?_
    rw [objLoops_glue, hk0]
    refine seqSt_stop (forLoop_head ?_)
    have hab : viewProp (some t) p = .ok .absent := by
      obtain ⟨pv, hpv⟩ := viewProp_plain ha.plain p
      cases pv with
      | absent => exact hpv
      | present x s => exact absurd (ha.present.1 ⟨x, s, hpv⟩) h3
    unfold propStep
    rw [hind, hab]
    simp [h1]
  | @prop p c x e hc hpc hx he =>
    obtain ⟨τ, hτ⟩ := he
    obtain ⟨k0, l', hk0⟩ := exists_first hpc
    refine key (σ := glue k0 (fun _ => τ) 0 (fun _ => 0) (fun _ _ => sched0) 0 (fun _ => sched0) 0 fun _ => sched0) hc ?_
    rw [objLoops_glue, hk0]
    refine seqSt_stop (forLoop_head ?_)
    obtain ⟨s, hs⟩ := (ha.view p x).2 hx
    unfold propStep
    rw [hind, hs]
    show Prod.fst (match (c.val τ x).1 with | .ok => _ | .err e => _ | .abort a => _) = _
    rw [hτ]
  | @pattern k id src c x e hc hdecl hk hpc hm hx he =>
    obtain ⟨τ, hτ⟩ := he
    refine pass1 hc hdecl fun pm ps hpm hps hn1 hn2 => ?_
    obtain ⟨k2, l', hk2⟩ := exists_first hpc
    obtain ⟨k3, l'', hk3⟩ := exists_first ((hpm k).2 ⟨ha.hasRaw.1 ⟨x, hx⟩, hk⟩)
    refine ⟨k2, fun _ => k3, fun _ _ => τ, 0, fun _ => sched0, 0, fun _ => sched0, ?_⟩
    rw [hk2]
    refine seqSt_stop (forLoop_head ?_)
    unfold patRun
    simp only [hk3]
    refine forLoop_head ?_
    unfold patStep
    rw [if_neg (by simp [hm]), hrawget hx]
    show Prod.fst (match (c.val τ x).1 with | .ok => _ | .err e => _ | .abort a => _) = _
    rw [hτ]
  | @addlNotAllowed k hc hdecl hpats hk hm hhas hadd =>
    refine pass2 hc hdecl hpats fun pm ps hpm hps hn => ⟨0, fun _ => sched0, 0, fun _ => sched0, seqSt_stop ?_⟩
    unfold addlRun addlPhase
    rw [if_pos (List.length_pos_of_mem ((hpm k).2 ⟨hhas, hk, hm⟩))]
    simp only [hadd]
  | @addlProp k c x e hc hdecl hpats hk hm hadd hx he =>
    obtain ⟨τ, hτ⟩ := he
    refine pass2 hc hdecl hpats fun pm ps hpm hps hn => ?_
    have hin := (hpm k).2 ⟨ha.hasRaw.1 ⟨x, hx⟩, hk, hm⟩
    obtain ⟨k5, l', hk5⟩ := exists_first hin
    refine ⟨k5, fun _ => τ, 0, fun _ => sched0, seqSt_stop ?_⟩
    unfold addlRun addlPhase
    rw [if_pos (List.length_pos_of_mem hin)]
    simp only [hadd]
    rw [show ((glue 0 (fun _ => sched0) 0 (fun _ => 0) (fun _ _ => sched0) k5 (fun _ => τ) 0 fun _ => sched0).sub 5).key = k5 from rfl, hk5]
    refine forLoop_head ?_
    unfold addlStep
    rw [hrawget hx]
    show Prod.fst (match (c.val τ x).1 with | .ok => _ | .err e => _ | .abort a => _) = _
    rw [hτ]
  | @depMissing k d bf af hc hdecl hpats hoth h1 h2 h3 h4 h5 =>
    refine pass3 hc hdecl hpats hoth fun pm ps hps => ?_
    obtain ⟨k7, l', hk7⟩ := exists_first ((hps k).2 ⟨h1, h2⟩)
    refine ⟨k7, fun _ => sched0, ?_⟩
    rw [hk7]
    refine forLoop_head ?_
    unfold depStep
    rw [if_pos (by rw [h3]; simp)]
    exact depsCheck_err_iff.2 ⟨bf, d, af, h3, fun d' hd' => (hps d').2 (h4 d' hd'), fun h' => h5 ((hps d).1 h'), rfl⟩
  | @dependency k c _ hc hdecl hpats hoth h1 h2 h3 h4 he =>
    obtain ⟨τ, hτ⟩ := he
    refine pass3 hc hdecl hpats hoth fun pm ps hps => ?_
    obtain ⟨k7, l', hk7⟩ := exists_first ((hps k).2 ⟨h1, h2⟩)
    refine ⟨k7, fun _ => τ, ?_⟩
    rw [hk7]
    refine forLoop_head ?_
    unfold depStep
    rw [if_neg (by rw [h3]; simp), h4]
    exact hτ

/-- The same for a time: it has no properties. -/
theorem objectV_time_first {e : Err} (hw : o.Wf) (hd : ∀ p c, (p, c) ∈ o.props → ∀ dv, c.dflt ≠ .some dv) {t : GoTime}
    (hv : (valueOf v).indirect = some (.time t)) : (∃ σ, (objectV ext o σ v).1 = .err e) ↔ ObjFirst ext o v [] [] e := by
  have hno : ∀ k, ¬ Has ([] : List (GoStr × GoVal)) k := by rintro k ⟨x, hx⟩; cases hx
  have hn : getPropNames (valueOf v).indirect = .ok [] := by rw [hv]; rfl
  have hview : ∀ p, viewProp (valueOf v).indirect p = .ok .absent := by intro p; rw [hv]; rfl
  have hobj : ∀ σ, objectV ext o σ v = if o.minProps > -1 ∧ (0 : ℤ) < o.minProps then (.err .fewProps, v)
      else if o.maxProps > -1 ∧ (0 : ℤ) > o.maxProps then (.err .manyProps, v)
      else ((objLoops ext o σ ⟨v, nameSet [], []⟩).1, (objLoops ext o σ ⟨v, nameSet [], []⟩).2.v) := by
    intro σ
    unfold objectV
    rw [hn]
    rfl
  constructor
  · rintro ⟨σ, h⟩
    have hcm := objectV_time_err hd hv h
    rw [hobj] at h
    split at h
    · rename_i h1; cases h; exact .fewProps (by omega) (by simp only [List.length_nil, Int.natCast_zero]; omega)
    rename_i hc1
    split at h
    · rename_i h1; cases h
      exact .manyProps (by simp only [List.length_nil, Int.natCast_zero]; omega) (by omega) (by simp only [List.length_nil, Int.natCast_zero]; omega)
    rename_i hc2
    have hcount : CountOk o ([] : List (GoStr × GoVal)).length :=
      ⟨fun _ => by simp only [List.length_nil, Int.natCast_zero]; omega, fun _ => by simp only [List.length_nil, Int.natCast_zero]; omega⟩
    cases hcm with
    | fewProps h1 h2 => exact absurd ⟨by omega, by simpa using h2⟩ hc1
    | manyProps h1 h2 => exact absurd ⟨by omega, by simpa using h2⟩ hc2
    | required h1 h2 h3 => exact .required hcount h1 h2 h3
    | prop _ h' => cases h'
    | pattern _ _ _ h' => cases h'
    | addlNotAllowed _ _ h' => exact absurd h' (hno _)
    | addlProp _ _ _ h' => cases h'
    | depMissing h' => exact absurd h' (hno _)
    | dependency h' => exact absurd h' (hno _)
  · intro h
    cases h with
    | fewProps h1 h2 =>
      simp only [List.length_nil, Int.natCast_zero] at h2
      exact ⟨sched0, by rw [hobj, if_pos (by omega)]⟩
    | manyProps h1 h2 h3 =>
      simp only [List.length_nil, Int.natCast_zero] at h1 h3
      exact ⟨sched0, by rw [hobj, if_neg (by omega), if_pos (by omega)]⟩
    | @required p hc h1 h2 h3 =>
      obtain ⟨c, hpc⟩ := h2
      obtain ⟨k0, l', hk0⟩ := exists_first hpc
      refine ⟨glue k0 (fun _ => sched0) 0 (fun _ => 0) (fun _ _ => sched0) 0 (fun _ => sched0) 0 fun _ => sched0, ?_⟩
      have hc1 := hc.1
      have hc2 := hc.2
      simp only [List.length_nil, Int.natCast_zero] at hc1 hc2
      rw [hobj, if_neg (fun h' => by have := hc1 (by omega); omega), if_neg (fun h' => by have := hc2 (by omega); omega)]
      show (objLoops ext o _ _).1 = _
      rw [objLoops_glue, hk0]
      refine seqSt_stop (forLoop_head ?_)
      unfold propStep
      rw [hview]
      simp [h1]
    | prop _ _ h => cases h
    | pattern _ _ _ _ _ h => cases h
    | addlNotAllowed _ _ _ _ _ h => exact absurd h (hno _)
    | addlProp _ _ _ _ _ _ h => cases h
    | depMissing _ _ _ _ h => exact absurd h (hno _)
    | dependency _ _ _ _ h => exact absurd h (hno _)

end Jsval
