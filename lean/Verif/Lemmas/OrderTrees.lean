import Verif.Lemmas.Inert
/-!
# Objects and whole trees with defaults: verdict and result do not depend on iteration order
-/
namespace Jsval

/-- What an accepting run leaves at a name. -/
def LeftAt (ext : Ext) (o : ObjC Sem) (kvs : List (GoStr × GoVal)) (k : GoStr) (y : Option GoVal) : Prop :=
  (alookup k kvs = none → ∀ c, (k, c) ∈ o.props → y = fillWith c.dflt) ∧
  (∀ x, alookup k kvs = some x → ∃ c ρ y', o.RuleFor ext k c ∧ c.val ρ x = (.ok, y') ∧ y = some y')

theorem seqSt_assoc (r : Res × ObjSt) (k k' : ObjSt → Res × ObjSt) :
    seqSt (seqSt r k) k' = seqSt r fun st => seqSt (k st) k' := by
  rcases r with ⟨r, s⟩
  cases r <;> rfl

/-- The first three loops, when they succeed, described name by name. -/
theorem prePart_left {ext : Ext} {o : ObjC Sem} (hw : o.Wf) {kvs : List (GoStr × GoVal)} (hn : (kvs.map (·.1)).Nodup)
    {σ : Sched} {st : ObjSt} (h : prePart ext o σ ⟨.map false kvs, nameSet (kvs.map (·.1)), []⟩ = (.ok, st)) :
    ∃ cur, st.v = .map false cur ∧ (cur.map (·.1)).Nodup ∧
      (∀ k, o.Declares k ∨ Has kvs k → LeftAt ext o kvs k (alookup k cur)) ∧
      (∀ k, ¬ o.Declares k → ¬ Has kvs k → alookup k cur = none) ∧
      (∀ k, k ∈ st.pseen ↔ Has kvs k ∧ (o.Declares k ∨ o.PatternFor ext k)) :=
  (prePart_run (Z := False) (Fin := LeftAt ext o kvs) hw hn
    (fun k c x hr hx ρ => ⟨fun hz => hz.elim, fun x' hc =>
      ⟨fun hnone => (by rw [hnone] at hx; cases hx), fun y hy => by
        rw [hx] at hy; cases hy; exact ⟨c, ρ, x', hr, hc, rfl⟩⟩⟩)
    (fun p c hpc hnone => ⟨fun hz => hz.elim, fun _ c' hc' => (by
      have e1 := alookup_of_mem hw.props hpc
      rw [alookup_of_mem hw.props hc'] at e1
      cases e1; rfl), fun x hx => (by rw [hnone] at hx; cases hx)⟩)
    (fun hz => hz.elim) σ).2 _ h

/-- An accepting run on a map, described name by name; schema dependencies change nothing. -/
theorem objectV_left {ext : Ext} {o : ObjC Sem} (hw : o.Wf) {kvs : List (GoStr × GoVal)} (hn : (kvs.map (·.1)).Nodup)
    (hdep : ∀ k c, o.GetSchemaDependency k = some c → c.ReadOnly) {σ : Sched} {v' : GoVal}
    (h : objectV ext o σ (.map false kvs) = (.ok, v')) :
    ∃ kvs', v' = .map false kvs' ∧ (kvs'.map (·.1)).Nodup ∧
      (∀ k, o.Declares k ∨ Has kvs k → LeftAt ext o kvs k (alookup k kvs')) ∧
      (∀ k, ¬ o.Declares k → ¬ Has kvs k → alookup k kvs' = none) ∧
      (∀ k, Has kvs k → o.Declares k ∨ o.PatternFor ext k →
        (∀ d ∈ o.GetPropDependencies k, Has kvs d ∧ (o.Declares d ∨ o.PatternFor ext d)) ∧
        (o.GetPropDependencies k = [] → ∀ c, o.GetSchemaDependency k = some c → ∃ ρ, (c.val ρ v').1 = .ok)) := by
  obtain ⟨kvs3, pm, ps, h1, h2, -, -, h5⟩ := objectV_map_end (b := false) hw h
  have hrun := prePart_left hw hn h5
  obtain ⟨cur, e, a1, a2, a3, a4⟩ := hrun
  simp only [wrap] at e
  cases e
  have hd := depLoop_readOnly o (σ.sub 8) (.map false kvs3) pm ps (fun k c hc => hdep k c hc _) (shuffle (σ.sub 7).key ps) 0
  have h2' : (forLoop (depStep o (σ.sub 8)) 0 (shuffle (σ.sub 7).key ps) ⟨.map false kvs3, pm, ps⟩).1 = .ok := h2
  have hv' : v' = .map false kvs3 := by
    rw [h1]
    show (forLoop (depStep o (σ.sub 8)) 0 (shuffle (σ.sub 7).key ps) ⟨.map false kvs3, pm, ps⟩).2.v = _
    rw [hd.2]
  refine ⟨kvs3, hv', a1, a2, a3, fun k hk hcov => ?_⟩
  obtain ⟨j, hj⟩ := List.getElem?_of_mem ((mem_shuffle (k := (σ.sub 7).key)).2 ((a4 k).2 ⟨hk, hcov⟩))
  obtain ⟨g1, g2⟩ := hd.1.1 h2' j k hj
  exact ⟨fun d hd => (a4 d).1 (g1 d hd), fun he c hc => ⟨_, by rw [hv']; exact g2 he c hc⟩⟩

theorem optAlike_some {x : GoVal} {y : Option GoVal} (h : OptAlike (some x) y) : ∃ y', y = some y' ∧ Alike x y' := by
  cases y with
  | none => exact h.elim
  | some y => exact ⟨y, rfl, h⟩

theorem optAlike_none {y : Option GoVal} (h : OptAlike none y) : y = none := by
  cases y with
  | none => rfl
  | some y => exact h.elim

theorem optAlike_symm {x y : Option GoVal} (h : OptAlike x y) : OptAlike y x := by
  cases x <;> cases y <;> first | exact h | exact Alike.symm h

theorem objectV_det {ext : Ext} {o : ObjC Sem} (hw : o.Wf)
    (hone : ∀ k c c', o.RuleFor ext k c → o.RuleFor ext k c' → c = c')
    (hc : ∀ k c, o.RuleFor ext k c → Det c)
    (hdep : ∀ k c, o.GetSchemaDependency k = some c → c.ReadOnly ∧ Det c) : Det ⟨.none, objectV ext o⟩ := by
  have hkeep : ∀ σ v v', IsJson v → objectV ext o σ v = (.ok, v') → IsJson v' := by
    intro σ v v' hv h
    cases hv with
    | obj kvs hn hx =>
      obtain ⟨kvs', rfl, a1, a2, a3, -⟩ := objectV_left hw hn (fun k c h => (hdep k c h).1) h
      refine .obj _ a1 (fun k y hy => ?_)
      have hl := alookup_of_mem a1 hy
      by_cases hk : o.Declares k ∨ Has kvs k
      · obtain ⟨b1, b2⟩ := a2 k hk
        cases e : alookup k kvs with
        | none =>
          have hno : ¬ Has kvs k := not_has_iff.2 e
          obtain ⟨c, hc'⟩ := hk.resolve_right hno
          have := b1 e c hc'
          rw [hl] at this
          have hd := (hc k c (Or.inl hc')).dflt
          cases hdf : c.dflt with
          | none => rw [hdf] at this; cases this
          | abort a => rw [hdf] at this; cases this
          | some dv =>
            rw [hdf] at this
            have hj := hd dv hdf
            have : dv = y := by
              cases dv <;> simp only [fillWith, Option.some.injEq, reduceCtorEq] at this <;> exact this.symm
            rw [← this]; exact hj
        | some x =>
          obtain ⟨c, ρ, y', h1, h2, h3⟩ := b2 x e
          rw [hl] at h3
          cases h3
          exact (hc k c h1).keep ρ x y (hx k x (alookup_mem e)) h2
      · rw [not_or] at hk
        rw [a3 k hk.1 hk.2] at hl; cases hl
    | _ => simp [objectV, valueOf, RV.indirect, getPropNames, Stop.toRes] at h
  refine ⟨hkeep, fun dv h => (by cases h), fun v w σ τ v' hv hw' ha h => ?_⟩
  have hv' := hkeep σ v v' hv h
  cases hv with
  | obj kvs hn hx =>
    obtain ⟨kws, rfl, hn', hx', hal⟩ := alike_map hn hw' ha
    obtain ⟨kvs', rfl, a1, a2, a3, a4⟩ := objectV_left hw hn (fun k c h => (hdep k c h).1) h
    obtain ⟨s1, s2, s3, s4, s5, -⟩ := objectV_sound ext o σ (.map false kvs hn) hw (by rw [show objectV ext o σ _ = _ from h])
    have hhas : ∀ k, Has kvs k ↔ Has kws k := by
      intro k
      have := hal k
      rw [has_iff, has_iff]
      cases e1 : alookup k kvs <;> cases e2 : alookup k kws <;> rw [e1, e2] at this <;> simp_all [OptAlike]
    have hlen : kvs.length = kws.length := by
      have : (kvs.map (·.1)).Perm (kws.map (·.1)) := (List.perm_ext_iff_of_nodup hn hn').2 fun k => by
        rw [← alookup_isSome, ← alookup_isSome, ← has_iff, ← has_iff]; exact hhas k
      simpa using this.length_eq
    -- the first three loops of the second run
    have R := prePart_run (ext := ext) (o := o) (kvs := kws) (Z := True)
      (Fin := fun k y => (o.Declares k ∨ Has kvs k) → OptAlike (alookup k kvs') y) hw hn'
      (by
        intro k c y hr hy ρ
        obtain ⟨x, hxk, hxy⟩ := optAlike_some (by have := optAlike_symm (hal k); rw [hy] at this; exact this)
        have hhk : Has kvs k := has_iff.2 ⟨x, hxk⟩
        obtain ⟨c', ρ', x', r1, r2, r3⟩ := (a2 k (Or.inr hhk)).2 x hxk
        have : c' = c := hone k _ _ r1 hr
        subst this
        obtain ⟨d1, d2⟩ := (hc k c' hr).det x y ρ' ρ x' (hx k x (alookup_mem hxk)) (hx' k y (alookup_mem hy)) hxy.symm r2
        refine ⟨fun _ => d1, fun y' hy' _ => ?_⟩
        rw [r3]
        exact d2 y' hy')
      (by
        intro p c hpc hnone
        have hno : alookup p kvs = none := by
          have := optAlike_symm (hal p); rw [hnone] at this; exact optAlike_none this
        refine ⟨fun _ hreq => ?_, fun _ => ?_⟩
        · exact not_has_iff.2 hno (s3 p hreq ⟨c, hpc⟩)
        · rw [(a2 p (Or.inl ⟨c, hpc⟩)).1 hno c hpc]; exact .refl _)
      (by
        intro _ k hk hnd hnp hnone
        obtain ⟨x, hxk⟩ := has_iff.1 ((hhas k).2 hk)
        obtain ⟨c, -, -, r1, -⟩ := (a2 k (Or.inr ((hhas k).2 hk))).2 x hxk
        rcases r1 with r1 | ⟨-, id, src, r1, r2⟩ | ⟨-, -, r1⟩
        · exact hnd ⟨c, r1⟩
        · exact hnp ⟨id, src, c, r1, r2⟩
        · rw [hnone] at r1; cases r1) τ
    obtain ⟨c1, c2⟩ := countOk_iff.1 s1
    have hobj : objectV ext o τ (.map false kws) =
        ((objLoops ext o τ ⟨.map false kws, nameSet (kws.map (·.1)), []⟩).1,
          (objLoops ext o τ ⟨.map false kws, nameSet (kws.map (·.1)), []⟩).2.v) := by
      unfold objectV
      rw [show getPropNames (valueOf (.map false kws)).indirect = .ok (kws.map (·.1)) from rfl]
      simp only [List.length_map, ← hlen]
      rw [if_neg c1, if_neg c2]
    have hsplit : objLoops ext o τ ⟨.map false kws, nameSet (kws.map (·.1)), []⟩ =
        seqSt (prePart ext o τ ⟨.map false kws, nameSet (kws.map (·.1)), []⟩)
          fun st => forLoop (depStep o (τ.sub 8)) 0 (shuffle (τ.sub 7).key st.pseen) st := by
      unfold objLoops prePart
      rw [seqSt_assoc]
      simp only [seqSt_assoc]
    simp only [hobj, hsplit]
    rcases hp : prePart ext o τ ⟨.map false kws, nameSet (kws.map (·.1)), []⟩ with ⟨r, st⟩
    rw [hp] at R
    simp only [hp]
    cases r with
    | err e => exact absurd rfl (R.1 trivial e)
    | abort a => exact ⟨fun e h => (by simp [seqSt] at h), fun w' h => (by simp [seqSt] at h)⟩
    | ok =>
      obtain ⟨cur, e, b1, b2, b3, b4⟩ := R.2 st rfl
      obtain ⟨v2, pm, ps⟩ := st
      simp only at e b4
      subst e
      have hfin : Alike (.map false kvs') (.map false cur) := by
        refine alike_of_lookup a1 b1 fun k => ?_
        by_cases hk : o.Declares k ∨ Has kvs k
        · exact b2 k (hk.imp_right fun h => (hhas k).1 h) hk
        · rw [not_or] at hk
          rw [a3 k hk.1 hk.2, b3 k hk.1 (fun h => hk.2 ((hhas k).2 h))]
          trivial
      have hcur : IsJson (.map false cur) := by
        refine .obj _ b1 (fun k y hy => ?_)
        have hl := alookup_of_mem b1 hy
        by_cases hk : o.Declares k ∨ Has kvs k
        · cases e1 : alookup k kws with
          | none =>
            -- a default
            have hno : ¬ Has kws k := not_has_iff.2 e1
            obtain ⟨c, hc'⟩ := hk.resolve_right (fun h => hno ((hhas k).1 h))
            have he : alookup k kvs' = fillWith c.dflt :=
              (a2 k hk).1 (not_has_iff.1 fun h => hno ((hhas k).1 h)) c hc'
            have := prePart_left hw hn' hp
            obtain ⟨cur2, e2, -, d2, -, -⟩ := this
            cases e2
            have := (d2 k (Or.inl ⟨c, hc'⟩)).1 e1 c hc'
            rw [hl] at this
            cases hdf : c.dflt with
            | none => rw [hdf] at this; cases this
            | abort a => rw [hdf] at this; cases this
            | some dv =>
              rw [hdf] at this
              have hj := (hc k c (Or.inl hc')).dflt dv hdf
              have : dv = y := by
                cases dv <;> simp only [fillWith, Option.some.injEq, reduceCtorEq] at this <;> exact this.symm
              rw [← this]; exact hj
          | some x =>
            have := prePart_left hw hn' hp
            obtain ⟨cur2, e2, -, d2, -, -⟩ := this
            cases e2
            obtain ⟨c, ρ, y', h1, h2, h3⟩ := (d2 k (Or.inr (has_iff.2 ⟨x, e1⟩))).2 x e1
            rw [hl] at h3
            cases h3
            exact (hc k c h1).keep ρ x y (hx' k x (alookup_mem e1)) h2
        · rw [not_or] at hk
          rw [b3 k hk.1 (fun h => hk.2 ((hhas k).2 h))] at hl; cases hl
      simp only [seqSt]
      have hd := depLoop_readOnly o (τ.sub 8) (.map false cur) pm ps (fun k c hc => (hdep k c hc).1 _) (shuffle (τ.sub 7).key ps) 0
      have hne := (forLoop_run (step := depStep o (τ.sub 8)) True
        (fun _ st => st = ⟨.map false cur, pm, ps⟩) (full := shuffle (τ.sub 7).key ps)
        (by
          rintro i d k rest st hfull rfl
          have hk : k ∈ ps := by rw [← mem_shuffle (k := (τ.sub 7).key), hfull]; simp
          obtain ⟨k1, k2⟩ := (b4 k).1 hk
          obtain ⟨g1, g2⟩ := a4 k ((hhas k).2 k1) k2
          unfold depStep
          by_cases hpd : o.GetPropDependencies k = []
          · simp only [hpd, ne_eq, not_true_eq_false, if_false]
            cases hsd : o.GetSchemaDependency k with
            | none =>
              refine ⟨fun _ e h => (by cases h), fun st' h => ?_⟩
              cases h; rfl
            | some c =>
              simp only
              obtain ⟨hro, hdc⟩ := hdep k c hsd
              obtain ⟨ρ, hρ⟩ := g2 hpd c hsd
              have e1 := hro (.map false kvs') ρ
              have := hdc.det (.map false kvs') (.map false cur) ρ ((τ.sub 8).sub i) (.map false kvs') hv' hcur hfin
                (Prod.ext hρ e1)
              have e2 := hro (.map false cur) ((τ.sub 8).sub i)
              rcases hcv : c.val ((τ.sub 8).sub i) (.map false cur) with ⟨r, u⟩
              rw [hcv] at this e2
              simp only [hcv]
              simp only at e2
              subst e2
              refine ⟨fun _ => this.1, fun st' h => ?_⟩
              cases h; rfl
          · simp only [ne_eq, hpd, not_false_eq_true, if_true]
            have : depsCheck ps (o.GetPropDependencies k) = .ok := (depsCheck_ok ps _).2 fun d hd => by
              obtain ⟨q1, q2⟩ := g1 d hd
              exact (b4 d).2 ⟨(hhas d).1 q1, q2⟩
            rw [this]
            refine ⟨fun _ e h => (by cases h), fun st' h => ?_⟩
            cases h; rfl)
        (shuffle (τ.sub 7).key ps) [] 0 ⟨.map false cur, pm, ps⟩ rfl rfl).1 trivial
      refine ⟨hne, fun w' h => ?_⟩
      rw [Prod.mk.injEq] at h
      rw [← h.2, hd.2]
      exact hfin
  | _ => simp [objectV, valueOf, RV.indirect, getPropNames, Stop.toRes] at h

end Jsval

namespace Jsval

theorem enumCheck_box {v : GoVal} (hb : IsBox v) : ∀ vals, enumCheck vals v ≠ .ok
  | [] => by simp [enumCheck]
  | e :: es => by
    have ih := enumCheck_box hb es
    unfold enumCheck
    cases h : goEq e v with
    | error a => simp
    | ok b =>
      cases b with
      | false => exact ih
      | true =>
        exfalso
        cases hb <;> cases e <;> simp [goEq] at h

theorem leaf_box {ext : Ext} {v : GoVal} (hb : IsBox v) :
    nullCheck v ≠ .ok ∧ boolCheck v ≠ .ok ∧ (∀ s, strCheck ext s v ≠ .ok) ∧ (∀ s, numCheck s v ≠ .ok) ∧ (∀ s, intCheck s v ≠ .ok) := by
  cases hb <;> simp [nullCheck, boolCheck, strCheck, numCheck, intCheck, valueOf, RV.indirect]

/-- What every constraint must satisfy. -/
def Settled (ext : Ext) (env : Env) (c : Constraint) : Prop :=
  DisjointPatterns ext c ∧ DefaultIn IsJson c ∧ TriedInert env c

theorem ruleFor_map {ext : Ext} {f : Constraint → Sem} {o : ObjC Constraint} {k : GoStr} {s : Sem}
    (h : (o.map f).RuleFor ext k s) : ∃ c, f c = s ∧ (Constraint.object o).Child c ∧
      ((k, c) ∈ o.props ∨ (¬ o.Declares k ∧ ∃ id src, (id, src, c) ∈ o.patterns ∧ ext.reMatch src k = true) ∨
        (¬ o.Declares k ∧ ¬ o.PatternFor ext k ∧ o.additional = some c)) := by
  rcases h with h | ⟨hd, id, src, h, hm⟩ | ⟨hd, hp, h⟩
  · obtain ⟨c, h1, rfl⟩ := (ObjC.map_mem_props _ o).1 h
    exact ⟨c, rfl, .object (.prop h1), Or.inl h1⟩
  · simp only [ObjC.map, List.mem_map] at h
    obtain ⟨⟨id', src', c⟩, h1, h2⟩ := h
    simp only [Prod.mk.injEq] at h2
    obtain ⟨rfl, rfl, rfl⟩ := h2
    exact ⟨c, rfl, .object (.pattern h1), Or.inr (Or.inl ⟨fun hh => hd ((ObjC.map_declares _ o).2 hh), id', src', h1, hm⟩)⟩
  · simp only [ObjC.map, Option.map_eq_some_iff] at h
    obtain ⟨c, h1, rfl⟩ := h
    refine ⟨c, rfl, .object (.additional h1), Or.inr (Or.inr ⟨fun hh => hd ((ObjC.map_declares _ o).2 hh), fun hh => hp ?_, h1⟩)⟩
    obtain ⟨id, src, d, h1, h2⟩ := hh
    exact ⟨id, src, f d, List.mem_map.2 ⟨_, h1, rfl⟩, h2⟩

/-- With disjoint patterns one rule applies to each name. -/
theorem ruleFor_unique {ext : Ext} {f : Constraint → Sem} {o : ObjC Constraint} {k : GoStr} {s s' : Sem}
    (hdis : DisjointPatterns ext (.object o)) (h : (o.map f).RuleFor ext k s) (h' : (o.map f).RuleFor ext k s') : s = s' := by
  obtain ⟨c, rfl, -, h1⟩ := ruleFor_map h
  obtain ⟨c', rfl, -, h2⟩ := ruleFor_map h'
  have : c = c' := by
    rcases h1 with h1 | ⟨hd, id, src, h1, hm⟩ | ⟨hd, hnp, h1⟩
    · rcases h2 with h2 | ⟨hd', -⟩ | ⟨hd', -⟩
      · have := alookup_of_mem hdis.1.props h1
        rw [alookup_of_mem hdis.1.props h2] at this
        cases this; rfl
      · exact absurd ⟨_, h1⟩ hd'
      · exact absurd ⟨_, h1⟩ hd'
    · rcases h2 with h2 | ⟨-, id', src', h2, hm'⟩ | ⟨-, hnp, -⟩
      · exact absurd ⟨_, h2⟩ hd
      · have := hdis.2 k hd _ h1 _ h2 hm hm'
        cases this; rfl
      · exact absurd ⟨id, src, c, h1, hm⟩ hnp
    · rcases h2 with h2 | ⟨-, id', src', h2, hm'⟩ | ⟨-, -, h2⟩
      · exact absurd ⟨_, h2⟩ hd
      · exact absurd ⟨_, _, _, h2, hm'⟩ hnp
      · rw [h1] at h2; cases h2; rfl
  rw [this]

theorem det_step {ext : Ext} {env : Env} (hp : PrintsSorted ext) (fuel : Nat)
    (hρ : ∀ m n, Det (refSem ext env fuel m n)) : ∀ c : Constraint, c.Every (Settled ext env) →
    Det (denote ext (refSem ext env fuel) c) := by
  intro c
  induction c using Constraint.ind with
  | h c ih =>
  intro hc
  obtain ⟨hdis, hdf, htr⟩ := hc.self
  have hch : ∀ d, c.Child d → Det (denote ext (refSem ext env fuel) d) := fun d hd => ih d hd (hc.child hd)
  have htried : ∀ d, c.Tried d → (denote ext (refSem ext env fuel) d).ReadOnly := fun d hd =>
    inert_readOnly fuel d (htr d hd)
  have hofn : ∀ d : Option GoVal, c.ownDefault = d → ∀ dv, Dflt.ofOption d = .some dv → IsJson dv := by
    intro d hd dv h
    cases d with
    | none => cases h
    | some x => cases h; exact hdf _ hd
  have hlist : ∀ cs : List Constraint, (∀ d ∈ cs, c.Child d) → ∀ s ∈ cs.map (denote ext (refSem ext env fuel)), Det s := by
    intro cs h s hs
    obtain ⟨d, hd, rfl⟩ := List.mem_map.1 hs
    exact hch d (h d hd)
  have hro : ∀ cs : List Constraint, (∀ d ∈ cs, c.Tried d) → ∀ s ∈ cs.map (denote ext (refSem ext env fuel)), s.ReadOnly := by
    intro cs h s hs
    obtain ⟨d, hd, rfl⟩ := List.mem_map.1 hs
    exact htried d (h d hd)
  -- a read-only validator whose verdicts agree
  have hronly : ∀ val : Validator, (⟨.none, val⟩ : Sem).ReadOnly →
      (∀ v w σ τ, IsJson v → IsJson w → Alike v w → (val σ v).1 = .ok → ∀ e, (val τ w).1 ≠ .err e) → Det ⟨.none, val⟩ := by
    intro val hr hv
    refine ⟨fun σ v v' hj h => ?_, fun dv h => (by cases h), fun v w σ τ v' hj hw ha h => ?_⟩
    · have := hr v σ
      simp only at this h
      rw [h] at this
      simp only at this
      rw [this]; exact hj
    · have h1 := hr v σ
      have h2 := hr w τ
      simp only at h1 h2 h
      refine ⟨hv v w σ τ hj hw ha (by rw [h]), fun w' h' => ?_⟩
      simp only at h'
      rw [h] at h1; rw [h'] at h2
      simp only at h1 h2
      rw [h1, h2]; exact ha
  have hwhole : (∀ d, c.Child d → (denote ext (refSem ext env fuel) d).ReadOnly) → (∀ o, c ≠ .object o) →
      (∀ m n, c ≠ .ref m n) → (denote ext (refSem ext env fuel) c).ReadOnly := fun h1 h2 h3 =>
    readOnly_node (fun m n h => absurd h (h3 m n)) (fun o h => absurd h (h2 o)) h1
  cases c with
  | empty =>
    simp only [denote]
    exact hronly _ (fun v σ => rfl) (fun v w σ τ _ _ _ _ e h => by cases h)
  | null => exact det_pure (fun dv h => by cases h) (fun v hb => (leaf_box (ext := ext) hb).1)
  | boolean d => exact det_pure (hofn d rfl) (fun v hb => (leaf_box (ext := ext) hb).2.1)
  | string s => exact det_pure (hofn s.dflt rfl) (fun v hb => (leaf_box hb).2.2.1 s)
  | number s => exact det_pure (hofn s.dflt rfl) (fun v hb => (leaf_box (ext := ext) hb).2.2.2.1 s)
  | integer s => exact det_pure (hofn s.dflt rfl) (fun v hb => (leaf_box (ext := ext) hb).2.2.2.2 s)
  | enum vals => exact det_pure (fun dv h => by cases h) (fun v hb => enumCheck_box hb vals)
  | array a =>
    simp only [denote, denoteArr_eq]
    refine arrayV_det hp (fun s hs => ?_)
    cases hs with
    | items hi =>
      obtain ⟨d, hd, rfl⟩ := Option.map_eq_some_iff.1 hi
      exact hch d (.array (.items hd))
    | positional hi =>
      obtain ⟨d, hd, rfl⟩ := List.mem_map.1 hi
      exact hch d (.array (.positional hd))
    | additional hi =>
      obtain ⟨d, hd, rfl⟩ := Option.map_eq_some_iff.1 hi
      exact hch d (.array (.additional hd))
  | object o =>
    have : denote ext (refSem ext env fuel) (.object o) = ⟨.none, objectV ext (o.map (denote ext (refSem ext env fuel)))⟩ := by
      simp [denote, denoteObj_eq]
    rw [this]
    refine objectV_det ((ObjC.map_wf _ o).2 hdis.1) (fun k s s' h h' => ?_) (fun k s h => ?_) (fun k s h => ?_)
    · exact ruleFor_unique hdis h h'
    · obtain ⟨c, rfl, hcc, -⟩ := ruleFor_map h
      exact hch c hcc
    · have h' : (o.GetSchemaDependency k).map (denote ext (refSem ext env fuel)) = some s := by
        rw [← h]; exact (alookup_map _ k o.schemadeps).symm
      obtain ⟨d, hd, rfl⟩ := Option.map_eq_some_iff.1 h'
      exact ⟨htried d (.dependency hd), hch d (.object (.dependency hd))⟩
  | any cs =>
    have hr := hwhole (fun d hd => by cases hd with | any h => exact inert_readOnly fuel d (htr d (.any h))) (by intros; simp) (by intros; simp)
    simp only [denote, denoteList_eq] at hr ⊢
    exact hronly _ hr fun v w σ τ hv hw ha h e => anyLoop_det hv hw ha _ 0
      (fun s hs => ⟨hro cs (fun d h => .any h) s hs, hlist cs (fun d h => .any h) s hs⟩) h e
  | all cs =>
    simp only [denote, denoteList_eq]
    exact allLoop_det _ 0 (hlist cs fun d hd => .all hd)
  | oneOf cs =>
    have hr := hwhole (fun d hd => by cases hd with | oneOf h => exact inert_readOnly fuel d (htr d (.oneOf h))) (by intros; simp) (by intros; simp)
    simp only [denote, denoteList_eq] at hr ⊢
    exact hronly _ hr fun v w σ τ hv hw ha h e => oneOfLoop_det hv hw ha _ 0 0
      (fun s hs => ⟨hro cs (fun d h => .oneOf h) s hs, hlist cs (fun d h => .oneOf h) s hs⟩) h e
  | not c =>
    have hr := hwhole (fun d hd => by cases hd with | not => exact inert_readOnly fuel d (htr d .not)) (by intros; simp) (by intros; simp)
    simp only [denote, denoteOpt_eq] at hr ⊢
    refine hronly _ hr fun v w σ τ hv hw ha h e => notV_det hv hw ha _ (fun s hs => ?_) h e
    obtain ⟨d, hd, rfl⟩ := Option.map_eq_some_iff.1 hs
    subst hd
    exact ⟨htried d .not, hch d .not⟩
  | ref m n => simp only [denote]; exact hρ m n

theorem det_sem {ext : Ext} {env : Env} (hp : PrintsSorted ext) (henv : env.Every (Settled ext env)) (fuel : Nat) :
    ∀ c : Constraint, c.Every (Settled ext env) → Det (sem ext env fuel c) := by
  induction fuel with
  | zero =>
    refine det_step hp 0 (fun m n => ?_)
    exact ⟨fun σ v v' _ h => (by simp [refSem, running] at h), fun dv h => (by simp [refSem, running] at h),
      fun v w σ τ v' _ _ _ h => (by simp [refSem, running] at h)⟩
  | succ fuel ih =>
    refine det_step hp _ (fun m n => ?_)
    simp only [refSem]
    cases he : env m n with
    | none => exact ⟨fun σ v v' _ h => (by simp [unresolved] at h), fun dv h => (by simp [unresolved] at h),
        fun v w σ τ v' _ _ _ h => (by simp [unresolved] at h)⟩
    | some c => exact ih c (henv m n c he)

end Jsval
