import Verif.Lemmas.Memory
import Verif.Lemmas.Induct
/-!
# Objects in memory against objects as values
-/
namespace Jsval

variable {sh : Memory → MVal → GoStr} {ro : Bool}

/-! ## Accessing properties -/

/-- Looking up an entry, and putting back what became of it. -/
theorem HoldsEntries.get {H : Memory} (p : GoStr) : ∀ {es : List (GoStr × MVal)} {kvs : List (GoStr × GoVal)} {L : List Nat}, HoldsEntries H es kvs L →
    (alookup p es = none ∧ alookup p kvs = none) ∨ ∃ x v Lx, alookup p es = some x ∧ alookup p kvs = some v ∧ Lx.Sublist L ∧ Holds H x v Lx ∧
      ∀ H' v', Fit ro L → Became ro Lx H x v H' v' → HoldsEntries H' es (ainsert p v' kvs) L
  | [], _, _, .nil => .inl ⟨rfl, rfl⟩
  | (k, x) :: es, _, _, .cons _ _ _ v kvs L L' hx he => by
    by_cases hk : k = p
    · refine .inr ⟨x, v, L, by simp [alookup, hk], by simp [alookup, hk], List.sublist_append_left .., hx, fun H' v' hL hb => ?_⟩
      simp only [ainsert, hk, if_true]
      exact .cons _ _ _ _ _ _ _ hb.holds (he.frame (hb.others hL.disjoint))
    · rcases he.get p with ⟨h1, h2⟩ | ⟨y, w, Ly, h1, h2, h3, h4, h5⟩
      · exact .inl ⟨by simp [alookup, hk, h1], by simp [alookup, hk, h2]⟩
      · refine .inr ⟨y, w, Ly, by simp [alookup, hk, h1], by simp [alookup, hk, h2], h3.trans (List.sublist_append_right ..), h4, fun H' v' hL hb => ?_⟩
        simp only [ainsert, hk, if_false]
        refine .cons _ _ _ _ _ _ _ (hx.frame (hb.others ?_)) (h5 H' v' (hL.sub (List.sublist_append_right ..)) hb)
        exact hL.disjoint'.imp id fun hd l hl hl' => hd l hl (h3.subset hl')

/-- Adding an entry. -/
theorem HoldsEntries.add {H : Memory} {p : GoStr} {a : GoVal} (ha : IsAtom a) : ∀ {es : List (GoStr × MVal)} {kvs : List (GoStr × GoVal)} {L : List Nat}, HoldsEntries H es kvs L →
    alookup p es = none → HoldsEntries H (ainsert p (.atom a) es) (ainsert p a kvs) L
  | [], _, _, .nil, _ => by
    have := HoldsEntries.cons p _ _ _ _ _ _ (.atom (H := H) a ha) .nil
    exact this
  | (k, x) :: es, _, _, .cons _ _ _ v kvs L L' hx he, hn => by
    have hk : k ≠ p := fun e => by simp [alookup, e] at hn
    simp only [alookup, hk, if_false] at hn
    simp only [ainsert, hk, if_false]
    exact .cons _ _ _ _ _ _ _ hx (he.add ha hn)

theorem HoldsEntries.keys {H : Memory} : ∀ {es : List (GoStr × MVal)} {kvs : List (GoStr × GoVal)} {L : List Nat}, HoldsEntries H es kvs L →
    es.map (·.1) = kvs.map (·.1)
  | [], _, _, .nil => rfl
  | (k, x) :: es, _, _, .cons _ _ _ v kvs L L' hx he => by simp [he.keys]

theorem atom_getProp {a : GoVal} (ha : IsAtom a) (p : GoStr) : getProp (valueOf a).indirect p = .ok none ∨ ∃ b, getProp (valueOf a).indirect p = .error b := by
  cases a <;> first | exact ha.elim | exact .inl rfl | exact .inr ⟨_, rfl⟩

theorem atom_setProp {a : GoVal} (ha : IsAtom a) (ext : Ext) (p : GoStr) (dv : GoVal) : ∃ s, setProp ext a p dv = .error s := by
  cases a <;> first | exact ha.elim | exact ⟨_, rfl⟩

/-- What `getPropM` finds. -/
inductive Found (ro : Bool) (H : Memory) (h : MVal) (v : GoVal) (L : List Nat) (p : GoStr) : Except Abort (Option MVal) → Prop where
  | error (a) : getProp (valueOf v).indirect p = .error a → viewProp (valueOf v).indirect p = .error a → Found ro H h v L p (.error a)
  | none : getProp (valueOf v).indirect p = .ok none → viewProp (valueOf v).indirect p = .ok .absent → Found ro H h v L p (.ok none)
  | some (x y Lx) : getProp (valueOf v).indirect p = .ok (some y) → viewProp (valueOf v).indirect p = .ok (.present y true) →
      Lx.Sublist L → Holds H x y Lx → (∀ H' y', Fit ro L → Became ro Lx H x y H' y' → Became ro L H h v H' (putProp v p y')) → Found ro H h v L p (.ok (some x))

theorem getPropM_found {H : Memory} {h : MVal} {v : GoVal} {L : List Nat} (p : GoStr) (hh : Holds H h v L) :
    ∃ g, (getPropM p h).run sh H = (g, H) ∧ Found ro H h v L p g := by
  cases hh with
  | atom a ha =>
    refine ⟨_, rfl, ?_⟩
    rcases atom_getProp ha p with e | ⟨b, e⟩
    · rw [e]
      exact .none e (by simp [viewProp, e])
    · rw [e]
      exact .error _ e (by simp [viewProp, e])
  | nilMap => exact ⟨_, rfl, .none rfl rfl⟩
  | slice n xs vs L hk => exact ⟨_, rfl, .none rfl rfl⟩
  | map l kvs L hk =>
    refine ⟨_, rfl, ?_⟩
    rcases hk.get (ro := ro) p with ⟨h1, h2⟩ | ⟨x, y, Lx, h1, h2, h3, h4, h5⟩
    · rw [h1]
      have e : getProp (valueOf (.map false kvs)).indirect p = .ok none := by simp [valueOf, RV.indirect, getProp, h2]
      exact .none e (by simp [viewProp, e])
    · rw [h1]
      have e : getProp (valueOf (.map false kvs)).indirect p = .ok (some y) := by simp [valueOf, RV.indirect, getProp, h2]
      refine .some x y Lx e ?_ (h3.trans (List.sublist_cons_self ..)) h4 ?_
      · simp only [viewProp, e]; rfl
      · intro H' y' hL hb
        have hl : H' l = H l := by
          rcases hL with hL | hL
          · rw [(hb.same hL).1]
          · exact hb.frame l fun h => (List.nodup_cons.1 hL).1 (h3.subset h)
        refine ⟨.map l _ _ ?_, ?_, ?_⟩
        · rw [hl]; exact h5 H' y' (hL.sub (List.sublist_cons_self ..)) hb
        · intro l' hl'
          simp only [List.mem_cons, not_or] at hl'
          exact hb.frame l' fun h => hl'.2 (h3.subset h)
        · intro hr
          refine ⟨(hb.same hr).1, ?_⟩
          show GoVal.map false (ainsert p y' kvs) = _
          rw [(hb.same hr).2, ainsert_same h2]

theorem setPropM_found {ext : Ext} {H : Memory} {h : MVal} {v : GoVal} {L : List Nat} (p : GoStr) (hh : Holds H h v L) (hL : L.Nodup) {dv : GoVal} (hd : IsAtom dv)
    (hn : getProp (valueOf v).indirect p = .ok none) :
    (∃ s, (setPropM ext p (.atom dv) h).run sh H = (.error s, H) ∧ setProp ext v p dv = .error s) ∨
    ∃ H' v', (setPropM ext p (.atom dv) h).run sh H = (.ok (), H') ∧ setProp ext v p dv = .ok v' ∧ Became false L H h v H' v' := by
  cases hh with
  | atom a ha =>
    obtain ⟨s, e⟩ := atom_setProp ha ext p dv
    refine .inl ⟨s, ?_, e⟩
    simp only [setPropM, MVal.face, e]
    rfl
  | nilMap =>
    by_cases hdn : dv = .nil
    · subst hdn
      exact .inr ⟨H, .map true [], rfl, rfl, .refl .nilMap⟩
    · refine .inl ⟨.abort .panic, ?_, ?_⟩
      · cases dv <;> first | exact (hdn rfl).elim | rfl
      · cases dv <;> first | exact (hdn rfl).elim | rfl
  | slice n xs vs L hk => exact .inl ⟨.err .setPropKind, rfl, rfl⟩
  | map l kvs L hk =>
    have hnk : alookup p kvs = none := by simpa [valueOf, RV.indirect, getProp] using hn
    have hne : alookup p (H l) = none := by
      rcases hk.get (ro := false) p with ⟨h1, _⟩ | ⟨x, y, Lx, h1, h2, _⟩
      · exact h1
      · rw [h2] at hnk; cases hnk
    have hl := (List.nodup_cons.1 hL).1
    have hfr : ∀ x, ∀ l' ∈ L, H.put l p x l' = H l' := by
      intro x l' hl'
      exact if_neg fun (e : l' = l) => hl (e ▸ hl')
    have hfr' : ∀ x l', l' ∉ l :: L → H.put l p x l' = H l' := by
      intro x l' hl'
      exact if_neg fun (e : l' = l) => hl' (e ▸ List.mem_cons_self ..)
    by_cases hdn : dv = .nil
    · subst hdn
      refine .inr ⟨H.put l p none, .map false (adelete p kvs), rfl, rfl, .map l _ _ ?_, hfr' _, fun h => by cases h⟩
      have : H.put l p none l = H l := by
        show (if l = l then adelete p (H l) else H l) = H l
        rw [if_pos rfl, adelete_absent hne]
      rw [this, adelete_absent hnk]
      exact hk.frame (hfr _)
    · have e1 : (setPropM ext p (.atom dv) (.map (some l))).run sh H = (.ok (), H.put l p (some (.atom dv))) := by
        cases dv <;> first | exact (hdn rfl).elim | rfl
      have e2 : setProp ext (.map false kvs) p dv = .ok (.map false (ainsert p dv kvs)) := by
        cases dv <;> first | exact (hdn rfl).elim | rfl
      refine .inr ⟨_, _, e1, e2, .map l _ _ ?_, hfr' _, fun h => by cases h⟩
      have : H.put l p (some (.atom dv)) l = ainsert p (.atom dv) (H l) := if_pos rfl
      rw [this]
      exact (hk.frame (hfr _)).add hd hne

/-! ## Loops -/

/-- The states of the two runs; `H₀` and `v₀` are what the run began with. -/
structure Beside' (ro : Bool) (L : List Nat) (H₀ : Memory) (h : MVal) (v₀ : GoVal) (st : ObjSt) (mst : MSt) (H : Memory) : Prop where
  premain : mst.premain = st.premain
  pseen : mst.pseen = st.pseen
  became : Became ro L H₀ h v₀ H st.v

/-- The two runs of a step end alike. -/
def EndsAlike (ro : Bool) (L : List Nat) (H₀ : Memory) (h : MVal) (v₀ : GoVal) (a : (Res × MSt) × Memory) (b : Res × ObjSt) : Prop :=
  a.1.1 = b.1 ∧ Beside' ro L H₀ h v₀ b.2 a.1.2 a.2

variable {L : List Nat} {H₀ : Memory} {h : MVal} {v₀ : GoVal}

theorem forLoopM_alike {α β γ : Type} {step : Nat → α → ObjSt → Res × ObjSt} {stepM : Nat → β → MSt → Prog (Res × MSt)} {f : γ → α} {g : γ → β}
    (P : γ → Prop)
    (hs : ∀ i x st mst H, P x → Beside' ro L H₀ h v₀ st mst H → EndsAlike ro L H₀ h v₀ ((stepM i (g x) mst).run sh H) (step i (f x) st)) :
    ∀ (l : List γ) (i : Nat) st mst H, (∀ x ∈ l, P x) → Beside' ro L H₀ h v₀ st mst H →
      EndsAlike ro L H₀ h v₀ ((forLoopM stepM i (l.map g) mst).run sh H) (forLoop step i (l.map f) st)
  | [], i, st, mst, H, _, hb => ⟨rfl, hb⟩
  | x :: l, i, st, mst, H, hP, hb => by
    obtain ⟨h1, h2⟩ := hs i x st mst H (hP x (by simp)) hb
    rcases e : step i (f x) st with ⟨r, st'⟩
    rcases e' : (stepM i (g x) mst).run sh H with ⟨⟨r', mst'⟩, H'⟩
    rw [e, e'] at h1 h2
    simp only at h1 h2
    subst h1
    simp only [List.map_cons, forLoopM, forLoop, run_bind, e, e']
    cases r' with
    | ok => exact forLoopM_alike P hs l (i + 1) st' mst' H' (fun x hx => hP x (List.mem_cons_of_mem _ hx)) h2
    | err x => exact ⟨rfl, h2⟩
    | abort a => exact ⟨rfl, h2⟩

theorem seqM_alike {r : Prog (Res × MSt)} {r' : Res × ObjSt} {k : MSt → Prog (Res × MSt)} {k' : ObjSt → Res × ObjSt} {H : Memory}
    (hr : EndsAlike ro L H₀ h v₀ (r.run sh H) r')
    (hk : ∀ st mst H, Beside' ro L H₀ h v₀ st mst H → EndsAlike ro L H₀ h v₀ ((k mst).run sh H) (k' st)) :
    EndsAlike ro L H₀ h v₀ ((seqM r k).run sh H) (seqSt r' k') := by
  obtain ⟨h1, h2⟩ := hr
  rcases e : r' with ⟨q, st'⟩
  rcases e' : r.run sh H with ⟨⟨q', mst'⟩, H'⟩
  rw [e, e'] at h1 h2
  simp only at h1 h2
  subst h1
  simp only [seqM, seqSt, run_bind, e']
  cases q' with
  | ok => exact hk _ _ _ h2
  | err x => exact ⟨rfl, h2⟩
  | abort a => exact ⟨rfl, h2⟩

/-! ## The steps -/

theorem propStepM_alike {ext : Ext} {mem : GoVal → MVal} (hm : HoldsAtoms mem) {α : Type} {f : α → Sem} {g : α → MSem} {o : ObjC α} (hL : Fit ro L)
    {σ : Sched} {i : Nat} {x : GoStr × α} (hx : Agrees sh ro (f x.2) (g x.2)) {st : ObjSt} {mst : MSt} {H : Memory} (hb : Beside' ro L H₀ h v₀ st mst H) :
    EndsAlike ro L H₀ h v₀ ((propStepM ext mem (o.map g) h σ i (x.1, g x.2) mst).run sh H) (propStep ext (o.map f) σ i (x.1, f x.2) st) := by
  obtain ⟨gt, e1, e2⟩ := getPropM_found (sh := sh) (ro := ro) x.1 hb.became.holds
  have er : (o.map g).required = o.required := rfl
  have er' : (o.map f).required = o.required := rfl
  simp only [propStepM, run_bind, e1]
  cases e2 with
  | error a g1 g2 =>
    simp only [propStep, g2]
    exact ⟨rfl, hb⟩
  | none g1 g2 =>
    simp only [propStep, g2, er, er']
    split
    · exact ⟨rfl, hb⟩
    · rw [hx.dflt]
      cases ed : (f x.2).dflt with
      | none => exact ⟨rfl, hb⟩
      | abort a => exact ⟨rfl, hb⟩
      | some dv =>
        obtain ⟨hd, hro⟩ := hx.scalar dv ed
        subst hro
        have hn : L.Nodup := hL.resolve_left (by simp)
        simp only [run_bind, hm dv hd]
        rcases setPropM_found (sh := sh) (ext := ext) x.1 hb.became.holds hn hd g1 with ⟨s, s1, s2⟩ | ⟨H', v', s1, s2, s3⟩
        · simp only [s1, s2]
          cases s with
          | err e => exact ⟨rfl, hb⟩
          | abort a => exact ⟨rfl, hb⟩
        · simp only [s1, s2]
          exact ⟨rfl, hb.premain, hb.pseen, hb.became.trans s3⟩
  | some y z Lx g1 g2 g3 g4 g5 =>
    simp only [propStep, g2, run_bind]
    obtain ⟨h1, h2⟩ := hx.run (σ.sub i) H y z Lx g4 (hL.sub g3)
    rcases e : (f x.2).val (σ.sub i) z with ⟨r, v'⟩
    rcases e' : ((g x.2).val (σ.sub i) y).run sh H with ⟨r', H'⟩
    rw [e, e'] at h1 h2
    simp only at h1 h2
    subst h1
    have hb' := hb.became.trans (g5 H' v' hL h2)
    simp only [e, e']
    cases r' <;> exact ⟨rfl, congrArg (List.filter _) hb.premain, congrArg (addName _) hb.pseen, hb'⟩

theorem patStepM_alike {ext : Ext} {s : Sem} {t : MSem} (hL : Fit ro L) {σ : Sched} {i : Nat} {src p : GoStr} (hx : Agrees sh ro s t) {st : ObjSt} {mst : MSt} {H : Memory}
    (hb : Beside' ro L H₀ h v₀ st mst H) :
    EndsAlike ro L H₀ h v₀ ((patStepM ext h src t σ i p mst).run sh H) (patStep ext src s σ i p st) := by
  unfold patStepM patStep
  split
  · exact ⟨rfl, hb⟩
  obtain ⟨gt, e1, e2⟩ := getPropM_found (sh := sh) (ro := ro) p hb.became.holds
  simp only [run_bind, e1]
  cases e2 with
  | error a g1 g2 => simp only [g1]; exact ⟨rfl, hb⟩
  | none g1 g2 => simp only [g1]; exact ⟨rfl, hb⟩
  | some y z Lx g1 g2 g3 g4 g5 =>
    simp only [g1, run_bind]
    obtain ⟨h1, h2⟩ := hx.run (σ.sub i) H y z Lx g4 (hL.sub g3)
    rcases e : s.val (σ.sub i) z with ⟨r, v'⟩
    rcases e' : (t.val (σ.sub i) y).run sh H with ⟨r', H'⟩
    rw [e, e'] at h1 h2
    simp only at h1 h2
    subst h1
    have hb' := hb.became.trans (g5 H' v' hL h2)
    simp only [e, e']
    cases r' <;> exact ⟨rfl, congrArg (List.filter _) hb.premain, congrArg (addName _) hb.pseen, hb'⟩

theorem addlStepM_alike {s : Sem} {t : MSem} (hL : Fit ro L) {σ : Sched} {i : Nat} {p : GoStr} (hx : Agrees sh ro s t) {st : ObjSt} {mst : MSt} {H : Memory}
    (hb : Beside' ro L H₀ h v₀ st mst H) :
    EndsAlike ro L H₀ h v₀ ((addlStepM h t σ i p mst).run sh H) (addlStep s σ i p st) := by
  unfold addlStepM addlStep
  obtain ⟨gt, e1, e2⟩ := getPropM_found (sh := sh) (ro := ro) p hb.became.holds
  simp only [run_bind, e1]
  cases e2 with
  | error a g1 g2 => simp only [g1]; exact ⟨rfl, hb⟩
  | none g1 g2 => simp only [g1]; exact ⟨rfl, hb⟩
  | some y z Lx g1 g2 g3 g4 g5 =>
    simp only [g1, run_bind]
    obtain ⟨h1, h2⟩ := hx.run (σ.sub i) H y z Lx g4 (hL.sub g3)
    rcases e : s.val (σ.sub i) z with ⟨r, v'⟩
    rcases e' : (t.val (σ.sub i) y).run sh H with ⟨r', H'⟩
    rw [e, e'] at h1 h2
    simp only at h1 h2
    subst h1
    have hb' := hb.became.trans (g5 H' v' hL h2)
    simp only [e, e']
    cases r' <;> exact ⟨rfl, hb.premain, hb.pseen, hb'⟩

theorem depStepM_alike {α : Type} {f : α → Sem} {g : α → MSem} {o : ObjC α} (hL : Fit ro L) (hc : ∀ c, o.Child c → Agrees sh ro (f c) (g c))
    {σ : Sched} {i : Nat} {p : GoStr} {st : ObjSt} {mst : MSt} {H : Memory} (hb : Beside' ro L H₀ h v₀ st mst H) :
    EndsAlike ro L H₀ h v₀ ((depStepM (o.map g) h σ i p mst).run sh H) (depStep (o.map f) σ i p st) := by
  have e1 : (o.map g).GetPropDependencies p = o.GetPropDependencies p := rfl
  have e2 : (o.map f).GetPropDependencies p = o.GetPropDependencies p := rfl
  have e3 : (o.map g).GetSchemaDependency p = (o.GetSchemaDependency p).map g := alookup_map ..
  have e4 : (o.map f).GetSchemaDependency p = (o.GetSchemaDependency p).map f := alookup_map ..
  simp only [depStepM, depStep, e1, e2, e3, e4]
  split
  · refine ⟨?_, hb⟩
    show depsCheck mst.pseen _ = _
    rw [hb.pseen]
  · cases ed : o.GetSchemaDependency p with
    | none => exact ⟨rfl, hb⟩
    | some c =>
      simp only [Option.map_some, run_bind]
      obtain ⟨h1, h2⟩ := (hc c (.dependency ed)).run (σ.sub i) H h st.v L hb.became.holds hL
      rcases e : (f c).val (σ.sub i) st.v with ⟨r, v'⟩
      rcases e' : ((g c).val (σ.sub i) h).run sh H with ⟨r', H'⟩
      rw [e, e'] at h1 h2
      simp only at h1 h2
      subst h1
      simp only [e, e']
      exact ⟨rfl, hb.premain, hb.pseen, hb.became.trans h2⟩

/-! ## Whole objects -/

theorem patOuterM_alike {ext : Ext} {α : Type} {f : α → Sem} {g : α → MSem} (hL : Fit ro L) {σ : Sched} {j : Nat} {x : Nat × GoStr × α}
    (hx : Agrees sh ro (f x.2.2) (g x.2.2)) {st : ObjSt} {mst : MSt} {H : Memory} (hb : Beside' ro L H₀ h v₀ st mst H) :
    EndsAlike ro L H₀ h v₀ ((patOuterM ext h σ j (x.1, x.2.1, g x.2.2) mst).run sh H) (patOuter ext σ j (x.1, x.2.1, f x.2.2) st) := by
  unfold patOuterM patOuter
  rw [hb.premain]
  have := forLoopM_alike (sh := sh) (step := patStep ext x.2.1 (f x.2.2) ((σ.sub 4).sub j)) (stepM := patStepM ext h x.2.1 (g x.2.2) ((σ.sub 4).sub j))
    (f := id) (g := id) (fun _ => True) (fun i p st mst H _ hb => patStepM_alike hL hx hb) (shuffle ((σ.sub 3).sub j).key st.premain) 0 st mst H
    (fun _ _ => trivial) hb
  simpa using this

theorem addlPhaseM_alike {α : Type} {f : α → Sem} {g : α → MSem} {o : ObjC α} (hL : Fit ro L) (hc : ∀ c, o.Child c → Agrees sh ro (f c) (g c))
    {σ : Sched} {st : ObjSt} {mst : MSt} {H : Memory} (hb : Beside' ro L H₀ h v₀ st mst H) :
    EndsAlike ro L H₀ h v₀ ((addlPhaseM (o.map g) h σ mst).run sh H) (addlPhase (o.map f) σ st) := by
  have e1 : (o.map g).additional = o.additional.map g := rfl
  have e2 : (o.map f).additional = o.additional.map f := rfl
  simp only [addlPhaseM, addlPhase, e1, e2, hb.premain]
  split
  · cases ea : o.additional with
    | none => exact ⟨rfl, hb⟩
    | some c =>
      simp only [Option.map_some]
      have := forLoopM_alike (sh := sh) (step := addlStep (f c) (σ.sub 6)) (stepM := addlStepM h (g c) (σ.sub 6))
        (f := id) (g := id) (fun _ => True) (fun i p st mst H _ hb => addlStepM_alike hL (hc c (.additional ea)) hb)
        (shuffle (σ.sub 5).key st.premain) 0 st mst H (fun _ _ => trivial) hb
      simpa using this
  · exact ⟨rfl, hb⟩

theorem objLoopsM_alike {ext : Ext} {mem : GoVal → MVal} (hm : HoldsAtoms mem) {α : Type} {f : α → Sem} {g : α → MSem} {o : ObjC α} (hL : Fit ro L)
    (hc : ∀ c, o.Child c → Agrees sh ro (f c) (g c)) {σ : Sched} {st : ObjSt} {mst : MSt} {H : Memory} (hb : Beside' ro L H₀ h v₀ st mst H) :
    EndsAlike ro L H₀ h v₀ ((objLoopsM ext mem (o.map g) h σ mst).run sh H) (objLoops ext (o.map f) σ st) := by
  have e1 : (o.map g).props = o.props.map fun p => (p.1, g p.2) := rfl
  have e2 : (o.map f).props = o.props.map fun p => (p.1, f p.2) := rfl
  have e3 : (o.map g).patterns = o.patterns.map fun p => (p.1, p.2.1, g p.2.2) := rfl
  have e4 : (o.map f).patterns = o.patterns.map fun p => (p.1, p.2.1, f p.2.2) := rfl
  simp only [objLoopsM, objLoops, e1, e2, e3, e4, shuffle_map]
  refine seqM_alike ?_ fun st mst H hb => seqM_alike ?_ fun st mst H hb => seqM_alike (addlPhaseM_alike hL hc hb) fun st mst H hb => ?_
  · exact forLoopM_alike (fun x => Agrees sh ro (f x.2) (g x.2)) (fun i x st mst H hx hb => propStepM_alike hm hL hx hb) _ 0 st mst H
      (fun x hx => hc x.2 (.prop (mem_shuffle.1 hx))) hb
  · exact forLoopM_alike (fun x => Agrees sh ro (f x.2.2) (g x.2.2)) (fun i x st mst H hx hb => patOuterM_alike hL hx hb) _ 0 st mst H
      (fun x hx => hc x.2.2 (.pattern (mem_shuffle.1 hx))) hb
  · have := forLoopM_alike (sh := sh) (step := depStep (o.map f) (σ.sub 8)) (stepM := depStepM (o.map g) h (σ.sub 8))
      (f := id) (g := id) (fun _ => True) (fun i p st mst H _ hb => depStepM_alike hL hc hb)
      (shuffle (σ.sub 7).key st.pseen) 0 st mst H (fun _ _ => trivial) hb
    rw [hb.pseen]
    simpa using this

theorem getPropNamesM_holds {H : Memory} {v : GoVal} (hh : Holds H h v L) : (getPropNamesM h).run sh H = (getPropNames (valueOf v).indirect, H) := by
  cases hh with
  | atom a ha => rfl
  | nilMap => rfl
  | slice n xs vs L hk => rfl
  | map l kvs L hk =>
    simp only [getPropNamesM, Prog.run, hk.keys]
    rfl

theorem objectM_agrees {ext : Ext} {mem : GoVal → MVal} (hm : HoldsAtoms mem) {α : Type} {f : α → Sem} {g : α → MSem} (o : ObjC α)
    (hc : ∀ c, o.Child c → Agrees sh ro (f c) (g c)) : Agrees sh ro ⟨.none, objectV ext (o.map f)⟩ ⟨.none, objectM ext mem (o.map g)⟩ := by
  refine ⟨rfl, fun dv h => (by cases h), fun σ H h v L hh hL => ?_⟩
  simp only [objectM, objectV, run_bind, getPropNamesM_holds hh]
  have e1 : (o.map g).minProps = o.minProps := rfl
  have e2 : (o.map g).maxProps = o.maxProps := rfl
  have e3 : (o.map f).minProps = o.minProps := rfl
  have e4 : (o.map f).maxProps = o.maxProps := rfl
  simp only [e1, e2, e3, e4]
  cases en : getPropNames (valueOf v).indirect with
  | error s => exact ⟨rfl, .refl hh⟩
  | ok fields =>
    simp only
    split
    · exact ⟨rfl, .refl hh⟩
    · split
      · exact ⟨rfl, .refl hh⟩
      · have := objLoopsM_alike (sh := sh) (ext := ext) hm hL hc (σ := σ) (st := ⟨v, nameSet fields, []⟩) (mst := ⟨nameSet fields, []⟩) (H := H)
          ⟨rfl, rfl, .refl hh⟩
        rw [run_bind]
        exact ⟨this.1, this.2.became⟩

/-! ## Whole constraints -/

theorem denoteListM_eq (ext : Ext) (mem : GoVal → MVal) (ρ : MRefSem) : ∀ cs, denoteListM ext mem ρ cs = cs.map (denoteM ext mem ρ)
  | [] => by simp [denoteListM]
  | c :: cs => by simp [denoteListM, denoteListM_eq ext mem ρ cs]

theorem denoteOptM_eq (ext : Ext) (mem : GoVal → MVal) (ρ : MRefSem) : ∀ c, denoteOptM ext mem ρ c = c.map (denoteM ext mem ρ)
  | none => by simp [denoteOptM]
  | some c => by simp [denoteOptM]

theorem denotePropsM_eq (ext : Ext) (mem : GoVal → MVal) (ρ : MRefSem) : ∀ cs, denotePropsM ext mem ρ cs = cs.map (fun p => (p.1, denoteM ext mem ρ p.2))
  | [] => by simp [denotePropsM]
  | (n, c) :: cs => by simp [denotePropsM, denotePropsM_eq ext mem ρ cs]

theorem denotePatsM_eq (ext : Ext) (mem : GoVal → MVal) (ρ : MRefSem) : ∀ cs, denotePatsM ext mem ρ cs = cs.map (fun p => (p.1, p.2.1, denoteM ext mem ρ p.2.2))
  | [] => by simp [denotePatsM]
  | (i, s, c) :: cs => by simp [denotePatsM, denotePatsM_eq ext mem ρ cs]

theorem denoteArrM_eq (ext : Ext) (mem : GoVal → MVal) (ρ : MRefSem) (a : ArrC Constraint) : denoteArrM ext mem ρ a = a.map (denoteM ext mem ρ) := by
  cases a; simp [denoteArrM, ArrC.map, denoteOptM_eq, denoteListM_eq]

theorem denoteObjM_eq (ext : Ext) (mem : GoVal → MVal) (ρ : MRefSem) (o : ObjC Constraint) : denoteObjM ext mem ρ o = o.map (denoteM ext mem ρ) := by
  cases o; simp [denoteObjM, ObjC.map, denoteOptM_eq, denotePropsM_eq, denotePatsM_eq]

/-- A check that does not look into containers. -/
def Facial (f : GoVal → Res) : Prop := (∀ n xs, f (.slice n xs) = f (.slice n [])) ∧ ∀ n kvs, f (.map n kvs) = f (.map n [])

theorem faceM_agrees {f : GoVal → Res} (hf : Facial f) (d : Option GoVal) (hd : ∀ dv, d = some dv → IsAtom dv ∧ ro = false) :
    Agrees sh ro ⟨.ofOption d, pureV f⟩ ⟨.ofOption d, faceM f⟩ := by
  refine ⟨rfl, ?_, fun σ H h v L hh hL => ?_⟩
  · intro dv h
    cases d with
    | none => cases h
    | some d => cases h; exact hd _ rfl
  · refine ⟨?_, .refl hh⟩
    show f h.face = f v
    cases hh with
    | atom a ha => rfl
    | nilMap => rfl
    | slice n xs vs L hk => exact (hf.1 n vs).symm
    | map l kvs L hk => exact (hf.2 false kvs).symm

theorem facial_null : Facial nullCheck := ⟨fun n xs => by cases n <;> rfl, fun n xs => by cases n <;> rfl⟩
theorem facial_bool : Facial boolCheck := ⟨fun _ _ => rfl, fun _ _ => rfl⟩
theorem facial_str (ext : Ext) (c : StrC) : Facial (strCheck ext c) := ⟨fun _ _ => rfl, fun _ _ => rfl⟩
theorem facial_num (c : NumC) : Facial (numCheck c) := ⟨fun _ _ => rfl, fun _ _ => rfl⟩
theorem facial_int (c : NumC) : Facial (intCheck c) := ⟨fun _ _ => rfl, fun _ _ => rfl⟩
theorem facial_enum : ∀ l, Facial (enumCheck l)
  | [] => ⟨fun _ _ => rfl, fun _ _ => rfl⟩
  | e :: l => by
    obtain ⟨h1, h2⟩ := facial_enum l
    refine ⟨fun n xs => ?_, fun n xs => ?_⟩
    · simp only [enumCheck, h1 n xs]
      cases e <;> rfl
    · simp only [enumCheck, h2 n xs]
      cases e <;> rfl

theorem denoteM_agrees {ext : Ext} {mem : GoVal → MVal} (hs : ∀ H h v, HoldsShared H h v → sh H h = ext.sprint v) (hm : HoldsAtoms mem) {ρ : RefSem} {ρ' : MRefSem}
    (hρ : ∀ m n, Agrees sh ro (ρ m n) (ρ' m n)) : ∀ (c : Constraint), c.Every (DefaultIn fun dv => IsAtom dv ∧ ro = false) →
    Agrees sh ro (denote ext ρ c) (denoteM ext mem ρ' c) := by
  intro c
  induction c using Constraint.ind with
  | h c ih =>
  intro hc
  have ih' : ∀ d, c.Child d → Agrees sh ro (denote ext ρ d) (denoteM ext mem ρ' d) := fun d hd => ih d hd fun e he => hc e (.child hd he)
  have hd := hc c (.refl c)
  have hnone : ∀ {s : Validator} {t : MValidator}, (∀ σ H h v L, Holds H h v L → Fit ro L →
      (((t σ h).run sh H).1 = (s σ v).1) ∧ Became ro L H h v ((t σ h).run sh H).2 (s σ v).2) → Agrees sh ro ⟨.none, s⟩ ⟨.none, t⟩ :=
    fun h => ⟨rfl, fun dv h => (by cases h), h⟩
  cases c with
  | empty => exact hnone fun σ H h v L hh _ => ⟨rfl, .refl hh⟩
  | null => exact faceM_agrees facial_null none (fun dv h => by cases h)
  | boolean d => exact faceM_agrees facial_bool d hd
  | string c => exact faceM_agrees (facial_str ext c) c.dflt hd
  | number c => exact faceM_agrees (facial_num c) c.dflt hd
  | integer c => exact faceM_agrees (facial_int c) c.dflt hd
  | enum l => exact faceM_agrees (facial_enum l) none (fun dv h => by cases h)
  | array a =>
    simp only [denote, denoteM, denoteArr_eq, denoteArrM_eq]
    exact arrayM_agrees hs a fun c h => ih' c (.array h)
  | object o =>
    simp only [denote, denoteM, denoteObj_eq, denoteObjM_eq]
    exact objectM_agrees hm o fun c h => ih' c (.object h)
  | any cs =>
    simp only [denote, denoteM, denoteList_eq, denoteListM_eq]
    exact hnone fun σ H h v L hh hL => anyLoopM_agrees σ hL cs (fun c h => ih' c (.any h)) 0 H v hh
  | all cs =>
    simp only [denote, denoteM, denoteList_eq, denoteListM_eq]
    exact hnone fun σ H h v L hh hL => allLoopM_agrees σ hL cs (fun c h => ih' c (.all h)) 0 H v hh
  | oneOf cs =>
    simp only [denote, denoteM, denoteList_eq, denoteListM_eq]
    exact hnone fun σ H h v L hh hL => oneOfLoopM_agrees σ hL cs (fun c h => ih' c (.oneOf h)) 0 0 H v hh
  | not c =>
    simp only [denote, denoteM, denoteOpt_eq, denoteOptM_eq]
    exact hnone fun σ H h v L hh hL => notM_agrees σ hL c (fun d h => ih' d (h ▸ .not)) H v hh
  | ref m n => exact hρ m n

theorem semM_agrees {ext : Ext} {mem : GoVal → MVal} (hs : ∀ H h v, HoldsShared H h v → sh H h = ext.sprint v) (hm : HoldsAtoms mem) {env : Env}
    (henv : env.Every (DefaultIn fun dv => IsAtom dv ∧ ro = false)) : ∀ (fuel : Nat) (c : Constraint), c.Every (DefaultIn fun dv => IsAtom dv ∧ ro = false) →
    Agrees sh ro (sem ext env fuel c) (semM ext mem env fuel c)
  | 0, c, hc => denoteM_agrees hs hm (fun _ _ => ⟨rfl, fun dv h => (by cases h), fun σ H h v L hh _ => ⟨rfl, .refl hh⟩⟩) c hc
  | fuel + 1, c, hc => by
    refine denoteM_agrees hs hm (fun m n => ?_) c hc
    simp only [refSem, refSemM]
    cases e : env m n with
    | none => exact ⟨rfl, fun dv h => (by cases h), fun σ H h v L hh _ => ⟨rfl, .refl hh⟩⟩
    | some d => exact semM_agrees hs hm henv fuel d (henv m n d e)

end Jsval
