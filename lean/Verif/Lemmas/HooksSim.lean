import Verif.Lemmas.Hooks
import Verif.Lemmas.Erase
/-!
# Validation of structs with property methods follows validation of the maps they show: the simulation
-/
namespace Jsval
variable {hk : Hooks} {ext : Ext}

/-- Run on a value and on what it shows itself as, the two give the same verdict, and what is left of the first shows
itself as what is left of the second. -/
structure Shadows (hk : Hooks) (s t : Sem) : Prop where
  dflt : s.dflt = t.dflt
  scalar : ∀ dv, t.dflt = .some dv → IsScalar dv ∧ dv ≠ .nil
  run : ∀ σ v w, Looks hk v w → (s.val σ v).1 = (t.val σ w).1 ∧ Looks hk (s.val σ v).2 (t.val σ w).2 ∧
    (w ≠ .nil → (t.val σ w).2 ≠ .nil)

/-- The same for the body of a loop over properties. -/
structure Paired (hk : Hooks) (r r' : Res × ObjSt) (Rel : ObjSt → ObjSt → Prop) : Prop where
  res : r.1 = r'.1
  rel : Rel r.2 r'.2

theorem forLoop_paired {α β γ : Type} {step : Nat → α → ObjSt → Res × ObjSt} {step' : Nat → β → ObjSt → Res × ObjSt} {f : γ → α} {g : γ → β}
    {Rel : ObjSt → ObjSt → Prop} : ∀ (P : List γ), (∀ i, ∀ x ∈ P, ∀ st st', Rel st st' → Paired hk (step i (f x) st) (step' i (g x) st') Rel) →
    ∀ (i : Nat) st st', Rel st st' → Paired hk (forLoop step i (P.map f) st) (forLoop step' i (P.map g) st') Rel
  | [], _, i, st, st', hr => ⟨rfl, hr⟩
  | x :: P, h, i, st, st', hr => by
    obtain ⟨h1, h2⟩ := h i x (by simp) st st' hr
    rw [List.map_cons, List.map_cons, forLoop, forLoop]
    rcases e : step i (f x) st with ⟨r, u⟩
    rcases e' : step' i (g x) st' with ⟨r', u'⟩
    rw [e, e'] at h1 h2
    simp only at h1 h2
    subst h1
    cases r with
    | ok => exact forLoop_paired P (fun i y hy => h i y (by simp [hy])) (i + 1) u u' h2
    | err e => exact ⟨rfl, h2⟩
    | abort a => exact ⟨rfl, h2⟩

theorem seqSt_paired {r r' : Res × ObjSt} {k k' : ObjSt → Res × ObjSt} {Rel Rel' : ObjSt → ObjSt → Prop} (h : Paired hk r r' Rel)
    (hk' : ∀ st st', Rel st st' → Paired hk (k st) (k' st') Rel') (hw : ∀ st st', Rel st st' → Rel' st st') :
    Paired hk (seqSt r k) (seqSt r' k') Rel' := by
  rcases r with ⟨r, st⟩
  rcases r' with ⟨r', st'⟩
  obtain ⟨h1, h2⟩ := h
  simp only at h1 h2
  subst h1
  cases r with
  | ok => exact hk' st st' h2
  | err e => exact ⟨rfl, hw _ _ h2⟩
  | abort a => exact ⟨rfl, hw _ _ h2⟩

/-- The two states while an object and the map it shows itself as are validated. -/
structure ObjLooks (hk : Hooks) (st st' : ObjSt) : Prop where
  val : ∃ n kws, st'.v = .map n kws ∧ Looks hk st.v (.map n kws)
  premain : st.premain = st'.premain
  pseen : st.pseen = st'.pseen

/-- In the last loop a schema dependency runs on the whole object. -/
structure EndLooks (hk : Hooks) (st st' : ObjSt) : Prop where
  val : Looks hk st.v st'.v
  ne : st'.v ≠ .nil
  pseen : st.pseen = st'.pseen

theorem ObjLooks.toEnd {st st' : ObjSt} (h : ObjLooks hk st st') : EndLooks hk st st' := by
  obtain ⟨⟨n, kws, h1, h2⟩, -, h4⟩ := h
  exact ⟨h1 ▸ h2, by rw [h1]; simp, h4⟩

theorem viewProp_ofMap (n : Bool) (kvs : List (GoStr × GoVal)) (p : GoStr) : viewProp (valueOf (.map n kvs)).indirect p =
    match alookup p kvs with | none => .ok .absent | some x => .ok (.present x true) := by
  simp only [viewProp, getProp, valueOf, RV.indirect]
  cases alookup p kvs <;> rfl

theorem getProp_ofMap (n : Bool) (kvs : List (GoStr × GoVal)) (p : GoStr) : getProp (valueOf (.map n kvs)).indirect p = .ok (alookup p kvs) := by
  simp [getProp, valueOf, RV.indirect]

theorem putProp_ofMap (n : Bool) (kvs : List (GoStr × GoVal)) (p : GoStr) (x : GoVal) : putProp (.map n kvs) p x = .map n (ainsert p x kvs) := rfl

theorem setProp_ofMap (n : Bool) (kvs : List (GoStr × GoVal)) (p : GoStr) {x : GoVal} (hs : IsScalar x) (hx : x ≠ .nil) :
    setProp ext (.map n kvs) p x = if n = true then .error (.abort .panic) else .ok (.map false (ainsert p x kvs)) := by
  cases n <;> cases hs <;> first | exact absurd rfl hx | rfl

section
variable (hf : hk.Faithful) {o : ObjC Constraint} {f g : Constraint → Sem}
include hf

theorem propStep_looks {p : GoStr} {c : Constraint} (hc : Shadows hk (f c) (g c)) {σ : Sched} {i : Nat} {st st' : ObjSt} (h : ObjLooks hk st st') :
    Paired hk (propStepH hk ext (o.map f) σ i (p, f c) st) (propStep ext (o.map g) σ i (p, g c) st') (ObjLooks hk) := by
  have h0 := h
  obtain ⟨⟨n, kws, hv', hl⟩, hpm, hps⟩ := h
  have hreq : (o.map f).required = (o.map g).required := rfl
  unfold propStepH propStep
  simp only [hv', viewProp_ofMap, hreq, hc.dflt]
  cases hx : alookup p kws with
  | none =>
    simp only [viewPropH_absent (hl.absent hx)]
    split
    · exact ⟨rfl, h0⟩
    · cases hd : (g c).dflt with
      | abort a => exact ⟨rfl, h0⟩
      | none => exact ⟨rfl, h0⟩
      | some dv =>
        obtain ⟨hs, hn⟩ := hc.scalar dv hd
        obtain ⟨f1, f2⟩ := hl.fill (ext := ext) hf hx hs hn
        simp only [setProp_ofMap n kws p hs hn]
        cases n with
        | true =>
          rw [f1 rfl]
          exact ⟨rfl, ⟨⟨_, _, hv', hl⟩, hpm, hps⟩⟩
        | false =>
          obtain ⟨v', e, hl'⟩ := f2 rfl
          rw [e]
          exact ⟨rfl, ⟨⟨_, _, rfl, hl'⟩, hpm, hps⟩⟩
  | some w =>
    obtain ⟨x, hxw, -, e, hput⟩ := hl.present hf hx
    simp only [e]
    have hr := hc.run (σ.sub i) x w hxw
    rcases e1 : (f c).val (σ.sub i) x with ⟨r, y⟩
    rcases e2 : (g c).val (σ.sub i) w with ⟨r', y'⟩
    rw [e1, e2] at hr
    obtain ⟨hr1, hr2, hr3⟩ := hr
    simp only at hr1 hr2 hr3
    subst hr1
    simp only [e1, e2, if_true, putProp_ofMap, hpm, hps]
    have := hput y y' hr2 hr3
    cases r <;> exact ⟨rfl, ⟨⟨_, _, rfl, this⟩, rfl, rfl⟩⟩

theorem patStep_looks {src k : GoStr} {c : Constraint} (hc : Shadows hk (f c) (g c)) {σ : Sched} {i : Nat} {st st' : ObjSt} (h : ObjLooks hk st st') :
    Paired hk (patStepH hk ext src (f c) σ i k st) (patStep ext src (g c) σ i k st') (ObjLooks hk) := by
  have h0 := h
  obtain ⟨⟨n, kws, hv', hl⟩, hpm, hps⟩ := h
  unfold patStepH patStep
  split
  · exact ⟨rfl, h0⟩
  · simp only [hv', getProp_ofMap]
    cases hx : alookup k kws with
    | none =>
      simp only [hl.absent hx]
      exact ⟨rfl, h0⟩
    | some w =>
      obtain ⟨x, hxw, e, -, hput⟩ := hl.present hf hx
      simp only [e]
      have hr := hc.run (σ.sub i) x w hxw
      rcases e1 : (f c).val (σ.sub i) x with ⟨r, y⟩
      rcases e2 : (g c).val (σ.sub i) w with ⟨r', y'⟩
      rw [e1, e2] at hr
      obtain ⟨hr1, hr2, hr3⟩ := hr
      simp only at hr1 hr2 hr3
      subst hr1
      simp only [e1, e2, putProp_ofMap, hpm, hps]
      have := hput y y' hr2 hr3
      cases r <;> exact ⟨rfl, ⟨⟨_, _, rfl, this⟩, rfl, rfl⟩⟩

theorem addlStep_looks {k : GoStr} {c : Constraint} (hc : Shadows hk (f c) (g c)) {σ : Sched} {i : Nat} {st st' : ObjSt} (h : ObjLooks hk st st') :
    Paired hk (addlStepH hk (f c) σ i k st) (addlStep (g c) σ i k st') (ObjLooks hk) := by
  have h0 := h
  obtain ⟨⟨n, kws, hv', hl⟩, hpm, hps⟩ := h
  unfold addlStepH addlStep
  simp only [hv', getProp_ofMap]
  cases hx : alookup k kws with
  | none =>
    simp only [hl.absent hx]
    exact ⟨rfl, h0⟩
  | some w =>
    obtain ⟨x, hxw, e, -, hput⟩ := hl.present hf hx
    simp only [e]
    have hr := hc.run (σ.sub i) x w hxw
    rcases e1 : (f c).val (σ.sub i) x with ⟨r, y⟩
    rcases e2 : (g c).val (σ.sub i) w with ⟨r', y'⟩
    rw [e1, e2] at hr
    obtain ⟨hr1, hr2, hr3⟩ := hr
    simp only at hr1 hr2 hr3
    subst hr1
    simp only [e1, e2, putProp_ofMap]
    have := hput y y' hr2 hr3
    cases r <;> exact ⟨rfl, ⟨⟨_, _, rfl, this⟩, hpm, hps⟩⟩

theorem addlPhase_looks (hc : ∀ c, o.Child c → Shadows hk (f c) (g c)) (σ : Sched) {st st' : ObjSt} (h : ObjLooks hk st st') :
    Paired hk (addlPhaseH hk (o.map f) σ st) (addlPhase (o.map g) σ st') (ObjLooks hk) := by
  have e : ∀ f : Constraint → Sem, (o.map f).additional = o.additional.map f := fun f => rfl
  unfold addlPhaseH addlPhase
  simp only [← h.premain, e]
  split
  · cases ha : o.additional with
    | none => exact ⟨rfl, h⟩
    | some c =>
      simp only [Option.map_some]
      have := forLoop_paired (hk := hk) (step := addlStepH hk (f c) (σ.sub 6)) (step' := addlStep (g c) (σ.sub 6)) (f := fun n : GoStr => n) (g := fun n => n)
        (Rel := ObjLooks hk) (shuffle (σ.sub 5).key st.premain) (fun i x _ st st' hr => addlStep_looks hf (hc c (.additional ha)) hr) 0 st st' h
      simpa only [List.map_id'] using this
  · exact ⟨rfl, h⟩

omit hf in
theorem depStep_looks (hc : ∀ c, o.Child c → Shadows hk (f c) (g c)) (σ : Sched) (i : Nat) (x : GoStr) {st st' : ObjSt} (h : EndLooks hk st st') :
    Paired hk (depStep (o.map f) σ i x st) (depStep (o.map g) σ i x st') (EndLooks hk) := by
  have edep : ∀ (f : Constraint → Sem) n, ObjC.GetSchemaDependency (o.map f) n = (o.GetSchemaDependency n).map f := fun f n =>
    alookup_map _ n o.schemadeps
  unfold depStep
  rw [show ObjC.GetPropDependencies (o.map f) x = ObjC.GetPropDependencies (o.map g) x from rfl]
  split
  · simp only [h.pseen]
    exact ⟨rfl, h.val, h.ne, h.pseen⟩
  · simp only [edep]
    cases hx : o.GetSchemaDependency x with
    | none => exact ⟨rfl, h⟩
    | some d =>
      simp only [Option.map_some]
      obtain ⟨h1, h2, h3⟩ := (hc d (.dependency hx)).run (σ.sub i) st.v st'.v h.val
      exact ⟨h1, h2, h3 h.ne, h.pseen⟩

theorem objLoops_looks (hc : ∀ c, o.Child c → Shadows hk (f c) (g c)) (σ : Sched) {st st' : ObjSt} (h : ObjLooks hk st st') :
    Paired hk (objLoopsH hk ext (o.map f) σ st) (objLoops ext (o.map g) σ st') (EndLooks hk) := by
  unfold objLoopsH objLoops
  refine seqSt_paired (Rel := ObjLooks hk) ?_ (fun st st' h => ?_) (fun _ _ h => h.toEnd)
  · have e : ∀ f : Constraint → Sem, shuffle (σ.sub 0).key (o.map f).props = (shuffle (σ.sub 0).key o.props).map fun p => (p.1, f p.2) := fun f => by
      rw [← shuffle_map]; rfl
    rw [e f, e g]
    exact forLoop_paired (f := fun p : GoStr × Constraint => (p.1, f p.2)) (g := fun p => (p.1, g p.2)) _
      (fun i x hx st st' hr => propStep_looks hf (hc x.2 (.prop (p := x.1) (mem_shuffle.1 hx))) hr) 0 st st' h
  refine seqSt_paired (Rel := ObjLooks hk) ?_ (fun st st' h => ?_) (fun _ _ h => h.toEnd)
  · have e : ∀ f : Constraint → Sem, shuffle (σ.sub 2).key (o.map f).patterns = (shuffle (σ.sub 2).key o.patterns).map fun p => (p.1, p.2.1, f p.2.2) := fun f => by
      rw [← shuffle_map]; rfl
    rw [e f, e g]
    refine forLoop_paired (f := fun p : Nat × GoStr × Constraint => (p.1, p.2.1, f p.2.2)) (g := fun p => (p.1, p.2.1, g p.2.2)) _
      (fun i x hx st st' hr => ?_) 0 st st' h
    unfold patOuterH patOuter
    simp only [← hr.premain]
    have := forLoop_paired (hk := hk) (step := patStepH hk ext x.2.1 (f x.2.2) ((σ.sub 4).sub i)) (step' := patStep ext x.2.1 (g x.2.2) ((σ.sub 4).sub i))
      (f := fun n : GoStr => n) (g := fun n => n) (Rel := ObjLooks hk) (shuffle ((σ.sub 3).sub i).key st.premain)
      (fun j y _ st st' hr => patStep_looks hf (hc x.2.2 (.pattern (id := x.1) (src := x.2.1) (mem_shuffle.1 hx))) hr) 0 st st' hr
    simpa only [List.map_id'] using this
  refine seqSt_paired (Rel := ObjLooks hk) (addlPhase_looks hf hc σ h) (fun st st' h => ?_) (fun _ _ h => h.toEnd)
  rw [← h.pseen]
  have := forLoop_paired (hk := hk) (step := depStep (o.map f) (σ.sub 8)) (step' := depStep (o.map g) (σ.sub 8))
      (f := fun n : GoStr => n) (g := fun n => n) (Rel := EndLooks hk) (shuffle (σ.sub 7).key st.pseen)
      (fun j y _ st st' hr => depStep_looks hc (σ.sub 8) j y hr) 0 st st' h.toEnd
  simpa only [List.map_id'] using this

theorem objectV_looks (hc : ∀ c, o.Child c → Shadows hk (f c) (g c)) (σ : Sched) {v w : GoVal} (h : Looks hk v w) :
    (objectVH hk ext (o.map f) σ v).1 = (objectV ext (o.map g) σ w).1 ∧
    Looks hk (objectVH hk ext (o.map f) σ v).2 (objectV ext (o.map g) σ w).2 ∧ (w ≠ .nil → (objectV ext (o.map g) σ w).2 ≠ .nil) := by
  by_cases hm : ∃ n kws, w = .map n kws
  · obtain ⟨n, kws, rfl⟩ := hm
    have hgp : getPropNames (valueOf (.map n kws)).indirect = .ok (kws.map (·.1)) := by simp [getPropNames, valueOf, RV.indirect]
    unfold objectVH objectV
    rw [h.names, hgp]
    simp only
    rw [show (o.map f).minProps = (o.map g).minProps from rfl, show (o.map f).maxProps = (o.map g).maxProps from rfl]
    split
    · exact ⟨rfl, h, id⟩
    · split
      · exact ⟨rfl, h, id⟩
      · have := objLoops_looks (ext := ext) hf hc σ (st := ⟨v, nameSet (kws.map (·.1)), []⟩) (st' := ⟨.map n kws, nameSet (kws.map (·.1)), []⟩)
          ⟨⟨n, kws, rfl, h⟩, rfl, rfl⟩
        exact ⟨this.res, this.rel.val, fun _ => this.rel.ne⟩
  · cases h with
    | scalar _ hs => cases hs <;> exact ⟨rfl, .scalar _ (by constructor), id⟩
    | slice n xs ys h1 h2 => exact ⟨rfl, .slice n xs ys h1 h2, id⟩
    | _ => exact absurd ⟨_, _, rfl⟩ hm

end

/-! ## Arrays -/

theorem Looks.slice_iff {n : Bool} {xs ys : List GoVal} : Looks hk (.slice n xs) (.slice n ys) ↔ List.Forall₂ (Looks hk) xs ys := by
  refine ⟨fun h => ?_, fun h => ?_⟩
  · cases h with
    | scalar _ h => cases h
    | slice _ _ _ h1 h2 =>
      rw [List.forall₂_iff_get]
      exact ⟨h1, fun i hx hy => h2 i _ _ (by simp [hx]) (by simp [hy])⟩
  · rw [List.forall₂_iff_get] at h
    refine .slice n xs ys h.1 fun i x y hx hy => ?_
    obtain ⟨h1, rfl⟩ := List.getElem?_eq_some_iff.1 hx
    obtain ⟨h2, rfl⟩ := List.getElem?_eq_some_iff.1 hy
    exact h.2 i h1 h2

theorem runItems_looks {s t : Sem} (h : Shadows hk s t) (σ : Sched) : ∀ {xs ys : List GoVal} (i : Nat), List.Forall₂ (Looks hk) xs ys →
    (runItems s σ i xs).1 = (runItems t σ i ys).1 ∧ List.Forall₂ (Looks hk) (runItems s σ i xs).2 (runItems t σ i ys).2
  | _, _, _, .nil => ⟨rfl, .nil⟩
  | _, _, i, .cons (a := x) (b := w) (l₁ := xs) (l₂ := ys) hx hxs => by
    have ih := runItems_looks h σ (i + 1) hxs
    have hr := h.run (σ.sub i) x w hx
    rw [runItems, runItems]
    rcases e1 : s.val (σ.sub i) x with ⟨r, y⟩
    rcases e2 : t.val (σ.sub i) w with ⟨r', y'⟩
    rw [e1, e2] at hr
    obtain ⟨hr1, hr2, -⟩ := hr
    simp only at hr1 hr2
    subst hr1
    cases r with
    | ok => exact ⟨ih.1, .cons hr2 ih.2⟩
    | err e => exact ⟨rfl, .cons hr2 hxs⟩
    | abort a => exact ⟨rfl, .cons hr2 hxs⟩

theorem runPos_looks {f g : Constraint → Sem} (σ : Sched) : ∀ (cs : List Constraint) {xs ys : List GoVal} (i : Nat),
    (∀ c ∈ cs, Shadows hk (f c) (g c)) → List.Forall₂ (Looks hk) xs ys →
    (runPos σ i (cs.map f) xs).1 = (runPos σ i (cs.map g) ys).1 ∧ List.Forall₂ (Looks hk) (runPos σ i (cs.map f) xs).2 (runPos σ i (cs.map g) ys).2
  | [], _, _, _, _, h => ⟨rfl, h⟩
  | c :: cs, _, _, _, _, .nil => ⟨rfl, .nil⟩
  | c :: cs, _, _, i, h, .cons (a := x) (b := w) (l₁ := xs) (l₂ := ys) hx hxs => by
    have ih := runPos_looks σ cs (i + 1) (fun d hd => h d (by simp [hd])) hxs
    have hr := (h c (by simp)).run (σ.sub i) x w hx
    rw [List.map_cons, List.map_cons, runPos, runPos]
    rcases e1 : (f c).val (σ.sub i) x with ⟨r, y⟩
    rcases e2 : (g c).val (σ.sub i) w with ⟨r', y'⟩
    rw [e1, e2] at hr
    obtain ⟨hr1, hr2, -⟩ := hr
    simp only at hr1 hr2
    subst hr1
    cases r with
    | ok => exact ⟨ih.1, .cons hr2 ih.2⟩
    | err e => exact ⟨rfl, .cons hr2 hxs⟩
    | abort a => exact ⟨rfl, .cons hr2 hxs⟩

theorem arrayElems_looks {a : ArrC Constraint} {f g : Constraint → Sem} (hc : ∀ c, a.Child c → Shadows hk (f c) (g c)) (σ : Sched)
    {xs ys : List GoVal} (hx : List.Forall₂ (Looks hk) xs ys) :
    (arrayElems (a.map f) σ xs).1 = (arrayElems (a.map g) σ ys).1 ∧ List.Forall₂ (Looks hk) (arrayElems (a.map f) σ xs).2 (arrayElems (a.map g) σ ys).2 := by
  obtain ⟨items, pos, add, mn, mx, u⟩ := a
  simp only [arrayElems, ArrC.map]
  cases items with
  | some c => exact runItems_looks (hc c (.items rfl)) _ 0 hx
  | none =>
    simp only [Option.map_none]
    have h1 := runPos_looks (f := f) (g := g) (σ.sub 1) pos 0 (fun c h => hc c (.positional h)) hx
    rcases e1 : runPos (σ.sub 1) 0 (pos.map f) xs with ⟨r, us⟩
    rcases e2 : runPos (σ.sub 1) 0 (pos.map g) ys with ⟨r', us'⟩
    rw [e1, e2] at h1
    obtain ⟨hr, hu⟩ := h1
    simp only at hr hu
    subst hr
    cases r with
    | err e => exact ⟨rfl, hu⟩
    | abort e => exact ⟨rfl, hu⟩
    | ok =>
      simp only [runAdditional, List.length_map, hu.length_eq]
      split
      · cases add with
        | none => exact ⟨rfl, hu⟩
        | some d =>
          simp only [Option.map_some]
          have := runItems_looks (hc d (.additional rfl)) (σ.sub 2) (pos.length - 1) (List.forall₂_drop (pos.length - 1) hu)
          exact ⟨this.1, List.rel_append (List.forall₂_take _ hu) this.2⟩
      · exact ⟨rfl, hu⟩

theorem arrayV_looks {a : ArrC Constraint} {f g : Constraint → Sem} (hu : a.unique = false) (hc : ∀ c, a.Child c → Shadows hk (f c) (g c)) (σ : Sched)
    {v w : GoVal} (h : Looks hk v w) : (arrayV ext (a.map f) σ v).1 = (arrayV ext (a.map g) σ w).1 ∧
    Looks hk (arrayV ext (a.map f) σ v).2 (arrayV ext (a.map g) σ w).2 ∧ (w ≠ .nil → (arrayV ext (a.map g) σ w).2 ≠ .nil) := by
  have h0 := h
  have e1 : ∀ f : Constraint → Sem, (a.map f).unique = false := fun _ => hu
  cases h with
  | scalar _ hs => cases hs <;> exact ⟨rfl, h0, id⟩
  | slice n xs ys hl hx =>
    have hxs := Looks.slice_iff.1 h0
    have h := arrayElems_looks hc σ hxs
    have hs := Looks.slice_iff (n := n).2 h.2
    simp only [arrayV, valueOf, hl, e1]
    rw [show (a.map f).minItems = (a.map g).minItems from rfl, show (a.map f).maxItems = (a.map g).maxItems from rfl]
    split
    · exact ⟨rfl, h0, id⟩
    · split
      · exact ⟨rfl, h0, id⟩
      · exact ⟨h.1, hs, fun _ => by simp⟩
  | _ => exact ⟨rfl, h0, id⟩

/-! ## Combinators -/

section
variable {f g : Constraint → Sem}

theorem anyLoop_looks : ∀ (cs : List Constraint), (∀ c ∈ cs, Shadows hk (f c) (g c)) → ∀ (i : Nat) (σ : Sched) (v w : GoVal), Looks hk v w →
    (anyLoop i (cs.map f) σ v).1 = (anyLoop i (cs.map g) σ w).1 ∧ Looks hk (anyLoop i (cs.map f) σ v).2 (anyLoop i (cs.map g) σ w).2 ∧
    (w ≠ .nil → (anyLoop i (cs.map g) σ w).2 ≠ .nil)
  | [], _, _, _, _, _, h => ⟨rfl, h, id⟩
  | c :: cs, hc, i, σ, v, w, h => by
    have hr := (hc c (by simp)).run (σ.sub i) v w h
    rw [List.map_cons, List.map_cons, anyLoop, anyLoop]
    simp only
    rcases e1 : (f c).val (σ.sub i) v with ⟨r, y⟩
    rcases e2 : (g c).val (σ.sub i) w with ⟨r', y'⟩
    rw [e1, e2] at hr
    obtain ⟨hr1, hr2, hr3⟩ := hr
    simp only at hr1 hr2 hr3
    subst hr1
    cases r with
    | ok => exact ⟨rfl, hr2, hr3⟩
    | err e =>
      obtain ⟨h1, h2, h3⟩ := anyLoop_looks cs (fun d hd => hc d (by simp [hd])) (i + 1) σ y y' hr2
      exact ⟨h1, h2, fun hw => h3 (hr3 hw)⟩
    | abort a => exact ⟨rfl, hr2, hr3⟩

theorem allLoop_looks : ∀ (cs : List Constraint), (∀ c ∈ cs, Shadows hk (f c) (g c)) → ∀ (i : Nat) (σ : Sched) (v w : GoVal), Looks hk v w →
    (allLoop i (cs.map f) σ v).1 = (allLoop i (cs.map g) σ w).1 ∧ Looks hk (allLoop i (cs.map f) σ v).2 (allLoop i (cs.map g) σ w).2 ∧
    (w ≠ .nil → (allLoop i (cs.map g) σ w).2 ≠ .nil)
  | [], _, _, _, _, _, h => ⟨rfl, h, id⟩
  | c :: cs, hc, i, σ, v, w, h => by
    have hr := (hc c (by simp)).run (σ.sub i) v w h
    rw [List.map_cons, List.map_cons, allLoop, allLoop]
    simp only
    rcases e1 : (f c).val (σ.sub i) v with ⟨r, y⟩
    rcases e2 : (g c).val (σ.sub i) w with ⟨r', y'⟩
    rw [e1, e2] at hr
    obtain ⟨hr1, hr2, hr3⟩ := hr
    simp only at hr1 hr2 hr3
    subst hr1
    cases r with
    | ok =>
      obtain ⟨h1, h2, h3⟩ := allLoop_looks cs (fun d hd => hc d (by simp [hd])) (i + 1) σ y y' hr2
      exact ⟨h1, h2, fun hw => h3 (hr3 hw)⟩
    | err e => exact ⟨rfl, hr2, hr3⟩
    | abort a => exact ⟨rfl, hr2, hr3⟩

theorem oneOfLoop_looks : ∀ (cs : List Constraint), (∀ c ∈ cs, Shadows hk (f c) (g c)) → ∀ (i n : Nat) (σ : Sched) (v w : GoVal), Looks hk v w →
    (oneOfLoop i n (cs.map f) σ v).1 = (oneOfLoop i n (cs.map g) σ w).1 ∧ Looks hk (oneOfLoop i n (cs.map f) σ v).2 (oneOfLoop i n (cs.map g) σ w).2 ∧
    (w ≠ .nil → (oneOfLoop i n (cs.map g) σ w).2 ≠ .nil)
  | [], _, _, n, _, _, _, h => by
    simp only [List.map_nil, oneOfLoop]
    split
    · exact ⟨rfl, h, id⟩
    · split <;> exact ⟨rfl, h, id⟩
  | c :: cs, hc, i, n, σ, v, w, h => by
    have hr := (hc c (by simp)).run (σ.sub i) v w h
    rw [List.map_cons, List.map_cons, oneOfLoop, oneOfLoop]
    simp only
    rcases e1 : (f c).val (σ.sub i) v with ⟨r, y⟩
    rcases e2 : (g c).val (σ.sub i) w with ⟨r', y'⟩
    rw [e1, e2] at hr
    obtain ⟨hr1, hr2, hr3⟩ := hr
    simp only at hr1 hr2 hr3
    subst hr1
    cases r with
    | ok =>
      obtain ⟨h1, h2, h3⟩ := oneOfLoop_looks cs (fun d hd => hc d (by simp [hd])) (i + 1) (n + 1) σ y y' hr2
      exact ⟨h1, h2, fun hw => h3 (hr3 hw)⟩
    | err e =>
      obtain ⟨h1, h2, h3⟩ := oneOfLoop_looks cs (fun d hd => hc d (by simp [hd])) (i + 1) n σ y y' hr2
      exact ⟨h1, h2, fun hw => h3 (hr3 hw)⟩
    | abort a => exact ⟨rfl, hr2, hr3⟩

theorem notV_looks {c : Option Constraint} (hc : ∀ d, c = some d → Shadows hk (f d) (g d)) (σ : Sched) {v w : GoVal} (h : Looks hk v w) :
    (notV (c.map f) σ v).1 = (notV (c.map g) σ w).1 ∧ Looks hk (notV (c.map f) σ v).2 (notV (c.map g) σ w).2 ∧
    (w ≠ .nil → (notV (c.map g) σ w).2 ≠ .nil) := by
  cases c with
  | none => exact ⟨rfl, h, id⟩
  | some d =>
    have hr := (hc d rfl).run (σ.sub 0) v w h
    simp only [notV, Option.map_some]
    rcases e1 : (f d).val (σ.sub 0) v with ⟨r, y⟩
    rcases e2 : (g d).val (σ.sub 0) w with ⟨r', y'⟩
    rw [e1, e2] at hr
    obtain ⟨hr1, hr2, hr3⟩ := hr
    simp only at hr1 hr2 hr3
    subst hr1
    cases r <;> exact ⟨rfl, hr2, hr3⟩

end

/-! ## Leaves -/

theorem enumCheck_looks : ∀ {vals : List GoVal}, (∀ e ∈ vals, IsScalar e) → ∀ {v w : GoVal}, Looks hk v w → enumCheck vals v = enumCheck vals w
  | [], _, _, _, _ => rfl
  | e :: es, he, v, w, h => by
    have hg : goEq e v = goEq e w := by
      have hs := he e (by simp)
      cases h with
      | scalar => rfl
      | _ => cases hs <;> rfl
    rw [enumCheck, enumCheck, hg, enumCheck_looks (fun d hd => he d (by simp [hd])) h]

/-! ## Trees -/

theorem shadows_pure {d : Dflt} {p : GoVal → Res} (hd : ∀ dv, d = .some dv → IsScalar dv ∧ dv ≠ .nil) (hp : ∀ v w, Looks hk v w → p v = p w) :
    Shadows hk ⟨d, pureV p⟩ ⟨d, pureV p⟩ :=
  ⟨rfl, hd, fun _ v w h => ⟨hp v w h, h, id⟩⟩

theorem shadows_none {p q : Validator} (h : ∀ σ v w, Looks hk v w → (p σ v).1 = (q σ w).1 ∧ Looks hk (p σ v).2 (q σ w).2 ∧
    (w ≠ .nil → (q σ w).2 ≠ .nil)) : Shadows hk ⟨.none, p⟩ ⟨.none, q⟩ :=
  ⟨rfl, fun _ h => (by cases h), h⟩

theorem ofOption_some {d : Option GoVal} {dv : GoVal} (h : Dflt.ofOption d = .some dv) : d = some dv := by
  cases d with
  | none => cases h
  | some x => cases h; rfl

theorem shadows_node (hf : hk.Faithful) {ρ ρ' : RefSem} {c : Constraint} (hb : c.Blind) (hρ : ∀ m n, c = .ref m n → Shadows hk (ρ m n) (ρ' m n))
    (ih : ∀ d, c.Child d → Shadows hk (denoteH hk ext ρ d) (denote ext ρ' d)) : Shadows hk (denoteH hk ext ρ c) (denote ext ρ' c) := by
  obtain ⟨hu, he, hd⟩ := hb
  cases c with
  | empty => exact shadows_none fun _ v w h => ⟨rfl, h, id⟩
  | null =>
    simp only [denoteH, denote]
    refine shadows_pure (fun _ h => by cases h) fun v w h => ?_
    cases h with
    | scalar => rfl
    | slice n => cases n <;> rfl
    | map n => cases n <;> rfl
    | _ => rfl
  | boolean d =>
    simp only [denoteH, denote]
    exact shadows_pure (fun dv h => hd dv (ofOption_some h)) fun v w h => by cases h <;> rfl
  | string s =>
    simp only [denoteH, denote]
    exact shadows_pure (fun dv h => hd dv (ofOption_some h)) fun v w h => by cases h <;> rfl
  | number s =>
    simp only [denoteH, denote]
    exact shadows_pure (fun dv h => hd dv (ofOption_some h)) fun v w h => by cases h <;> rfl
  | integer s =>
    simp only [denoteH, denote]
    exact shadows_pure (fun dv h => hd dv (ofOption_some h)) fun v w h => by cases h <;> rfl
  | enum vals =>
    simp only [denoteH, denote]
    exact shadows_pure (fun _ h => by cases h) fun v w h => enumCheck_looks (he vals rfl) h
  | array a =>
    rw [denoteH_array]
    simp only [denote, denoteArr_eq]
    exact shadows_none fun σ v w h => arrayV_looks (hu a rfl) (fun d hd => ih d (.array hd)) σ h
  | object o =>
    rw [denoteH_object]
    simp only [denote, denoteObj_eq]
    exact shadows_none fun σ v w h => objectV_looks hf (fun d hd => ih d (.object hd)) σ h
  | any cs =>
    simp only [denoteH, denote, denoteList_eq, denoteListH_eq]
    exact shadows_none fun σ v w h => anyLoop_looks cs (fun d hd => ih d (.any hd)) 0 σ v w h
  | all cs =>
    simp only [denoteH, denote, denoteList_eq, denoteListH_eq]
    exact shadows_none fun σ v w h => allLoop_looks cs (fun d hd => ih d (.all hd)) 0 σ v w h
  | oneOf cs =>
    simp only [denoteH, denote, denoteList_eq, denoteListH_eq]
    exact shadows_none fun σ v w h => oneOfLoop_looks cs (fun d hd => ih d (.oneOf hd)) 0 0 σ v w h
  | not c =>
    simp only [denoteH, denote, denoteOpt_eq, denoteOptH_eq]
    exact shadows_none fun σ v w h => notV_looks (fun d hd => ih d (by subst hd; exact .not)) σ h
  | ref m n =>
    simp only [denoteH, denote]
    exact hρ m n rfl

theorem shadows_tree (hf : hk.Faithful) {ρ ρ' : RefSem} (hρ : ∀ m n, Shadows hk (ρ m n) (ρ' m n)) (c : Constraint) (hb : c.Every Constraint.Blind) :
    Shadows hk (denoteH hk ext ρ c) (denote ext ρ' c) := by
  induction c using Constraint.ind with
  | h c ih =>
    exact shadows_node hf (hb c (.refl c)) (fun m n _ => hρ m n) fun d hd => ih d hd fun e he => hb e (.child hd he)

theorem shadows_ref (hf : hk.Faithful) {env : Env} (he : env.Every Constraint.Blind) : ∀ k m n, Shadows hk (refSemH hk ext env k m n) (refSem ext env k m n)
  | 0, _, _ => ⟨rfl, fun _ h => (by cases h), fun _ v w h => ⟨rfl, h, id⟩⟩
  | k + 1, m, n => by
    simp only [refSemH, refSem]
    cases hc : env m n with
    | none => exact ⟨rfl, fun _ h => (by cases h), fun _ v w h => ⟨rfl, h, id⟩⟩
    | some c => exact shadows_tree hf (shadows_ref hf he k) c (he m n c hc)

/-- The simulation. -/
theorem shadows_sem (hf : hk.Faithful) {env : Env} (he : env.Every Constraint.Blind) {c : Constraint} (hc : c.Every Constraint.Blind) (fuel : Nat) :
    Shadows hk (semH hk ext env fuel c) (sem ext env fuel c) :=
  shadows_tree hf (shadows_ref hf he fuel) c hc

end Jsval
