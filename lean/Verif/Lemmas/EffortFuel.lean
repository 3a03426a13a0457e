import Verif.Lemmas.Effort
import Verif.Lemmas.Refine
/-!
# The number of calls does not depend on fuel
-/
namespace Jsval

/-- `t` does what `s` does, with as many calls, wherever `s` comes back. -/
structure BelowC (A : Abort → Prop) (s t : Counted) : Prop where
  below : Below A s.sem t.sem
  calls : ∀ σ v, (s.sem.val σ v).1.Off A → t.calls σ v = s.calls σ v

variable {A : Abort → Prop} {C : Type} {f g : C → Counted}

/-- What a call in `s` may do, seen from `t`. -/
theorem BelowC.cases {s t : Counted} (h : BelowC A s t) (σ : Sched) (v : GoVal) :
    (t.sem.val σ v = s.sem.val σ v ∧ t.calls σ v = s.calls σ v) ∨ ∃ a v', A a ∧ s.sem.val σ v = (.abort a, v') := by
  rcases hs : s.sem.val σ v with ⟨r, v'⟩
  by_cases hr : ∃ a, A a ∧ r = .abort a
  · obtain ⟨a, ha, rfl⟩ := hr
    exact Or.inr ⟨a, v', ha, rfl⟩
  · left
    have hoff : (s.sem.val σ v).1.Off A := fun a ha he => hr ⟨a, ha, by rw [hs] at he; exact he⟩
    rw [← hs]
    exact ⟨h.below.val σ v hoff, h.calls σ v hoff⟩

theorem anyCalls_below (σ : Sched) : ∀ (cs : List C) (i : Nat) (v : GoVal), (∀ c ∈ cs, BelowC A (f c) (g c)) →
    (anyLoop i (cs.map (fun c => (f c).sem)) σ v).1.Off A → anyCalls i (cs.map g) σ v = anyCalls i (cs.map f) σ v
  | [], i, v, _, _ => rfl
  | c :: cs, i, v, hc, h => by
    simp only [List.map_cons, anyLoop, anyCalls] at h ⊢
    rcases (hc c (by simp)).cases (σ.sub i) v with ⟨e, e'⟩ | ⟨a, v', ha, e⟩
    · rw [e, e']
      rcases hx : (f c).sem.val (σ.sub i) v with ⟨r, x'⟩
      simp only [hx] at h ⊢
      cases r with
      | ok => rfl
      | abort a => rfl
      | err e => exact congrArg _ (anyCalls_below σ cs (i + 1) x' (fun c h => hc c (by simp [h])) h)
    · simp only [e] at h; exact absurd ha (Res.off_abort h)

theorem allCalls_below (σ : Sched) : ∀ (cs : List C) (i : Nat) (v : GoVal), (∀ c ∈ cs, BelowC A (f c) (g c)) →
    (allLoop i (cs.map (fun c => (f c).sem)) σ v).1.Off A → allCalls i (cs.map g) σ v = allCalls i (cs.map f) σ v
  | [], i, v, _, _ => rfl
  | c :: cs, i, v, hc, h => by
    simp only [List.map_cons, allLoop, allCalls] at h ⊢
    rcases (hc c (by simp)).cases (σ.sub i) v with ⟨e, e'⟩ | ⟨a, v', ha, e⟩
    · rw [e, e']
      rcases hx : (f c).sem.val (σ.sub i) v with ⟨r, x'⟩
      simp only [hx] at h ⊢
      cases r with
      | err e => rfl
      | abort a => rfl
      | ok => exact congrArg _ (allCalls_below σ cs (i + 1) x' (fun c h => hc c (by simp [h])) h)
    · simp only [e] at h; exact absurd ha (Res.off_abort h)

theorem oneOfCalls_below (σ : Sched) : ∀ (cs : List C) (i n : Nat) (v : GoVal), (∀ c ∈ cs, BelowC A (f c) (g c)) →
    (oneOfLoop i n (cs.map (fun c => (f c).sem)) σ v).1.Off A → oneOfCalls i (cs.map g) σ v = oneOfCalls i (cs.map f) σ v
  | [], i, n, v, _, _ => rfl
  | c :: cs, i, n, v, hc, h => by
    simp only [List.map_cons, oneOfLoop, oneOfCalls] at h ⊢
    rcases (hc c (by simp)).cases (σ.sub i) v with ⟨e, e'⟩ | ⟨a, v', ha, e⟩
    · rw [e, e']
      rcases hx : (f c).sem.val (σ.sub i) v with ⟨r, x'⟩
      simp only [hx] at h ⊢
      cases r with
      | abort a => rfl
      | ok => exact congrArg _ (oneOfCalls_below σ cs (i + 1) _ x' (fun c h => hc c (by simp [h])) h)
      | err e => exact congrArg _ (oneOfCalls_below σ cs (i + 1) _ x' (fun c h => hc c (by simp [h])) h)
    · simp only [e] at h; exact absurd ha (Res.off_abort h)

theorem notCalls_below (σ : Sched) (c : Option C) (v : GoVal) (hc : ∀ d, c = some d → BelowC A (f d) (g d))
    (h : (notV (c.map (fun c => (f c).sem)) σ v).1.Off A) : notCalls (c.map g) σ v = notCalls (c.map f) σ v := by
  cases c with
  | none => rfl
  | some c =>
    simp only [Option.map_some, notV, notCalls] at h ⊢
    rcases (hc c rfl).cases (σ.sub 0) v with ⟨e, e'⟩ | ⟨a, v', ha, e⟩
    · rw [e']
    · simp only [e] at h; exact absurd ha (Res.off_abort h)

theorem itemsCalls_below {c d : Counted} (hc : BelowC A c d) (σ : Sched) : ∀ (xs : List GoVal) (i : Nat),
    (runItems c.sem σ i xs).1.Off A → itemsCalls d σ i xs = itemsCalls c σ i xs
  | [], _, _ => rfl
  | x :: xs, i, h => by
    simp only [runItems, itemsCalls] at h ⊢
    rcases hc.cases (σ.sub i) x with ⟨e, e'⟩ | ⟨a, v', ha, e⟩
    · rw [e, e']
      rcases hx : c.sem.val (σ.sub i) x with ⟨r, x'⟩
      simp only [hx] at h ⊢
      cases r with
      | err e => rfl
      | abort a => rfl
      | ok => simp only at h ⊢; rw [itemsCalls_below hc σ xs (i + 1) h]
    · simp only [e] at h; exact absurd ha (Res.off_abort h)

theorem posCalls_below (σ : Sched) : ∀ (cs : List C) (xs : List GoVal) (i : Nat), (∀ c ∈ cs, BelowC A (f c) (g c)) →
    (runPos σ i (cs.map (fun c => (f c).sem)) xs).1.Off A → posCalls σ i (cs.map g) xs = posCalls σ i (cs.map f) xs
  | [], _, _, _, _ => rfl
  | _ :: _, [], _, _, _ => rfl
  | c :: cs, x :: xs, i, hc, h => by
    simp only [List.map_cons, runPos, posCalls] at h ⊢
    rcases (hc c (by simp)).cases (σ.sub i) x with ⟨e, e'⟩ | ⟨a, v', ha, e⟩
    · rw [e, e']
      rcases hx : (f c).sem.val (σ.sub i) x with ⟨r, x'⟩
      simp only [hx] at h ⊢
      cases r with
      | err e => rfl
      | abort a => rfl
      | ok => simp only at h ⊢; rw [posCalls_below σ cs xs (i + 1) (fun c h => hc c (by simp [h])) h]
    · simp only [e] at h; exact absurd ha (Res.off_abort h)

theorem elemsCalls_below (a : ArrC C) (hc : ∀ c, a.Child c → BelowC A (f c) (g c)) (σ : Sched) (xs : List GoVal)
    (h : (arrayElems (a.map (fun c => (f c).sem)) σ xs).1.Off A) : elemsCalls (a.map g) σ xs = elemsCalls (a.map f) σ xs := by
  obtain ⟨items, pos, add, mn, mx, u⟩ := a
  unfold arrayElems at h
  unfold elemsCalls
  simp only [ArrC.map] at h ⊢
  cases items with
  | some c =>
    simp only [Option.map_some] at h ⊢
    exact itemsCalls_below (hc c (.items rfl)) _ _ _ h
  | none =>
    simp only [Option.map_none, List.map_map] at h ⊢
    have hp := runPos_below (f := fun c => (f c).sem) (g := fun c => (g c).sem) (A := A) (σ.sub 1) pos xs 0 (fun c h => (hc c (.positional h)).below)
    have hp' := posCalls_below (f := f) (g := g) (A := A) (σ.sub 1) pos xs 0 (fun c h => hc c (.positional h))
    change (runPos (σ.sub 1) 0 (pos.map (fun c => (f c).sem)) xs).1.Off A →
      runPos (σ.sub 1) 0 (pos.map (Counted.sem ∘ g)) xs = runPos (σ.sub 1) 0 (pos.map (Counted.sem ∘ f)) xs at hp
    rcases hx : runPos (σ.sub 1) 0 (pos.map (fun c => (f c).sem)) xs with ⟨r, ys⟩
    simp only [hx] at h
    have hoff : r.Off A := by
      cases r with
      | ok => exact Res.off_ok
      | err e => exact Res.off_err
      | abort a => exact h
    rw [hp (by rw [hx]; exact hoff), hp' (by rw [hx]; exact hoff), show runPos (σ.sub 1) 0 (pos.map (Counted.sem ∘ f)) xs = (r, ys) from hx]
    cases r with
    | err e => rfl
    | abort a => rfl
    | ok =>
      simp only at h ⊢
      unfold runAdditional at h
      unfold additionalCalls
      simp only [List.length_map] at h ⊢
      split
      · rename_i hl
        rw [if_pos hl] at h
        cases add with
        | none => rfl
        | some c =>
          simp only [Option.map_some] at h ⊢
          rw [itemsCalls_below (hc c (.additional rfl)) _ _ _ h]
      · rfl

theorem arrayCalls_below {ext : Ext} (a : ArrC C) (hc : ∀ c, a.Child c → BelowC A (f c) (g c)) (σ : Sched) (v : GoVal)
    (h : (arrayV ext (a.map (fun c => (f c).sem)) σ v).1.Off A) : arrayCalls ext (a.map g) σ v = arrayCalls ext (a.map f) σ v := by
  unfold arrayV at h
  unfold arrayCalls
  have e1 : ∀ {D : Type} (φ : C → D), (a.map φ).minItems = a.minItems := fun _ => rfl
  have e2 : ∀ {D : Type} (φ : C → D), (a.map φ).maxItems = a.maxItems := fun _ => rfl
  have e3 : ∀ {D : Type} (φ : C → D), (a.map φ).unique = a.unique := fun _ => rfl
  simp only [e1, e2, e3] at h ⊢
  cases hv : valueOf v with
  | none => rfl
  | some x =>
    cases x with
    | slice n xs =>
      simp only [hv] at h ⊢
      by_cases h1 : a.minItems > -1 ∧ (xs.length : Int) < a.minItems
      · simp only [if_pos h1]
      by_cases h2 : a.maxItems > -1 ∧ (xs.length : Int) > a.maxItems
      · simp only [if_neg h1, if_pos h2]
      by_cases h3 : a.unique ∧ uniqueLoop ext [] xs = false
      · simp only [if_neg h1, if_neg h2, if_pos h3]
      simp only [if_neg h1, if_neg h2, if_neg h3] at h ⊢
      rw [elemsCalls_below a hc σ xs h]
    | _ => rfl

/-! ## Objects -/

theorem forCalls_below {α S : Type} {step step' : Nat → α → S → Res × S} {cost cost' : Nat → α → S → Nat} : ∀ (l : List α) (i : Nat) (s : S),
    (∀ i, ∀ a ∈ l, ∀ s, (step i a s).1.Off A → step' i a s = step i a s ∧ cost' i a s = cost i a s) →
    (forLoop step i l s).1.Off A → forCalls step' cost' i l s = forCalls step cost i l s
  | [], _, _, _, _ => rfl
  | a :: l, i, s, hs, h => by
    unfold forLoop at h
    unfold forCalls
    rcases hx : step i a s with ⟨r, s'⟩
    rw [hx] at h
    cases r with
    | ok =>
      obtain ⟨h1, h2⟩ := hs i a (by simp) s (by rw [hx]; exact Res.off_ok)
      rw [h1, h2, hx]
      exact congrArg _ (forCalls_below l (i + 1) s' (fun i a h => hs i a (by simp [h])) h)
    | err e =>
      obtain ⟨h1, h2⟩ := hs i a (by simp) s (by rw [hx]; exact Res.off_err)
      rw [h1, h2, hx]
    | abort e =>
      obtain ⟨h1, h2⟩ := hs i a (by simp) s (by rw [hx]; exact h)
      rw [h1, h2, hx]

theorem propCalls_below {ext : Ext} (o : ObjC Sem) {c d : Counted} (hc : BelowC A c d) (σ : Sched) (i : Nat) (p : GoStr) (st : ObjSt)
    (h : (propStep ext o σ i (p, c.sem) st).1.Off A) : propCalls σ i (p, d) st = propCalls σ i (p, c) st := by
  unfold propStep at h
  unfold propCalls
  rcases hv : viewProp (valueOf st.v).indirect p with a | w
  · simp only [hv]
  · cases w with
    | absent => simp only [hv]
    | present x stored =>
      rcases hx : c.sem.val (σ.sub i) x with ⟨r, x'⟩
      simp only [hv, hx] at h ⊢
      rcases hc.cases (σ.sub i) x with ⟨-, e⟩ | ⟨a, v', ha, e⟩
      · exact e
      · rw [hx] at e; cases e; exact absurd ha (Res.off_abort h)

theorem patCalls_below {ext : Ext} {src : GoStr} {c d : Counted} (hc : BelowC A c d) (σ : Sched) (i : Nat) (p : GoStr) (st : ObjSt)
    (h : (patStep ext src c.sem σ i p st).1.Off A) : patCalls ext src d σ i p st = patCalls ext src c σ i p st := by
  unfold patStep at h
  unfold patCalls
  split
  · rfl
  · rename_i hm
    rw [if_neg hm] at h
    rcases hv : getProp (valueOf st.v).indirect p with a | w
    · simp only
    · cases w with
      | none => simp only
      | some x =>
        rcases hx : c.sem.val (σ.sub i) x with ⟨r, x'⟩
        simp only [hv, hx] at h ⊢
        rcases hc.cases (σ.sub i) x with ⟨-, e⟩ | ⟨a, v', ha, e⟩
        · exact e
        · rw [hx] at e; cases e; exact absurd ha (Res.off_abort h)

theorem addlCalls_below {c d : Counted} (hc : BelowC A c d) (σ : Sched) (i : Nat) (p : GoStr) (st : ObjSt)
    (h : (addlStep c.sem σ i p st).1.Off A) : addlCalls d σ i p st = addlCalls c σ i p st := by
  unfold addlStep at h
  unfold addlCalls
  rcases hv : getProp (valueOf st.v).indirect p with a | w
  · simp only
  · cases w with
    | none => simp only
    | some x =>
      rcases hx : c.sem.val (σ.sub i) x with ⟨r, x'⟩
      simp only [hv, hx] at h ⊢
      rcases hc.cases (σ.sub i) x with ⟨-, e⟩ | ⟨a, v', ha, e⟩
      · exact e
      · rw [hx] at e; cases e; exact absurd ha (Res.off_abort h)

theorem addlPhaseCalls_below (o : ObjC C) (hc : ∀ c, o.Child c → BelowC A (f c) (g c)) (σ : Sched) (st : ObjSt)
    (h : (addlPhase (o.map (fun c => (f c).sem)) σ st).1.Off A) : addlPhaseCalls (o.map g) σ st = addlPhaseCalls (o.map f) σ st := by
  obtain ⟨ps, pats, add, req, pd, sd, mn, mx⟩ := o
  unfold addlPhase at h
  unfold addlPhaseCalls
  split
  · rename_i hl
    rw [if_pos hl] at h
    simp only [ObjC.map] at h ⊢
    cases add with
    | none => rfl
    | some c =>
      simp only [Option.map_some] at h ⊢
      exact forCalls_below _ _ _ (fun i a _ s hs =>
        ⟨addlStep_below (hc c (.additional rfl)).below _ _ _ _ hs, addlCalls_below (hc c (.additional rfl)) _ _ _ _ hs⟩) h
  · rfl

theorem depCalls_below (o : ObjC C) (hc : ∀ c, o.Child c → BelowC A (f c) (g c)) (σ : Sched) (i : Nat) (p : GoStr) (st : ObjSt)
    (h : (depStep (o.map (fun c => (f c).sem)) σ i p st).1.Off A) : depCalls (o.map g) σ i p st = depCalls (o.map f) σ i p st := by
  have hs : ∀ {D : Type} (φ : C → D), (o.map φ).GetSchemaDependency p = (o.GetSchemaDependency p).map φ := by
    intro D φ; unfold ObjC.GetSchemaDependency; simp only [ObjC.map]; rw [alookup_map]
  have hp : ∀ {D : Type} (φ : C → D), (o.map φ).GetPropDependencies p = o.GetPropDependencies p := fun _ => rfl
  unfold depStep at h
  unfold depCalls
  simp only [hp, hs] at h ⊢
  by_cases hd : o.GetPropDependencies p ≠ []
  · simp only [if_pos hd]
  · simp only [if_neg hd] at h ⊢
    cases hx : o.GetSchemaDependency p with
    | none => rfl
    | some c =>
      rcases hcv : (f c).sem.val (σ.sub i) st.v with ⟨r, x'⟩
      simp only [hx, Option.map_some, hcv] at h ⊢
      rcases (hc c (.dependency hx)).cases (σ.sub i) st.v with ⟨-, e⟩ | ⟨a, v', ha, e⟩
      · exact e
      · rw [hcv] at e; cases e; exact absurd ha (Res.off_abort h)

theorem seqCalls_below {n n' : Nat} {r r' : Res × ObjSt} {k k' : ObjSt → Nat} {l : ObjSt → Res × ObjSt} (hn : r.1.Off A → n' = n ∧ r' = r)
    (hk : ∀ st, (l st).1.Off A → k' st = k st) (h : (seqSt r l).1.Off A) : seqCalls n' r' k' = seqCalls n r k := by
  rcases r with ⟨x, st⟩
  cases x with
  | ok => obtain ⟨rfl, rfl⟩ := hn Res.off_ok; exact congrArg (n' + ·) (hk st h)
  | err e => obtain ⟨rfl, rfl⟩ := hn Res.off_err; rfl
  | abort a => obtain ⟨rfl, rfl⟩ := hn h; rfl

theorem ObjC.map_sem (o : ObjC C) (f : C → Counted) : (o.map f).map Counted.sem = o.map (fun c => (f c).sem) := by
  simp [ObjC.map, Function.comp_def]

theorem loopsCalls_below {ext : Ext} (o : ObjC C) (hc : ∀ c, o.Child c → BelowC A (f c) (g c)) (σ : Sched) (st : ObjSt)
    (h : (objLoops ext (o.map (fun c => (f c).sem)) σ st).1.Off A) : loopsCalls ext (o.map g) σ st = loopsCalls ext (o.map f) σ st := by
  have hb : ∀ c, o.Child c → Below A (f c).sem (g c).sem := fun c h => (hc c h).below
  unfold objLoops at h
  unfold loopsCalls
  have e1 : ∀ {D : Type} (φ : C → D), (o.map φ).props = o.props.map (fun p => (p.1, φ p.2)) := fun _ => rfl
  have e2 : ∀ {D : Type} (φ : C → D), (o.map φ).patterns = o.patterns.map (fun p => (p.1, p.2.1, φ p.2.2)) := fun _ => rfl
  simp only [ObjC.map_sem, e1, e2, shuffle_map, forCalls_map, forLoop_map] at h ⊢
  refine seqCalls_below (fun h => ⟨?_, ?_⟩) ?_ h
  · exact forCalls_below _ _ _ (fun i a ha s hs =>
      ⟨propStep_below (f := fun c => (f c).sem) (g := fun c => (g c).sem) o (hb a.2 (.prop (mem_shuffle.1 ha))) _ _ _ _ hs,
        propCalls_below _ (hc a.2 (.prop (mem_shuffle.1 ha))) _ _ _ _ hs⟩) h
  · exact forLoop_below _ _ _ (fun i a ha s =>
      propStep_below (f := fun c => (f c).sem) (g := fun c => (g c).sem) o (hb a.2 (.prop (mem_shuffle.1 ha))) _ _ _ _) h
  intro st h
  refine seqCalls_below (fun h => ⟨?_, ?_⟩) ?_ h
  · refine forCalls_below _ _ _ (fun i a ha s hs => ⟨?_, ?_⟩) h
    · exact forLoop_below _ _ _ (fun i k _ s => patStep_below (hb a.2.2 (.pattern (mem_shuffle.1 ha))) _ _ _ _) hs
    · exact forCalls_below _ _ _ (fun i k _ s hs => ⟨patStep_below (hb a.2.2 (.pattern (mem_shuffle.1 ha))) _ _ _ _ hs,
        patCalls_below (hc a.2.2 (.pattern (mem_shuffle.1 ha))) _ _ _ _ hs⟩) hs
  · refine forLoop_below _ _ _ (fun i a ha s => ?_) h
    exact forLoop_below _ _ _ (fun i k _ s => patStep_below (hb a.2.2 (.pattern (mem_shuffle.1 ha))) _ _ _ _)
  intro st h
  refine seqCalls_below (fun h => ⟨addlPhaseCalls_below o hc σ st h, addlPhase_below o hb σ st h⟩) ?_ h
  intro st h
  exact forCalls_below _ _ _ (fun i k _ s hs => ⟨depStep_below o hb _ _ _ _ hs, depCalls_below o hc _ _ _ _ hs⟩) h

theorem objectCalls_below {ext : Ext} (o : ObjC C) (hc : ∀ c, o.Child c → BelowC A (f c) (g c)) (σ : Sched) (v : GoVal)
    (h : (objectV ext (o.map (fun c => (f c).sem)) σ v).1.Off A) : objectCalls ext (o.map g) σ v = objectCalls ext (o.map f) σ v := by
  unfold objectV at h
  unfold objectCalls
  split
  · rfl
  · rename_i fields hn
    simp only [hn] at h
    have e1 : ∀ {D : Type} (φ : C → D), (o.map φ).minProps = o.minProps := fun _ => rfl
    have e2 : ∀ {D : Type} (φ : C → D), (o.map φ).maxProps = o.maxProps := fun _ => rfl
    simp only [e1, e2] at h ⊢
    split
    · rfl
    · rename_i h1
      rw [if_neg h1] at h
      split
      · rfl
      · rename_i h2
        rw [if_neg h2] at h
        rw [loopsCalls_below o hc σ _ h]

/-! ## Trees and fuel -/

theorem counted_below {ext : Ext} {ρ ρ' : RefSem} {κ κ' : Nat → GoStr → Sched → GoVal → Nat} (hρ : ∀ m n, BelowC A ⟨ρ m n, κ m n⟩ ⟨ρ' m n, κ' m n⟩)
    (c : Constraint) : BelowC A (counted ext ρ κ c) (counted ext ρ' κ' c) := by
  refine ⟨denote_below (fun m n => (hρ m n).below) c, ?_⟩
  induction c using Constraint.ind with
  | h c ih =>
  have ih' : ∀ d, c.Child d → BelowC A (counted ext ρ κ d) (counted ext ρ' κ' d) := fun d hd =>
    ⟨denote_below (fun m n => (hρ m n).below) d, ih d hd⟩
  intro σ v h
  simp only [counted] at h ⊢
  cases c with
  | array a =>
    rw [denote_array] at h
    simp only [callsOf, countArr_eq]
    exact congrArg _ (arrayCalls_below a (fun c hc => ih' c (.array hc)) σ v h)
  | object o =>
    rw [denote_object] at h
    simp only [callsOf, countObj_eq]
    exact congrArg _ (objectCalls_below o (fun c hc => ih' c (.object hc)) σ v h)
  | any cs =>
    rw [denote_any] at h
    simp only [callsOf, countList_eq]
    exact congrArg _ (anyCalls_below σ cs 0 v (fun c hc => ih' c (.any hc)) h)
  | all cs =>
    rw [denote_all] at h
    simp only [callsOf, countList_eq]
    exact congrArg _ (allCalls_below σ cs 0 v (fun c hc => ih' c (.all hc)) h)
  | oneOf cs =>
    rw [denote_oneOf] at h
    simp only [callsOf, countList_eq]
    exact congrArg _ (oneOfCalls_below σ cs 0 0 v (fun c hc => ih' c (.oneOf hc)) h)
  | not c =>
    rw [denote_not] at h
    simp only [callsOf, countOpt_eq]
    exact congrArg _ (notCalls_below σ c v (fun d hd => ih' d (by subst hd; exact .not)) h)
  | ref m n =>
    simp only [callsOf]
    exact (hρ m n).calls σ v h
  | _ => simp only [callsOf]

theorem refCalls_below {ext : Ext} {env : Env} : ∀ {k k' : Nat}, k ≤ k' → ∀ m n,
    BelowC (· = .diverge) ⟨refSem ext env k m n, refCalls ext env k m n⟩ ⟨refSem ext env k' m n, refCalls ext env k' m n⟩
  | 0, k', _, m, n => ⟨refSem_below (Nat.zero_le _) m n, fun σ v h => absurd rfl (h .diverge rfl)⟩
  | k + 1, 0, h, m, n => by omega
  | k + 1, k' + 1, h, m, n => by
    refine ⟨refSem_below h m n, fun σ v h' => ?_⟩
    simp only [refSem, refCalls] at h' ⊢
    cases he : env m n with
    | none => rfl
    | some c =>
      simp only [he] at h' ⊢
      exact congrArg _ ((counted_below (refCalls_below (by omega)) c).calls σ v h')

theorem callCount_below {ext : Ext} {env : Env} {k k' : Nat} (h : k ≤ k') {c : Constraint} {σ : Sched} {v : GoVal}
    (hd : ((sem ext env k c).val σ v).1 ≠ .abort .diverge) : callCount ext env k' c σ v = callCount ext env k c σ v :=
  (counted_below (refCalls_below h) c).calls σ v (by rintro a rfl; exact hd)

end Jsval
