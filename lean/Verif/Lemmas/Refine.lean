import Verif.Lemmas.Induct
import Verif.Lemmas.Loop
import Verif.Lemmas.Sched
import Verif.Lemmas.Basic
/-!
# Monotonicity

`Below A s t`: `t` does what `s` does wherever `s` does not stop with an abort in `A`. All validators are monotone in
their children; with `A` = "still running" this is monotonicity in fuel.
-/
namespace Jsval

/-- The outcome is not an abort in `A`. -/
def Res.Off (A : Abort → Prop) (r : Res) : Prop := ∀ a, A a → r ≠ .abort a

/-- `t` agrees with `s` wherever `s` comes back. -/
structure Below (A : Abort → Prop) (s t : Sem) : Prop where
  dflt : (∀ a, A a → s.dflt ≠ .abort a) → t.dflt = s.dflt
  val : ∀ σ v, (s.val σ v).1.Off A → t.val σ v = s.val σ v

variable {A : Abort → Prop} {C : Type} {f g : C → Sem}

theorem Below.refl (s : Sem) : Below A s s := ⟨fun _ => rfl, fun _ _ _ => rfl⟩

theorem Below.trans {s t u : Sem} (h : Below A s t) (h' : Below A t u) : Below A s u :=
  ⟨fun hs => by rw [h'.dflt (by rw [h.dflt hs]; exact hs), h.dflt hs],
    fun σ v hs => by rw [h'.val σ v (by rw [h.val σ v hs]; exact hs), h.val σ v hs]⟩

theorem Res.off_abort {a : Abort} (h : (Res.abort a).Off A) : ¬ A a := fun ha => h a ha rfl

theorem Res.off_ok : Res.ok.Off A := fun _ _ h => by cases h
theorem Res.off_err {e : Err} : (Res.err e).Off A := fun _ _ h => by cases h
theorem Res.off_iff {a b : Abort} (h : ¬ A a) : (Res.abort a).Off A := fun c hc he => by cases he; exact h hc

/-- What a call in `s` may do, seen from `t`. -/
theorem Below.cases {s t : Sem} (h : Below A s t) (σ : Sched) (v : GoVal) :
    t.val σ v = s.val σ v ∨ ∃ a v', A a ∧ s.val σ v = (.abort a, v') := by
  rcases hs : s.val σ v with ⟨r, v'⟩
  by_cases hr : ∃ a, A a ∧ r = .abort a
  · obtain ⟨a, ha, rfl⟩ := hr
    exact Or.inr ⟨a, v', ha, rfl⟩
  · left
    rw [← hs]
    exact h.val σ v (fun a ha he => hr ⟨a, ha, by rw [hs] at he; exact he⟩)

theorem anyLoop_below (σ : Sched) : ∀ (cs : List C) (i : Nat) (v : GoVal), (∀ c ∈ cs, Below A (f c) (g c)) →
    (anyLoop i (cs.map f) σ v).1.Off A → anyLoop i (cs.map g) σ v = anyLoop i (cs.map f) σ v
  | [], i, v, _, _ => rfl
  | c :: cs, i, v, hc, h => by
    simp only [List.map_cons, anyLoop] at h ⊢
    rcases (hc c (by simp)).cases (σ.sub i) v with e | ⟨a, v', ha, e⟩
    · rw [e]
      rcases hx : (f c).val (σ.sub i) v with ⟨r, x'⟩
      simp only [hx] at h ⊢
      cases r with
      | ok => rfl
      | abort a => rfl
      | err e => exact anyLoop_below σ cs (i + 1) x' (fun c h => hc c (by simp [h])) h
    · simp only [e] at h; exact absurd ha (Res.off_abort h)

theorem allLoop_below (σ : Sched) : ∀ (cs : List C) (i : Nat) (v : GoVal), (∀ c ∈ cs, Below A (f c) (g c)) →
    (allLoop i (cs.map f) σ v).1.Off A → allLoop i (cs.map g) σ v = allLoop i (cs.map f) σ v
  | [], i, v, _, _ => rfl
  | c :: cs, i, v, hc, h => by
    simp only [List.map_cons, allLoop] at h ⊢
    rcases (hc c (by simp)).cases (σ.sub i) v with e | ⟨a, v', ha, e⟩
    · rw [e]
      rcases hx : (f c).val (σ.sub i) v with ⟨r, x'⟩
      simp only [hx] at h ⊢
      cases r with
      | err e => rfl
      | abort a => rfl
      | ok => exact allLoop_below σ cs (i + 1) x' (fun c h => hc c (by simp [h])) h
    · simp only [e] at h; exact absurd ha (Res.off_abort h)

theorem oneOfLoop_below (σ : Sched) : ∀ (cs : List C) (i n : Nat) (v : GoVal), (∀ c ∈ cs, Below A (f c) (g c)) →
    (oneOfLoop i n (cs.map f) σ v).1.Off A → oneOfLoop i n (cs.map g) σ v = oneOfLoop i n (cs.map f) σ v
  | [], i, n, v, _, _ => rfl
  | c :: cs, i, n, v, hc, h => by
    simp only [List.map_cons, oneOfLoop] at h ⊢
    rcases (hc c (by simp)).cases (σ.sub i) v with e | ⟨a, v', ha, e⟩
    · rw [e]
      rcases hx : (f c).val (σ.sub i) v with ⟨r, x'⟩
      simp only [hx] at h ⊢
      cases r with
      | abort a => rfl
      | ok => exact oneOfLoop_below σ cs (i + 1) _ x' (fun c h => hc c (by simp [h])) h
      | err e => exact oneOfLoop_below σ cs (i + 1) _ x' (fun c h => hc c (by simp [h])) h
    · simp only [e] at h; exact absurd ha (Res.off_abort h)

theorem notV_below (σ : Sched) (c : Option C) (v : GoVal) (hc : ∀ d, c = some d → Below A (f d) (g d))
    (h : (notV (c.map f) σ v).1.Off A) : notV (c.map g) σ v = notV (c.map f) σ v := by
  cases c with
  | none => rfl
  | some c =>
    simp only [Option.map_some, notV] at h ⊢
    rcases (hc c rfl).cases (σ.sub 0) v with e | ⟨a, v', ha, e⟩
    · rw [e]
    · simp only [e] at h; exact absurd ha (Res.off_abort h)

theorem runItems_below {c d : Sem} (hc : Below A c d) (σ : Sched) : ∀ (xs : List GoVal) (i : Nat),
    (runItems c σ i xs).1.Off A → runItems d σ i xs = runItems c σ i xs
  | [], _, _ => rfl
  | x :: xs, i, h => by
    simp only [runItems] at h ⊢
    rcases hc.cases (σ.sub i) x with e | ⟨a, v', ha, e⟩
    · rw [e]
      rcases hx : c.val (σ.sub i) x with ⟨r, x'⟩
      simp only [hx] at h ⊢
      cases r with
      | err e => rfl
      | abort a => rfl
      | ok => simp only at h ⊢; rw [runItems_below hc σ xs (i + 1) h]
    · simp only [e] at h; exact absurd ha (Res.off_abort h)

theorem runPos_below (σ : Sched) : ∀ (cs : List C) (xs : List GoVal) (i : Nat), (∀ c ∈ cs, Below A (f c) (g c)) →
    (runPos σ i (cs.map f) xs).1.Off A → runPos σ i (cs.map g) xs = runPos σ i (cs.map f) xs
  | [], _, _, _, _ => rfl
  | _ :: _, [], _, _, _ => rfl
  | c :: cs, x :: xs, i, hc, h => by
    simp only [List.map_cons, runPos] at h ⊢
    rcases (hc c (by simp)).cases (σ.sub i) x with e | ⟨a, v', ha, e⟩
    · rw [e]
      rcases hx : (f c).val (σ.sub i) x with ⟨r, x'⟩
      simp only [hx] at h ⊢
      cases r with
      | err e => rfl
      | abort a => rfl
      | ok => simp only at h ⊢; rw [runPos_below σ cs xs (i + 1) (fun c h => hc c (by simp [h])) h]
    · simp only [e] at h; exact absurd ha (Res.off_abort h)

theorem arrayElems_below (a : ArrC C) (hc : ∀ c, a.Child c → Below A (f c) (g c)) (σ : Sched) (xs : List GoVal)
    (h : (arrayElems (a.map f) σ xs).1.Off A) : arrayElems (a.map g) σ xs = arrayElems (a.map f) σ xs := by
  obtain ⟨items, pos, add, mn, mx, u⟩ := a
  unfold arrayElems at h ⊢
  simp only [ArrC.map] at h ⊢
  cases items with
  | some c =>
    simp only [Option.map_some] at h ⊢
    exact runItems_below (hc c (.items rfl)) _ _ _ h
  | none =>
    simp only [Option.map_none] at h ⊢
    have hp := runPos_below (f := f) (g := g) (A := A) (σ.sub 1) pos xs 0 (fun c h => hc c (.positional h))
    rcases hx : runPos (σ.sub 1) 0 (pos.map f) xs with ⟨r, ys⟩
    simp only [hx] at h
    have hoff : r.Off A := by
      cases r with
      | ok => exact Res.off_ok
      | err e => exact Res.off_err
      | abort a => exact h
    rw [hp (by rw [hx]; exact hoff), hx]
    cases r with
    | err e => rfl
    | abort a => rfl
    | ok =>
      simp only at h ⊢
      unfold runAdditional at h ⊢
      simp only [List.length_map] at h ⊢
      split
      · rename_i hl
        rw [if_pos hl] at h
        cases add with
        | none => rfl
        | some c =>
          simp only [Option.map_some] at h ⊢
          rw [runItems_below (hc c (.additional rfl)) _ _ _ h]
      · rfl

theorem arrayV_below {ext : Ext} (a : ArrC C) (hc : ∀ c, a.Child c → Below A (f c) (g c)) (σ : Sched) (v : GoVal)
    (h : (arrayV ext (a.map f) σ v).1.Off A) : arrayV ext (a.map g) σ v = arrayV ext (a.map f) σ v := by
  unfold arrayV at h ⊢
  have e1 : ∀ φ : C → Sem, (a.map φ).minItems = a.minItems := fun _ => rfl
  have e2 : ∀ φ : C → Sem, (a.map φ).maxItems = a.maxItems := fun _ => rfl
  have e3 : ∀ φ : C → Sem, (a.map φ).unique = a.unique := fun _ => rfl
  simp only [e1, e2, e3] at h ⊢
  cases hv : valueOf v with
  | none => rfl
  | some x =>
    cases x with
    | slice n xs =>
      simp only [hv] at h ⊢
      by_cases h1 : a.minItems > -1 ∧ (xs.length : Int) < a.minItems
      · simp only [if_pos h1]
      by_cases h2 : a.maxItems > -1 ∧ (xs.length : Int) > a.maxItems
      · simp only [if_neg h1, if_pos h2]
      by_cases h3 : a.unique ∧ uniqueLoop ext [] xs = false
      · simp only [if_neg h1, if_neg h2, if_pos h3]
      simp only [if_neg h1, if_neg h2, if_neg h3] at h ⊢
      rw [arrayElems_below a hc σ xs h]
    | _ => rfl

/-! ## Objects -/

theorem forLoop_map {α β S : Type} (φ : α → β) (step : Nat → β → S → Res × S) : ∀ (l : List α) (i : Nat) (s : S),
    forLoop step i (l.map φ) s = forLoop (fun i a => step i (φ a)) i l s
  | [], _, _ => rfl
  | a :: l, i, s => by
    simp only [List.map_cons, forLoop]
    rcases step i (φ a) s with ⟨r, s'⟩
    cases r with
    | ok => exact forLoop_map φ step l (i + 1) s'
    | err e => rfl
    | abort e => rfl

theorem forLoop_below {α S : Type} {step step' : Nat → α → S → Res × S} : ∀ (l : List α) (i : Nat) (s : S),
    (∀ i, ∀ a ∈ l, ∀ s, (step i a s).1.Off A → step' i a s = step i a s) →
    (forLoop step i l s).1.Off A → forLoop step' i l s = forLoop step i l s
  | [], _, _, _, _ => rfl
  | a :: l, i, s, hs, h => by
    unfold forLoop at h ⊢
    rcases hx : step i a s with ⟨r, s'⟩
    rw [hx] at h
    cases r with
    | ok =>
      rw [hs i a (by simp) s (by rw [hx]; exact Res.off_ok), hx]
      exact forLoop_below l (i + 1) s' (fun i a h => hs i a (by simp [h])) h
    | err e => rw [hs i a (by simp) s (by rw [hx]; exact Res.off_err), hx]
    | abort e => rw [hs i a (by simp) s (by rw [hx]; exact h), hx]

theorem propStep_below {ext : Ext} (o : ObjC C) {c d : Sem} (hc : Below A c d) (σ : Sched) (i : Nat) (p : GoStr) (st : ObjSt)
    (h : (propStep ext (o.map f) σ i (p, c) st).1.Off A) :
    propStep ext (o.map g) σ i (p, d) st = propStep ext (o.map f) σ i (p, c) st := by
  unfold propStep at h ⊢
  have e1 : ∀ φ : C → Sem, (o.map φ).required = o.required := fun _ => rfl
  rcases hv : viewProp (valueOf st.v).indirect p with a | w
  · simp only [hv]
  · cases w with
    | absent =>
      simp only [hv, e1] at h ⊢
      by_cases hr : p ∈ o.required
      · simp only [if_pos hr]
      · simp only [if_neg hr] at h ⊢
        have : d.dflt = c.dflt := hc.dflt (fun a ha he => by rw [he] at h; exact Res.off_abort h ha)
        rw [this]
    | present x stored =>
      rcases hx : c.val (σ.sub i) x with ⟨r, x'⟩
      simp only [hv, hx] at h ⊢
      rcases hc.cases (σ.sub i) x with e | ⟨a, v', ha, e⟩
      · rw [hx] at e; simp only [e]
      · rw [hx] at e; cases e; exact absurd ha (Res.off_abort h)

theorem patStep_below {ext : Ext} {src : GoStr} {c d : Sem} (hc : Below A c d) (σ : Sched) (i : Nat) (p : GoStr) (st : ObjSt)
    (h : (patStep ext src c σ i p st).1.Off A) : patStep ext src d σ i p st = patStep ext src c σ i p st := by
  unfold patStep at h ⊢
  split
  · rfl
  · rename_i hm
    rw [if_neg hm] at h
    rcases hv : getProp (valueOf st.v).indirect p with a | w
    · simp only
    · cases w with
      | none => simp only
      | some x =>
        rcases hx : c.val (σ.sub i) x with ⟨r, x'⟩
        simp only [hv, hx] at h ⊢
        rcases hc.cases (σ.sub i) x with e | ⟨a, v', ha, e⟩
        · rw [hx] at e; simp only [e]
        · rw [hx] at e; cases e; exact absurd ha (Res.off_abort h)

theorem addlStep_below {c d : Sem} (hc : Below A c d) (σ : Sched) (i : Nat) (p : GoStr) (st : ObjSt)
    (h : (addlStep c σ i p st).1.Off A) : addlStep d σ i p st = addlStep c σ i p st := by
  unfold addlStep at h ⊢
  rcases hv : getProp (valueOf st.v).indirect p with a | w
  · simp only
  · cases w with
    | none => simp only
    | some x =>
      rcases hx : c.val (σ.sub i) x with ⟨r, x'⟩
      simp only [hv, hx] at h ⊢
      rcases hc.cases (σ.sub i) x with e | ⟨a, v', ha, e⟩
      · rw [hx] at e; simp only [e]
      · rw [hx] at e; cases e; exact absurd ha (Res.off_abort h)

theorem addlPhase_below (o : ObjC C) (hc : ∀ c, o.Child c → Below A (f c) (g c)) (σ : Sched) (st : ObjSt)
    (h : (addlPhase (o.map f) σ st).1.Off A) : addlPhase (o.map g) σ st = addlPhase (o.map f) σ st := by
  obtain ⟨ps, pats, add, req, pd, sd, mn, mx⟩ := o
  unfold addlPhase at h ⊢
  split
  · rename_i hl
    rw [if_pos hl] at h
    simp only [ObjC.map] at h ⊢
    cases add with
    | none => rfl
    | some c =>
      simp only [Option.map_some] at h ⊢
      exact forLoop_below _ _ _ (fun i a _ s => addlStep_below (hc c (.additional rfl)) _ _ _ _) h
  · rfl

theorem depStep_below (o : ObjC C) (hc : ∀ c, o.Child c → Below A (f c) (g c)) (σ : Sched) (i : Nat) (p : GoStr) (st : ObjSt)
    (h : (depStep (o.map f) σ i p st).1.Off A) : depStep (o.map g) σ i p st = depStep (o.map f) σ i p st := by
  have hs : ∀ φ : C → Sem, (o.map φ).GetSchemaDependency p = (o.GetSchemaDependency p).map φ := by
    intro φ; unfold ObjC.GetSchemaDependency; simp only [ObjC.map]; rw [alookup_map]
  have hp : ∀ φ : C → Sem, (o.map φ).GetPropDependencies p = o.GetPropDependencies p := fun _ => rfl
  unfold depStep at h ⊢
  simp only [hp, hs] at h ⊢
  by_cases hd : o.GetPropDependencies p ≠ []
  · simp only [if_pos hd]
  · simp only [if_neg hd] at h ⊢
    cases hx : o.GetSchemaDependency p with
    | none => rfl
    | some c =>
      rcases hcv : (f c).val (σ.sub i) st.v with ⟨r, x'⟩
      simp only [hx, Option.map_some, hcv] at h ⊢
      rcases (hc c (.dependency hx)).cases (σ.sub i) st.v with e | ⟨a, v', ha, e⟩
      · rw [hcv] at e; simp only [e]
      · rw [hcv] at e; cases e; exact absurd ha (Res.off_abort h)

theorem seqSt_below {r r' : Res × ObjSt} {k k' : ObjSt → Res × ObjSt} (hr : r.1.Off A → r' = r)
    (hk : ∀ st, (k st).1.Off A → k' st = k st) (h : (seqSt r k).1.Off A) : seqSt r' k' = seqSt r k := by
  rcases r with ⟨x, st⟩
  cases x with
  | ok => rw [hr Res.off_ok]; exact hk st h
  | err e => rw [hr Res.off_err]; rfl
  | abort a => rw [hr h]; rfl

theorem objLoops_below {ext : Ext} (o : ObjC C) (hc : ∀ c, o.Child c → Below A (f c) (g c)) (σ : Sched) (st : ObjSt)
    (h : (objLoops ext (o.map f) σ st).1.Off A) : objLoops ext (o.map g) σ st = objLoops ext (o.map f) σ st := by
  unfold objLoops at h ⊢
  refine seqSt_below ?_ ?_ h
  · simp only [show ∀ φ : C → Sem, (o.map φ).props = o.props.map (fun p => (p.1, φ p.2)) from fun _ => rfl, shuffle_map,
      forLoop_map]
    exact forLoop_below _ _ _ (fun i a ha s => propStep_below o (hc a.2 (.prop (mem_shuffle.1 ha))) _ _ _ _)
  intro st h
  refine seqSt_below ?_ ?_ h
  · simp only [show ∀ φ : C → Sem, (o.map φ).patterns = o.patterns.map (fun p => (p.1, p.2.1, φ p.2.2)) from fun _ => rfl,
      shuffle_map, forLoop_map]
    refine forLoop_below _ _ _ (fun i a ha s => ?_)
    exact forLoop_below _ _ _ (fun i k _ s => patStep_below (hc a.2.2 (.pattern (mem_shuffle.1 ha))) _ _ _ _)
  intro st h
  refine seqSt_below (addlPhase_below o hc σ st) ?_ h
  intro st h
  exact forLoop_below _ _ _ (fun i k _ s => depStep_below o hc _ _ _ _) h

theorem objectV_below {ext : Ext} (o : ObjC C) (hc : ∀ c, o.Child c → Below A (f c) (g c)) (σ : Sched) (v : GoVal)
    (h : (objectV ext (o.map f) σ v).1.Off A) : objectV ext (o.map g) σ v = objectV ext (o.map f) σ v := by
  unfold objectV at h ⊢
  split
  · rfl
  · rename_i fields hn
    simp only [hn] at h
    simp only [show ∀ φ : C → Sem, (o.map φ).minProps = o.minProps from fun _ => rfl,
      show ∀ φ : C → Sem, (o.map φ).maxProps = o.maxProps from fun _ => rfl] at h ⊢
    split
    · rfl
    · rename_i h1
      rw [if_neg h1] at h
      split
      · rfl
      · rename_i h2
        rw [if_neg h2] at h
        rw [objLoops_below o hc σ _ h]

/-! ## Trees and fuel -/

theorem denote_below {ext : Ext} {ρ ρ' : RefSem} (hρ : ∀ m n, Below A (ρ m n) (ρ' m n)) (c : Constraint) :
    Below A (denote ext ρ c) (denote ext ρ' c) := by
  induction c using Constraint.ind with
  | h c ih =>
  cases c with
  | array a =>
    refine ⟨fun _ => by simp [denote], fun σ v h => ?_⟩
    rw [denote_array] at h ⊢
    rw [denote_array]
    exact arrayV_below a (fun c hc => ih c (.array hc)) σ v h
  | object o =>
    refine ⟨fun _ => by simp [denote], fun σ v h => ?_⟩
    rw [denote_object] at h ⊢
    rw [denote_object]
    exact objectV_below o (fun c hc => ih c (.object hc)) σ v h
  | any cs =>
    refine ⟨fun _ => by simp [denote], fun σ v h => ?_⟩
    rw [denote_any] at h ⊢
    rw [denote_any]
    exact anyLoop_below σ cs 0 v (fun c hc => ih c (.any hc)) h
  | all cs =>
    refine ⟨fun _ => by simp [denote], fun σ v h => ?_⟩
    rw [denote_all] at h ⊢
    rw [denote_all]
    exact allLoop_below σ cs 0 v (fun c hc => ih c (.all hc)) h
  | oneOf cs =>
    refine ⟨fun _ => by simp [denote], fun σ v h => ?_⟩
    rw [denote_oneOf] at h ⊢
    rw [denote_oneOf]
    exact oneOfLoop_below σ cs 0 0 v (fun c hc => ih c (.oneOf hc)) h
  | not c =>
    refine ⟨fun _ => by simp [denote], fun σ v h => ?_⟩
    rw [denote_not] at h ⊢
    rw [denote_not]
    exact notV_below σ c v (fun d hd => ih d (by subst hd; exact .not)) h
  | ref m n => simp only [denote]; exact hρ m n
  | _ => simp only [denote]; exact .refl _

/-- More fuel only turns "still running" into an answer. -/
theorem refSem_below {ext : Ext} {env : Env} : ∀ {k k' : Nat}, k ≤ k' → ∀ m n,
    Below (· = .diverge) (refSem ext env k m n) (refSem ext env k' m n)
  | 0, k', _, m, n => ⟨fun h => absurd rfl (h .diverge rfl), fun σ v h => absurd rfl (h .diverge rfl)⟩
  | k + 1, 0, h, m, n => by omega
  | k + 1, k' + 1, h, m, n => by
    simp only [refSem]
    cases env m n with
    | none => exact .refl _
    | some c => exact denote_below (refSem_below (by omega)) c

theorem sem_below {ext : Ext} {env : Env} {k k' : Nat} (h : k ≤ k') (c : Constraint) :
    Below (· = .diverge) (sem ext env k c) (sem ext env k' c) := denote_below (refSem_below h) c

/-- A call that returns keeps its result with more fuel. -/
theorem sem_mono {ext : Ext} {env : Env} {k k' : Nat} (h : k ≤ k') {c : Constraint} {σ : Sched} {v v' : GoVal} {r : Res}
    (hr : (sem ext env k c).val σ v = (r, v')) (hd : r ≠ .abort .diverge) : (sem ext env k' c).val σ v = (r, v') := by
  rw [(sem_below h c).val σ v (by rw [hr]; rintro a rfl; exact hd), hr]

end Jsval
