import Verif.Lemmas.Covers
import Verif.Lemmas.Inline
import Verif.Spec.Replace
/-!
# Validators do not look at the text of errors, nor at what is left behind by a panic

`Like s t`: `s` and `t` do the same in every order of maps, up to the text of errors and what a panic leaves behind. All validators
respect it in their children.
-/
namespace Jsval

/-- The same outcome, up to the text of errors and what a panic leaves behind. -/
inductive AlikeOut {S : Type} : Res × S → Res × S → Prop
  | ok (s) : AlikeOut (.ok, s) (.ok, s)
  | err (e e' s) : AlikeOut (.err e, s) (.err e', s)
  | abort (a s s') : AlikeOut (.abort a, s) (.abort a, s')

theorem AlikeOut.refl {S : Type} : ∀ r : Res × S, AlikeOut r r
  | (.ok, s) => .ok s
  | (.err e, s) => .err e e s
  | (.abort a, s) => .abort a s s

theorem AlikeOut.symm {S : Type} {r r' : Res × S} (h : AlikeOut r r') : AlikeOut r' r := by cases h <;> constructor

theorem AlikeOut.trans {S : Type} {r r' r'' : Res × S} (h : AlikeOut r r') (h' : AlikeOut r' r'') : AlikeOut r r'' := by
  cases h <;> cases h' <;> constructor

theorem AlikeOut.map {S T : Type} {r r' : Res × S} (φ : S → T) (h : AlikeOut r r') : AlikeOut (r.1, φ r.2) (r'.1, φ r'.2) := by
  cases h <;> constructor

/-- The same in every order of maps, up to the text of errors and what a panic leaves behind. -/
structure Like (s t : Sem) : Prop where
  dflt : s.dflt = t.dflt
  val : ∀ σ v, AlikeOut (s.val σ v) (t.val σ v)

theorem Like.refl (s : Sem) : Like s s := ⟨rfl, fun _ _ => .refl _⟩

variable {C : Type} {f g : C → Sem}

theorem anyLoop_like (σ : Sched) : ∀ (cs : List C) (i : Nat) (v : GoVal), (∀ c ∈ cs, Like (f c) (g c)) →
    AlikeOut (anyLoop i (cs.map f) σ v) (anyLoop i (cs.map g) σ v)
  | [], i, v, _ => .refl _
  | c :: cs, i, v, hc => by
    simp only [List.map_cons, anyLoop]
    have := (hc c (by simp)).val (σ.sub i) v
    generalize (f c).val (σ.sub i) v = r at this ⊢
    generalize (g c).val (σ.sub i) v = r' at this ⊢
    cases this with
    | ok s => exact .ok _
    | err e e' s => exact anyLoop_like σ cs (i + 1) s (fun c h => hc c (by simp [h]))
    | abort a s s' => exact .abort _ _ _

theorem allLoop_like (σ : Sched) : ∀ (cs : List C) (i : Nat) (v : GoVal), (∀ c ∈ cs, Like (f c) (g c)) →
    AlikeOut (allLoop i (cs.map f) σ v) (allLoop i (cs.map g) σ v)
  | [], i, v, _ => .refl _
  | c :: cs, i, v, hc => by
    simp only [List.map_cons, allLoop]
    have := (hc c (by simp)).val (σ.sub i) v
    generalize (f c).val (σ.sub i) v = r at this ⊢
    generalize (g c).val (σ.sub i) v = r' at this ⊢
    cases this with
    | ok s => exact allLoop_like σ cs (i + 1) s (fun c h => hc c (by simp [h]))
    | err e e' s => exact .err _ _ _
    | abort a s s' => exact .abort _ _ _

theorem oneOfLoop_like (σ : Sched) : ∀ (cs : List C) (i n : Nat) (v : GoVal), (∀ c ∈ cs, Like (f c) (g c)) →
    AlikeOut (oneOfLoop i n (cs.map f) σ v) (oneOfLoop i n (cs.map g) σ v)
  | [], i, n, v, _ => .refl _
  | c :: cs, i, n, v, hc => by
    simp only [List.map_cons, oneOfLoop]
    have := (hc c (by simp)).val (σ.sub i) v
    generalize (f c).val (σ.sub i) v = r at this ⊢
    generalize (g c).val (σ.sub i) v = r' at this ⊢
    cases this with
    | ok s => exact oneOfLoop_like σ cs (i + 1) _ s (fun c h => hc c (by simp [h]))
    | err e e' s => exact oneOfLoop_like σ cs (i + 1) _ s (fun c h => hc c (by simp [h]))
    | abort a s s' => exact .abort _ _ _

theorem notV_like (σ : Sched) (c : Option C) (v : GoVal) (hc : ∀ d, c = some d → Like (f d) (g d)) :
    AlikeOut (notV (c.map f) σ v) (notV (c.map g) σ v) := by
  cases c with
  | none => exact .refl _
  | some c =>
    simp only [Option.map_some, notV]
    have := (hc c rfl).val (σ.sub 0) v
    generalize (f c).val (σ.sub 0) v = r at this ⊢
    generalize (g c).val (σ.sub 0) v = r' at this ⊢
    cases this <;> constructor

theorem runItems_like {c d : Sem} (hc : Like c d) (σ : Sched) : ∀ (xs : List GoVal) (i : Nat),
    AlikeOut (runItems c σ i xs) (runItems d σ i xs)
  | [], _ => .refl _
  | x :: xs, i => by
    simp only [runItems]
    have := hc.val (σ.sub i) x
    generalize c.val (σ.sub i) x = r at this ⊢
    generalize d.val (σ.sub i) x = r' at this ⊢
    cases this with
    | ok s => exact (runItems_like hc σ xs (i + 1)).map (s :: ·)
    | err e e' s => exact .err _ _ _
    | abort a s s' => exact .abort _ _ _

theorem runPos_like (σ : Sched) : ∀ (cs : List C) (xs : List GoVal) (i : Nat), (∀ c ∈ cs, Like (f c) (g c)) →
    AlikeOut (runPos σ i (cs.map f) xs) (runPos σ i (cs.map g) xs)
  | [], _, _, _ => .refl _
  | _ :: _, [], _, _ => .refl _
  | c :: cs, x :: xs, i, hc => by
    simp only [List.map_cons, runPos]
    have := (hc c (by simp)).val (σ.sub i) x
    generalize (f c).val (σ.sub i) x = r at this ⊢
    generalize (g c).val (σ.sub i) x = r' at this ⊢
    cases this with
    | ok s => exact (runPos_like σ cs xs (i + 1) (fun c h => hc c (by simp [h]))).map (s :: ·)
    | err e e' s => exact .err _ _ _
    | abort a s s' => exact .abort _ _ _

theorem arrayElems_like (a : ArrC C) (hc : ∀ c, a.Child c → Like (f c) (g c)) (σ : Sched) (xs : List GoVal) :
    AlikeOut (arrayElems (a.map f) σ xs) (arrayElems (a.map g) σ xs) := by
  obtain ⟨items, pos, add, mn, mx, u⟩ := a
  unfold arrayElems
  simp only [ArrC.map]
  cases items with
  | some c => exact runItems_like (hc c (.items rfl)) _ _ _
  | none =>
    simp only [Option.map_none]
    have := runPos_like (f := f) (g := g) (σ.sub 1) pos xs 0 (fun c h => hc c (.positional h))
    generalize runPos (σ.sub 1) 0 (pos.map f) xs = r at this ⊢
    generalize runPos (σ.sub 1) 0 (pos.map g) xs = r' at this ⊢
    cases this with
    | err e e' s => exact .err _ _ _
    | abort a s s' => exact .abort _ _ _
    | ok s =>
      simp only [runAdditional, List.length_map]
      split
      · cases add with
        | none => exact .refl _
        | some c =>
          simp only [Option.map_some]
          exact (runItems_like (hc c (.additional rfl)) _ _ _).map (s.take (pos.length - 1) ++ ·)
      · exact .refl _

theorem arrayV_like {ext : Ext} (a : ArrC C) (hc : ∀ c, a.Child c → Like (f c) (g c)) (σ : Sched) (v : GoVal) :
    AlikeOut (arrayV ext (a.map f) σ v) (arrayV ext (a.map g) σ v) := by
  unfold arrayV
  have e1 : ∀ φ : C → Sem, (a.map φ).minItems = a.minItems := fun _ => rfl
  have e2 : ∀ φ : C → Sem, (a.map φ).maxItems = a.maxItems := fun _ => rfl
  have e3 : ∀ φ : C → Sem, (a.map φ).unique = a.unique := fun _ => rfl
  simp only [e1, e2, e3]
  cases hv : valueOf v with
  | none => exact .refl _
  | some x =>
    cases x with
    | slice n xs =>
      simp only
      split_ifs
      · exact .refl _
      · exact .refl _
      · exact .refl _
      · exact (arrayElems_like a hc σ xs).map (GoVal.slice n)
    | _ => exact .refl _

/-! ## Objects -/

theorem forLoop_like {α S : Type} {step step' : Nat → α → S → Res × S} : ∀ (l : List α) (i : Nat) (s : S),
    (∀ i, ∀ a ∈ l, ∀ s, AlikeOut (step i a s) (step' i a s)) → AlikeOut (forLoop step i l s) (forLoop step' i l s)
  | [], _, _, _ => .refl _
  | a :: l, i, s, hs => by
    unfold forLoop
    have := hs i a (by simp) s
    generalize step i a s = r at this ⊢
    generalize step' i a s = r' at this ⊢
    cases this with
    | ok s => exact forLoop_like l (i + 1) s (fun i a h => hs i a (by simp [h]))
    | err e e' s => exact .err _ _ _
    | abort a s s' => exact .abort _ _ _

theorem propStep_like {ext : Ext} (o : ObjC C) {c d : Sem} (hc : Like c d) (σ : Sched) (i : Nat) (p : GoStr) (st : ObjSt) :
    AlikeOut (propStep ext (o.map f) σ i (p, c) st) (propStep ext (o.map g) σ i (p, d) st) := by
  unfold propStep
  have e1 : ∀ φ : C → Sem, (o.map φ).required = o.required := fun _ => rfl
  rcases hv : viewProp (valueOf st.v).indirect p with a | w
  · exact .refl _
  · cases w with
    | absent =>
      simp only [e1, hc.dflt]
      exact .refl _
    | present x stored =>
      have := hc.val (σ.sub i) x
      rcases e : c.val (σ.sub i) x with ⟨r, y⟩
      rcases e' : d.val (σ.sub i) x with ⟨r', y'⟩
      rw [e, e'] at this
      simp only [Option.map_some, e, e']
      cases this <;> constructor

theorem patStep_like {ext : Ext} {src : GoStr} {c d : Sem} (hc : Like c d) (σ : Sched) (i : Nat) (p : GoStr) (st : ObjSt) :
    AlikeOut (patStep ext src c σ i p st) (patStep ext src d σ i p st) := by
  unfold patStep
  split
  · exact .refl _
  · rcases hv : getProp (valueOf st.v).indirect p with a | w
    · exact .refl _
    · cases w with
      | none => exact .refl _
      | some x =>
        have := hc.val (σ.sub i) x
        rcases e : c.val (σ.sub i) x with ⟨r, y⟩
        rcases e' : d.val (σ.sub i) x with ⟨r', y'⟩
        rw [e, e'] at this
        simp only [Option.map_some, e, e']
        cases this <;> constructor

theorem addlStep_like {c d : Sem} (hc : Like c d) (σ : Sched) (i : Nat) (p : GoStr) (st : ObjSt) :
    AlikeOut (addlStep c σ i p st) (addlStep d σ i p st) := by
  unfold addlStep
  rcases hv : getProp (valueOf st.v).indirect p with a | w
  · exact .refl _
  · cases w with
    | none => exact .refl _
    | some x =>
      have := hc.val (σ.sub i) x
      rcases e : c.val (σ.sub i) x with ⟨r, y⟩
      rcases e' : d.val (σ.sub i) x with ⟨r', y'⟩
      rw [e, e'] at this
      simp only [Option.map_some, e, e']
      cases this <;> constructor

theorem addlPhase_like (o : ObjC C) (hc : ∀ c, o.Child c → Like (f c) (g c)) (σ : Sched) (st : ObjSt) :
    AlikeOut (addlPhase (o.map f) σ st) (addlPhase (o.map g) σ st) := by
  obtain ⟨ps, pats, add, req, pd, sd, mn, mx⟩ := o
  unfold addlPhase
  split
  · simp only [ObjC.map]
    cases add with
    | none => exact .refl _
    | some c => exact forLoop_like _ _ _ (fun i a _ s => addlStep_like (hc c (.additional rfl)) _ _ _ _)
  · exact .refl _

theorem depStep_like (o : ObjC C) (hc : ∀ c, o.Child c → Like (f c) (g c)) (σ : Sched) (i : Nat) (p : GoStr) (st : ObjSt) :
    AlikeOut (depStep (o.map f) σ i p st) (depStep (o.map g) σ i p st) := by
  have hs : ∀ φ : C → Sem, (o.map φ).GetSchemaDependency p = (o.GetSchemaDependency p).map φ := by
    intro φ; unfold ObjC.GetSchemaDependency; simp only [ObjC.map]; rw [alookup_map]
  have hp : ∀ φ : C → Sem, (o.map φ).GetPropDependencies p = o.GetPropDependencies p := fun _ => rfl
  unfold depStep
  simp only [hp, hs]
  split
  · exact .refl _
  · cases hx : o.GetSchemaDependency p with
    | none => exact .refl _
    | some c =>
      have := (hc c (.dependency hx)).val (σ.sub i) st.v
      rcases e : (f c).val (σ.sub i) st.v with ⟨r, y⟩
      rcases e' : (g c).val (σ.sub i) st.v with ⟨r', y'⟩
      rw [e, e'] at this
      simp only [Option.map_some, e, e']
      cases this <;> constructor

theorem seqSt_like {r r' : Res × ObjSt} {k k' : ObjSt → Res × ObjSt} (hr : AlikeOut r r') (hk : ∀ st, AlikeOut (k st) (k' st)) :
    AlikeOut (seqSt r k) (seqSt r' k') := by
  cases hr with
  | ok s => exact hk s
  | err e e' s => exact .err _ _ _
  | abort a s s' => exact .abort _ _ _

theorem objLoops_like {ext : Ext} (o : ObjC C) (hc : ∀ c, o.Child c → Like (f c) (g c)) (σ : Sched) (st : ObjSt) :
    AlikeOut (objLoops ext (o.map f) σ st) (objLoops ext (o.map g) σ st) := by
  unfold objLoops
  refine seqSt_like ?_ fun st => seqSt_like ?_ fun st => seqSt_like (addlPhase_like o hc σ st) fun st => ?_
  · simp only [show ∀ φ : C → Sem, (o.map φ).props = o.props.map (fun p => (p.1, φ p.2)) from fun _ => rfl, shuffle_map, forLoop_map]
    exact forLoop_like _ _ _ (fun i a ha s => propStep_like o (hc a.2 (.prop (mem_shuffle.1 ha))) _ _ _ _)
  · simp only [show ∀ φ : C → Sem, (o.map φ).patterns = o.patterns.map (fun p => (p.1, p.2.1, φ p.2.2)) from fun _ => rfl,
      shuffle_map, forLoop_map]
    refine forLoop_like _ _ _ (fun i a ha s => ?_)
    exact forLoop_like _ _ _ (fun i k _ s => patStep_like (hc a.2.2 (.pattern (mem_shuffle.1 ha))) _ _ _ _)
  · exact forLoop_like _ _ _ (fun i a _ s => depStep_like o hc _ _ _ _)

theorem objectV_like {ext : Ext} (o : ObjC C) (hc : ∀ c, o.Child c → Like (f c) (g c)) (σ : Sched) (v : GoVal) :
    AlikeOut (objectV ext (o.map f) σ v) (objectV ext (o.map g) σ v) := by
  unfold objectV
  have e1 : ∀ φ : C → Sem, (o.map φ).minProps = o.minProps := fun _ => rfl
  have e2 : ∀ φ : C → Sem, (o.map φ).maxProps = o.maxProps := fun _ => rfl
  simp only [e1, e2]
  rcases hv : getPropNames (valueOf v).indirect with s | fields
  · exact .refl _
  · simp only
    split_ifs
    · exact .refl _
    · exact .refl _
    · exact (objLoops_like o hc σ _).map ObjSt.v

theorem denote_like {ext : Ext} {ρ ρ' : RefSem} (hρ : ∀ m n, Like (ρ m n) (ρ' m n)) (c : Constraint) :
    Like (denote ext ρ c) (denote ext ρ' c) := by
  induction c using Constraint.ind with
  | h c ih =>
    cases c with
    | empty => exact .refl _
    | null => exact .refl _
    | boolean d => exact .refl _
    | string d => exact .refl _
    | number d => exact .refl _
    | integer d => exact .refl _
    | enum d => exact .refl _
    | ref m n => exact hρ m n
    | array a =>
      simp only [denote, denoteArr_eq]
      exact ⟨rfl, arrayV_like a (fun c h => ih c (.array h))⟩
    | object o =>
      simp only [denote, denoteObj_eq]
      exact ⟨rfl, objectV_like o (fun c h => ih c (.object h))⟩
    | any cs =>
      simp only [denote, denoteList_eq]
      exact ⟨rfl, fun σ v => anyLoop_like σ cs 0 v (fun c h => ih c (.any h))⟩
    | all cs =>
      simp only [denote, denoteList_eq]
      exact ⟨rfl, fun σ v => allLoop_like σ cs 0 v (fun c h => ih c (.all h))⟩
    | oneOf cs =>
      simp only [denote, denoteList_eq]
      exact ⟨rfl, fun σ v => oneOfLoop_like σ cs 0 0 v (fun c h => ih c (.oneOf h))⟩
    | not c =>
      simp only [denote, denoteOpt_eq]
      exact ⟨rfl, fun σ v => notV_like σ c v (fun d h => ih d (h ▸ .not))⟩

/-! ## The same in some order of maps -/

theorem forall2_map {α : Type} {R : Sem → Sem → Prop} {φ ψ : α → Sem} : ∀ {l : List α}, (∀ a ∈ l, R (φ a) (ψ a)) →
    List.Forall₂ R (l.map φ) (l.map ψ)
  | [], _ => .nil
  | a :: l, h => .cons (h a (by simp)) (forall2_map (fun b hb => h b (by simp [hb])))

theorem optRel_map {α : Type} {R : Sem → Sem → Prop} {φ ψ : α → Sem} {o : Option α} (h : ∀ a, o = some a → R (φ a) (ψ a)) :
    OptRel R (o.map φ) (o.map ψ) := by
  cases o with
  | none => exact .none
  | some a => exact .some (h a rfl)

theorem objectV_covers_same {ext : Ext} (o : ObjC C) (hc : ∀ c, o.Child c → Covers (f c) (g c)) (σ : Sched) (v : GoVal) :
    ∃ σ', objectV ext (o.map g) σ' v = objectV ext (o.map f) σ v := by
  refine objectV_covers (o := o.map f) (o' := o.map g) rfl rfl rfl (optRel_map fun c h => hc c (.additional h))
    ⟨_, .refl _, ?_⟩ ⟨_, .refl _, ?_⟩ (fun _ => rfl) (fun n => ?_) σ v
  · have : ∀ l : List (GoStr × C), (∀ p ∈ l, p ∈ o.props) → List.Forall₂ (fun p r => p.1 = r.1 ∧ Covers p.2 r.2)
        (l.map fun p => (p.1, f p.2)) (l.map fun p => (p.1, g p.2)) := by
      intro l
      induction l with
      | nil => exact fun _ => .nil
      | cons p l ih => exact fun h => .cons ⟨rfl, hc p.2 (.prop (h p (by simp)))⟩ (ih fun q hq => h q (by simp [hq]))
    exact this _ fun _ h => h
  · have : ∀ l : List (Nat × GoStr × C), (∀ p ∈ l, p ∈ o.patterns) → List.Forall₂ (fun p r => p.1 = r.1 ∧ p.2.1 = r.2.1 ∧ Covers p.2.2 r.2.2)
        (l.map fun p => (p.1, p.2.1, f p.2.2)) (l.map fun p => (p.1, p.2.1, g p.2.2)) := by
      intro l
      induction l with
      | nil => exact fun _ => .nil
      | cons p l ih => exact fun h => .cons ⟨rfl, rfl, hc p.2.2 (.pattern (h p (by simp)))⟩ (ih fun q hq => h q (by simp [hq]))
    exact this _ fun _ h => h
  · simp only [ObjC.map, alookup_map]
    exact optRel_map fun c h => hc c (.dependency h)

theorem denote_covers {ext : Ext} {ρ ρ' : RefSem} (hρ : ∀ m n, Covers (ρ m n) (ρ' m n)) (c : Constraint) :
    Covers (denote ext ρ c) (denote ext ρ' c) := by
  induction c using Constraint.ind with
  | h c ih =>
    cases c with
    | empty => exact covers_refl _
    | null => exact covers_refl _
    | boolean d => exact covers_refl _
    | string d => exact covers_refl _
    | number d => exact covers_refl _
    | integer d => exact covers_refl _
    | enum d => exact covers_refl _
    | ref m n => exact hρ m n
    | array a =>
      simp only [denote, denoteArr_eq]
      exact ⟨rfl, arrayV_covers (optRel_map fun c h => ih c (.array (.items h))) (forall2_map fun c h => ih c (.array (.positional h)))
        (optRel_map fun c h => ih c (.array (.additional h))) rfl rfl rfl⟩
    | object o =>
      simp only [denote, denoteObj_eq]
      exact ⟨rfl, objectV_covers_same o (fun c h => ih c (.object h))⟩
    | any cs =>
      simp only [denote, denoteList_eq]
      exact ⟨rfl, anyLoop_covers (forall2_map fun c h => ih c (.any h)) 0⟩
    | all cs =>
      simp only [denote, denoteList_eq]
      exact ⟨rfl, allLoop_covers (forall2_map fun c h => ih c (.all h)) 0⟩
    | oneOf cs =>
      simp only [denote, denoteList_eq]
      exact ⟨rfl, oneOfLoop_covers (forall2_map fun c h => ih c (.oneOf h)) 0 0⟩
    | not c =>
      cases c with
      | none => exact covers_refl _
      | some c =>
        simp only [denote, denoteOpt]
        exact ⟨rfl, notV_covers (ih c .not)⟩

/-! ## Both together -/

/-- The outcome without the text of an error and what a panic leaves behind. -/
def bare : Res × GoVal → Res × GoVal
  | (.err _, v) => (.err .anyNone, v)
  | (.abort a, _) => (.abort a, .nil)
  | r => r

/-- The behaviour without the text of errors and what a panic leaves behind. -/
def Sem.bare (s : Sem) : Sem := ⟨s.dflt, fun σ v => Jsval.bare (s.val σ v)⟩

theorem sim_bare : ∀ r : Res × GoVal, AlikeOut r (bare r)
  | (.ok, v) => .ok v
  | (.err _, v) => .err _ _ v
  | (.abort a, _) => .abort a _ _

theorem bare_of_sim {r r' : Res × GoVal} (h : AlikeOut r r') : bare r = bare r' := by cases h <;> rfl

theorem sim_of_bare {r r' : Res × GoVal} (h : bare r = bare r') : AlikeOut r r' := (sim_bare r).trans (h ▸ (sim_bare r').symm)

theorem like_bare (s : Sem) : Like s s.bare := ⟨rfl, fun _ _ => sim_bare _⟩

theorem Like.bare {s t : Sem} (h : Like s t) : s.bare = t.bare := by
  obtain ⟨d, f⟩ := s
  obtain ⟨d', f'⟩ := t
  obtain ⟨h1, h2⟩ := h
  simp only at h1
  subst h1
  simp only [Sem.bare, Sem.mk.injEq, true_and]
  funext σ v
  exact bare_of_sim (h2 σ v)

theorem Covers.bare {s t : Sem} (h : Covers s t) : Covers s.bare t.bare :=
  ⟨h.1, fun σ v => (h.2 σ v).imp fun _ e => congrArg Jsval.bare e⟩

/-- All that the left one may do the right one may do. -/
def Reach (s t : Sem) : Prop := ∀ v v', (s.MayAccept v v' → t.MayAccept v v') ∧ (s.MayReject v v' → t.MayReject v v') ∧
  ∀ a, s.MayAbort v a → t.MayAbort v a

theorem covers_bare_iff {s t : Sem} : Covers s.bare t.bare ↔ s.dflt = t.dflt ∧ Reach s t := by
  constructor
  · rintro ⟨h1, h2⟩
    have h2 : ∀ σ v, ∃ σ', AlikeOut (t.val σ' v) (s.val σ v) := fun σ v => (h2 σ v).imp fun _ e => sim_of_bare e
    refine ⟨h1, fun v v' => ⟨?_, ?_, ?_⟩⟩
    · rintro ⟨σ, hσ⟩
      obtain ⟨σ', h⟩ := h2 σ v
      rw [hσ] at h
      refine ⟨σ', ?_⟩
      generalize t.val σ' v = r at h ⊢
      cases h; rfl
    · rintro ⟨σ, e, hσ⟩
      obtain ⟨σ', h⟩ := h2 σ v
      rw [hσ] at h
      refine ⟨σ', ?_⟩
      generalize t.val σ' v = r at h ⊢
      cases h; exact ⟨_, rfl⟩
    · rintro a ⟨σ, hσ⟩
      obtain ⟨σ', h⟩ := h2 σ v
      refine ⟨σ', ?_⟩
      generalize s.val σ v = r at h hσ
      generalize t.val σ' v = r' at h ⊢
      cases h <;> simp_all
  · rintro ⟨h1, h2⟩
    refine ⟨h1, fun σ v => ?_⟩
    rcases e : s.val σ v with ⟨r, v'⟩
    have h := h2 v v'
    cases r with
    | ok =>
      obtain ⟨σ', h'⟩ := h.1 ⟨σ, e⟩
      exact ⟨σ', by simp only [Sem.bare, e, h']⟩
    | err x =>
      obtain ⟨σ', e', h'⟩ := h.2.1 ⟨σ, x, e⟩
      exact ⟨σ', by simp only [Sem.bare, e, h']; rfl⟩
    | abort a =>
      obtain ⟨σ', h'⟩ := h.2.2 a ⟨σ, by rw [e]⟩
      refine ⟨σ', ?_⟩
      rcases e' : t.val σ' v with ⟨r', w⟩
      rw [e'] at h'
      simp only at h'
      subst h'
      simp only [Sem.bare, e, e']; rfl

theorem equivalent_iff {s t : Sem} : s.Equivalent t ↔ Covers s.bare t.bare ∧ Covers t.bare s.bare := by
  rw [covers_bare_iff, covers_bare_iff]
  constructor
  · rintro ⟨h1, h2⟩
    exact ⟨⟨h1, fun v v' => ⟨(h2 v v').1.1, (h2 v v').2.1.1, fun a => ((h2 v v').2.2 a).1⟩⟩,
      ⟨h1.symm, fun v v' => ⟨(h2 v v').1.2, (h2 v v').2.1.2, fun a => ((h2 v v').2.2 a).2⟩⟩⟩
  · rintro ⟨⟨h1, h2⟩, -, h3⟩
    exact ⟨h1, fun v v' => ⟨⟨(h2 v v').1, (h3 v v').1⟩, ⟨(h2 v v').2.1, (h3 v v').2.1⟩, fun a => ⟨(h2 v v').2.2 a, (h3 v v').2.2 a⟩⟩⟩

theorem covers_bare_denote {ext : Ext} {ρ ρ' : RefSem} (h : ∀ m n, Covers (ρ m n).bare (ρ' m n).bare) (c : Constraint) :
    Covers (denote ext ρ c).bare (denote ext ρ' c).bare := by
  have h1 := (denote_like (ext := ext) (ρ := ρ) (ρ' := fun m n => (ρ m n).bare) (fun m n => like_bare _) c).bare
  have h2 := (denote_like (ext := ext) (ρ := ρ') (ρ' := fun m n => (ρ' m n).bare) (fun m n => like_bare _) c).bare
  rw [h1, h2]
  exact (denote_covers h c).bare

/-- Validators treat equivalent targets of references alike. -/
theorem denote_equivalent {ext : Ext} {ρ ρ' : RefSem} (h : ∀ m n, (ρ m n).Equivalent (ρ' m n)) (c : Constraint) :
    (denote ext ρ c).Equivalent (denote ext ρ' c) :=
  equivalent_iff.2 ⟨covers_bare_denote (fun m n => (equivalent_iff.1 (h m n)).1) c,
    covers_bare_denote (fun m n => (equivalent_iff.1 (h m n)).2) c⟩

theorem Sem.Equivalent.refl (s : Sem) : s.Equivalent s := ⟨rfl, fun _ _ => ⟨.rfl, .rfl, fun _ => .rfl⟩⟩

theorem Sem.Equivalent.symm {s t : Sem} (h : s.Equivalent t) : t.Equivalent s :=
  ⟨h.1.symm, fun v v' => ⟨(h.2 v v').1.symm, (h.2 v v').2.1.symm, fun a => ((h.2 v v').2.2 a).symm⟩⟩

theorem Sem.Equivalent.trans {s t u : Sem} (h : s.Equivalent t) (h' : t.Equivalent u) : s.Equivalent u :=
  ⟨h.1.trans h'.1, fun v v' => ⟨(h.2 v v').1.trans (h'.2 v v').1, (h.2 v v').2.1.trans (h'.2 v v').2.1,
    fun a => ((h.2 v v').2.2 a).trans ((h'.2 v v').2.2 a)⟩⟩

end Jsval
