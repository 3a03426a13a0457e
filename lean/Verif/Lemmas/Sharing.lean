import Verif.Spec.Sharing
import Verif.Lemmas.MemoryObj
import Verif.Lemmas.RefMachine
import Mathlib.Data.DFinsupp.WellFounded
import Mathlib.Order.OrderIsoNat
/-!
# With known targets, shared validators are those of `Model/Memory`
-/
namespace Jsval

/-- The program in which reference `r` has target `T r`. -/
def SProg.erase {α : Type} (T : Nat → Constraint) : SProg α → Prog α
  | .ret a => .ret a
  | .look l p k => .look l p fun o => (k o).erase T
  | .keys l k => .keys l fun ks => (k ks).erase T
  | .set l p x k => .set l p x (k.erase T)
  | .sprint h k => .sprint h fun s => (k s).erase T
  | .resolve r k => (k (some (some (T r)))).erase T

variable {T : Nat → Constraint} {α β : Type}

theorem prog_bind_ret (a : α) (f : α → Prog β) : ((Prog.ret a : Prog α) >>= f) = f a := rfl

theorem erase_bind (p : SProg α) (f : α → SProg β) : (p >>= f).erase T = (p.erase T >>= fun a => (f a).erase T) := by
  show (p.bind f).erase T = (p.erase T).bind fun a => (f a).erase T
  induction p with
  | ret a => rfl
  | look l q k ih => simp only [SProg.bind, SProg.erase, Prog.bind, ih]
  | keys l k ih => simp only [SProg.bind, SProg.erase, Prog.bind, ih]
  | set l q x k ih => simp only [SProg.bind, SProg.erase, Prog.bind, ih]
  | sprint h k ih => simp only [SProg.bind, SProg.erase, Prog.bind, ih]
  | resolve r k ih => simp only [SProg.bind, SProg.erase, ih]

theorem erase_lift (p : Prog α) : (SProg.lift p).erase T = p := by
  induction p with
  | ret a => rfl
  | look l q k ih => simp only [SProg.lift, SProg.erase, ih]
  | keys l k ih => simp only [SProg.lift, SProg.erase, ih]
  | set l q x k ih => simp only [SProg.lift, SProg.erase, ih]
  | sprint h k ih => simp only [SProg.lift, SProg.erase, ih]

theorem erase_ite (c : Prop) [Decidable c] (p q : SProg α) : (if c then p else q).erase T = if c then p.erase T else q.erase T := by
  split <;> rfl

/-- `HasDefault()` of a constraint with this default. -/
def Dflt.has : Dflt → Except Abort Bool
  | .none => .ok false
  | .some _ => .ok true
  | .abort a => .error a

/-- With targets `T`, `s` behaves as `t`. -/
structure ErasesTo (T : Nat → Constraint) (s : SSem) (t : MSem) : Prop where
  has : s.has.erase T = .ret t.dflt.has
  dv : ∀ v, t.dflt = .some v → s.dv.erase T = .ret (.ok v)
  val : ∀ σ h, (s.val σ h).erase T = t.val σ h

section
variable {γ : Type} {f : γ → SSem} {g : γ → MSem}

theorem anyLoopS_erase (σ : Sched) (h : MVal) : ∀ (cs : List γ) (i : Nat), (∀ c ∈ cs, ErasesTo T (f c) (g c)) →
    (anyLoopS i (cs.map f) σ h).erase T = anyLoopM i (cs.map g) σ h
  | [], _, _ => rfl
  | c :: cs, i, hc => by
    simp only [List.map_cons, anyLoopS, anyLoopM, erase_bind, (hc c (by simp)).val]
    congr 1; funext r
    cases r with
    | ok => rfl
    | err e => exact anyLoopS_erase σ h cs (i + 1) fun c hm => hc c (by simp [hm])
    | abort a => rfl

theorem allLoopS_erase (σ : Sched) (h : MVal) : ∀ (cs : List γ) (i : Nat), (∀ c ∈ cs, ErasesTo T (f c) (g c)) →
    (allLoopS i (cs.map f) σ h).erase T = allLoopM i (cs.map g) σ h
  | [], _, _ => rfl
  | c :: cs, i, hc => by
    simp only [List.map_cons, allLoopS, allLoopM, erase_bind, (hc c (by simp)).val]
    congr 1; funext r
    cases r with
    | ok => exact allLoopS_erase σ h cs (i + 1) fun c hm => hc c (by simp [hm])
    | err e => rfl
    | abort a => rfl

theorem oneOfLoopS_erase (σ : Sched) (h : MVal) : ∀ (cs : List γ) (i n : Nat), (∀ c ∈ cs, ErasesTo T (f c) (g c)) →
    (oneOfLoopS i n (cs.map f) σ h).erase T = oneOfLoopM i n (cs.map g) σ h
  | [], _, n, _ => by
    simp only [List.map_nil, oneOfLoopS, oneOfLoopM, erase_ite]
    split
    · rfl
    · split <;> rfl
  | c :: cs, i, n, hc => by
    simp only [List.map_cons, oneOfLoopS, oneOfLoopM, erase_bind, (hc c (by simp)).val]
    congr 1; funext r
    cases r with
    | ok => exact oneOfLoopS_erase σ h cs (i + 1) (n + 1) fun c hm => hc c (by simp [hm])
    | err e => exact oneOfLoopS_erase σ h cs (i + 1) n fun c hm => hc c (by simp [hm])
    | abort a => rfl

theorem notS_erase (σ : Sched) (h : MVal) (c : Option γ) (hc : ∀ d, c = some d → ErasesTo T (f d) (g d)) :
    (notS (c.map f) σ h).erase T = notM (c.map g) σ h := by
  cases c with
  | none => rfl
  | some c =>
    simp only [Option.map_some, notS, notM, erase_bind, (hc c rfl).val]
    congr 1; funext r
    cases r <;> rfl

theorem runItemsS_erase {s : SSem} {t : MSem} (hs : ErasesTo T s t) (σ : Sched) : ∀ (xs : List MVal) (i : Nat),
    (runItemsS s σ i xs).erase T = runItemsM t σ i xs
  | [], _ => rfl
  | x :: xs, i => by
    simp only [runItemsS, runItemsM, erase_bind, hs.val]
    congr 1; funext r
    cases r with
    | ok => exact runItemsS_erase hs σ xs (i + 1)
    | err e => rfl
    | abort a => rfl

theorem runPosS_erase (σ : Sched) : ∀ (cs : List γ) (xs : List MVal) (i : Nat), (∀ c ∈ cs, ErasesTo T (f c) (g c)) →
    (runPosS σ i (cs.map f) xs).erase T = runPosM σ i (cs.map g) xs
  | [], _, _, _ => rfl
  | _ :: _, [], _, _ => rfl
  | c :: cs, x :: xs, i, hc => by
    simp only [List.map_cons, runPosS, runPosM, erase_bind, (hc c (by simp)).val]
    congr 1; funext r
    cases r with
    | ok => exact runPosS_erase σ cs xs (i + 1) fun c hm => hc c (by simp [hm])
    | err e => rfl
    | abort a => rfl

theorem arrayS_erase (a : ArrC γ) (hc : ∀ c, a.Child c → ErasesTo T (f c) (g c)) (σ : Sched) (h : MVal) :
    (arrayS (a.map f) σ h).erase T = arrayM (a.map g) σ h := by
  have i1 : (a.map f).items = a.items.map f := rfl
  have i2 : (a.map g).items = a.items.map g := rfl
  have p1 : (a.map f).positional = a.positional.map f := rfl
  have p2 : (a.map g).positional = a.positional.map g := rfl
  have d1 : (a.map f).additional = a.additional.map f := rfl
  have d2 : (a.map g).additional = a.additional.map g := rfl
  have m1 : (a.map f).minItems = a.minItems := rfl
  have m2 : (a.map g).minItems = a.minItems := rfl
  have x1 : (a.map f).maxItems = a.maxItems := rfl
  have x2 : (a.map g).maxItems = a.maxItems := rfl
  have u1 : (a.map f).unique = a.unique := rfl
  have u2 : (a.map g).unique = a.unique := rfl
  have hadd : ∀ xs, (runAdditionalS (a.map f) (σ.sub 2) xs).erase T = runAdditionalM (a.map g) (σ.sub 2) xs := by
    intro xs
    simp only [runAdditionalS, runAdditionalM, p1, p2, d1, d2, List.length_map, erase_ite]
    split
    · cases ha : a.additional with
      | none => rfl
      | some c => exact runItemsS_erase (hc c (.additional ha)) _ _ _
    · rfl
  have hel : ∀ xs, (arrayElemsS (a.map f) σ xs).erase T = arrayElemsM (a.map g) σ xs := by
    intro xs
    simp only [arrayElemsS, arrayElemsM, i1, i2, p1, p2]
    cases hi : a.items with
    | some c => exact runItemsS_erase (hc c (.items hi)) _ _ _
    | none =>
      simp only [Option.map_none, erase_bind, runPosS_erase _ a.positional xs 0 fun c hm => hc c (.positional hm)]
      congr 1; funext r
      cases r with
      | ok => exact hadd xs
      | err e => rfl
      | abort a => rfl
  have hun : ∀ xs, (uniqueS (a.map f) xs).erase T = uniqueM (a.map g) xs := by
    intro xs
    simp only [uniqueS, uniqueM, u1, u2, erase_ite]
    split
    · exact erase_lift _
    · rfl
  cases h with
  | atom a => rfl
  | map a => rfl
  | slice n xs =>
    simp only [arrayS, arrayM, m1, m2, x1, x2, erase_ite, erase_bind, hun]
    split
    · rfl
    · split
      · rfl
      · congr 1; funext b
        cases b with
        | false => rfl
        | true => exact hel xs

theorem forLoopS_erase {δ ε S : Type} {u : δ → ε} {w : δ → β} {step : Nat → ε → S → SProg (Res × S)} {stepM : Nat → β → S → Prog (Res × S)} :
    ∀ (l : List δ) (i : Nat) (s : S), (∀ x ∈ l, ∀ i s, (step i (u x) s).erase T = stepM i (w x) s) →
      (forLoopS step i (l.map u) s).erase T = forLoopM stepM i (l.map w) s
  | [], _, _, _ => rfl
  | x :: l, i, s, h => by
    simp only [List.map_cons, forLoopS, forLoopM, erase_bind, h x (by simp)]
    congr 1; funext r
    obtain ⟨r, s'⟩ := r
    cases r with
    | ok => exact forLoopS_erase l (i + 1) s' fun x hx => h x (by simp [hx])
    | err e => rfl
    | abort a => rfl

theorem seqS_erase {r : SProg (Res × MSt)} {r' : Prog (Res × MSt)} {k : MSt → SProg (Res × MSt)} {k' : MSt → Prog (Res × MSt)}
    (hr : r.erase T = r') (hk : ∀ st, (k st).erase T = k' st) : (seqS r k).erase T = seqM r' k' := by
  simp only [seqS, seqM, erase_bind, hr]
  congr 1; funext x
  obtain ⟨x, st⟩ := x
  cases x with
  | ok => exact hk st
  | err e => rfl
  | abort a => rfl

theorem propStepS_erase {ext : Ext} {mem : GoVal → MVal} (o : ObjC γ) (h : MVal) (σ : Sched) (i : Nat) (n : GoStr) {s : SSem} {t : MSem} (hs : ErasesTo T s t) (st : MSt) :
    (propStepS ext mem (o.map f) h σ i (n, s) st).erase T = propStepM ext mem (o.map g) h σ i (n, t) st := by
  simp only [propStepS, propStepM, erase_bind, erase_lift]
  congr 1; funext x
  cases x with
  | error a => rfl
  | ok x =>
    cases x with
    | some x =>
      simp only [erase_bind, hs.val]
      congr 1; funext r
      cases r <;> rfl
    | none =>
      simp only [show (o.map f).required = o.required from rfl, show (o.map g).required = o.required from rfl, erase_ite]
      split
      · rfl
      · simp only [erase_bind, hs.has, prog_bind_ret]
        cases hd : t.dflt with
        | none => rfl
        | abort a => rfl
        | some v =>
          simp only [Dflt.has, erase_bind, hs.dv v hd, prog_bind_ret, erase_lift]
          congr 1; funext y
          cases y with
          | error e => cases e <;> rfl
          | ok y => rfl

theorem patStepS_erase {ext : Ext} (h : MVal) (src : GoStr) {s : SSem} {t : MSem} (hs : ErasesTo T s t) (σ : Sched) (i : Nat) (p : GoStr) (st : MSt) :
    (patStepS ext h src s σ i p st).erase T = patStepM ext h src t σ i p st := by
  simp only [patStepS, patStepM, erase_ite]
  split
  · rfl
  · simp only [erase_bind, erase_lift]
    congr 1; funext x
    cases x with
    | error a => rfl
    | ok x =>
      cases x with
      | none => rfl
      | some x =>
        simp only [erase_bind, hs.val]
        congr 1; funext r
        cases r <;> rfl

theorem addlStepS_erase (h : MVal) {s : SSem} {t : MSem} (hs : ErasesTo T s t) (σ : Sched) (i : Nat) (p : GoStr) (st : MSt) :
    (addlStepS h s σ i p st).erase T = addlStepM h t σ i p st := by
  simp only [addlStepS, addlStepM, erase_bind, erase_lift]
  congr 1; funext x
  cases x with
  | error a => rfl
  | ok x =>
    cases x with
    | none => rfl
    | some x =>
      simp only [erase_bind, hs.val]
      congr 1; funext r
      cases r <;> rfl

theorem depStepS_erase (o : ObjC γ) (hc : ∀ c, o.Child c → ErasesTo T (f c) (g c)) (h : MVal) (σ : Sched) (i : Nat) (p : GoStr) (st : MSt) :
    (depStepS (o.map f) h σ i p st).erase T = depStepM (o.map g) h σ i p st := by
  have e1 : (o.map f).GetPropDependencies p = o.GetPropDependencies p := rfl
  have e2 : (o.map g).GetPropDependencies p = o.GetPropDependencies p := rfl
  have e3 : (o.map f).GetSchemaDependency p = (o.GetSchemaDependency p).map f := alookup_map ..
  have e4 : (o.map g).GetSchemaDependency p = (o.GetSchemaDependency p).map g := alookup_map ..
  simp only [depStepS, depStepM, e1, e2, e3, e4, erase_ite]
  cases hp : o.GetPropDependencies p with
  | cons x xs => rfl
  | nil =>
    cases hd : o.GetSchemaDependency p with
    | none => rfl
    | some c =>
      simp only [Option.map_some, erase_bind, (hc c (.dependency hd)).val]
      rfl

theorem patOuterS_erase {ext : Ext} (h : MVal) (σ : Sched) (i : Nat) (x : Nat × GoStr × γ) (hs : ErasesTo T (f x.2.2) (g x.2.2)) (st : MSt) :
    (patOuterS ext h σ i (x.1, x.2.1, f x.2.2) st).erase T = patOuterM ext h σ i (x.1, x.2.1, g x.2.2) st := by
  unfold patOuterS patOuterM
  have := forLoopS_erase (T := T) (u := id) (w := id) (step := patStepS ext h x.2.1 (f x.2.2) ((σ.sub 4).sub i))
    (stepM := patStepM ext h x.2.1 (g x.2.2) ((σ.sub 4).sub i)) (shuffle ((σ.sub 3).sub i).key st.premain) 0 st
    fun p _ i st => patStepS_erase h _ hs _ i p st
  simpa using this

theorem addlPhaseS_erase (o : ObjC γ) (hc : ∀ c, o.Child c → ErasesTo T (f c) (g c)) (h : MVal) (σ : Sched) (st : MSt) :
    (addlPhaseS (o.map f) h σ st).erase T = addlPhaseM (o.map g) h σ st := by
  have e1 : (o.map g).additional = o.additional.map g := rfl
  have e2 : (o.map f).additional = o.additional.map f := rfl
  simp only [addlPhaseS, addlPhaseM, e1, e2, erase_ite]
  split
  · cases ea : o.additional with
    | none => rfl
    | some c =>
      simp only [Option.map_some]
      have := forLoopS_erase (T := T) (u := id) (w := id) (step := addlStepS h (f c) (σ.sub 6)) (stepM := addlStepM h (g c) (σ.sub 6))
        (shuffle (σ.sub 5).key st.premain) 0 st fun p _ i st => addlStepS_erase h (hc c (.additional ea)) _ i p st
      simpa using this
  · rfl

theorem objectS_erase {ext : Ext} {mem : GoVal → MVal} (o : ObjC γ) (hc : ∀ c, o.Child c → ErasesTo T (f c) (g c)) (σ : Sched) (h : MVal) :
    (objectS ext mem (o.map f) σ h).erase T = objectM ext mem (o.map g) σ h := by
  have hl : ∀ st, (objLoopsS ext mem (o.map f) h σ st).erase T = objLoopsM ext mem (o.map g) h σ st := by
    intro st
    have e1 : (o.map g).props = o.props.map fun p => (p.1, g p.2) := rfl
    have e2 : (o.map f).props = o.props.map fun p => (p.1, f p.2) := rfl
    have e3 : (o.map g).patterns = o.patterns.map fun p => (p.1, p.2.1, g p.2.2) := rfl
    have e4 : (o.map f).patterns = o.patterns.map fun p => (p.1, p.2.1, f p.2.2) := rfl
    simp only [objLoopsS, objLoopsM, e1, e2, e3, e4, shuffle_map]
    refine seqS_erase ?_ fun st => seqS_erase ?_ fun st => seqS_erase (addlPhaseS_erase o hc h σ st) fun st => ?_
    · exact forLoopS_erase _ 0 st fun x hx i st => propStepS_erase o h _ i x.1 (hc x.2 (.prop (mem_shuffle.1 hx))) st
    · exact forLoopS_erase _ 0 st fun x hx i st => patOuterS_erase h _ i x (hc x.2.2 (.pattern (mem_shuffle.1 hx))) st
    · have := forLoopS_erase (T := T) (u := id) (w := id) (step := depStepS (o.map f) h (σ.sub 8)) (stepM := depStepM (o.map g) h (σ.sub 8))
        (shuffle (σ.sub 7).key st.pseen) 0 st fun p _ i st => depStepS_erase o hc h _ i p st
      simpa using this
  simp only [objectS, objectM, erase_bind, erase_lift]
  congr 1; funext x
  cases x with
  | error s => rfl
  | ok fields =>
    simp only [show (o.map f).minProps = o.minProps from rfl, show (o.map f).maxProps = o.maxProps from rfl,
      show (o.map g).minProps = o.minProps from rfl, show (o.map g).maxProps = o.maxProps from rfl, erase_ite]
    split
    · rfl
    · split
      · rfl
      · simp only [erase_bind, hl]; rfl
end

/-! ## Whole constraints -/

theorem denoteListS_eq (ext : Ext) (mem : GoVal → MVal) (ρ : Nat → SSem) : ∀ cs, denoteListS ext mem ρ cs = cs.map (denoteS ext mem ρ)
  | [] => by simp [denoteListS]
  | c :: cs => by simp [denoteListS, denoteListS_eq ext mem ρ cs]

theorem denoteOptS_eq (ext : Ext) (mem : GoVal → MVal) (ρ : Nat → SSem) : ∀ c, denoteOptS ext mem ρ c = c.map (denoteS ext mem ρ)
  | none => by simp [denoteOptS]
  | some c => by simp [denoteOptS]

theorem denotePropsS_eq (ext : Ext) (mem : GoVal → MVal) (ρ : Nat → SSem) : ∀ cs, denotePropsS ext mem ρ cs = cs.map (fun p => (p.1, denoteS ext mem ρ p.2))
  | [] => by simp [denotePropsS]
  | (n, c) :: cs => by simp [denotePropsS, denotePropsS_eq ext mem ρ cs]

theorem denotePatsS_eq (ext : Ext) (mem : GoVal → MVal) (ρ : Nat → SSem) : ∀ cs, denotePatsS ext mem ρ cs = cs.map (fun p => (p.1, p.2.1, denoteS ext mem ρ p.2.2))
  | [] => by simp [denotePatsS]
  | (i, s, c) :: cs => by simp [denotePatsS, denotePatsS_eq ext mem ρ cs]

theorem denoteArrS_eq (ext : Ext) (mem : GoVal → MVal) (ρ : Nat → SSem) (a : ArrC Constraint) : denoteArrS ext mem ρ a = a.map (denoteS ext mem ρ) := by
  cases a; simp [denoteArrS, ArrC.map, denoteOptS_eq, denoteListS_eq]

theorem denoteObjS_eq (ext : Ext) (mem : GoVal → MVal) (ρ : Nat → SSem) (o : ObjC Constraint) : denoteObjS ext mem ρ o = o.map (denoteS ext mem ρ) := by
  cases o; simp [denoteObjS, ObjC.map, denoteOptS_eq, denotePropsS_eq, denotePatsS_eq]

theorem plainS_erases {v : SValidator} {w : MValidator} (h : ∀ σ x, (v σ x).erase T = w σ x) : ErasesTo T (plainS v) ⟨.none, w⟩ :=
  ⟨rfl, fun v h => (by cases h), h⟩

theorem ownS_erases (d : Option GoVal) {v : SValidator} {w : MValidator} (h : ∀ σ x, (v σ x).erase T = w σ x) : ErasesTo T (ownS d v) ⟨.ofOption d, w⟩ := by
  cases d with
  | none => exact ⟨rfl, fun v h => (by cases h), h⟩
  | some d => exact ⟨rfl, fun v h => (by cases h; rfl), h⟩

theorem denoteS_erases {ext : Ext} {mem : GoVal → MVal} {ρ : Nat → SSem} {ρ' : MRefSem} (hρ : ∀ r n, ErasesTo T (ρ r) (ρ' r n)) :
    ∀ c : Constraint, ErasesTo T (denoteS ext mem ρ c) (denoteM ext mem ρ' c) := by
  intro c
  induction c using Constraint.ind with
  | h c ih =>
  cases c with
  | empty => exact plainS_erases fun σ x => rfl
  | null => exact plainS_erases fun σ x => rfl
  | boolean d => exact ownS_erases d fun σ x => rfl
  | string c => exact ownS_erases c.dflt fun σ x => rfl
  | number c => exact ownS_erases c.dflt fun σ x => rfl
  | integer c => exact ownS_erases c.dflt fun σ x => rfl
  | enum l => exact plainS_erases fun σ x => rfl
  | array a =>
    simp only [denoteS, denoteM, denoteArrS_eq, denoteArrM_eq]
    exact plainS_erases fun σ x => arrayS_erase a (fun c h => ih c (.array h)) σ x
  | object o =>
    simp only [denoteS, denoteM, denoteObjS_eq, denoteObjM_eq]
    exact plainS_erases fun σ x => objectS_erase o (fun c h => ih c (.object h)) σ x
  | any cs =>
    simp only [denoteS, denoteM, denoteListS_eq, denoteListM_eq]
    exact plainS_erases fun σ x => anyLoopS_erase σ x cs 0 fun c h => ih c (.any h)
  | all cs =>
    simp only [denoteS, denoteM, denoteListS_eq, denoteListM_eq]
    exact plainS_erases fun σ x => allLoopS_erase σ x cs 0 fun c h => ih c (.all h)
  | oneOf cs =>
    simp only [denoteS, denoteM, denoteListS_eq, denoteListM_eq]
    exact plainS_erases fun σ x => oneOfLoopS_erase σ x cs 0 0 fun c h => ih c (.oneOf h)
  | not c =>
    simp only [denoteS, denoteM, denoteOptS_eq, denoteOptM_eq]
    exact plainS_erases fun σ x => notS_erase σ x c fun d h => ih d (h ▸ .not)
  | ref m n => exact hρ m n

/-- With known targets, the shared validator is the validator with a fixed table. -/
theorem semS_erases (T : Nat → Constraint) (ext : Ext) (mem : GoVal → MVal) (cfg : Nat → Nat × GoStr) : ∀ (fuel : Nat) (c : Constraint),
    ErasesTo T (semS ext mem cfg fuel c) (semM ext mem (targetEnv T) fuel c)
  | 0, c => denoteS_erases (fun r n => ⟨rfl, fun v h => (by cases h), fun σ h => rfl⟩) c
  | fuel + 1, c => denoteS_erases (fun r n => by
      have ih := semS_erases T ext mem cfg fuel (T r)
      exact ⟨ih.has, ih.dv, ih.val⟩) c

theorem callsS_erase (T : Nat → Constraint) (ext : Ext) (mem : GoVal → MVal) (cfg : Nat → Nat × GoStr) (fuel : Nat → Nat) (c : Nat → Constraint)
    (σ : Nat → Sched) (h : Nat → MVal) :
    (fun i => (callsS ext mem cfg fuel c σ h i).erase T) = calls ext mem (fun _ => targetEnv T) fuel c σ h :=
  funext fun i => (semS_erases T ext mem cfg (fuel i) (c i)).val (σ i) (h i)

/-! ## Executions -/

/-- Every reference finds a constraint, or has found one. -/
structure Full (cfg : Nat → Nat × GoStr) (s : RState Constraint) : Prop where
  tbl : ∀ r, ∃ c, alookup (cfg r).2 (s.tbl (cfg r).1) = some (some c)
  relM : ∀ t r out, s.pc t = .rRelM r out → ∃ c, out = some (some c)
  store : ∀ t r out, s.pc t = .rStore r out → ∃ c, out = some (some c)
  relR : ∀ t r out, s.pc t = .rRelR r out → ∃ c, out = some (some c)

theorem full_step {cfg : Nat → Nat × GoStr} {s s' : RState Constraint} {e : REvent Constraint} (h : Full cfg s) (hs : RStep cfg s e s')
    (he : ∀ r, e ≠ .wrote (cfg r).1 (cfg r).2 none) : Full cfg s' := by
  obtain ⟨h1, h2, h3, h4⟩ := h
  cases hs with
  | begin call hp => cases call <;> constructor <;> first | exact h1 | grind [upd, RCall.start]
  | @sWrite t m n c hp =>
    constructor
    case tbl =>
      intro r
      simp only [upd]
      split
      · rename_i e
        rw [alookup_ainsert]
        split
        · rename_i e'
          cases c with
          | none => exact absurd (by rw [e, e']) (he r)
          | some c => exact ⟨_, rfl⟩
        · rw [← e]; exact h1 r
      · exact h1 r
    all_goals grind [upd]
  | @rLook t r hp =>
    obtain ⟨c, hc⟩ := h1 r
    constructor <;> first | exact h1 | grind [upd]
  | _ => constructor <;> first | exact h1 | grind [upd]

theorem cache_keeps {cfg : Nat → Nat × GoStr} {s s' : RState Constraint} {es : List (REvent Constraint)} {e : REvent Constraint} (h : CacheInv cfg es s)
    (hs : RStep cfg s e s') {r : Nat} {c : Constraint} (hc : s.cache r = some c) : s'.cache r = some c := by
  cases hs with
  | @rStoreOk t r' c' hp =>
    have := h.fresh t r' (by rw [hp]; rfl)
    simp only [upd]
    split
    · rename_i e; subst e; rw [hc] at this; cases this
    · exact hc
  | _ => exact hc

theorem resolved_inv {cfg : Nat → Nat × GoStr} {s s' : RState Constraint} {i r : Nat} {out : Out Constraint} (hs : RStep cfg s (.resolved i r out) s') :
    s.pc i = .rRelR r out ∧ s'.cache = s.cache := by
  cases hs with
  | rUnlockR hp => exact ⟨hp, rfl⟩

theorem erase_step {sh : Memory → MVal → GoStr} {p p' : SProg α} {H H' : Memory} (h : p.step sh H = some (p', H')) :
    (p.erase T).step sh H = some (p'.erase T, H') := by
  cases p with
  | ret a => cases h
  | look l q k => simp only [SProg.step, Option.some.injEq, Prod.mk.injEq] at h; obtain ⟨rfl, rfl⟩ := h; rfl
  | keys l k => simp only [SProg.step, Option.some.injEq, Prod.mk.injEq] at h; obtain ⟨rfl, rfl⟩ := h; rfl
  | set l q x k => simp only [SProg.step, Option.some.injEq, Prod.mk.injEq] at h; obtain ⟨rfl, rfl⟩ := h; rfl
  | sprint x k => simp only [SProg.step, Option.some.injEq, Prod.mk.injEq] at h; obtain ⟨rfl, rfl⟩ := h; rfl
  | resolve r k => cases h

/-- The reference a goroutine is resolving. -/
def Pc.asking : Pc Constraint → Option Nat
  | .rWantR r => some r
  | .rHaveR r => some r
  | .rWantM r => some r
  | .rHaveM r => some r
  | .rRelM r _ => some r
  | .rStore r _ => some r
  | .rRelR r _ => some r
  | _ => none

/-- Locks have owners, and a goroutine that is inside a call either is resolving the reference its program wants, or has
finished its program. -/
structure LiveInv (cfg : Nat → Nat × GoStr) (s : Shared) : Prop where
  lock : LockInv cfg s.refs
  asks : ∀ i, s.refs.pc i ≠ .idle → (∃ a, s.progs i = .ret a) ∨ ∃ r k, s.progs i = .resolve r k ∧ (s.refs.pc i).asking = some r

theorem liveInv_start {cfg : Nat → Nat × GoStr} {es : List (REvent Constraint)} {R : RState Constraint} (hr : RRun cfg .init es R) (hd : R.AllDone)
    (ps : Nat → SProg Res) (H : Memory) : LiveInv cfg ⟨ps, H, R⟩ := ⟨(inv_run hr).1, fun i h => absurd (hd i) h⟩

theorem asks_step {cfg : Nat → Nat × GoStr} {R R' : RState Constraint} {e : REvent Constraint} (hs : RStep cfg R e R') (hb : ∀ i call, e ≠ .begin i call)
    {i : Nat} (h : R'.pc i ≠ .idle) : R.pc i ≠ .idle ∧ (R.pc i).asking = (R'.pc i).asking := by
  cases hs with
  | begin call hp => exact absurd rfl (hb _ _)
  | _ => grind [upd, Pc.asking]

theorem asks_mono {cfg : Nat → Nat × GoStr} {R R' : RState Constraint} {e : REvent Constraint} (hs : RStep cfg R e R') (hb : ∀ i call, e ≠ .begin i call)
    {i : Nat} {p : SProg Res} (h : R.pc i ≠ .idle → (∃ a, p = .ret a) ∨ ∃ r k, p = .resolve r k ∧ (R.pc i).asking = some r) (hi : R'.pc i ≠ .idle) :
    (∃ a, p = .ret a) ∨ ∃ r k, p = .resolve r k ∧ (R'.pc i).asking = some r := by
  obtain ⟨h1, h2⟩ := asks_step hs hb hi
  rw [← h2]
  exact h h1

theorem liveInv_step {sh : Memory → MVal → GoStr} {cfg : Nat → Nat × GoStr} {s s' : Shared} {l : Option (REvent Constraint)} (hi : LiveInv cfg s)
    (hs : SharedStep sh cfg s l s') : LiveInv cfg s' := by
  refine ⟨?_, ?_⟩
  · cases hs with
    | op h => exact hi.lock
    | ask h1 h2 => exact lockInv_step hi.lock h2
    | answer h1 h2 => exact lockInv_step hi.lock h2
    | inside h1 h2 h3 => exact lockInv_step hi.lock h1
    | call h1 h2 => exact lockInv_step hi.lock h2
    | back h1 h2 => exact lockInv_step hi.lock h2
  · cases hs with
    | @op i p' H' h =>
      intro j hj
      have := hi.asks j hj
      by_cases hij : j = i
      · subst hij
        rcases this with ⟨a, ha⟩ | ⟨r, k, hk, _⟩
        · rw [ha] at h; cases h
        · rw [hk] at h; cases h
      · simp only [upd, if_neg hij]; exact this
    | @ask i r k R' h1 h2 =>
      intro j hj
      cases h2 with
      | begin call hp =>
        by_cases hij : j = i
        · subst hij
          exact .inr ⟨r, k, h1, by simp [upd, RCall.start, Pc.asking]⟩
        · simp only [upd, if_neg hij] at hj ⊢
          exact hi.asks j hj
    | @answer i r k out R' h1 h2 =>
      intro j hj
      by_cases hij : j = i
      · subst hij
        cases h2 with
        | rUnlockR hp => simp [upd] at hj
      · simp only [upd, if_neg hij]
        exact asks_mono h2 (fun _ _ => by simp) (hi.asks j) hj
    | @inside e R' h1 h2 h3 => exact fun j hj => asks_mono h1 h2 (hi.asks j) hj
    | @call i a call R' h1 h2 =>
      intro j hj
      by_cases hij : j = i
      · subst hij; exact .inl ⟨a, h1⟩
      · cases h2 with
        | begin call hp =>
          simp only [upd, if_neg hij] at hj ⊢
          exact hi.asks j hj
    | @back i a r out R' h1 h2 => exact fun j hj => asks_mono h2 (fun _ _ => by simp) (hi.asks j) hj

theorem liveInv_run {sh : Memory → MVal → GoStr} {cfg : Nat → Nat × GoStr} {s s' : Shared} {es : List (REvent Constraint)} (hi : LiveInv cfg s)
    (hr : SharedRun sh cfg s es s') : LiveInv cfg s' := by
  induction hr with
  | nil => exact hi
  | op _ hs ih => exact liveInv_step ih hs
  | event _ hs ih => exact liveInv_step ih hs

/-- What is known of a state that an execution has reached. -/
structure SharedInv (sh : Memory → MVal → GoStr) (cfg : Nat → Nat × GoStr) (ps : Nat → SProg Res) (H : Memory) (es : List (REvent Constraint)) (s : Shared) : Prop where
  lock : LockInv cfg s.refs
  cache : CacheInv cfg es s.refs
  full : Full cfg s.refs
  erased : ∀ T : Nat → Constraint, (∀ r c, s.refs.cache r = some c → T r = c) →
    TogetherStar sh (fun i => (ps i).erase T, H) (fun i => (s.progs i).erase T, s.docs)

theorem sharedInv_start {sh : Memory → MVal → GoStr} {cfg : Nat → Nat × GoStr} {es : List (REvent Constraint)} {R : RState Constraint} (hp : Prepared cfg es R)
    (ps : Nat → SProg Res) (H : Memory) : SharedInv sh cfg ps H es ⟨ps, H, R⟩ := by
  obtain ⟨h1, h2⟩ := inv_run hp.run
  refine ⟨h1, h2, ⟨hp.registered, ?_, ?_, ?_⟩, fun T _ => .refl⟩
  · intro t r out h; rw [hp.done t] at h; cases h
  · intro t r out h; rw [hp.done t] at h; cases h
  · intro t r out h; rw [hp.done t] at h; cases h

theorem sharedInv_step {sh : Memory → MVal → GoStr} {cfg : Nat → Nat × GoStr} {ps : Nat → SProg Res} {H : Memory} {es : List (REvent Constraint)} {s s' : Shared}
    {e : REvent Constraint} (hi : SharedInv sh cfg ps H es s) (hs : SharedStep sh cfg s (some e) s') (he : ∀ r, e ≠ .wrote (cfg r).1 (cfg r).2 none) :
    SharedInv sh cfg ps H (es ++ [e]) s' := by
  have hR : RStep cfg s.refs e s'.refs := by cases hs <;> assumption
  have hcache := cacheInv_step hi.lock hi.cache hR
  have hkeep := fun r c => cache_keeps (r := r) (c := c) hi.cache hR
  refine ⟨lockInv_step hi.lock hR, hcache, full_step hi.full hR he, ?_⟩
  · intro T hT
    have h0 := hi.erased T fun r c h => hT r c (hkeep r c h)
    cases hs with
    | @answer i r k out R' h1 h2 =>
      obtain ⟨h3, h4⟩ := resolved_inv h2
      obtain ⟨c, rfl⟩ := hi.full.relR i r out h3
      have h5 := hi.cache.rel i r _ h3
      have h6 : T r = c := hT r c (hkeep r c h5)
      have : (fun j => (upd s.progs i (k (some (some c))) j).erase T) = fun j => (s.progs j).erase T := by
        funext j
        simp only [upd]
        split
        · rename_i hj
          subst hj
          rw [h1, SProg.erase, h6]
        · rfl
      rw [this]
      exact h0
    | ask h1 h2 => exact h0
    | inside h1 h2 h3 => exact h0
    | call h1 h2 => exact h0
    | back h1 h2 => exact h0

theorem sharedInv_op {sh : Memory → MVal → GoStr} {cfg : Nat → Nat × GoStr} {ps : Nat → SProg Res} {H : Memory} {es : List (REvent Constraint)} {s s' : Shared}
    (hi : SharedInv sh cfg ps H es s) (hs : SharedStep sh cfg s none s') : SharedInv sh cfg ps H es s' := by
  cases hs with
  | @op i p' H' h =>
    refine ⟨hi.lock, hi.cache, hi.full, fun T hT => ?_⟩
    · refine .tail (hi.erased T hT) ?_
      have := Together.step (show_ := sh) (fun i => (s.progs i).erase T) s.docs i _ _ (erase_step h)
      refine (congrArg (Together sh _) ?_).mp this
      refine Prod.ext (funext fun j => ?_) rfl
      simp only [upd]
      split <;> rfl

theorem sharedInv_run {sh : Memory → MVal → GoStr} {cfg : Nat → Nat × GoStr} {ps : Nat → SProg Res} {H : Memory} {es₀ : List (REvent Constraint)} {R : RState Constraint}
    (hp : Prepared cfg es₀ R) {es : List (REvent Constraint)} {s : Shared} (hr : SharedRun sh cfg ⟨ps, H, R⟩ es s) (hn : NoNil cfg es) :
    SharedInv sh cfg ps H (es₀ ++ es) s := by
  induction hr with
  | nil => simpa using sharedInv_start hp ps H
  | op _ hs ih => exact sharedInv_op (ih hn) hs
  | @event es s' e s'' _ hs ih =>
    rw [← List.append_assoc]
    exact sharedInv_step (ih fun r h => hn r (by simp [h])) hs fun r h => hn r (by simp [h])

/-! ## Targets -/

/-- Some targets that agree with everything found so far, all of them registered. -/
theorem SharedInv.targets {sh : Memory → MVal → GoStr} {cfg : Nat → Nat × GoStr} {ps : Nat → SProg Res} {H : Memory} {es : List (REvent Constraint)} {s : Shared}
    (hi : SharedInv sh cfg ps H es s) : ∃ T : Nat → Constraint, (∀ r c, s.refs.cache r = some c → T r = c) ∧
      ∀ r, .wrote (cfg r).1 (cfg r).2 (some (T r)) ∈ es := by
  have : ∀ r, ∃ c, (∀ c', s.refs.cache r = some c' → c = c') ∧ .wrote (cfg r).1 (cfg r).2 (some c) ∈ es := by
    intro r
    cases hc : s.refs.cache r with
    | some c => exact ⟨c, fun c' h => by cases h; rfl, hi.cache.cache r c hc⟩
    | none =>
      obtain ⟨c, h⟩ := hi.full.tbl r
      exact ⟨c, fun c' h => (by cases h), hi.cache.tbl _ _ _ h⟩
  choose T hT using this
  exact ⟨T, fun r c h => (hT r).1 c h, fun r => (hT r).2⟩

/-- Every reference has found `T r`, or will. -/
structure Aims (cfg : Nat → Nat × GoStr) (T : Nat → Constraint) (R : RState Constraint) : Prop where
  cache : ∀ r c, R.cache r = some c → T r = c
  tbl : ∀ r, R.cache r = none → alookup (cfg r).2 (R.tbl (cfg r).1) = some (some (T r))
  relM : ∀ t r out, R.pc t = .rRelM r out → out = some (some (T r))
  store : ∀ t r out, R.pc t = .rStore r out → out = some (some (T r))

theorem aims_step {cfg : Nat → Nat × GoStr} {T : Nat → Constraint} {R R' : RState Constraint} {es : List (REvent Constraint)} {e : REvent Constraint}
    (hc : CacheInv cfg es R) (h : Aims cfg T R) (hs : RStep cfg R e R') (he : ∀ r c, e ≠ .wrote (cfg r).1 (cfg r).2 c) : Aims cfg T R' := by
  obtain ⟨h1, h2, h3, h4⟩ := h
  have hf := hc.fresh
  cases hs with
  | begin call hp => cases call <;> constructor <;> first | exact h1 | exact h2 | grind [upd, RCall.start]
  | @sWrite t m n c hp =>
    constructor
    case tbl =>
      intro r hr
      simp only [upd]
      split
      · rename_i e
        rw [alookup_ainsert]
        split
        · rename_i e'
          exact absurd (by rw [e, e']) (he r c)
        · rw [← e]; exact h2 r hr
      · exact h2 r hr
    all_goals first | exact h1 | grind [upd]
  | @rLook t r hp =>
    have := h2 r (hf t r (by rw [hp]; rfl))
    constructor <;> first | exact h1 | exact h2 | grind [upd]
  | @rStoreOk t r c hp =>
    have := h4 t r _ hp
    constructor <;> grind [upd]
  | _ => constructor <;> first | exact h1 | exact h2 | grind [upd]

theorem aims_run {sh : Memory → MVal → GoStr} {cfg : Nat → Nat × GoStr} {ps : Nat → SProg Res} {H : Memory} {es₀ : List (REvent Constraint)} {R : RState Constraint}
    {T : Nat → Constraint} (hp : Prepared cfg es₀ R) (hT : Targets cfg R T) {es : List (REvent Constraint)} {s : Shared}
    (hr : SharedRun sh cfg ⟨ps, H, R⟩ es s) (hn : Untouched cfg es) : Aims cfg T s.refs := by
  have hnil : ∀ {es}, Untouched cfg es → NoNil cfg es := fun h r => h r none
  induction hr with
  | nil =>
    refine ⟨fun r c h => ?_, fun r h => ?_, fun t r out h => ?_, fun t r out h => ?_⟩
    · rcases hT r with h' | h'
      · rw [h'] at h; cases h; rfl
      · rw [h'.1] at h; cases h
    · rcases hT r with h' | h'
      · rw [h'] at h; cases h
      · exact h'.2
    · rw [hp.done t] at h; cases h
    · rw [hp.done t] at h; cases h
  | op _ hs ih => cases hs with | op h => exact ih hn
  | @event es s' e s'' hr hs ih =>
    have hn' : Untouched cfg es := fun r c h => hn r c (by simp [h])
    have hR : RStep cfg s'.refs e s''.refs := by cases hs <;> assumption
    exact aims_step (sharedInv_run hp hr (hnil hn')).cache (ih hn') hR fun r c h => hn r c (by simp [h])

/-! ## Progress -/

theorem LiveInv.goes {sh : Memory → MVal → GoStr} {cfg : Nat → Nat × GoStr} {s : Shared} (hi : LiveInv cfg s) {i : Nat} (h : ∀ a, s.progs i ≠ .ret a) : ∃ l s', SharedStep sh cfg s l s' ∧ OwnStep s l := by
  have hop : ∀ {p' H'}, (s.progs i).step sh s.docs = some (p', H') → ∃ l s', SharedStep sh cfg s l s' ∧ OwnStep s l := fun h =>
    ⟨_, _, .op h, fun _ _ h => (by cases h)⟩
  cases hp : s.progs i with
  | ret a => exact absurd hp (h a)
  | look l q k => exact hop (by rw [hp]; rfl)
  | keys l k => exact hop (by rw [hp]; rfl)
  | set l q x k => exact hop (by rw [hp]; rfl)
  | sprint x k => exact hop (by rw [hp]; rfl)
  | resolve r k =>
    by_cases hid : s.refs.pc i = .idle
    · refine ⟨_, _, .ask hp (.begin (.resolve r) hid), fun j call h => ?_⟩
      simp only [Option.some.injEq, REvent.begin.injEq] at h
      exact ⟨r, k, h.1 ▸ hp⟩
    · obtain ⟨e, R', h1, h2⟩ := canGo hi.lock hid
      by_cases he : ∃ t r' out, e = .resolved t r' out
      · obtain ⟨t, r', out, rfl⟩ := he
        have hpc := (resolved_inv h1).1
        rcases hi.asks t (by rw [hpc]; simp) with ⟨a, ha⟩ | ⟨r'', k', hk, hr⟩
        · exact ⟨_, _, .back ha h1, fun _ _ h => (by cases h)⟩
        · rw [hpc] at hr
          cases hr
          exact ⟨_, _, .answer hk h1, fun _ _ h => (by cases h)⟩
      · refine ⟨_, _, .inside h1 h2 (fun t r' out h => he ⟨t, r', out, h⟩), fun t call h => ?_⟩
        cases h
        exact absurd rfl (h2 _ _)

/-! ## Every execution ends -/

/-- `q` is `p` after its next operation. -/
inductive SProg.Next {α : Type} : SProg α → SProg α → Prop where
  | look {l p k} (o) : Next (k o) (.look l p k)
  | keys {l k} (o) : Next (k o) (.keys l k)
  | set {l p x k} : Next k (.set l p x k)
  | sprint {h k} (o) : Next (k o) (.sprint h k)
  | resolve {r k} (o) : Next (k o) (.resolve r k)

theorem next_wf : WellFounded (SProg.Next (α := α)) := by
  refine ⟨fun p => ?_⟩
  induction p with
  | ret a => exact ⟨_, fun q h => by cases h⟩
  | look l q k ih => exact ⟨_, fun q h => by cases h; exact ih _⟩
  | keys l k ih => exact ⟨_, fun q h => by cases h; exact ih _⟩
  | set l q x k ih => exact ⟨_, fun q h => by cases h; exact ih⟩
  | sprint x k ih => exact ⟨_, fun q h => by cases h; exact ih _⟩
  | resolve r k ih => exact ⟨_, fun q h => by cases h; exact ih _⟩

theorem next_of_step {sh : Memory → MVal → GoStr} {p p' : SProg α} {H H' : Memory} (h : p.step sh H = some (p', H')) : p'.Next p := by
  cases p with
  | ret a => cases h
  | look l q k => simp only [SProg.step, Option.some.injEq, Prod.mk.injEq] at h; obtain ⟨rfl, rfl⟩ := h; exact .look _
  | keys l k => simp only [SProg.step, Option.some.injEq, Prod.mk.injEq] at h; obtain ⟨rfl, rfl⟩ := h; exact .keys _
  | set l q x k => simp only [SProg.step, Option.some.injEq, Prod.mk.injEq] at h; obtain ⟨rfl, rfl⟩ := h; exact .set
  | sprint x k => simp only [SProg.step, Option.some.injEq, Prod.mk.injEq] at h; obtain ⟨rfl, rfl⟩ := h; exact .sprint _
  | resolve r k => cases h

/-- Steps until the program of a goroutine can go on. -/
def waits : SProg Res → Pc Constraint → Nat
  | .resolve _ _, .idle => 8
  | _, q => q.rank

/-- What a goroutine has before it. -/
def ahead (s : Shared) (i : Nat) : SProg Res × Nat := (s.progs i, waits (s.progs i) (s.refs.pc i))

/-- Less lies before it. -/
def Less : SProg Res × Nat → SProg Res × Nat → Prop := Prod.Lex SProg.Next (· < ·)

theorem less_wf : WellFounded Less := next_wf.prod_lex Nat.lt_wfRel.wf

theorem waits_busy {p : SProg Res} {q : Pc Constraint} (h : q ≠ .idle) : waits p q = q.rank := by
  unfold waits
  split
  · exact absurd rfl h
  · rfl

theorem step_idle {cfg : Nat → Nat × GoStr} {R R' : RState Constraint} {e : REvent Constraint} (hs : RStep cfg R e R') {t r : Nat}
    (ha : (R.pc t).asking = some r) (hi : R'.pc t = .idle) : ∃ out, e = .resolved t r out := by
  cases hs with
  | begin call hp => cases call <;> grind [upd, Pc.asking, RCall.start]
  | @rUnlockR t' r' out hp =>
    by_cases ht : t = t'
    · subst ht
      rw [hp] at ha
      cases ha
      exact ⟨out, rfl⟩
    · simp only [upd, if_neg ht] at hi
      rw [hi] at ha; cases ha
  | _ => grind [upd, Pc.asking]

/-- A step changes what one goroutine has before it, to less. -/
theorem LiveInv.less {sh : Memory → MVal → GoStr} {cfg : Nat → Nat × GoStr} {s s' : Shared} {l : Option (REvent Constraint)} (hi : LiveInv cfg s) (hs : SharedStep sh cfg s l s') (ho : OwnStep s l) :
    ∃ i, Less (ahead s' i) (ahead s i) ∧ ∀ j, j ≠ i → ahead s' j = ahead s j := by
  cases hs with
  | @op i p' H' h =>
    refine ⟨i, .left _ _ ?_, fun j hj => ?_⟩
    · simp only [upd, if_true]; exact next_of_step h
    · simp only [ahead, upd, if_neg hj]
  | @ask i r k R' h1 h2 =>
    cases h2 with
    | begin call hp =>
      refine ⟨i, ?_, fun j hj => ?_⟩
      · simp only [ahead, h1]
        exact .right _ (by simp [upd, waits, hp, RCall.start, Pc.rank])
      · simp only [ahead, upd, if_neg hj]
  | @answer i r k out R' h1 h2 =>
    cases h2 with
    | rUnlockR hp =>
      refine ⟨i, .left _ _ ?_, fun j hj => ?_⟩
      · simp only [upd, if_true, h1]; exact .resolve _
      · simp only [ahead, upd, if_neg hj]
  | @inside e R' h1 h2 h3 =>
    obtain ⟨t, q, hq, hr⟩ := step_rank h1 h2
    refine ⟨t, .right _ ?_, fun j hj => ?_⟩
    · have hb : s.refs.pc t ≠ .idle := fun h => by rw [h] at hr; simp [Pc.rank] at hr
      have ht : R'.pc t = q := by rw [hq]; simp [upd]
      show waits (s.progs t) (R'.pc t) < waits (s.progs t) (s.refs.pc t)
      rw [waits_busy hb, ht]
      by_cases hid : q = .idle
      · rcases hi.asks t hb with ⟨a, ha⟩ | ⟨r, k, hk, hr'⟩
        · rw [ha]; exact hr
        · obtain ⟨out, he⟩ := step_idle h1 hr' (by rw [ht, hid])
          exact absurd he (h3 _ _ _)
      · rw [waits_busy hid]; exact hr
    · simp only [ahead, hq, upd, if_neg hj]
  | @call i a call R' h1 h2 =>
    obtain ⟨r, k, h⟩ := ho i call rfl
    rw [h1] at h; cases h
  | @back i a r out R' h1 h2 =>
    cases h2 with
    | rUnlockR hp =>
      refine ⟨i, ?_, fun j hj => ?_⟩
      · simp only [ahead, h1]
        exact .right _ (by simp [upd, waits, hp, Pc.rank])
      · simp only [ahead, upd, if_neg hj]

/-- Only finitely many goroutines have anything before them. -/
theorem shared_finite {sh : Memory → MVal → GoStr} {cfg : Nat → Nat × GoStr} {s : Shared} {es : List (REvent Constraint)} {s' : Shared}
    (hr : SharedRun sh cfg s es s') (h0 : ∃ n, ∀ i, n ≤ i → (∃ a, s.progs i = .ret a) ∧ s.refs.pc i = .idle) :
    ∃ n, ∀ i, n ≤ i → (∃ a, s'.progs i = .ret a) ∧ s'.refs.pc i = .idle := by
  have one : ∀ {s l s'}, SharedStep sh cfg s l s' → (∃ n, ∀ i, n ≤ i → (∃ a, s.progs i = .ret a) ∧ s.refs.pc i = .idle) →
      ∃ n, ∀ i, n ≤ i → (∃ a, s'.progs i = .ret a) ∧ s'.refs.pc i = .idle := by
    rintro s l s' hs ⟨n, hn⟩
    have hR : ∀ {e R'}, RStep cfg s.refs e R' → ∃ t p, R'.pc = upd s.refs.pc t p := fun h => by cases h <;> exact ⟨_, _, rfl⟩
    have hout : ∀ {R' : RState Constraint} {ps : Nat → SProg Res} {i0 : Nat}, (∃ t p, R'.pc = upd s.refs.pc t p) → (∀ j, j ≠ i0 → ps j = s.progs j) →
        ∃ n, ∀ i, n ≤ i → (∃ a, ps i = .ret a) ∧ R'.pc i = .idle := by
      rintro R' ps i0 ⟨t, p, hp⟩ hps
      refine ⟨max n (max (t + 1) (i0 + 1)), fun i hi => ?_⟩
      rw [hps i (by omega), hp]
      simp only [upd]
      rw [if_neg (by omega)]
      exact hn i (by omega)
    cases hs with
    | @op i p' H' h =>
      refine ⟨max n (i + 1), fun j hj => ?_⟩
      simp only [upd]
      rw [if_neg (by omega)]
      exact hn j (by omega)
    | ask h1 h2 => exact hout (i0 := 0) (hR h2) fun j _ => rfl
    | @answer i r k out R' h1 h2 => exact hout (i0 := i) (hR h2) fun j hj => by simp [upd, hj]
    | inside h1 h2 h3 => exact hout (i0 := 0) (hR h1) fun j _ => rfl
    | call h1 h2 => exact hout (i0 := 0) (hR h2) fun j _ => rfl
    | back h1 h2 => exact hout (i0 := 0) (hR h2) fun j _ => rfl
  induction hr with
  | nil => exact h0
  | op _ hs ih => exact one hs ih
  | event _ hs ih => exact one hs ih

/-- A goroutine that has nothing before it takes no step of its own. -/
theorem less_lt {s s' : Shared} {n i : Nat} (hn : ∀ i, n ≤ i → (∃ a, s.progs i = .ret a) ∧ s.refs.pc i = .idle) (h : Less (ahead s' i) (ahead s i)) : i < n := by
  by_contra hi
  obtain ⟨⟨a, ha⟩, hp⟩ := hn i (by omega)
  simp only [ahead, ha, hp] at h
  rcases Prod.lex_def.1 h with h | ⟨_, h⟩
  · generalize s'.progs i = q at h
    cases h
  · simp [waits, Pc.rank] at h

/-- No infinite execution without new calls from outside. -/
theorem shared_ends {sh : Memory → MVal → GoStr} {cfg : Nat → Nat × GoStr} (f : Nat → Shared) (h0 : LiveInv cfg (f 0))
    (hn : ∃ n, ∀ i, n ≤ i → (∃ a, (f 0).progs i = .ret a) ∧ (f 0).refs.pc i = .idle)
    (hf : ∀ k, ∃ l, SharedStep sh cfg (f k) l (f (k + 1)) ∧ OwnStep (f k) l) : False := by
  obtain ⟨n, hn⟩ := hn
  have hI : ∀ k, LiveInv cfg (f k) ∧ ∀ i, n ≤ i → (∃ a, (f k).progs i = .ret a) ∧ (f k).refs.pc i = .idle := fun k => by
    induction k with
    | zero => exact ⟨h0, hn⟩
    | succ k ih =>
      obtain ⟨l, h1, h2⟩ := hf k
      obtain ⟨i, h3, h4⟩ := ih.1.less h1 h2
      have hi := less_lt ih.2 h3
      refine ⟨liveInv_step ih.1 h1, fun j hj => ?_⟩
      obtain ⟨⟨a, ha⟩, hp⟩ := ih.2 j hj
      have hpr : (f (k + 1)).progs j = (f k).progs j := congrArg Prod.fst (h4 j (by omega))
      have hw : waits ((f (k + 1)).progs j) ((f (k + 1)).refs.pc j) = waits ((f k).progs j) ((f k).refs.pc j) := congrArg Prod.snd (h4 j (by omega))
      rw [ha] at hpr
      rw [hpr, ha, hp] at hw
      refine ⟨⟨a, hpr⟩, ?_⟩
      cases hq : (f (k + 1)).refs.pc j <;> rw [hq] at hw <;> simp [waits, Pc.rank] at hw
  have wf : WellFounded (Pi.Lex (· < ·) (fun {_ : Fin n} => Less)) := Pi.Lex.wellFounded _ fun _ => less_wf
  have : ∀ k, Pi.Lex (· < ·) (fun {_ : Fin n} => Less) (fun i : Fin n => ahead (f (k + 1)) i) (fun i : Fin n => ahead (f k) i) := by
    intro k
    obtain ⟨l, h1, h2⟩ := hf k
    obtain ⟨i, h3, h4⟩ := (hI k).1.less h1 h2
    exact ⟨⟨i, less_lt (hI k).2 h3⟩, fun j hj => h4 j (by simp only [Fin.lt_def] at hj; omega), h3⟩
  exact (wellFounded_iff_isEmpty_descending_chain.1 wf).false ⟨fun k i => ahead (f k) i, this⟩

end Jsval
