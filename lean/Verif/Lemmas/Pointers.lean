import Verif.Spec.Pointers
import Verif.Lemmas.Basic
import Verif.Lemmas.Loop
import Verif.Lemmas.Assoc
import Verif.Lemmas.Sched
import Verif.Lemmas.ObjectCore
/-!
# Arguments behind one pointer and behind two
-/
namespace Jsval

/-- The same run on a pointer to the argument. -/
def atPtr (st : ObjSt) : ObjSt := { st with v := .ptr (some st.v) }

/-- The constraint does the same through a pointer. -/
def Sem.SeesThrough (e : Sem) : Prop :=
  ∀ σ v, v.Here → e.val σ (.ptr (some v)) = ((e.val σ v).1, .ptr (some (e.val σ v).2)) ∧ (e.val σ v).2.Here

/-- One turn or a whole loop does the same through a pointer. -/
def Along (f : ObjSt → Res × ObjSt) : Prop :=
  ∀ st, st.v.Here → f (atPtr st) = ((f st).1, atPtr (f st).2) ∧ (f st).2.v.Here

theorem forLoop_along {α : Type} {step : Nat → α → ObjSt → Res × ObjSt} (h : ∀ i a, Along (step i a)) : ∀ (l : List α) (i : Nat), Along (forLoop step i l)
  | [], _ => fun _ hs => ⟨rfl, hs⟩
  | a :: l, i => fun st hs => by
    obtain ⟨h1, h2⟩ := h i a st hs
    have ih := forLoop_along h l (i + 1)
    rw [forLoop, forLoop, h1]
    rcases e : step i a st with ⟨r, u⟩
    rw [e] at h2
    cases r with
    | ok => exact ih u h2
    | err => exact ⟨rfl, h2⟩
    | abort => exact ⟨rfl, h2⟩

theorem seqSt_along {f g : ObjSt → Res × ObjSt} (hf : Along f) (hg : Along g) : Along (fun st => seqSt (f st) g) := by
  intro st hs
  obtain ⟨h1, h2⟩ := hf st hs
  simp only [h1]
  rcases e : f st with ⟨r, u⟩
  rw [e] at h2
  cases r with
  | ok => exact hg u h2
  | err => exact ⟨rfl, h2⟩
  | abort => exact ⟨rfl, h2⟩

theorem GoVal.Here.indirect {v : GoVal} (h : v.Here) : (valueOf v).indirect = some v ∧ (valueOf (.ptr (some v))).indirect = some v := by
  cases v <;> first | exact h.elim | exact ⟨rfl, rfl⟩

theorem GoVal.Here.setProp {v : GoVal} (h : v.Here) (ext : Ext) (p : GoStr) (x : GoVal) :
    Jsval.setProp ext (.ptr (some v)) p x = (Jsval.setProp ext v p x).map (fun w => .ptr (some w)) ∧
      ∀ w, Jsval.setProp ext v p x = .ok w → w.Here := by
  cases v with
  | nil => exact h.elim
  | ptr => exact h.elim
  | iface => exact h.elim
  | struct => exact h.elim
  | map n kvs =>
    refine ⟨rfl, fun w hw => ?_⟩
    rw [Jsval.setProp] at hw
    · unfold setPropAt at hw
      cases x with
      | nil => cases hw; trivial
      | _ => simp only at hw; split at hw <;> cases hw; trivial
    all_goals simp
  | _ => exact ⟨rfl, fun w hw => by cases hw⟩

theorem GoVal.Here.putProp {v : GoVal} (h : v.Here) (p : GoStr) (x : GoVal) :
    Jsval.putProp (.ptr (some v)) p x = .ptr (some (Jsval.putProp v p x)) ∧ (Jsval.putProp v p x).Here := by
  cases v <;> first | exact h.elim | exact ⟨rfl, trivial⟩

theorem propStep_along (ext : Ext) (o : ObjC Sem) (σ : Sched) (i : Nat) (pc : GoStr × Sem) : Along (propStep ext o σ i pc) := by
  intro st hs
  unfold propStep
  have h1 : (valueOf (atPtr st).v).indirect = (valueOf st.v).indirect := by rw [hs.indirect.1, atPtr, hs.indirect.2]
  rw [h1]
  rcases viewProp (valueOf st.v).indirect pc.1 with a | w
  · exact ⟨rfl, hs⟩
  · cases w with
    | absent =>
      simp only
      split
      · exact ⟨rfl, hs⟩
      · cases pc.2.dflt with
        | none => exact ⟨rfl, hs⟩
        | abort => exact ⟨rfl, hs⟩
        | some dv =>
          obtain ⟨h2, h3⟩ := hs.setProp ext pc.1 dv
          have h2 : setProp ext (atPtr st).v pc.1 dv = (setProp ext st.v pc.1 dv).map (fun w => .ptr (some w)) := h2
          simp only [h2]
          rcases e : setProp ext st.v pc.1 dv with s | w
          · cases s <;> exact ⟨rfl, hs⟩
          · exact ⟨rfl, h3 w e⟩
    | present x b =>
      simp only
      rcases e : pc.2.val (σ.sub i) x with ⟨r, x'⟩
      obtain ⟨h2, h3⟩ := hs.putProp pc.1 x'
      have h4 : (if b then putProp (atPtr st).v pc.1 x' else (atPtr st).v) = .ptr (some (if b then putProp st.v pc.1 x' else st.v)) := by
        cases b
        · rfl
        · exact h2
      have h5 : (if b then putProp st.v pc.1 x' else st.v).Here := by
        cases b
        · exact hs
        · exact h3
      simp only [e, h4]
      cases r <;> exact ⟨rfl, h5⟩

theorem patStep_along (ext : Ext) (src : GoStr) (c : Sem) (σ : Sched) (i : Nat) (n : GoStr) : Along (patStep ext src c σ i n) := by
  intro st hs
  unfold patStep
  split
  · exact ⟨rfl, hs⟩
  · have h1 : (valueOf (atPtr st).v).indirect = (valueOf st.v).indirect := by rw [hs.indirect.1, atPtr, hs.indirect.2]
    rw [h1]
    rcases getProp (valueOf st.v).indirect n with a | _ | x
    · exact ⟨rfl, hs⟩
    · exact ⟨rfl, hs⟩
    · simp only
      rcases e : c.val (σ.sub i) x with ⟨r, x'⟩
      obtain ⟨h2, h3⟩ := hs.putProp n x'
      have h2 : putProp (atPtr st).v n x' = _ := h2
      simp only [e, h2]
      cases r <;> exact ⟨rfl, h3⟩

theorem addlStep_along (c : Sem) (σ : Sched) (i : Nat) (n : GoStr) : Along (addlStep c σ i n) := by
  intro st hs
  unfold addlStep
  have h1 : (valueOf (atPtr st).v).indirect = (valueOf st.v).indirect := by rw [hs.indirect.1, atPtr, hs.indirect.2]
  rw [h1]
  rcases getProp (valueOf st.v).indirect n with a | _ | x
  · exact ⟨rfl, hs⟩
  · exact ⟨rfl, hs⟩
  · simp only
    rcases e : c.val (σ.sub i) x with ⟨r, x'⟩
    obtain ⟨h2, h3⟩ := hs.putProp n x'
    have h2 : putProp (atPtr st).v n x' = _ := h2
    simp only [e, h2]
    cases r <;> exact ⟨rfl, h3⟩

theorem depStep_along {o : ObjC Sem} (hd : ∀ p c, o.GetSchemaDependency p = some c → c.SeesThrough) (σ : Sched) (i : Nat) (n : GoStr) :
    Along (depStep o σ i n) := by
  intro st hs
  unfold depStep
  split
  · exact ⟨rfl, hs⟩
  · rcases e : o.GetSchemaDependency n with _ | c
    · exact ⟨rfl, hs⟩
    · obtain ⟨h1, h2⟩ := hd n c e (σ.sub i) st.v hs
      have h1 : c.val (σ.sub i) (atPtr st).v = _ := h1
      simp only [h1]
      exact ⟨rfl, h2⟩

theorem objLoops_along {ext : Ext} {o : ObjC Sem} (hd : ∀ p c, o.GetSchemaDependency p = some c → c.SeesThrough) (σ : Sched) : Along (objLoops ext o σ) := by
  unfold objLoops
  refine seqSt_along (forLoop_along (fun i pc => propStep_along ext o (σ.sub 1) i pc) _ 0) ?_
  refine seqSt_along (forLoop_along (fun i p => ?_) _ 0) ?_
  · intro st hs
    exact forLoop_along (fun j n => patStep_along ext p.2.1 p.2.2 ((σ.sub 4).sub i) j n) _ 0 st hs
  refine seqSt_along ?_ ?_
  · intro st hs
    unfold addlPhase
    have h1 : (atPtr st).premain = st.premain := rfl
    rw [h1]
    split
    · cases o.additional with
      | none => exact ⟨rfl, hs⟩
      | some c => exact forLoop_along (addlStep_along c (σ.sub 6)) _ 0 st hs
    · exact ⟨rfl, hs⟩
  · intro st hs
    exact forLoop_along (depStep_along hd (σ.sub 8)) _ 0 st hs

theorem objectV_through {ext : Ext} {o : ObjC Sem} (hd : ∀ p c, o.GetSchemaDependency p = some c → c.SeesThrough) (d : Dflt) : Sem.SeesThrough ⟨d, objectV ext o⟩ := by
  intro σ v hv
  simp only
  unfold objectV
  rw [hv.indirect.1, hv.indirect.2]
  rcases getPropNames (some v) with s | l
  · exact ⟨rfl, hv⟩
  · simp only
    split
    · exact ⟨rfl, hv⟩
    · split
      · exact ⟨rfl, hv⟩
      · obtain ⟨h1, h2⟩ := objLoops_along (ext := ext) hd σ ⟨v, nameSet l, []⟩ hv
        have h1 : objLoops ext o σ ⟨.ptr (some v), nameSet l, []⟩ = _ := h1
        rw [h1]
        exact ⟨rfl, h2⟩

theorem anyLoop_through {cs : List Sem} (h : ∀ c ∈ cs, c.SeesThrough) (i : Nat) (d : Dflt) : Sem.SeesThrough ⟨d, anyLoop i cs⟩ := by
  induction cs generalizing i with
  | nil => exact fun _ v hv => ⟨rfl, hv⟩
  | cons c cs ih =>
    intro σ v hv
    obtain ⟨h1, h2⟩ := h c (by simp) (σ.sub i) v hv
    simp only [anyLoop, h1]
    rcases e : c.val (σ.sub i) v with ⟨r, v'⟩
    rw [e] at h2
    cases r with
    | ok => exact ⟨rfl, h2⟩
    | err => exact ih (fun c hc => h c (by simp [hc])) (i + 1) σ v' h2
    | abort => exact ⟨rfl, h2⟩

theorem allLoop_through {cs : List Sem} (h : ∀ c ∈ cs, c.SeesThrough) (i : Nat) (d : Dflt) : Sem.SeesThrough ⟨d, allLoop i cs⟩ := by
  induction cs generalizing i with
  | nil => exact fun _ v hv => ⟨rfl, hv⟩
  | cons c cs ih =>
    intro σ v hv
    obtain ⟨h1, h2⟩ := h c (by simp) (σ.sub i) v hv
    simp only [allLoop, h1]
    rcases e : c.val (σ.sub i) v with ⟨r, v'⟩
    rw [e] at h2
    cases r with
    | ok => exact ih (fun c hc => h c (by simp [hc])) (i + 1) σ v' h2
    | err => exact ⟨rfl, h2⟩
    | abort => exact ⟨rfl, h2⟩

theorem oneOfLoop_through {cs : List Sem} (h : ∀ c ∈ cs, c.SeesThrough) (i k : Nat) (d : Dflt) : Sem.SeesThrough ⟨d, oneOfLoop i k cs⟩ := by
  induction cs generalizing i k with
  | nil =>
    intro _ v hv
    simp only [oneOfLoop]
    split
    · exact ⟨rfl, hv⟩
    · split <;> exact ⟨rfl, hv⟩
  | cons c cs ih =>
    intro σ v hv
    obtain ⟨h1, h2⟩ := h c (by simp) (σ.sub i) v hv
    simp only [oneOfLoop, h1]
    rcases e : c.val (σ.sub i) v with ⟨r, v'⟩
    rw [e] at h2
    cases r with
    | ok => exact ih (fun c hc => h c (by simp [hc])) (i + 1) (k + 1) σ v' h2
    | err => exact ih (fun c hc => h c (by simp [hc])) (i + 1) k σ v' h2
    | abort => exact ⟨rfl, h2⟩

theorem notV_through {c : Sem} (h : c.SeesThrough) (d : Dflt) : Sem.SeesThrough ⟨d, notV (some c)⟩ := by
  intro σ v hv
  obtain ⟨h1, h2⟩ := h (σ.sub 0) v hv
  simp only [notV, h1]
  rcases e : c.val (σ.sub 0) v with ⟨r, v'⟩
  rw [e] at h2
  cases r <;> exact ⟨rfl, h2⟩

theorem pureV_through {f : GoVal → Res} (h : ∀ v, v.Here → f (.ptr (some v)) = f v) (d : Dflt) : Sem.SeesThrough ⟨d, pureV f⟩ :=
  fun _ v hv => ⟨by simp [pureV, h v hv], hv⟩

/-! ## Two -/

theorem Twice.getProp {v x : GoVal} (h : Twice v x) (p : GoStr) : Jsval.getProp (valueOf v).indirect p = .ok none := by
  cases h <;> rfl

theorem Twice.viewProp {v x : GoVal} (h : Twice v x) (p : GoStr) : Jsval.viewProp (valueOf v).indirect p = .ok .absent := by
  cases h <;> rfl

theorem Twice.names {v x : GoVal} (h : Twice v x) : getPropNames (valueOf v).indirect = getPropNames (some x) ∨ (∃ u, x = .ptr u) ∨ (∃ u, x = .iface u) ∨ x = .nil := by
  cases x with
  | ptr u => exact .inr (.inl ⟨u, rfl⟩)
  | iface u => exact .inr (.inr (.inl ⟨u, rfl⟩))
  | nil => exact .inr (.inr (.inr rfl))
  | _ => cases h <;> exact .inl rfl

theorem Twice.rewrap {v x : GoVal} (h : Twice v x) (y : GoVal) : Twice (Jsval.rewrap v y) y := by
  cases h
  · exact .ptr y
  · exact .iface y

theorem Twice.rewrap_rewrap {v x : GoVal} (h : Twice v x) (y z : GoVal) : Jsval.rewrap (Jsval.rewrap v y) z = Jsval.rewrap v z := by
  cases h <;> rfl

theorem Twice.rewrap_eq {v x : GoVal} (h : Twice v x) : Jsval.rewrap v x = v := by
  cases h <;> rfl

theorem Twice.setProp {v x : GoVal} (h : Twice v x) (ext : Ext) (p : GoStr) (dv : GoVal) :
    ∃ b, Jsval.setProp ext v p dv = (setPropAt ext b x p dv).map (Jsval.rewrap v) := by
  cases h with
  | ptr => exact ⟨true, by rw [Jsval.setProp, setPropRV]; cases setPropAt ext true x p dv <;> rfl⟩
  | iface => exact ⟨false, by rw [Jsval.setProp, setPropRV]; cases setPropAt ext false x p dv <;> rfl⟩

/-- What a loop does there: it writes to `x`, and no property is seen. -/
def Blindly (v : GoVal) (st st' : ObjSt) : Prop :=
  st'.premain = st.premain ∧ st'.pseen = st.pseen ∧ ∃ y, st'.v = rewrap v y

theorem propStep_blindly {ext : Ext} {o : ObjC Sem} {σ : Sched} {i : Nat} {pc : GoStr × Sem} {v x : GoVal} (hv : Twice v x) {st : ObjSt} (hs : ∃ y, st.v = rewrap v y) :
    Blindly v st (propStep ext o σ i pc st).2 := by
  obtain ⟨y, hy⟩ := hs
  have ht : Twice st.v y := hy ▸ hv.rewrap y
  unfold propStep
  rw [ht.viewProp]
  simp only
  split
  · exact ⟨rfl, rfl, y, hy⟩
  · cases pc.2.dflt with
    | none => exact ⟨rfl, rfl, y, hy⟩
    | abort => exact ⟨rfl, rfl, y, hy⟩
    | some dv =>
      simp only
      obtain ⟨b, hb⟩ := ht.setProp ext pc.1 dv
      rw [hb]
      rcases e : setPropAt ext b y pc.1 dv with s | w
      · cases s <;> exact ⟨rfl, rfl, y, hy⟩
      · exact ⟨rfl, rfl, w, by show rewrap st.v w = _; rw [hy, hv.rewrap_rewrap]⟩

theorem Blindly.trans {v : GoVal} {a b c : ObjSt} (h : Blindly v a b) (h' : Blindly v b c) : Blindly v a c :=
  ⟨h'.1.trans h.1, h'.2.1.trans h.2.1, h'.2.2⟩

theorem propLoop_blindly {ext : Ext} {o : ObjC Sem} {σ : Sched} {v x : GoVal} (hv : Twice v x) (l : List (GoStr × Sem)) (i : Nat) {st : ObjSt} (hs : ∃ y, st.v = rewrap v y) :
    Blindly v st (forLoop (propStep ext o σ) i l st).2 :=
  forLoop_inv (Blindly v st) i l st (fun _ _ _ _ h => h.trans (propStep_blindly hv h.2.2)) ⟨rfl, rfl, hs⟩

/-- A name that a pattern matches ends in a panic; otherwise the loop over the patterns does nothing. -/
theorem patOuter_blind {ext : Ext} {σ : Sched} {i : Nat} {p : Nat × GoStr × Sem} {x : GoVal} {st : ObjSt} (hs : Twice st.v x) :
    patOuter ext σ i p st = (.ok, st) ∨ patOuter ext σ i p st = (.abort .panic, st) := by
  unfold patOuter
  generalize shuffle _ _ = l
  generalize 0 = j
  induction l generalizing j with
  | nil => exact .inl rfl
  | cons n l ih =>
    rw [forLoop]
    have h : patStep ext p.2.1 p.2.2 ((σ.sub 4).sub i) j n st = (.ok, st) ∨ patStep ext p.2.1 p.2.2 ((σ.sub 4).sub i) j n st = (.abort .panic, st) := by
      unfold patStep
      split
      · exact .inl rfl
      · rw [hs.getProp]; exact .inr rfl
    rcases h with h | h <;> rw [h]
    · exact ih (j + 1)
    · exact .inr rfl

theorem patLoop_blind {ext : Ext} {σ : Sched} {x : GoVal} {st : ObjSt} (hs : Twice st.v x) : ∀ (l : List (Nat × GoStr × Sem)) (i : Nat),
    forLoop (patOuter ext σ) i l st = (.ok, st) ∨ forLoop (patOuter ext σ) i l st = (.abort .panic, st)
  | [], _ => .inl rfl
  | p :: l, i => by
    rw [forLoop]
    rcases patOuter_blind (ext := ext) (σ := σ) (i := i) (p := p) hs with h | h <;> rw [h]
    · exact patLoop_blind hs l (i + 1)
    · exact .inr rfl

/-- Properties left over are not allowed, or end in a panic. -/
theorem addlPhase_blind {o : ObjC Sem} {σ : Sched} {x : GoVal} {st : ObjSt} (hs : Twice st.v x) :
    addlPhase o σ st = (if st.premain = [] then .ok else match o.additional with | none => .err .addlNotAllowed | some _ => .abort .panic, st) := by
  unfold addlPhase
  by_cases h : st.premain = []
  · simp [h]
  · have h0 : st.premain.length > 0 := List.length_pos_iff.2 h
    simp only [h0, if_true, h, if_false]
    cases o.additional with
    | none => rfl
    | some c =>
      simp only
      have hp := shuffle_perm st.premain (σ.sub 5).key
      rcases e : shuffle (σ.sub 5).key st.premain with _ | ⟨n, l⟩
      · rw [e] at hp; exact absurd hp.nil_eq.symm h
      · simp only [forLoop, addlStep, hs.getProp]

theorem nameSet_eq_nil {l : List GoStr} : nameSet l = [] ↔ l = [] := by
  rw [List.eq_nil_iff_forall_not_mem, List.eq_nil_iff_forall_not_mem]
  exact forall_congr' fun k => not_congr mem_nameSet

/-- An object constraint that accepts a value behind two indirections. -/
theorem objectV_twice {ext : Ext} {o : ObjC Sem} {σ : Sched} {v x : GoVal} (hv : Twice v x) :
    (objectV ext o σ v).1 = .ok ↔ getPropNames (valueOf v).indirect = .ok [] ∧ o.minProps ≤ 0 ∧
      (forLoop (propStep ext o (σ.sub 1)) 0 (shuffle (σ.sub 0).key o.props) ⟨v, [], []⟩).1 = .ok := by
  unfold objectV
  rcases e : getPropNames (valueOf v).indirect with s | l
  · simp only [reduceCtorEq, false_and, iff_false]
    cases s <;> simp [Stop.toRes]
  · simp only [Except.ok.injEq]
    by_cases hl : l = []
    · subst hl
      simp only [List.length_nil, true_and, show nameSet [] = [] from rfl]
      by_cases h1 : o.minProps ≤ 0
      · have h2 : ¬ (o.minProps > -1 ∧ ((0 : Nat) : Int) < o.minProps) := by omega
        have h3 : ¬ (o.maxProps > -1 ∧ ((0 : Nat) : Int) > o.maxProps) := by omega
        simp only [h1, h2, h3, if_false, true_and]
        unfold objLoops
        rw [seqSt_ok]
        constructor
        · exact fun h => h.1
        · intro h
          refine ⟨h, ?_⟩
          obtain ⟨hb1, hb2, y, hb3⟩ := propLoop_blindly (ext := ext) (o := o) (σ := σ.sub 1) hv (shuffle (σ.sub 0).key o.props) 0 (st := ⟨v, [], []⟩) ⟨x, hv.rewrap_eq.symm⟩
          generalize (forLoop (propStep ext o (σ.sub 1)) 0 (shuffle (σ.sub 0).key o.props) ⟨v, [], []⟩).2 = st at hb1 hb2 hb3 ⊢
          have ht : Twice st.v y := hb3 ▸ hv.rewrap y
          have hp : forLoop (patOuter ext σ) 0 (shuffle (σ.sub 2).key o.patterns) st = (.ok, st) := by
            generalize shuffle (σ.sub 2).key o.patterns = l
            generalize 0 = i
            induction l generalizing i with
            | nil => rfl
            | cons p l ih =>
              rw [forLoop]
              have : patOuter ext σ i p st = (.ok, st) := by
                unfold patOuter
                rw [hb1]
                have : shuffle ((σ.sub 3).sub i).key ([] : List GoStr) = [] := (shuffle_perm [] _).eq_nil
                rw [this]; rfl
              rw [this]
              exact ih (i + 1)
          rw [hp, seqSt_ok]
          refine ⟨rfl, ?_⟩
          simp only
          rw [seqSt_ok, addlPhase_blind ht, hb1]
          refine ⟨rfl, ?_⟩
          simp only
          rw [hb2]
          have : shuffle (σ.sub 7).key ([] : List GoStr) = [] := (shuffle_perm [] _).eq_nil
          rw [this]; rfl
      · have h2 : o.minProps > -1 ∧ ((0 : Nat) : Int) < o.minProps := by omega
        simp only [h1, h2, and_self, if_true, false_and, reduceCtorEq]
    · simp only [hl, false_and, iff_false]
      split
      · simp
      · split
        · simp
        · intro h
          simp only [objLoops] at h
          rw [seqSt_ok] at h
          obtain ⟨-, h⟩ := h
          obtain ⟨hb1, hb2, y, hb3⟩ := propLoop_blindly (ext := ext) (o := o) (σ := σ.sub 1) hv (shuffle (σ.sub 0).key o.props) 0 (st := ⟨v, nameSet l, []⟩) ⟨x, hv.rewrap_eq.symm⟩
          generalize (forLoop (propStep ext o (σ.sub 1)) 0 (shuffle (σ.sub 0).key o.props) ⟨v, nameSet l, []⟩).2 = st at hb1 hb2 hb3 h
          have ht : Twice st.v y := hb3 ▸ hv.rewrap y
          rcases patLoop_blind (ext := ext) (σ := σ) ht (shuffle (σ.sub 2).key o.patterns) 0 with hp | hp
          · rw [hp, seqSt_ok, seqSt_ok, addlPhase_blind ht, hb1] at h
            have : nameSet l ≠ [] := fun h => hl (nameSet_eq_nil.1 h)
            simp only [this, if_false] at h
            cases ho : o.additional <;> simp [ho] at h
          · rw [hp] at h
            exact absurd h.symm (by simp [seqSt])

/-! ## Maps behind two indirections -/

theorem setPropAt_map {ext : Ext} {b n : Bool} {kvs : List (GoStr × GoVal)} {p : GoStr} {dv : GoVal} :
    (∃ kvs', setPropAt ext b (.map n kvs) p dv = .ok (.map n kvs') ∧ (n = true → dv = .nil) ∧
      ∀ q, alookup q kvs' = if q = p then keptOf dv else alookup q kvs) ∨
    (setPropAt ext b (.map n kvs) p dv = .error (.abort .panic) ∧ n = true ∧ dv ≠ .nil) := by
  by_cases hd : dv = .nil
  · subst hd
    refine .inl ⟨adelete p kvs, rfl, fun _ => rfl, fun q => ?_⟩
    by_cases h : q = p
    · subst h
      simp only [if_true]
      refine alookup_eq_none.2 ?_
      simp [adelete]
    · simp only [h, if_false]
      exact alookup_adelete_ne h kvs
  · have h1 : setPropAt ext b (.map n kvs) p dv = if n then .error (.abort .panic) else .ok (.map n (ainsert p dv kvs)) := by
      cases dv <;> first | exact absurd rfl hd | rfl
    have h2 : keptOf dv = some dv := by cases dv <;> first | exact absurd rfl hd | rfl
    cases n
    · exact .inl ⟨_, h1, nofun, fun q => by rw [alookup_ainsert, h2]⟩
    · exact .inr ⟨h1, rfl, hd⟩

/-- May the default of this property be set? -/
def SetAnyway (o : ObjC Sem) (n : Bool) (pc : GoStr × Sem) : Prop :=
  pc.1 ∉ o.required ∧ (∀ a, pc.2.dflt ≠ .abort a) ∧ ∀ dv, pc.2.dflt = .some dv → n = true → dv = .nil

theorem propLoop_twice {ext : Ext} {o : ObjC Sem} {σ : Sched} {v : GoVal} {n : Bool} : ∀ (l : List (GoStr × Sem)) (i : Nat) (kvs : List (GoStr × GoVal)) (pm ps : List GoStr),
    Twice v (.map n kvs) → (l.map (·.1)).Nodup →
    ((forLoop (propStep ext o σ) i l ⟨v, pm, ps⟩).1 = .ok ↔ ∀ pc ∈ l, SetAnyway o n pc) ∧
    ∃ kvs', (forLoop (propStep ext o σ) i l ⟨v, pm, ps⟩).2 = ⟨rewrap v (.map n kvs'), pm, ps⟩ ∧
      (∀ q, alookup q kvs' = alookup q kvs ∨ ∃ c dv, (q, c) ∈ l ∧ c.dflt = .some dv ∧ alookup q kvs' = keptOf dv) ∧
      ((forLoop (propStep ext o σ) i l ⟨v, pm, ps⟩).1 = .ok → ∀ q c dv, (q, c) ∈ l → c.dflt = .some dv → alookup q kvs' = keptOf dv)
  | [], _, kvs, _, _, hv, _ => ⟨by simp [forLoop], kvs, by simp [forLoop, hv.rewrap_eq], fun q => .inl rfl, fun _ _ _ _ h => by cases h⟩
  | pc :: l, i, kvs, pm, ps, hv, hn => by
    have hn' := List.nodup_cons.1 hn
    have stop : ∀ r : Res, r ≠ .ok → ¬ SetAnyway o n pc → propStep ext o σ i pc ⟨v, pm, ps⟩ = (r, ⟨v, pm, ps⟩) → (
        ((forLoop (propStep ext o σ) i (pc :: l) ⟨v, pm, ps⟩).1 = .ok ↔ ∀ pc' ∈ pc :: l, SetAnyway o n pc') ∧
        ∃ kvs', (forLoop (propStep ext o σ) i (pc :: l) ⟨v, pm, ps⟩).2 = ⟨rewrap v (.map n kvs'), pm, ps⟩ ∧
          (∀ q, alookup q kvs' = alookup q kvs ∨ ∃ c dv, (q, c) ∈ pc :: l ∧ c.dflt = .some dv ∧ alookup q kvs' = keptOf dv) ∧
          ((forLoop (propStep ext o σ) i (pc :: l) ⟨v, pm, ps⟩).1 = .ok →
            ∀ q c dv, (q, c) ∈ pc :: l → c.dflt = .some dv → alookup q kvs' = keptOf dv)) := by
      intro r hr hset e
      rw [forLoop, e]
      cases r with
      | ok => exact absurd rfl hr
      | err => exact ⟨⟨nofun, fun h => absurd (h pc (by simp)) hset⟩, kvs, by simp [hv.rewrap_eq], fun q => .inl rfl, nofun⟩
      | abort => exact ⟨⟨nofun, fun h => absurd (h pc (by simp)) hset⟩, kvs, by simp [hv.rewrap_eq], fun q => .inl rfl, nofun⟩
    by_cases hreq : pc.1 ∈ o.required
    · refine stop (.err (.required pc.1)) nofun (fun h => h.1 hreq) ?_
      unfold propStep
      rw [hv.viewProp]
      simp [hreq]
    · cases hd : pc.2.dflt with
      | abort a =>
        refine stop (.abort a) nofun (fun h => h.2.1 a hd) ?_
        unfold propStep
        rw [hv.viewProp]
        simp [hreq, hd]
      | none =>
        have e : propStep ext o σ i pc ⟨v, pm, ps⟩ = (.ok, ⟨v, pm, ps⟩) := by
          unfold propStep
          rw [hv.viewProp]
          simp [hreq, hd]
        have hset : SetAnyway o n pc := ⟨hreq, fun a h => (by rw [hd] at h; cases h), fun dv h => (by rw [hd] at h; cases h)⟩
        obtain ⟨h1, kvs', h2, h3, h4⟩ := propLoop_twice l (i + 1) kvs pm ps hv hn'.2
        rw [forLoop, e]
        refine ⟨?_, kvs', h2, ?_, ?_⟩
        · simp only [h1, List.forall_mem_cons, hset, true_and]
        · exact fun q => (h3 q).imp_right fun ⟨c, dv, a, b⟩ => ⟨c, dv, List.mem_cons_of_mem _ a, b⟩
        · intro hok q c dv hm hc
          rcases List.mem_cons.1 hm with rfl | hm
          · rw [hd] at hc; cases hc
          · exact h4 hok q c dv hm hc
      | some dv =>
        obtain ⟨b, hb⟩ := hv.setProp ext pc.1 dv
        rcases setPropAt_map (ext := ext) (b := b) (n := n) (kvs := kvs) (p := pc.1) (dv := dv) with ⟨kws, g1, g2, g3⟩ | ⟨g1, g2, g3⟩
        · have e : propStep ext o σ i pc ⟨v, pm, ps⟩ = (.ok, ⟨rewrap v (.map n kws), pm, ps⟩) := by
            unfold propStep
            rw [hv.viewProp]
            simp [hreq, hd, hb, g1, Except.map]
          have hset : SetAnyway o n pc := ⟨hreq, fun a h => (by rw [hd] at h; cases h), fun dv' h hn => (by rw [hd] at h; cases h; exact g2 hn)⟩
          obtain ⟨h1, kvs', h2, h3, h4⟩ := propLoop_twice l (i + 1) kws pm ps (hv.rewrap _) hn'.2
          rw [forLoop, e]
          rw [hv.rewrap_rewrap] at h2
          have hout : alookup pc.1 kvs' = alookup pc.1 kws := by
            rcases h3 pc.1 with h | ⟨c, dv', hm, -⟩
            · exact h
            · exact absurd (List.mem_map_of_mem hm) hn'.1
          refine ⟨?_, kvs', h2, ?_, ?_⟩
          · simp only [h1, List.forall_mem_cons, hset, true_and]
          · intro q
            by_cases hq : q = pc.1
            · subst hq
              exact .inr ⟨pc.2, dv, by simp, hd, by rw [hout, g3, if_pos rfl]⟩
            · rcases h3 q with h | ⟨c, dv, a, b⟩
              · exact .inl (by rw [h, g3, if_neg hq])
              · exact .inr ⟨c, dv, List.mem_cons_of_mem _ a, b⟩
          · intro hok q c dv' hm hc
            rcases List.mem_cons.1 hm with rfl | hm
            · rw [hd] at hc; cases hc
              rw [hout, g3, if_pos rfl]
            · exact h4 hok q c dv' hm hc
        · refine stop (.abort .panic) nofun (fun h => g3 (h.2.2 dv hd g2)) ?_
          unfold propStep
          rw [hv.viewProp]
          simp [hreq, hd, hb, g1, Except.map]

end Jsval
