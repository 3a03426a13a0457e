import Verif.Lemmas.GenObj
import Verif.Model.Validate
/-!
# Rebuilt constraints behave like the originals
-/
namespace Jsval

/-! ## Schedules from pieces -/

/-- A schedule with these parts. -/
def Sched.mk' (key : Nat) (subs : Nat → Sched) : Sched := fun p => match p with | [] => key | i :: p => subs i p

theorem Sched.mk'_sub (key : Nat) (subs : Nat → Sched) (i : Nat) : (Sched.mk' key subs).sub i = subs i := rfl
theorem Sched.mk'_key (key : Nat) (subs : Nat → Sched) : (Sched.mk' key subs).key = key := rfl

theorem exists_sched {Q : Nat → Sched → Prop} (h : ∀ i, ∃ τ, Q i τ) : ∃ σ : Sched, ∀ i, Q i (σ.sub i) := by
  choose f hf using h
  exact ⟨Sched.mk' 0 f, hf⟩

/-! ## Same behaviour up to the choice of schedules -/

/-- Every run of `s` is a run of `s'`. -/
def SemLe (s s' : Sem) : Prop := ∀ σ, ∃ σ', ∀ v, s'.val σ' v = s.val σ v

/-- Same default and same runs. -/
structure Sim (s s' : Sem) : Prop where
  dflt : s.dflt = s'.dflt
  fwd : SemLe s s'
  bwd : SemLe s' s

theorem Sim.refl (s : Sem) : Sim s s := ⟨rfl, fun σ => ⟨σ, fun _ => rfl⟩, fun σ => ⟨σ, fun _ => rfl⟩⟩
theorem Sim.symm {s s' : Sem} (h : Sim s s') : Sim s' s := ⟨h.dflt.symm, h.bwd, h.fwd⟩

theorem Sim.pure {d d' : Dflt} {f f' : GoVal → Res} (hd : d = d') (hf : ∀ v, f v = f' v) : Sim ⟨d, pureV f⟩ ⟨d', pureV f'⟩ := by
  have : f = f' := funext hf
  subst this hd
  exact Sim.refl _

/-- Corresponding lists. -/
def ListSim (l l' : List Sem) : Prop := List.Forall₂ Sim l l'

theorem ListSim.symm {l l'} (h : ListSim l l') : ListSim l' l := List.Forall₂.flip (h.imp (fun _ _ h => h.symm))

/-- Optional parts. -/
inductive OptSim : Option Sem → Option Sem → Prop where
  | none : OptSim none none
  | some {s s'} : Sim s s' → OptSim (some s) (some s')

theorem OptSim.symm {o o'} (h : OptSim o o') : OptSim o' o := by
  cases h with
  | none => exact .none
  | some h => exact .some h.symm

/-- Tables with the same names and corresponding entries, in any order. -/
def TblSim (l l' : List (GoStr × Sem)) : Prop :=
  ∃ P : List (GoStr × Sem × Sem), l.Perm (P.map (fun x => (x.1, x.2.1))) ∧ l'.Perm (P.map (fun x => (x.1, x.2.2))) ∧
    ∀ x ∈ P, Sim x.2.1 x.2.2

theorem TblSim.symm {l l'} (h : TblSim l l') : TblSim l' l := by
  obtain ⟨P, h1, h2, h3⟩ := h
  refine ⟨P.map (fun x => (x.1, x.2.2, x.2.1)), ?_, ?_, ?_⟩
  · rw [List.map_map]; exact h2
  · rw [List.map_map]; exact h1
  · intro x hx
    rw [List.mem_map] at hx
    obtain ⟨y, hy, rfl⟩ := hx
    exact (h3 y hy).symm

/-- Iterating over both in corresponding orders. -/
theorem TblSim.align {l l'} (h : TblSim l l') (k : Nat) :
    ∃ (k' : Nat) (P : List (GoStr × Sem × Sem)), shuffle k l = P.map (fun x : GoStr × Sem × Sem => (x.1, x.2.1)) ∧
    shuffle k' l' = P.map (fun x => (x.1, x.2.2)) ∧ ∀ x ∈ P, Sim x.2.1 x.2.2 := by
  obtain ⟨P, h1, h2, h3⟩ := h
  obtain ⟨j, hj⟩ := shuffle_surj _ _ ((shuffle_perm l k).trans h1)
  rw [shuffle_map] at hj
  have h2' : ((shuffle j P).map (fun x => (x.1, x.2.2))).Perm l' := (((shuffle_perm P j).map _).trans h2.symm)
  obtain ⟨k', hk'⟩ := shuffle_surj _ _ h2'
  exact ⟨k', shuffle j P, hj.symm, hk', fun x hx => h3 x (mem_shuffle.1 hx)⟩

/-- Pattern tables with the same sources and corresponding entries, in any order. -/
def PatSim (l l' : List (Nat × GoStr × Sem)) : Prop := TblSim (l.map (·.2)) (l'.map (·.2))

theorem forLoop_congr {α β γ S : Type} {step : Nat → α → S → Res × S} {step' : Nat → β → S → Res × S} {f : γ → α} {g : γ → β} :
    ∀ (P : List γ) (i : Nat) (st : S), (∀ j x st, P[j]? = some x → step (i + j) (f x) st = step' (i + j) (g x) st) →
    forLoop step i (P.map f) st = forLoop step' i (P.map g) st
  | [], i, st, _ => rfl
  | x :: P, i, st, h => by
    have h0 := h 0 x st rfl
    simp only [Nat.add_zero] at h0
    rw [List.map_cons, List.map_cons, forLoop, forLoop, h0]
    rcases hr : step' i (g x) st with ⟨r, st'⟩
    cases r with
    | ok =>
      refine forLoop_congr P (i + 1) st' (fun j y st hj => ?_)
      have := h (j + 1) y st (by simpa using hj)
      rw [show i + 1 + j = i + (j + 1) by omega]
      exact this
    | err e => rfl
    | abort a => rfl

/-- Choosing schedules for the entries of a list. -/
theorem exists_subs {γ : Type} {s s' : γ → Sem} (P : List γ) (h : ∀ x ∈ P, Sim (s x) (s' x)) (σ : Sched) :
    ∃ τ : Sched, ∀ i x, P[i]? = some x → ∀ v, (s' x).val (τ.sub i) v = (s x).val (σ.sub i) v := by
  have : ∃ τ : Sched, ∀ i, ∀ x, P[i]? = some x → ∀ v, (s' x).val (τ.sub i) v = (s x).val (σ.sub i) v := by
    apply exists_sched (Q := fun i τ => ∀ x, P[i]? = some x → ∀ v, (s' x).val τ v = (s x).val (σ.sub i) v)
    intro i
    cases hi : P[i]? with
    | none => exact ⟨σ, fun x hx => by simp at hx⟩
    | some x =>
      obtain ⟨τ, hτ⟩ := (h x (List.mem_of_getElem? hi)).fwd (σ.sub i)
      refine ⟨τ, fun y hy v => ?_⟩
      simp only [Option.some.injEq] at hy
      subst hy
      exact hτ v
  exact this

/-- Choosing schedules for repeated runs of one constraint. -/
theorem exists_subs' {s s' : Sem} (h : Sim s s') (σ : Sched) : ∃ τ : Sched, ∀ i v, s'.val (τ.sub i) v = s.val (σ.sub i) v := by
  exact exists_sched (Q := fun i τ => ∀ v, s'.val τ v = s.val (σ.sub i) v) (fun i => h.fwd (σ.sub i))

/-! ## Combinators -/

theorem comboSubs {l l' : List Sem} (h : ListSim l l') (σ : Sched) :
    ∃ τ : Sched, ∀ i (s s' : Sem), l[i]? = some s → l'[i]? = some s' → ∀ v, s'.val (τ.sub i) v = s.val (σ.sub i) v := by
  apply exists_sched (Q := fun i τ => ∀ s s' : Sem, l[i]? = some s → l'[i]? = some s' → ∀ v, s'.val τ v = s.val (σ.sub i) v)
  intro i
  cases h1 : l[i]? with
  | none => exact ⟨σ, fun s s' hs => by simp at hs⟩
  | some s =>
    cases h2 : l'[i]? with
    | none => exact ⟨σ, fun s s' _ hs => by simp at hs⟩
    | some s' =>
      have hs : Sim s s' := by
        rw [List.getElem?_eq_some_iff] at h1 h2
        obtain ⟨h1, rfl⟩ := h1
        obtain ⟨h2, rfl⟩ := h2
        exact (List.forall₂_iff_get.1 h).2 i h1 h2
      obtain ⟨τ, hτ⟩ := hs.fwd (σ.sub i)
      refine ⟨τ, fun a b ha hb v => ?_⟩
      simp only [Option.some.injEq] at ha hb
      subst ha hb
      exact hτ v

theorem anyLoop_congr {l l' : List Sem} (h : ListSim l l') {σ τ : Sched} : ∀ (i : Nat) (v : GoVal),
    (∀ j (s s' : Sem), l[j]? = some s → l'[j]? = some s' → ∀ v, s'.val (τ.sub (i + j)) v = s.val (σ.sub (i + j)) v) →
    anyLoop i l' τ v = anyLoop i l σ v := by
  induction h with
  | nil => intro i v _; rfl
  | @cons a b l l' hab hll ih =>
    intro i v hτ
    have h0 := hτ 0 a b rfl rfl v
    simp only [Nat.add_zero] at h0
    rw [anyLoop, anyLoop]
    beta_reduce
    rw [h0]
    rcases a.val (σ.sub i) v with ⟨r, v'⟩
    cases r with
    | ok => rfl
    | err e =>
      refine ih (i + 1) v' (fun j s s' hs hs' w => ?_)
      have := hτ (j + 1) s s' (by simpa using hs) (by simpa using hs') w
      rwa [show i + 1 + j = i + (j + 1) by omega]
    | abort a => rfl

theorem allLoop_congr {l l' : List Sem} (h : ListSim l l') {σ τ : Sched} : ∀ (i : Nat) (v : GoVal),
    (∀ j (s s' : Sem), l[j]? = some s → l'[j]? = some s' → ∀ v, s'.val (τ.sub (i + j)) v = s.val (σ.sub (i + j)) v) →
    allLoop i l' τ v = allLoop i l σ v := by
  induction h with
  | nil => intro i v _; rfl
  | @cons a b l l' hab hll ih =>
    intro i v hτ
    have h0 := hτ 0 a b rfl rfl v
    simp only [Nat.add_zero] at h0
    rw [allLoop, allLoop]
    beta_reduce
    rw [h0]
    rcases a.val (σ.sub i) v with ⟨r, v'⟩
    cases r with
    | ok =>
      refine ih (i + 1) v' (fun j s s' hs hs' w => ?_)
      have := hτ (j + 1) s s' (by simpa using hs) (by simpa using hs') w
      rwa [show i + 1 + j = i + (j + 1) by omega]
    | err e => rfl
    | abort a => rfl

theorem oneOfLoop_congr {l l' : List Sem} (h : ListSim l l') {σ τ : Sched} : ∀ (i c : Nat) (v : GoVal),
    (∀ j (s s' : Sem), l[j]? = some s → l'[j]? = some s' → ∀ v, s'.val (τ.sub (i + j)) v = s.val (σ.sub (i + j)) v) →
    oneOfLoop i c l' τ v = oneOfLoop i c l σ v := by
  induction h with
  | nil => intro i c v _; rfl
  | @cons a b l l' hab hll ih =>
    intro i c v hτ
    have h0 := hτ 0 a b rfl rfl v
    simp only [Nat.add_zero] at h0
    have hn : ∀ c v', oneOfLoop (i + 1) c l' τ v' = oneOfLoop (i + 1) c l σ v' := by
      intro c v'
      refine ih (i + 1) c v' (fun j s s' hs hs' w => ?_)
      have := hτ (j + 1) s s' (by simpa using hs) (by simpa using hs') w
      rwa [show i + 1 + j = i + (j + 1) by omega]
    rw [oneOfLoop, oneOfLoop]
    beta_reduce
    rw [h0]
    simp only [hn]

theorem combo_le {k : Nat → List Sem → Validator}
    (hk : ∀ {l l' : List Sem}, ListSim l l' → ∀ {σ τ : Sched} (v : GoVal),
      (∀ j (s s' : Sem), l[j]? = some s → l'[j]? = some s' → ∀ v, s'.val (τ.sub j) v = s.val (σ.sub j) v) → k 0 l' τ v = k 0 l σ v)
    {l l' : List Sem} (h : ListSim l l') : SemLe ⟨.none, k 0 l⟩ ⟨.none, k 0 l'⟩ := by
  intro σ
  obtain ⟨τ, hτ⟩ := comboSubs h σ
  exact ⟨τ, fun v => hk h v hτ⟩

theorem any_sim {l l' : List Sem} (h : ListSim l l') : Sim ⟨.none, anyLoop 0 l⟩ ⟨.none, anyLoop 0 l'⟩ := by
  have hk : ∀ {l l' : List Sem}, ListSim l l' → ∀ {σ τ : Sched} (v : GoVal),
      (∀ j (s s' : Sem), l[j]? = some s → l'[j]? = some s' → ∀ v, s'.val (τ.sub j) v = s.val (σ.sub j) v) →
      anyLoop 0 l' τ v = anyLoop 0 l σ v := fun h _ _ v hτ => anyLoop_congr h 0 v (by simpa using hτ)
  exact ⟨rfl, combo_le hk h, combo_le hk h.symm⟩

theorem all_sim {l l' : List Sem} (h : ListSim l l') : Sim ⟨.none, allLoop 0 l⟩ ⟨.none, allLoop 0 l'⟩ := by
  have hk : ∀ {l l' : List Sem}, ListSim l l' → ∀ {σ τ : Sched} (v : GoVal),
      (∀ j (s s' : Sem), l[j]? = some s → l'[j]? = some s' → ∀ v, s'.val (τ.sub j) v = s.val (σ.sub j) v) →
      allLoop 0 l' τ v = allLoop 0 l σ v := fun h _ _ v hτ => allLoop_congr h 0 v (by simpa using hτ)
  exact ⟨rfl, combo_le hk h, combo_le hk h.symm⟩

theorem oneOf_sim {l l' : List Sem} (h : ListSim l l') : Sim ⟨.none, oneOfLoop 0 0 l⟩ ⟨.none, oneOfLoop 0 0 l'⟩ := by
  have hk : ∀ {l l' : List Sem}, ListSim l l' → ∀ {σ τ : Sched} (v : GoVal),
      (∀ j (s s' : Sem), l[j]? = some s → l'[j]? = some s' → ∀ v, s'.val (τ.sub j) v = s.val (σ.sub j) v) →
      oneOfLoop 0 0 l' τ v = oneOfLoop 0 0 l σ v := fun h _ _ v hτ => oneOfLoop_congr h 0 0 v (by simpa using hτ)
  exact ⟨rfl, combo_le (k := fun i l => oneOfLoop i 0 l) hk h, combo_le (k := fun i l => oneOfLoop i 0 l) hk h.symm⟩

/-! ## Arrays -/

theorem runItems_congr {s s' : Sem} {σ τ : Sched} (h : ∀ i v, s'.val (τ.sub i) v = s.val (σ.sub i) v) :
    ∀ (xs : List GoVal) (i : Nat), runItems s' τ i xs = runItems s σ i xs
  | [], i => rfl
  | x :: xs, i => by
    rw [runItems, runItems, h]
    simp only [runItems_congr h xs]

theorem runPos_congr {l l' : List Sem} (h : ListSim l l') {σ τ : Sched} : ∀ (i : Nat) (xs : List GoVal),
    (∀ j (s s' : Sem), l[j]? = some s → l'[j]? = some s' → ∀ v, s'.val (τ.sub (i + j)) v = s.val (σ.sub (i + j)) v) →
    runPos τ i l' xs = runPos σ i l xs := by
  induction h with
  | nil => intro i xs _; rfl
  | @cons a b l l' hab hll ih =>
    intro i xs hτ
    cases xs with
    | nil => rfl
    | cons x xs =>
      have h0 := hτ 0 a b rfl rfl x
      simp only [Nat.add_zero] at h0
      have hn : ∀ xs, runPos τ (i + 1) l' xs = runPos σ (i + 1) l xs := by
        intro xs
        refine ih (i + 1) xs (fun j s s' hs hs' w => ?_)
        have := hτ (j + 1) s s' (by simpa using hs) (by simpa using hs') w
        rwa [show i + 1 + j = i + (j + 1) by omega]
      rw [runPos, runPos, h0]
      simp only [hn]

/-- Corresponding arrays: the same numbers in effect, and the additional constraint only where it is used. -/
structure ArrSim (a a' : ArrC Sem) : Prop where
  items : OptSim a.items a'.items
  positional : ListSim a.positional a'.positional
  additional : OptSim a.additional a'.additional ∨ (a.positional = [] ∧ a'.positional = []) ∨ (a.items ≠ none ∧ a'.items ≠ none)
  minItems : (a.minItems > -1 ↔ a'.minItems > -1) ∧ (a.minItems > -1 → a.minItems = a'.minItems)
  maxItems : (a.maxItems > -1 ↔ a'.maxItems > -1) ∧ (a.maxItems > -1 → a.maxItems = a'.maxItems)
  unique : a.unique = a'.unique

theorem ArrSim.symm {a a' : ArrC Sem} (h : ArrSim a a') : ArrSim a' a := by
  refine ⟨h.items.symm, h.positional.symm, ?_, ?_, ?_, h.unique.symm⟩
  · rcases h.additional with h | h | h
    · exact .inl h.symm
    · exact .inr (.inl h.symm)
    · exact .inr (.inr h.symm)
  · exact ⟨h.minItems.1.symm, fun hh => (h.minItems.2 (h.minItems.1.2 hh)).symm⟩
  · exact ⟨h.maxItems.1.symm, fun hh => (h.maxItems.2 (h.maxItems.1.2 hh)).symm⟩

theorem arrayElems_le {a a' : ArrC Sem} (h : ArrSim a a') (σ : Sched) : ∃ τ, ∀ xs, arrayElems a' τ xs = arrayElems a σ xs := by
  obtain ⟨it, po, ad, mn, mx, un⟩ := a
  obtain ⟨it', po', ad', mn', mx', un'⟩ := a'
  obtain ⟨hi, hp, ha, _, _, _⟩ := h
  simp only at hi hp ha
  cases hi with
  | @some s s' hs =>
    obtain ⟨τ, hτ⟩ := exists_subs' hs (σ.sub 0)
    exact ⟨Sched.mk' 0 (fun _ => τ), fun xs => runItems_congr hτ xs 0⟩
  | none =>
    obtain ⟨τ1, h1⟩ := comboSubs hp (σ.sub 1)
    have hpos : ∀ xs, runPos τ1 0 po' xs = runPos (σ.sub 1) 0 po xs := fun xs => runPos_congr hp 0 xs (by simpa using h1)
    have hlen : po'.length = po.length := hp.length_eq.symm
    have h2 : ∃ τ2, ∀ xs, runAdditional ⟨none, po', ad', mn', mx', un'⟩ τ2 xs = runAdditional ⟨none, po, ad, mn, mx, un⟩ (σ.sub 2) xs := by
      rcases ha with ha | ha | ha
      · cases ha with
        | none => exact ⟨σ, fun xs => by simp only [runAdditional, hlen]⟩
        | @some s s' hs =>
          obtain ⟨τ, hτ⟩ := exists_subs' hs (σ.sub 2)
          exact ⟨τ, fun xs => by simp only [runAdditional, hlen, runItems_congr hτ]⟩
      · obtain ⟨rfl, rfl⟩ := ha
        exact ⟨σ, fun xs => by simp [runAdditional]⟩
      · simp at ha
    obtain ⟨τ2, h2⟩ := h2
    refine ⟨Sched.mk' 0 (fun i => if i = 1 then τ1 else τ2), fun xs => ?_⟩
    unfold arrayElems
    have e1 : (Sched.mk' 0 (fun i => if i = 1 then τ1 else τ2)).sub 1 = τ1 := rfl
    have e2 : (Sched.mk' 0 (fun i => if i = 1 then τ1 else τ2)).sub 2 = τ2 := rfl
    simp only [e1, e2, hpos, h2]

theorem array_le {ext : Ext} {a a' : ArrC Sem} (h : ArrSim a a') : SemLe ⟨.none, arrayV ext a⟩ ⟨.none, arrayV ext a'⟩ := by
  intro σ
  obtain ⟨τ, hτ⟩ := arrayElems_le h σ
  refine ⟨τ, fun v => ?_⟩
  show arrayV ext a' τ v = arrayV ext a σ v
  unfold arrayV
  split
  · rename_i n xs _
    simp only [hτ, ← h.unique]
    have hmin : (a'.minItems > -1 ∧ (xs.length : Int) < a'.minItems) ↔ (a.minItems > -1 ∧ (xs.length : Int) < a.minItems) := by
      constructor
      · rintro ⟨h1, h2⟩; have := h.minItems.1.2 h1; exact ⟨this, by rw [h.minItems.2 this]; exact h2⟩
      · rintro ⟨h1, h2⟩; exact ⟨h.minItems.1.1 h1, by rw [← h.minItems.2 h1]; exact h2⟩
    have hmax : (a'.maxItems > -1 ∧ (xs.length : Int) > a'.maxItems) ↔ (a.maxItems > -1 ∧ (xs.length : Int) > a.maxItems) := by
      constructor
      · rintro ⟨h1, h2⟩; have := h.maxItems.1.2 h1; exact ⟨this, by rw [h.maxItems.2 this]; exact h2⟩
      · rintro ⟨h1, h2⟩; exact ⟨h.maxItems.1.1 h1, by rw [← h.maxItems.2 h1]; exact h2⟩
    simp only [hmin, hmax]
  · rfl

theorem array_sim {ext : Ext} {a a' : ArrC Sem} (h : ArrSim a a') : Sim ⟨.none, arrayV ext a⟩ ⟨.none, arrayV ext a'⟩ :=
  ⟨rfl, array_le h, array_le h.symm⟩

/-! ## Objects -/

/-- Corresponding objects without schema dependencies. -/
structure ObjSim (o o' : ObjC Sem) : Prop where
  props : TblSim o.props o'.props
  patterns : PatSim o.patterns o'.patterns
  additional : OptSim o.additional o'.additional
  required : ∀ n, n ∈ o.required ↔ n ∈ o'.required
  propdeps : ∀ n, o.GetPropDependencies n = o'.GetPropDependencies n
  schemadeps : o.schemadeps = [] ∧ o'.schemadeps = []
  minProps : o.minProps < 0 ∧ o'.minProps < 0
  maxProps : o.maxProps < 0 ∧ o'.maxProps < 0

theorem ObjSim.symm {o o' : ObjC Sem} (h : ObjSim o o') : ObjSim o' o :=
  ⟨h.props.symm, TblSim.symm h.patterns, h.additional.symm, fun n => (h.required n).symm, fun n => (h.propdeps n).symm,
    h.schemadeps.symm, h.minProps.symm, h.maxProps.symm⟩

theorem propStep_congr {ext : Ext} {o o' : ObjC Sem} (hr : ∀ n, n ∈ o.required ↔ n ∈ o'.required) {n : GoStr} {s s' : Sem}
    (hs : Sim s s') {σ τ : Sched} {i : Nat} (h : ∀ v, s'.val (τ.sub i) v = s.val (σ.sub i) v) (st : ObjSt) :
    propStep ext o σ i (n, s) st = propStep ext o' τ i (n, s') st := by
  unfold propStep
  simp only [hs.dflt, h, hr n]

theorem patStep_congr {ext : Ext} {src : GoStr} {s s' : Sem} {σ τ : Sched} {i : Nat} (h : ∀ v, s'.val (τ.sub i) v = s.val (σ.sub i) v)
    (n : GoStr) (st : ObjSt) : patStep ext src s σ i n st = patStep ext src s' τ i n st := by
  unfold patStep
  simp only [h]

theorem addlStep_congr {s s' : Sem} {σ τ : Sched} {i : Nat} (h : ∀ v, s'.val (τ.sub i) v = s.val (σ.sub i) v)
    (n : GoStr) (st : ObjSt) : addlStep s σ i n st = addlStep s' τ i n st := by
  unfold addlStep
  simp only [h]

theorem forLoop_same {α S : Type} {step step' : Nat → α → S → Res × S} (h : ∀ i x st, step i x st = step' i x st) :
    ∀ (l : List α) (i : Nat) (st : S), forLoop step i l st = forLoop step' i l st := by
  have : step = step' := funext fun i => funext fun x => funext fun st => h i x st
  subst this
  intros; rfl

/-- Align the pattern tables. -/
theorem PatSim.align {l l'} (h : PatSim l l') (k : Nat) : ∃ (k' : Nat) (P Q : List (Nat × GoStr × Sem)) (R : List (GoStr × Sem × Sem)), shuffle k l = P ∧ shuffle k' l' = Q ∧
    P.map (·.2) = R.map (fun x => (x.1, x.2.1)) ∧ Q.map (·.2) = R.map (fun x => (x.1, x.2.2)) ∧
    ∀ x ∈ R, Sim x.2.1 x.2.2 := by
  obtain ⟨k', R, h1, h2, h3⟩ := TblSim.align h k
  rw [shuffle_map] at h1 h2
  exact ⟨k', _, _, R, rfl, rfl, h1, h2, h3⟩

theorem forLoop_mapped {α β S : Type} {step : Nat → β → S → Res × S} {f : α → β} : ∀ (l : List α) (i : Nat) (st : S),
    forLoop step i (l.map f) st = forLoop (fun i a st => step i (f a) st) i l st
  | [], i, st => rfl
  | a :: l, i, st => by
    rw [List.map_cons, forLoop, forLoop]
    rcases step i (f a) st with ⟨r, st'⟩
    cases r with
    | ok => exact forLoop_mapped l (i + 1) st'
    | err e => rfl
    | abort a => rfl

/-- The outer pattern loop does not look at the identity of the regular expression. -/
theorem patLoop_src {ext : Ext} {σ : Sched} (l : List (Nat × GoStr × Sem)) (st : ObjSt) :
    forLoop (patOuter ext σ) 0 l st =
      forLoop (fun j (p : GoStr × Sem) st => patOuter ext σ j (0, p) st) 0 (l.map (·.2)) st := by
  rw [forLoop_mapped]
  rfl

theorem objLoops_le {ext : Ext} {o o' : ObjC Sem} (h : ObjSim o o') (σ : Sched) :
    ∃ τ, ∀ st, objLoops ext o' τ st = objLoops ext o σ st := by
  obtain ⟨k0, P, p1, p2, p3⟩ := h.props.align (σ.sub 0).key
  obtain ⟨τ1, t1⟩ := exists_subs (s := fun x => x.2.1) (s' := fun x => x.2.2) P p3 (σ.sub 1)
  obtain ⟨k2, A, B, R, a1, a2, a3, a4, a5⟩ := h.patterns.align (σ.sub 2).key
  have hpat : ∃ τ4 : Sched, ∀ j, ∀ x : GoStr × Sem × Sem, R[j]? = some x → ∀ i v, x.2.2.val ((τ4.sub j).sub i) v = x.2.1.val (((σ.sub 4).sub j).sub i) v := by
    apply exists_sched (Q := fun j τ => ∀ x : GoStr × Sem × Sem, R[j]? = some x → ∀ i v, x.2.2.val (τ.sub i) v = x.2.1.val (((σ.sub 4).sub j).sub i) v)
    intro j
    cases hj : R[j]? with
    | none => exact ⟨σ, fun x hx => by simp at hx⟩
    | some x =>
      obtain ⟨τ, hτ⟩ := exists_subs' (a5 x (List.mem_of_getElem? hj)) ((σ.sub 4).sub j)
      refine ⟨τ, fun y hy => ?_⟩
      simp only [Option.some.injEq] at hy
      subst hy
      exact hτ
  obtain ⟨τ4, t4⟩ := hpat
  have haddl : ∃ τ6 : Sched, ∀ k st, (match o'.additional with
      | none => ((Res.err .addlNotAllowed, st) : Res × ObjSt)
      | some c => forLoop (addlStep c τ6) 0 (shuffle k st.premain) st) =
      (match o.additional with
      | none => (.err .addlNotAllowed, st)
      | some c => forLoop (addlStep c (σ.sub 6)) 0 (shuffle k st.premain) st) := by
    rcases ho : o.additional with _ | s
    · have := h.additional
      rw [ho] at this
      cases h2 : o'.additional with
      | none => exact ⟨σ, fun _ _ => rfl⟩
      | some s' => rw [h2] at this; cases this
    · have := h.additional
      rw [ho] at this
      cases h2 : o'.additional with
      | none => rw [h2] at this; cases this
      | some s' =>
        rw [h2] at this
        cases this with
        | some hs =>
          obtain ⟨τ, hτ⟩ := exists_subs' hs (σ.sub 6)
          exact ⟨τ, fun k st => (forLoop_same (fun i x st => addlStep_congr (hτ i) x st) _ _ _).symm⟩
  obtain ⟨τ6, t6⟩ := haddl
  refine ⟨Sched.mk' 0 (fun i => if i = 0 then Sched.mk' k0 (fun _ => σ) else if i = 1 then τ1 else if i = 2 then Sched.mk' k2 (fun _ => σ)
    else if i = 4 then τ4 else if i = 6 then τ6 else σ.sub i), fun st => ?_⟩
  set τ := Sched.mk' 0 (fun i => if i = 0 then Sched.mk' k0 (fun _ => σ) else if i = 1 then τ1 else if i = 2 then Sched.mk' k2 (fun _ => σ)
    else if i = 4 then τ4 else if i = 6 then τ6 else σ.sub i) with hτ
  have e0 : (τ.sub 0).key = k0 := rfl
  have e1 : τ.sub 1 = τ1 := rfl
  have e2 : (τ.sub 2).key = k2 := rfl
  have e3 : τ.sub 3 = σ.sub 3 := rfl
  have e4 : τ.sub 4 = τ4 := rfl
  have e5 : τ.sub 5 = σ.sub 5 := rfl
  have e6 : τ.sub 6 = τ6 := rfl
  have e7 : τ.sub 7 = σ.sub 7 := rfl
  have L1 : ∀ st, forLoop (propStep ext o' (τ.sub 1)) 0 (shuffle (τ.sub 0).key o'.props) st =
      forLoop (propStep ext o (σ.sub 1)) 0 (shuffle (σ.sub 0).key o.props) st := by
    intro st
    rw [e0, e1, p1, p2]
    symm
    refine forLoop_congr P 0 st (fun j x st hj => ?_)
    rw [Nat.zero_add]
    exact propStep_congr h.required (p3 x (List.mem_of_getElem? hj)) (t1 j x hj) st
  have L2 : ∀ st, forLoop (patOuter ext τ) 0 (shuffle (τ.sub 2).key o'.patterns) st =
      forLoop (patOuter ext σ) 0 (shuffle (σ.sub 2).key o.patterns) st := by
    intro st
    rw [e2, patLoop_src, patLoop_src, a1, a2, a3, a4]
    symm
    refine forLoop_congr R 0 st (fun j x st hj => ?_)
    rw [Nat.zero_add]
    unfold patOuter
    simp only [e3, e4]
    exact forLoop_same (fun i n st => patStep_congr (t4 j x hj i) n st) _ _ _
  have L3 : ∀ st, addlPhase o' τ st = addlPhase o σ st := by
    intro st
    unfold addlPhase
    rw [e5, e6]
    by_cases hp : st.premain.length > 0
    · rw [if_pos hp, if_pos hp]
      exact t6 _ st
    · rw [if_neg hp, if_neg hp]
  have L4 : ∀ st, forLoop (depStep o' (τ.sub 8)) 0 (shuffle (τ.sub 7).key st.pseen) st =
      forLoop (depStep o (σ.sub 8)) 0 (shuffle (σ.sub 7).key st.pseen) st := by
    intro st
    rw [e7]
    refine forLoop_same (fun i n st => ?_) _ _ _
    unfold depStep ObjC.GetSchemaDependency
    rw [h.propdeps n, h.schemadeps.1, h.schemadeps.2]
    rfl
  unfold objLoops
  simp only [L1, L2, L3, L4]

theorem object_le {ext : Ext} {o o' : ObjC Sem} (h : ObjSim o o') : SemLe ⟨.none, objectV ext o⟩ ⟨.none, objectV ext o'⟩ := by
  intro σ
  obtain ⟨τ, hτ⟩ := objLoops_le (ext := ext) h σ
  refine ⟨τ, fun v => ?_⟩
  unfold objectV
  have h1 : ¬ o.minProps > -1 := by have := h.minProps.1; omega
  have h2 : ¬ o'.minProps > -1 := by have := h.minProps.2; omega
  have h3 : ¬ o.maxProps > -1 := by have := h.maxProps.1; omega
  have h4 : ¬ o'.maxProps > -1 := by have := h.maxProps.2; omega
  simp only [hτ, h1, h2, h3, h4, false_and, if_false]

theorem object_sim {ext : Ext} {o o' : ObjC Sem} (h : ObjSim o o') : Sim ⟨.none, objectV ext o⟩ ⟨.none, objectV ext o'⟩ :=
  ⟨rfl, object_le h, object_le h.symm⟩

end Jsval
