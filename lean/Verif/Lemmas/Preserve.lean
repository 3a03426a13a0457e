import Verif.Lemmas.Induct
import Verif.Lemmas.ReadOnly
import Verif.Lemmas.ObjectCore
import Verif.Lemmas.Array
/-!
# A generic invariant of validation

A `Policy` says which values are fine (`I`), which elements and properties of fine values are (`J`), how a call may change its argument (`R`), which defaults are allowed
(`D`) and which ways of not returning are allowed (`A`); `K v k` is a fact about property names of `v` that survives
the loops. If every constraint of a tree obeys it locally, the whole tree does.
-/
namespace Jsval

structure Policy (ext : Ext) where
  I : GoVal → Prop
  J : GoVal → Prop
  R : GoVal → GoVal → Prop
  A : Abort → Prop
  D : GoVal → Prop
  K : GoVal → GoStr → Prop
  refl : ∀ v, R v v
  trans : ∀ {a b c}, R a b → R b c → R a c
  scalar : ∀ {v p x} (m : MaybeVal), I v → getProp (valueOf v).indirect p = .ok (some x) → J m.toGo
  slice : ∀ {n xs}, I (.slice n xs) → ∀ x ∈ xs, J x
  sliceR : ∀ {n xs xs'}, I (.slice n xs) → List.Forall₂ (fun x x' => J x' ∧ R x x') xs xs' →
    I (.slice n xs') ∧ R (.slice n xs) (.slice n xs')
  names : ∀ {v l}, I v → getPropNames (valueOf v).indirect = .ok l → ∀ k ∈ l, K v k
  namesA : ∀ {v a}, I v → getPropNames (valueOf v).indirect = .error (.abort a) → A a
  getA : ∀ {v p a}, I v → getProp (valueOf v).indirect p = .error a → A a
  getI : ∀ {v p x}, I v → getProp (valueOf v).indirect p = .ok (some x) → J x
  getK : ∀ {v p}, I v → K v p → getProp (valueOf v).indirect p = .ok none → A .panic
  put : ∀ {v p x x'}, I v → getProp (valueOf v).indirect p = .ok (some x) → J x' → R x x' →
    I (putProp v p x') ∧ R v (putProp v p x') ∧ ∀ k, K v k → K (putProp v p x') k
  set : ∀ {v p dv v'}, I v → D dv → viewProp (valueOf v).indirect p = .ok .absent → setProp ext v p dv = .ok v' →
    I v' ∧ R v v' ∧ ∀ k, K v k → K v' k
  setA : ∀ {v p dv a}, I v → D dv → viewProp (valueOf v).indirect p = .ok .absent →
    setProp ext v p dv = .error (.abort a) → A a

namespace Policy
variable {ext : Ext} (P : Policy ext)

/-- The behaviour obeys the policy on one call, with `I` for the fine values. -/
def CallOn (I : GoVal → Prop) (r : Res × GoVal) (v : GoVal) : Prop := I r.2 ∧ P.R v r.2 ∧ ∀ a, r.1 = .abort a → P.A a

/-- The behaviour obeys the policy on one call. -/
abbrev Call (r : Res × GoVal) (v : GoVal) : Prop := P.CallOn P.I r v

/-- The behaviour obeys the policy, with `I` for the fine values. -/
structure GoodOn (I : GoVal → Prop) (s : Sem) : Prop where
  dflt : ∀ dv, s.dflt = .some dv → P.D dv
  dfltA : ∀ a, s.dflt = .abort a → P.A a
  val : ∀ σ v, I v → P.CallOn I (s.val σ v) v

/-- The behaviour obeys the policy. -/
abbrev Good (s : Sem) : Prop := P.GoodOn P.I s

/-- The behaviour obeys the policy on elements and properties. -/
abbrev GoodJ (s : Sem) : Prop := P.GoodOn P.J s

theorem good_pure {f : GoVal → Res} {d : Option GoVal} (hd : ∀ dv, d = some dv → P.D dv)
    (h : ∀ v, P.I v → ∀ a, f v = .abort a → P.A a) : P.Good ⟨.ofOption d, pureV f⟩ := by
  refine ⟨?_, ?_, fun σ v hv => ⟨hv, P.refl v, h v hv⟩⟩
  · intro dv hdv
    cases d with
    | none => cases hdv
    | some d => cases hdv; exact hd _ rfl
  · intro a ha
    cases d <;> cases ha

/-! ## Combinators -/

theorem call_trans {v : GoVal} {r : Res × GoVal} {w : GoVal} (hw : P.R v w) (h : P.Call r w) : P.Call r v :=
  ⟨h.1, P.trans hw h.2.1, h.2.2⟩

theorem any_call : ∀ (cs : List Sem) (i : Nat) (σ : Sched) (v : GoVal), (∀ c ∈ cs, P.Good c) → P.I v →
    P.Call (anyLoop i cs σ v) v
  | [], i, σ, v, _, hv => ⟨hv, P.refl v, fun a h => by cases h⟩
  | c :: cs, i, σ, v, hc, hv => by
    have h := (hc c (by simp)).val (σ.sub i) v hv
    rcases hcv : c.val (σ.sub i) v with ⟨r, v'⟩
    rw [hcv] at h
    cases r with
    | ok => simp only [anyLoop, hcv]; exact h
    | abort a => simp only [anyLoop, hcv]; exact h
    | err e =>
      simp only [anyLoop, hcv]
      exact P.call_trans h.2.1 (any_call cs (i + 1) σ v' (fun c hc' => hc c (by simp [hc'])) h.1)

theorem all_call : ∀ (cs : List Sem) (i : Nat) (σ : Sched) (v : GoVal), (∀ c ∈ cs, P.Good c) → P.I v →
    P.Call (allLoop i cs σ v) v
  | [], i, σ, v, _, hv => ⟨hv, P.refl v, fun a h => by cases h⟩
  | c :: cs, i, σ, v, hc, hv => by
    have h := (hc c (by simp)).val (σ.sub i) v hv
    rcases hcv : c.val (σ.sub i) v with ⟨r, v'⟩
    rw [hcv] at h
    cases r with
    | ok =>
      simp only [allLoop, hcv]
      exact P.call_trans h.2.1 (all_call cs (i + 1) σ v' (fun c hc' => hc c (by simp [hc'])) h.1)
    | abort a => simp only [allLoop, hcv]; exact h
    | err e => simp only [allLoop, hcv]; exact h

theorem oneOf_call : ∀ (cs : List Sem) (i n : Nat) (σ : Sched) (v : GoVal), (∀ c ∈ cs, P.Good c) → P.I v →
    P.Call (oneOfLoop i n cs σ v) v
  | [], i, n, σ, v, _, hv => by
    unfold oneOfLoop
    split
    · exact ⟨hv, P.refl v, fun a h => by cases h⟩
    · split
      · exact ⟨hv, P.refl v, fun a h => by cases h⟩
      · exact ⟨hv, P.refl v, fun a h => by cases h⟩
  | c :: cs, i, n, σ, v, hc, hv => by
    have h := (hc c (by simp)).val (σ.sub i) v hv
    rcases hcv : c.val (σ.sub i) v with ⟨r, v'⟩
    rw [hcv] at h
    cases r with
    | ok =>
      simp only [oneOfLoop, hcv]
      exact P.call_trans h.2.1 (oneOf_call cs (i + 1) (n + 1) σ v' (fun c hc' => hc c (by simp [hc'])) h.1)
    | abort a => simp only [oneOfLoop, hcv]; exact h
    | err e =>
      simp only [oneOfLoop, hcv]
      exact P.call_trans h.2.1 (oneOf_call cs (i + 1) n σ v' (fun c hc' => hc c (by simp [hc'])) h.1)

theorem not_call {c : Option Sem} (σ : Sched) (v : GoVal) (hc : ∀ d, c = some d → P.Good d) (hv : P.I v) :
    P.Call (notV c σ v) v := by
  cases c with
  | none => exact ⟨hv, P.refl v, fun a h => by cases h⟩
  | some c =>
    have h := (hc c rfl).val (σ.sub 0) v hv
    rcases hcv : c.val (σ.sub 0) v with ⟨r, v'⟩
    rw [hcv] at h
    simp only [notV, hcv]
    cases r with
    | ok => exact ⟨h.1, h.2.1, fun a h => by cases h⟩
    | err e => exact ⟨h.1, h.2.1, fun a h => by cases h⟩
    | abort a => exact h

/-! ## Arrays -/

/-- Elements before and after. -/
def Elems (xs xs' : List GoVal) : Prop := List.Forall₂ (fun x x' => P.J x' ∧ P.R x x') xs xs'

theorem elems_refl : ∀ {xs : List GoVal}, (∀ x ∈ xs, P.J x) → P.Elems xs xs
  | [], _ => .nil
  | x :: xs, h => .cons ⟨h x (by simp), P.refl x⟩ (elems_refl (fun y hy => h y (by simp [hy])))

theorem elems_J : ∀ {xs xs' : List GoVal}, P.Elems xs xs' → ∀ x ∈ xs', P.J x
  | _, _, .nil, x, hx => by simp at hx
  | _, _, .cons h t, x, hx => by
    rcases List.mem_cons.1 hx with rfl | hx
    · exact h.1
    · exact elems_J t x hx

theorem elems_trans : ∀ {xs ys zs : List GoVal}, P.Elems xs ys → P.Elems ys zs → P.Elems xs zs
  | _, _, _, .nil, .nil => .nil
  | _, _, _, .cons h t, .cons h' t' => .cons ⟨h'.1, P.trans h.2 h'.2⟩ (elems_trans t t')

theorem runItems_call {c : Sem} (hc : P.GoodJ c) (σ : Sched) : ∀ (xs : List GoVal) (i : Nat), (∀ x ∈ xs, P.J x) →
    P.Elems xs (runItems c σ i xs).2 ∧ ∀ a, (runItems c σ i xs).1 = .abort a → P.A a
  | [], i, _ => ⟨.nil, fun a h => by cases h⟩
  | x :: xs, i, hx => by
    have h := hc.val (σ.sub i) x (hx x (by simp))
    have ih := runItems_call hc σ xs (i + 1) (fun y hy => hx y (by simp [hy]))
    rcases hcv : c.val (σ.sub i) x with ⟨r, x'⟩
    rw [hcv] at h
    cases r with
    | ok => simp only [runItems, hcv]; exact ⟨.cons ⟨h.1, h.2.1⟩ ih.1, ih.2⟩
    | err e =>
      simp only [runItems, hcv]
      exact ⟨.cons ⟨h.1, h.2.1⟩ (P.elems_refl (fun y hy => hx y (by simp [hy]))), h.2.2⟩
    | abort e =>
      simp only [runItems, hcv]
      exact ⟨.cons ⟨h.1, h.2.1⟩ (P.elems_refl (fun y hy => hx y (by simp [hy]))), h.2.2⟩

theorem runPos_call (σ : Sched) : ∀ (cs : List Sem) (xs : List GoVal) (i : Nat), (∀ c ∈ cs, P.GoodJ c) →
    (∀ x ∈ xs, P.J x) → P.Elems xs (runPos σ i cs xs).2 ∧ ∀ a, (runPos σ i cs xs).1 = .abort a → P.A a
  | [], xs, i, _, hx => by unfold runPos; exact ⟨P.elems_refl hx, fun a h => by cases h⟩
  | _ :: _, [], i, _, hx => by unfold runPos; exact ⟨.nil, fun a h => by cases h⟩
  | c :: cs, x :: xs, i, hc, hx => by
    have h := (hc c (by simp)).val (σ.sub i) x (hx x (by simp))
    have ih := runPos_call σ cs xs (i + 1) (fun y hy => hc y (by simp [hy])) (fun y hy => hx y (by simp [hy]))
    rcases hcv : c.val (σ.sub i) x with ⟨r, x'⟩
    rw [hcv] at h
    cases r with
    | ok => simp only [runPos, hcv]; exact ⟨.cons ⟨h.1, h.2.1⟩ ih.1, ih.2⟩
    | err e =>
      simp only [runPos, hcv]
      exact ⟨.cons ⟨h.1, h.2.1⟩ (P.elems_refl (fun y hy => hx y (by simp [hy]))), h.2.2⟩
    | abort e =>
      simp only [runPos, hcv]
      exact ⟨.cons ⟨h.1, h.2.1⟩ (P.elems_refl (fun y hy => hx y (by simp [hy]))), h.2.2⟩

theorem elems_append : ∀ {xs xs' ys ys' : List GoVal}, P.Elems xs xs' → P.Elems ys ys' → P.Elems (xs ++ ys) (xs' ++ ys')
  | _, _, _, _, .nil, h => h
  | _, _, _, _, .cons h t, h' => .cons h (elems_append t h')

theorem runAdditional_call {a : ArrC Sem} (hc : ∀ c, a.Child c → P.GoodJ c) (σ : Sched) (xs : List GoVal)
    (hx : ∀ x ∈ xs, P.J x) :
    P.Elems xs (runAdditional a σ xs).2 ∧ ∀ e, (runAdditional a σ xs).1 = .abort e → P.A e := by
  unfold runAdditional
  simp only
  split
  · cases ha : a.additional with
    | none => exact ⟨P.elems_refl hx, fun a h => by cases h⟩
    | some c =>
      simp only
      have h := P.runItems_call (hc c (.additional ha)) σ (xs.drop (a.positional.length - 1)) (a.positional.length - 1)
        (fun x hx' => hx x (List.mem_of_mem_drop hx'))
      refine ⟨?_, h.2⟩
      have h' := P.elems_append (P.elems_refl (xs := xs.take (a.positional.length - 1))
        (fun x hx' => hx x (List.mem_of_mem_take hx'))) h.1
      rwa [List.take_append_drop] at h'
  · exact ⟨P.elems_refl hx, fun a h => by cases h⟩

theorem arrayElems_call {a : ArrC Sem} (hc : ∀ c, a.Child c → P.GoodJ c) (σ : Sched) (xs : List GoVal)
    (hx : ∀ x ∈ xs, P.J x) :
    P.Elems xs (arrayElems a σ xs).2 ∧ ∀ e, (arrayElems a σ xs).1 = .abort e → P.A e := by
  unfold arrayElems
  cases hi : a.items with
  | some c => exact P.runItems_call (hc c (.items hi)) _ _ _ hx
  | none =>
    simp only
    have h := P.runPos_call (σ.sub 1) a.positional xs 0 (fun c h => hc c (.positional h)) hx
    rcases hr : runPos (σ.sub 1) 0 a.positional xs with ⟨r, xs'⟩
    rw [hr] at h
    cases r with
    | ok =>
      simp only
      have h' := P.runAdditional_call hc (σ.sub 2) xs' (P.elems_J h.1)
      exact ⟨P.elems_trans h.1 h'.1, h'.2⟩
    | err e => exact h
    | abort e => exact h

theorem array_call {a : ArrC Sem} (hc : ∀ c, a.Child c → P.GoodJ c) (σ : Sched) (v : GoVal) (hv : P.I v) :
    P.Call (arrayV ext a σ v) v := by
  have hs : ∀ e, P.Call (Res.err e, v) v := fun e => ⟨hv, P.refl v, fun a h => by cases h⟩
  unfold arrayV
  cases v with
  | slice n xs =>
    simp only [valueOf]
    split
    · exact hs _
    · split
      · exact hs _
      · split
        · exact hs _
        · have h := P.arrayElems_call hc σ xs (P.slice hv)
          obtain ⟨h1, h2⟩ := P.sliceR hv h.1
          exact ⟨h1, h2, h.2⟩
  | _ => exact hs _

/-! ## Objects -/

end Policy

/-- Sub-constraints of an object constraint that see properties. -/
inductive ObjC.Elem {C : Type} (o : ObjC C) : C → Prop where
  | prop {p c} : (p, c) ∈ o.props → Elem o c
  | pattern {id src c} : (id, src, c) ∈ o.patterns → Elem o c
  | additional {c} : o.additional = some c → Elem o c

theorem ObjC.Elem.child {C : Type} {o : ObjC C} {c : C} (h : o.Elem c) : o.Child c := by
  cases h with
  | prop h => exact .prop h
  | pattern h => exact .pattern h
  | additional h => exact .additional h

namespace Policy
variable {ext : Ext} (P : Policy ext)

/-- What the loops maintain. -/
def St (v₀ : GoVal) (st : ObjSt) : Prop := P.I st.v ∧ P.R v₀ st.v ∧ ∀ k ∈ st.premain, P.K st.v k

theorem viewProp_error {rv : RV} {p : GoStr} {a : Abort} (h : viewProp rv p = .error a) : getProp rv p = .error a := by
  unfold viewProp at h
  rcases hg : getProp rv p with b | w
  · rw [hg] at h; simp only [Except.error.injEq] at h; rw [h]
  · rw [hg] at h
    cases w with
    | none => cases h
    | some pval =>
      simp only at h
      split at h
      · split at h
        · split at h <;> cases h
        · split at h <;> cases h
        · cases h
      · cases h

theorem viewProp_unstored {rv : RV} {p : GoStr} {x : GoVal} (h : viewProp rv p = .ok (.present x false)) :
    ∃ (m : MaybeVal) (y : GoVal), x = m.toGo ∧ getProp rv p = .ok (some y) := by
  unfold viewProp at h
  rcases hg : getProp rv p with b | w
  · rw [hg] at h; cases h
  · rw [hg] at h
    cases w with
    | none => cases h
    | some pval =>
      simp only at h
      split at h
      · split at h
        · split at h
          · cases h; exact ⟨_, _, rfl, rfl⟩
          · cases h
        · split at h
          · cases h; exact ⟨_, _, rfl, rfl⟩
          · cases h
        · cases h
      · cases h

/-- One step of a loop. -/
def Step (v₀ : GoVal) (r : Res × ObjSt) : Prop := P.St v₀ r.2 ∧ ∀ a, r.1 = .abort a → P.A a

theorem filter_sub {st : ObjSt} {v₀ v' : GoVal} {p : GoStr} {ps : List GoStr} (h1 : P.I v') (h2 : P.R v₀ v')
    (h : ∀ k, k ∈ st.premain → P.K v' k) :
    P.St v₀ ⟨v', st.premain.filter (fun k => decide (k ≠ p)), ps⟩ :=
  ⟨h1, h2, fun k hk => h k (List.mem_filter.1 hk).1⟩

theorem propStep_step {o : ObjC Sem} {σ : Sched} {i : Nat} {p : GoStr} {c : Sem} {st : ObjSt} {v₀ : GoVal}
    (hc : P.GoodJ c) (hs : P.St v₀ st) : P.Step v₀ (propStep ext o σ i (p, c) st) := by
  have hstop : ∀ e, P.Step v₀ (Res.err e, st) := fun e => ⟨hs, fun a h => by cases h⟩
  have habort : ∀ a, P.A a → P.Step v₀ (Res.abort a, st) := fun a ha => ⟨hs, fun a' h => by cases h; exact ha⟩
  obtain ⟨hI, hR, hK⟩ := hs
  unfold propStep
  rcases hv : viewProp (valueOf st.v).indirect p with a | pv
  · exact habort a (P.getA hI (viewProp_error hv))
  · cases pv with
    | absent =>
      simp only
      split
      · exact hstop _
      · split
        · rename_i a ha; exact habort a (hc.dfltA a ha)
        · exact ⟨⟨hI, hR, hK⟩, fun a h => by cases h⟩
        · rename_i dv hdv
          rcases hset : setProp ext st.v p dv with e | v'
          · cases e with
            | err e => exact hstop _
            | abort a => exact habort a (P.setA hI (hc.dflt dv hdv) hv hset)
          · obtain ⟨a1, a2, a3⟩ := P.set hI (hc.dflt dv hdv) hv hset
            exact ⟨⟨a1, P.trans hR a2, fun k hk => a3 k (hK k hk)⟩, fun a h => by cases h⟩
    | present x s =>
      have hIx : P.J x := by
        cases s with
        | true => exact P.getI hI (viewProp_stored hv)
        | false => obtain ⟨m, y, rfl, hy⟩ := viewProp_unstored hv; exact P.scalar m hI hy
      have hx := hc.val (σ.sub i) x hIx
      rcases hcv : c.val (σ.sub i) x with ⟨r, x'⟩
      rw [hcv] at hx
      have hv' : P.I (if s = true then putProp st.v p x' else st.v) ∧
          P.R st.v (if s = true then putProp st.v p x' else st.v) ∧
          ∀ k, P.K st.v k → P.K (if s = true then putProp st.v p x' else st.v) k := by
        cases s with
        | true => exact P.put hI (viewProp_stored hv) hx.1 hx.2.1
        | false => exact ⟨hI, P.refl _, fun k h => h⟩
      obtain ⟨a1, a2, a3⟩ := hv'
      have hst := fun ps => P.filter_sub (st := st) (p := p) (ps := ps) a1 (P.trans hR a2) (fun k hk => a3 k (hK k hk))
      simp only [hcv]
      cases r with
      | ok => exact ⟨hst _, fun a h => by cases h⟩
      | err e => exact ⟨hst _, fun a h => by cases h⟩
      | abort e => exact ⟨hst _, fun a h => by cases h; exact hx.2.2 _ rfl⟩

theorem patStep_step {src : GoStr} {σ : Sched} {i : Nat} {k : GoStr} {c : Sem} {st : ObjSt} {v₀ : GoVal}
    (hc : P.GoodJ c) (hs : P.St v₀ st) (hk : P.K st.v k) : P.Step v₀ (patStep ext src c σ i k st) := by
  have habort : ∀ a, P.A a → P.Step v₀ (Res.abort a, st) := fun a ha => ⟨hs, fun a' h => by cases h; exact ha⟩
  unfold patStep
  split
  · exact ⟨hs, fun a h => by cases h⟩
  obtain ⟨hI, hR, hK⟩ := hs
  rcases hg : getProp (valueOf st.v).indirect k with a | w
  · exact habort a (P.getA hI hg)
  · cases w with
    | none => exact habort _ (P.getK hI hk hg)
    | some x =>
      have hx := hc.val (σ.sub i) x (P.getI hI hg)
      rcases hcv : c.val (σ.sub i) x with ⟨r, x'⟩
      rw [hcv] at hx
      obtain ⟨a1, a2, a3⟩ := P.put hI hg hx.1 hx.2.1
      have hst := fun ps => P.filter_sub (st := st) (p := k) (ps := ps) a1 (P.trans hR a2) (fun k hk => a3 k (hK k hk))
      simp only [hcv]
      cases r with
      | ok => exact ⟨hst _, fun a h => by cases h⟩
      | err e => exact ⟨hst _, fun a h => by cases h⟩
      | abort e => exact ⟨hst _, fun a h => by cases h; exact hx.2.2 _ rfl⟩

theorem patStep_K {src : GoStr} {σ : Sched} {i : Nat} {k : GoStr} {c : Sem} {st : ObjSt} {v₀ : GoVal}
    (hc : P.GoodJ c) (hs : P.St v₀ st) (k' : GoStr) (hk : P.K st.v k') : P.K (patStep ext src c σ i k st).2.v k' := by
  unfold patStep
  split
  · exact hk
  obtain ⟨hI, hR, hK⟩ := hs
  rcases hg : getProp (valueOf st.v).indirect k with a | w
  · exact hk
  · cases w with
    | none => exact hk
    | some x =>
      have hx := hc.val (σ.sub i) x (P.getI hI hg)
      rcases hcv : c.val (σ.sub i) x with ⟨r, x'⟩
      rw [hcv] at hx
      obtain ⟨a1, a2, a3⟩ := P.put hI hg hx.1 hx.2.1
      simp only [hcv]
      cases r <;> exact a3 _ hk

theorem addlStep_step {σ : Sched} {i : Nat} {k : GoStr} {c : Sem} {st : ObjSt} {v₀ : GoVal}
    (hc : P.GoodJ c) (hs : P.St v₀ st) (hk : P.K st.v k) :
    P.Step v₀ (addlStep c σ i k st) ∧ ∀ k', P.K st.v k' → P.K (addlStep c σ i k st).2.v k' := by
  have habort : ∀ a, P.A a → P.Step v₀ (Res.abort a, st) := fun a ha => ⟨hs, fun a' h => by cases h; exact ha⟩
  unfold addlStep
  obtain ⟨hI, hR, hK⟩ := hs
  rcases hg : getProp (valueOf st.v).indirect k with a | w
  · exact ⟨habort a (P.getA hI hg), fun _ h => h⟩
  · cases w with
    | none => exact ⟨habort _ (P.getK hI hk hg), fun _ h => h⟩
    | some x =>
      have hx := hc.val (σ.sub i) x (P.getI hI hg)
      rcases hcv : c.val (σ.sub i) x with ⟨r, x'⟩
      rw [hcv] at hx
      obtain ⟨a1, a2, a3⟩ := P.put hI hg hx.1 hx.2.1
      have hst : P.St v₀ { st with v := putProp st.v k x' } := ⟨a1, P.trans hR a2, fun k hk => a3 k (hK k hk)⟩
      simp only [hcv]
      cases r with
      | ok => exact ⟨⟨hst, fun a h => by cases h⟩, a3⟩
      | err e => exact ⟨⟨hst, fun a h => by cases h⟩, a3⟩
      | abort e => exact ⟨⟨hst, fun a h => by cases h; exact hx.2.2 _ rfl⟩, a3⟩

theorem depsCheck_abort {ps : List GoStr} {a : Abort} : ∀ ds, depsCheck ps ds ≠ .abort a
  | [] => by simp [depsCheck]
  | d :: ds => by
    unfold depsCheck
    split
    · exact depsCheck_abort ds
    · simp

/-- The dependencies loop does not look at `premain`. -/
theorem depStep_step {o : ObjC Sem} (hc : ∀ p c, o.GetSchemaDependency p = some c → P.Good c) {σ : Sched} {i : Nat} {k : GoStr} {st : ObjSt}
    {v₀ : GoVal} (hI : P.I st.v) (hR : P.R v₀ st.v) :
    (P.I (depStep o σ i k st).2.v ∧ P.R v₀ (depStep o σ i k st).2.v) ∧ ∀ a, (depStep o σ i k st).1 = .abort a → P.A a := by
  unfold depStep
  split
  · exact ⟨⟨hI, hR⟩, fun a h => absurd h (depsCheck_abort _)⟩
  · split
    · exact ⟨⟨hI, hR⟩, fun a h => by cases h⟩
    · rename_i depc hd
      have hx := (hc _ depc hd).val (σ.sub i) st.v hI
      rcases hcv : depc.val (σ.sub i) st.v with ⟨r, v'⟩
      rw [hcv] at hx
      exact ⟨⟨hx.1, P.trans hR hx.2.1⟩, hx.2.2⟩

theorem forLoop_step {α : Type} {step : Nat → α → ObjSt → Res × ObjSt} {v₀ : GoVal} (J : ObjSt → Prop) {l : List α}
    {i : Nat} {s : ObjSt} (h : ∀ i, ∀ a ∈ l, ∀ s, P.St v₀ s → J s → P.Step v₀ (step i a s) ∧ J (step i a s).2)
    (hs : P.St v₀ s) (hJ : J s) : P.Step v₀ (forLoop step i l s) ∧ J (forLoop step i l s).2 := by
  have h1 := forLoop_inv (step := step) (fun s => P.St v₀ s ∧ J s) i l s
    (fun i a ha s hs => ⟨(h i a ha s hs.1 hs.2).1.1, (h i a ha s hs.1 hs.2).2⟩) ⟨hs, hJ⟩
  have h2 := forLoop_normal (step := step) (fun s => P.St v₀ s ∧ J s) (fun r => ∀ a, r = .abort a → P.A a)
    (fun a h => by cases h) i l s
    (fun i a ha s hs => ⟨⟨(h i a ha s hs.1 hs.2).1.1, (h i a ha s hs.1 hs.2).2⟩, (h i a ha s hs.1 hs.2).1.2⟩) ⟨hs, hJ⟩
  exact ⟨⟨h1.1, h2⟩, h1.2⟩

theorem patOuter_step {σ : Sched} {j : Nat} {p : Nat × GoStr × Sem} {st : ObjSt} {v₀ : GoVal} (hc : P.GoodJ p.2.2)
    (hs : P.St v₀ st) : P.Step v₀ (patOuter ext σ j p st) := by
  unfold patOuter
  refine (P.forLoop_step (fun s => ∀ k ∈ st.premain, P.K s.v k) ?_ hs hs.2.2).1
  intro i k hk s hs' hJ
  exact ⟨P.patStep_step hc hs' (hJ k (mem_shuffle.1 hk)), fun k' hk' => P.patStep_K hc hs' k' (hJ k' hk')⟩

theorem addlPhase_step {o : ObjC Sem} (hc : ∀ c, o.Elem c → P.GoodJ c) {σ : Sched} {st : ObjSt} {v₀ : GoVal}
    (hs : P.St v₀ st) : P.Step v₀ (addlPhase o σ st) := by
  unfold addlPhase
  split
  · cases ha : o.additional with
    | none => exact ⟨hs, fun a h => by cases h⟩
    | some c =>
      simp only
      refine (P.forLoop_step (fun s => ∀ k ∈ st.premain, P.K s.v k) ?_ hs hs.2.2).1
      intro i k hk s hs' hJ
      have h := P.addlStep_step (σ := σ.sub 6) (i := i) (hc c (.additional ha)) hs' (hJ k (mem_shuffle.1 hk))
      exact ⟨h.1, fun k' hk' => h.2 k' (hJ k' hk')⟩
  · exact ⟨hs, fun a h => by cases h⟩

theorem seqSt_step {v₀ : GoVal} {r : Res × ObjSt} {k : ObjSt → Res × ObjSt} {Q : Res × ObjSt → Prop}
    (h : P.Step v₀ r) (hk : ∀ st, P.St v₀ st → Q (k st)) (hstop : ∀ r, P.Step v₀ r → Q r) : Q (seqSt r k) := by
  rcases r with ⟨r, st⟩
  cases r with
  | ok => exact hk st h.1
  | err e => exact hstop _ h
  | abort e => exact hstop _ h

theorem objLoops_step {o : ObjC Sem} (hc : ∀ c, o.Elem c → P.GoodJ c)
    (hd : ∀ p c, o.GetSchemaDependency p = some c → P.Good c) {σ : Sched} {st : ObjSt} {v₀ : GoVal}
    (hs : P.St v₀ st) : (P.I (objLoops ext o σ st).2.v ∧ P.R v₀ (objLoops ext o σ st).2.v) ∧
      ∀ a, (objLoops ext o σ st).1 = .abort a → P.A a := by
  unfold objLoops
  have hstop : ∀ r : Res × ObjSt, P.Step v₀ r → (P.I r.2.v ∧ P.R v₀ r.2.v) ∧ ∀ a, r.1 = .abort a → P.A a :=
    fun r h => ⟨⟨h.1.1, h.1.2.1⟩, h.2⟩
  refine P.seqSt_step (Q := fun r => (P.I r.2.v ∧ P.R v₀ r.2.v) ∧ ∀ a, r.1 = .abort a → P.A a)
    (P.forLoop_step (fun _ => True) ?_ hs trivial).1 ?_ hstop
  · rintro i ⟨p, c⟩ ha s hs' -
    exact ⟨P.propStep_step (hc c (.prop (mem_shuffle.1 ha))) hs', trivial⟩
  intro st hs
  refine P.seqSt_step (Q := fun r => (P.I r.2.v ∧ P.R v₀ r.2.v) ∧ ∀ a, r.1 = .abort a → P.A a)
    (P.forLoop_step (fun _ => True) ?_ hs trivial).1 ?_ hstop
  · rintro i ⟨id, src, c⟩ ha s hs' -
    exact ⟨P.patOuter_step (hc c (.pattern (mem_shuffle.1 ha))) hs', trivial⟩
  intro st hs
  refine P.seqSt_step (Q := fun r => (P.I r.2.v ∧ P.R v₀ r.2.v) ∧ ∀ a, r.1 = .abort a → P.A a)
    (P.addlPhase_step hc hs) ?_ hstop
  intro st hs
  constructor
  · exact forLoop_inv (fun s => P.I s.v ∧ P.R v₀ s.v) 0 _ st
      (fun i k _ s hs' => (P.depStep_step hd hs'.1 hs'.2).1) ⟨hs.1, hs.2.1⟩
  · exact forLoop_normal (fun s => P.I s.v ∧ P.R v₀ s.v) (fun r => ∀ a, r = .abort a → P.A a)
      (fun a h => by cases h) 0 _ st (fun i k _ s hs' => P.depStep_step hd hs'.1 hs'.2) ⟨hs.1, hs.2.1⟩

theorem object_call {o : ObjC Sem} (hc : ∀ c, o.Elem c → P.GoodJ c)
    (hd : ∀ p c, o.GetSchemaDependency p = some c → P.Good c) (σ : Sched) (v : GoVal) (hv : P.I v) :
    P.Call (objectV ext o σ v) v := by
  have hs : ∀ e, P.Call (Res.err e, v) v := fun e => ⟨hv, P.refl v, fun a h => by cases h⟩
  unfold objectV
  rcases hn : getPropNames (valueOf v).indirect with e | l
  · cases e with
    | err e => exact hs e
    | abort a => exact ⟨hv, P.refl v, fun a' h => by cases h; exact P.namesA hv hn⟩
  · simp only
    split
    · exact hs _
    · split
      · exact hs _
      · have h := P.objLoops_step hc hd (σ := σ) (st := ⟨v, nameSet l, []⟩) (v₀ := v)
          ⟨hv, P.refl v, fun k hk => P.names hv hn k (by
            simpa [nameSet, foldl_addName_mem] using hk)⟩
        exact ⟨h.1.1, h.1.2, h.2⟩

theorem prePart_step {o : ObjC Sem} (hc : ∀ c, o.Elem c → P.GoodJ c) {σ : Sched} {st : ObjSt} {v₀ : GoVal}
    (hs : P.St v₀ st) : P.Step v₀ (prePart ext o σ st) := by
  unfold prePart
  refine P.seqSt_step (P.forLoop_step (fun _ => True) ?_ hs trivial).1 ?_ (fun r h => h)
  · rintro i ⟨p, c⟩ ha s hs' -
    exact ⟨P.propStep_step (hc c (.prop (mem_shuffle.1 ha))) hs', trivial⟩
  intro st hs
  refine P.seqSt_step (P.forLoop_step (fun _ => True) ?_ hs trivial).1 ?_ (fun r h => h)
  · rintro i ⟨id, src, c⟩ ha s hs' -
    exact ⟨P.patOuter_step (hc c (.pattern (mem_shuffle.1 ha))) hs', trivial⟩
  intro st hs
  exact P.addlPhase_step hc hs

/-- Every name looked at by the dependencies loop of an accepting run. -/
theorem depLoop_each {o : ObjC Sem} (hc : ∀ p c, o.GetSchemaDependency p = some c → P.Good c) {σ : Sched} : ∀ {l : List GoStr} {i : Nat} {st st' : ObjSt},
    P.I st.v → forLoop (depStep o σ) i l st = (.ok, st') →
    (P.I st'.v ∧ P.R st.v st'.v) ∧
    ∀ k ∈ l, ∃ j s s', P.I s.v ∧ P.R st.v s.v ∧ depStep o σ j k s = (.ok, s') ∧ P.R s'.v st'.v
  | [], i, st, st', hI, h => by
    cases h
    exact ⟨⟨hI, P.refl _⟩, fun k hk => by cases hk⟩
  | p :: l, i, st, st', hI, h => by
    have hs := P.depStep_step hc (σ := σ) (i := i) (k := p) hI (P.refl st.v)
    unfold forLoop at h
    rcases h1 : depStep o σ i p st with ⟨r, s1⟩
    rw [h1] at h hs
    cases r with
    | err e => cases h
    | abort e => cases h
    | ok =>
    simp only at h hs
    obtain ⟨⟨hI1, hR1⟩, -⟩ := hs
    obtain ⟨⟨hI', hR'⟩, he⟩ := depLoop_each hc hI1 h
    refine ⟨⟨hI', P.trans hR1 hR'⟩, fun k hk => ?_⟩
    rcases List.mem_cons.1 hk with rfl | hk
    · exact ⟨i, st, s1, hI, P.refl _, h1, hR'⟩
    · obtain ⟨j, s, s', a1, a2, a3, a4⟩ := he k hk
      exact ⟨j, s, s', a1, P.trans hR1 a2, a3, a4⟩

/-! ## Trees -/

/-- What a single constraint must satisfy: its default is allowed and its own enumeration comes back. -/
structure Local (c : Constraint) : Prop where
  dflt : ∀ dv, c.ownDefault = some dv → P.D dv
  enum : ∀ vals, c = .enum vals → ∀ v, P.I v → ∀ a, enumCheck vals v = .abort a → P.A a
  str : ∀ s, c = .string s → ∀ l, s.enums = some l → ∀ x a, enumCheck l (.str x) = .abort a → P.A a
  num : ∀ s, c = .number s ∨ c = .integer s → ∀ l, s.enums = some l → ∀ k x a, enumCheck l (.float k x) = .abort a → P.A a

theorem andThen_abort {r k : Res} {a : Abort} (h : r.andThen k = .abort a) : r = .abort a ∨ k = .abort a := by
  cases r with
  | ok => exact Or.inr h
  | err e => cases h
  | abort e => exact Or.inl h

theorem formatCheck_abort {fmt s : GoStr} {a : Abort} : formatCheck ext fmt s ≠ .abort a := by
  unfold formatCheck
  intro h
  split at h
  · split at h <;> cases h
  · split at h
    · split at h <;> cases h
    · split at h
      · split at h <;> cases h
      · split at h
        · split at h
          · cases h
          · split at h <;> cases h
        · split at h
          · split at h
            · cases h
            · split at h <;> cases h
          · split at h
            · split at h <;> cases h
            · cases h

theorem strCheck_abort {c : StrC} {v : GoVal} {a : Abort} (h : strCheck ext c v = .abort a) :
    ∃ l s, c.enums = some l ∧ enumCheck l (.str s) = .abort a := by
  unfold strCheck at h
  split at h
  · rename_i s _
    unfold strCheckS at h
    rcases andThen_abort h with h | h
    · unfold maxLenCheck at h; split at h <;> cases h
    rcases andThen_abort h with h | h
    · unfold minLenCheck at h; split at h <;> cases h
    rcases andThen_abort h with h | h
    · exact absurd h formatCheck_abort
    rcases andThen_abort h with h | h
    · unfold regexpCheck at h
      split at h
      · cases h
      · split at h <;> cases h
    · unfold enumOptCheck at h
      split at h
      · cases h
      · rename_i l hl; exact ⟨l, s, hl, h⟩
  · cases h

theorem numCheckF_abort {c : NumC} {f : F64} {a : Abort} (h : numCheckF c f = .abort a) :
    ∃ l, c.enums = some l ∧ enumCheck l (.float .f64 f) = .abort a := by
  unfold numCheckF at h
  rcases andThen_abort h with h | h
  · unfold minCheck at h
    split at h
    · cases h
    · split at h <;> split at h <;> cases h
  rcases andThen_abort h with h | h
  · unfold maxCheck at h
    split at h
    · cases h
    · split at h <;> split at h <;> cases h
  rcases andThen_abort h with h | h
  · unfold multCheck at h
    split at h
    · cases h
    · split at h
      · split at h <;> cases h
      · cases h
  · unfold enumOptCheck at h
    split at h
    · cases h
    · rename_i l hl; exact ⟨l, hl, h⟩

theorem numCheck_abort {c : NumC} {v : GoVal} {a : Abort} (h : numCheck c v = .abort a) :
    ∃ l k f, c.enums = some l ∧ enumCheck l (.float k f) = .abort a := by
  unfold numCheck at h
  split at h
  · obtain ⟨l, h1, h2⟩ := numCheckF_abort h
    exact ⟨l, _, _, h1, h2⟩
  · cases h

theorem intCheck_abort {c : NumC} {v : GoVal} {a : Abort} (h : intCheck c v = .abort a) :
    ∃ l k f, c.enums = some l ∧ enumCheck l (.float k f) = .abort a := by
  unfold intCheck at h
  split at h
  · exact numCheck_abort h
  · exact numCheck_abort h
  · split at h
    · cases h
    · exact numCheck_abort h
  · cases h

theorem good_step' (ρ : RefSem) (c : Constraint) (hρ : ∀ m n, c = .ref m n → P.Good (ρ m n)) (hl : P.Local c)
    (he : ∀ d, c.Elem d → P.GoodJ (denote ext ρ d)) (hc : ∀ d, c.Same d → P.Good (denote ext ρ d)) :
    P.Good (denote ext ρ c) := by
  have hnone : ∀ (val : Validator), (∀ σ v, P.I v → P.Call (val σ v) v) → P.Good ⟨.none, val⟩ := fun val h =>
    ⟨fun dv h => (by cases h), fun a h => (by cases h), h⟩
  cases c with
  | empty => exact hnone _ (fun σ v hv => ⟨hv, P.refl v, fun a h => by cases h⟩)
  | null =>
    refine P.good_pure (d := none) (fun dv h => by cases h) (fun v _ a h => ?_)
    unfold nullCheck at h
    split at h <;> cases h
  | boolean d =>
    refine P.good_pure (d := d) (fun dv h => hl.dflt dv h) (fun v _ a h => ?_)
    unfold boolCheck at h
    split at h <;> cases h
  | string s =>
    refine P.good_pure (d := s.dflt) (fun dv h => hl.dflt dv h) (fun v _ a h => ?_)
    obtain ⟨l, x, h1, h2⟩ := strCheck_abort h
    exact hl.str s rfl l h1 x a h2
  | number s =>
    refine P.good_pure (d := s.dflt) (fun dv h => hl.dflt dv h) (fun v _ a h => ?_)
    obtain ⟨l, k, x, h1, h2⟩ := numCheck_abort h
    exact hl.num s (Or.inl rfl) l h1 k x a h2
  | integer s =>
    refine P.good_pure (d := s.dflt) (fun dv h => hl.dflt dv h) (fun v _ a h => ?_)
    obtain ⟨l, k, x, h1, h2⟩ := intCheck_abort h
    exact hl.num s (Or.inr rfl) l h1 k x a h2
  | enum vals => exact P.good_pure (d := none) (fun dv h => by cases h) (fun v hv a h => hl.enum vals rfl v hv a h)
  | array a =>
    simp only [denote, denoteArr_eq]
    refine hnone _ (fun σ v hv => P.array_call ?_ σ v hv)
    intro c h
    cases h with
    | items h =>
      obtain ⟨d, hd, rfl⟩ := Option.map_eq_some_iff.1 h
      exact he d (.array (.items hd))
    | positional h =>
      obtain ⟨d, hd, rfl⟩ := List.mem_map.1 h
      exact he d (.array (.positional hd))
    | additional h =>
      obtain ⟨d, hd, rfl⟩ := Option.map_eq_some_iff.1 h
      exact he d (.array (.additional hd))
  | object o =>
    simp only [denote, denoteObj_eq]
    refine hnone _ (fun σ v hv => P.object_call ?_ ?_ σ v hv)
    · intro c h
      cases h with
      | prop h =>
        obtain ⟨⟨p, d⟩, hd, h'⟩ := List.mem_map.1 h
        cases h'
        exact he d (.prop hd)
      | pattern h =>
        obtain ⟨⟨i, s, d⟩, hd, h'⟩ := List.mem_map.1 h
        cases h'
        exact he d (.pattern hd)
      | additional h =>
        obtain ⟨d, hd, rfl⟩ := Option.map_eq_some_iff.1 h
        exact he d (.additional hd)
    · intro p c h
      have h' : (o.GetSchemaDependency p).map (denote ext ρ) = some c := by
        rw [← h]; exact (alookup_map (denote ext ρ) p o.schemadeps).symm
      obtain ⟨d, hd, rfl⟩ := Option.map_eq_some_iff.1 h'
      exact hc d (.dependency hd)
  | any cs =>
    simp only [denote, denoteList_eq]
    refine hnone _ (fun σ v hv => P.any_call _ 0 σ v ?_ hv)
    intro c h
    obtain ⟨d, hd, rfl⟩ := List.mem_map.1 h
    exact hc d (.any hd)
  | all cs =>
    simp only [denote, denoteList_eq]
    refine hnone _ (fun σ v hv => P.all_call _ 0 σ v ?_ hv)
    intro c h
    obtain ⟨d, hd, rfl⟩ := List.mem_map.1 h
    exact hc d (.all hd)
  | oneOf cs =>
    simp only [denote, denoteList_eq]
    refine hnone _ (fun σ v hv => P.oneOf_call _ 0 0 σ v ?_ hv)
    intro c h
    obtain ⟨d, hd, rfl⟩ := List.mem_map.1 h
    exact hc d (.oneOf hd)
  | not c =>
    simp only [denote, denoteOpt_eq]
    refine hnone _ (fun σ v hv => P.not_call σ v ?_ hv)
    intro d h
    obtain ⟨e, he, rfl⟩ := Option.map_eq_some_iff.1 h
    subst he
    exact hc e .not
  | ref m n => simp only [denote]; exact hρ m n rfl

theorem _root_.Jsval.Constraint.Elem.child {c d : Constraint} (h : c.Elem d) : c.Child d := by
  cases h with
  | array h => exact .array h
  | prop h => exact .object (.prop h)
  | pattern h => exact .object (.pattern h)
  | additional h => exact .object (.additional h)

theorem _root_.Jsval.Constraint.Same.child {c d : Constraint} (h : c.Same d) : c.Child d := by
  cases h with
  | dependency h => exact .object (.dependency h)
  | any h => exact .any h
  | all h => exact .all h
  | oneOf h => exact .oneOf h
  | not => exact .not

theorem good_step (hJ : P.J = P.I) (ρ : RefSem) (c : Constraint) (hρ : ∀ m n, P.Good (ρ m n)) (hl : P.Local c)
    (hc : ∀ d, c.Child d → P.Good (denote ext ρ d)) : P.Good (denote ext ρ c) :=
  P.good_step' ρ c (fun m n _ => hρ m n) hl (fun d hd => by rw [GoodJ, hJ]; exact hc d hd.child) (fun d hd => hc d hd.child)

/-- A tree that obeys the policy at every constraint obeys it as a whole, through references. -/
theorem good_sem (hJ : P.J = P.I) {env : Env} (hdiv : P.A .diverge) (henv : env.Every P.Local) {c : Constraint} (hc : c.Every P.Local)
    (fuel : Nat) : P.Good (sem ext env fuel c) := by
  refine sem_induct P.Good P.Local (P.good_step hJ) ?_ ?_ henv fuel c hc
  · exact ⟨fun dv h => (by cases h), fun a h => (by cases h; exact hdiv),
      fun σ v hv => ⟨hv, P.refl v, fun a h => by cases h; exact hdiv⟩⟩
  · intro n
    exact ⟨fun dv h => (by cases h), fun a h => (by cases h),
      fun σ v hv => ⟨hv, P.refl v, fun a h => by cases h⟩⟩

end Policy
end Jsval
