import Verif.Lemmas.PreRun
import Verif.Lemmas.Determined
import Verif.Spec.OrderDefaults
/-!
# Trees with defaults: verdict and result do not depend on iteration order
-/
namespace Jsval

theorem Alike.symm {v w : GoVal} (h : Alike v w) : Alike w v := by
  induction h with
  | refl v => exact .refl v
  | slice n xs ys hl _ ih => exact .slice n ys xs hl.symm (fun i y x hy hx => ih i x y hx hy)
  | map n kvs kws hk _ ih => exact .map n kws kvs (fun k => (hk k).symm) (fun k y x hy hx => ih k x y hx hy)

/-- Optional values, alike. -/
def OptAlike : Option GoVal → Option GoVal → Prop
  | none, none => True
  | some x, some y => Alike x y
  | _, _ => False

theorem OptAlike.refl : ∀ x, OptAlike x x
  | none => trivial
  | some x => Alike.refl x

/-- An alike of a map, looked up. -/
theorem alike_map {kvs : List (GoStr × GoVal)} {w : GoVal} (hn : (kvs.map (·.1)).Nodup) (hw : IsJson w)
    (h : Alike (.map false kvs) w) : ∃ kws, w = .map false kws ∧ (kws.map (·.1)).Nodup ∧
      (∀ k x, (k, x) ∈ kws → IsJson x) ∧ ∀ k, OptAlike (alookup k kvs) (alookup k kws) := by
  cases h with
  | refl =>
    cases hw with
    | obj _ h1 h2 => exact ⟨kvs, rfl, h1, h2, fun k => .refl _⟩
  | map _ _ kws hk hx =>
    cases hw with
    | obj _ h1 h2 =>
      refine ⟨kws, rfl, h1, h2, fun k => ?_⟩
      cases e1 : alookup k kvs with
      | none =>
        have : ¬ Has kws k := by rw [← hk k, not_has_iff]; exact e1
        rw [not_has_iff.1 this]; trivial
      | some x =>
        obtain ⟨y, hy⟩ := has_iff.1 ((hk k).1 (has_iff.2 ⟨x, e1⟩))
        rw [hy]
        exact hx k x y (alookup_mem e1) (alookup_mem hy)

theorem alike_of_lookup {kvs kws : List (GoStr × GoVal)} (hn : (kvs.map (·.1)).Nodup) (hn' : (kws.map (·.1)).Nodup)
    (h : ∀ k, OptAlike (alookup k kvs) (alookup k kws)) : Alike (.map false kvs) (.map false kws) := by
  refine .map _ _ _ (fun k => ?_) (fun k x y hx hy => ?_)
  · rw [has_iff, has_iff]
    have := h k
    cases e1 : alookup k kvs <;> cases e2 : alookup k kws <;> rw [e1, e2] at this <;> simp_all [OptAlike]
  · have := h k
    rw [alookup_of_mem hn hx, alookup_of_mem hn' hy] at this
    exact this

theorem alike_slice {xs : List GoVal} {w : GoVal} (h : Alike (.slice false xs) w) :
    ∃ ys, w = .slice false ys ∧ List.Forall₂ Alike xs ys := by
  cases h with
  | refl => exact ⟨xs, rfl, List.forall₂_same.2 fun x _ => .refl x⟩
  | slice _ _ ys hl hx =>
    refine ⟨ys, rfl, List.forall₂_iff_get.2 ⟨hl, fun i h1 h2 => ?_⟩⟩
    exact hx i _ _ (List.getElem?_eq_getElem h1) (List.getElem?_eq_getElem h2)

theorem alike_slice_of {xs ys : List GoVal} (h : List.Forall₂ Alike xs ys) : Alike (.slice false xs) (.slice false ys) := by
  refine .slice _ _ _ h.length_eq (fun i x y hx hy => ?_)
  have h1 := List.getElem?_eq_some_iff.1 hx
  have h2 := List.getElem?_eq_some_iff.1 hy
  obtain ⟨h1, rfl⟩ := h1
  obtain ⟨h2, rfl⟩ := h2
  exact (List.forall₂_iff_get.1 h).2 i h1 h2

/-- A JSON container. -/
inductive IsBox : GoVal → Prop where
  | slice (xs) : IsBox (.slice false xs)
  | map (kvs) : IsBox (.map false kvs)

theorem alike_scalar {v w : GoVal} (hv : IsJson v) (h : Alike v w) : IsBox v ∨ w = v := by
  cases h with
  | refl => exact Or.inr rfl
  | slice => cases hv; exact Or.inl (.slice _)
  | map => cases hv; exact Or.inl (.map _)

/-- What the induction carries: JSON stays JSON, and what is accepted in one order is not rejected in another, on alike values with
alike results. -/
structure Det (s : Sem) : Prop where
  keep : ∀ σ v v', IsJson v → s.val σ v = (.ok, v') → IsJson v'
  dflt : ∀ dv, s.dflt = .some dv → IsJson dv
  det : ∀ v w σ τ v', IsJson v → IsJson w → Alike v w → s.val σ v = (.ok, v') →
    (∀ e, (s.val τ w).1 ≠ .err e) ∧ ∀ w', s.val τ w = (.ok, w') → Alike v' w'

theorem det_pure {d : Dflt} {f : GoVal → Res} (hd : ∀ dv, d = .some dv → IsJson dv) (hf : ∀ v, IsBox v → f v ≠ .ok) :
    Det ⟨d, pureV f⟩ := by
  refine ⟨fun σ v v' hv h => ?_, hd, fun v w σ τ v' hv hw ha h => ?_⟩
  · simp only [pureV, Prod.mk.injEq] at h
    rw [← h.2]; exact hv
  · simp only [pureV, Prod.mk.injEq] at h ⊢
    obtain ⟨h1, rfl⟩ := h
    rcases alike_scalar hv ha with hb | rfl
    · exact absurd h1 (hf v hb)
    · exact ⟨fun e h => (by rw [h1] at h; cases h), fun w' h => (by rw [← h.2]; exact .refl _)⟩

/-! ## Combinators -/

theorem anyLoop_det {σ τ : Sched} {v w : GoVal} (hv : IsJson v) (hw : IsJson w) (ha : Alike v w) :
    ∀ (cs : List Sem) (i : Nat), (∀ c ∈ cs, c.ReadOnly ∧ Det c) →
    (anyLoop i cs σ v).1 = .ok → ∀ e, (anyLoop i cs τ w).1 ≠ .err e
  | [], i, _, h, e => by simp [anyLoop] at h
  | c :: cs, i, hc, h, e => by
    obtain ⟨hro, hs⟩ := hc c (by simp)
    have ih := anyLoop_det (σ := σ) (τ := τ) hv hw ha cs (i + 1) (fun c h => hc c (by simp [h]))
    have h1 := hro v (σ.sub i)
    have h2 := hro w (τ.sub i)
    have h3 := hs.det v w (σ.sub i) (τ.sub i) v hv hw ha
    simp only [anyLoop] at h ⊢
    rcases e1 : c.val (σ.sub i) v with ⟨r1, v1⟩
    rcases e2 : c.val (τ.sub i) w with ⟨r2, v2⟩
    rw [e1] at h1 h h3; rw [e2] at h2 h3
    simp only at h1 h2; subst h1 h2
    cases r2 with
    | ok => simp
    | abort a => simp
    | err e' =>
      simp only
      cases r1 with
      | ok => exact absurd rfl ((h3 rfl).1 e')
      | abort a => simp at h
      | err e'' => exact ih h e

theorem oneOfLoop_det {σ τ : Sched} {v w : GoVal} (hv : IsJson v) (hw : IsJson w) (ha : Alike v w) :
    ∀ (cs : List Sem) (i n : Nat), (∀ c ∈ cs, c.ReadOnly ∧ Det c) →
    (oneOfLoop i n cs σ v).1 = .ok → ∀ e, (oneOfLoop i n cs τ w).1 ≠ .err e
  | [], i, n, _, h, e => by
    simp only [oneOfLoop] at h ⊢
    split at h
    · cases h
    split at h
    · cases h
    rename_i g1 g2
    rw [if_neg g1, if_neg g2]
    intro h'; cases h'
  | c :: cs, i, n, hc, h, e => by
    obtain ⟨hro, hs⟩ := hc c (by simp)
    have ih := fun n => oneOfLoop_det (σ := σ) (τ := τ) hv hw ha cs (i + 1) n (fun c h => hc c (by simp [h]))
    have h1 := hro v (σ.sub i)
    have h2 := hro w (τ.sub i)
    have h3 := hs.det v w (σ.sub i) (τ.sub i) v hv hw ha
    have h4 := hs.det w v (τ.sub i) (σ.sub i) w hw hv ha.symm
    simp only [oneOfLoop] at h ⊢
    rcases e1 : c.val (σ.sub i) v with ⟨r1, v1⟩
    rcases e2 : c.val (τ.sub i) w with ⟨r2, v2⟩
    rw [e1] at h1 h h3 h4; rw [e2] at h2 h3 h4
    simp only at h1 h2; subst h1 h2
    cases r1 with
    | abort a => simp at h
    | err e1 =>
      cases r2 with
      | abort a => simp
      | err e' => exact ih _ h e
      | ok => exact absurd rfl ((h4 rfl).1 _)
    | ok =>
      cases r2 with
      | ok => exact ih _ h e
      | abort a => simp
      | err e' => exact absurd rfl ((h3 rfl).1 e')

theorem notV_det {σ τ : Sched} {v w : GoVal} (hv : IsJson v) (hw : IsJson w) (ha : Alike v w) (c : Option Sem)
    (hc : ∀ d, c = some d → d.ReadOnly ∧ Det d) (h : (notV c σ v).1 = .ok) (e : Err) : (notV c τ w).1 ≠ .err e := by
  cases c with
  | none => simp [notV] at h
  | some c =>
    obtain ⟨hro, hs⟩ := hc c rfl
    have h2 := hro w (τ.sub 0)
    have h4 := hs.det w v (τ.sub 0) (σ.sub 0) w hw hv ha.symm
    simp only [notV] at h ⊢
    rcases e1 : c.val (σ.sub 0) v with ⟨r1, v1⟩
    rcases e2 : c.val (τ.sub 0) w with ⟨r2, v2⟩
    rw [e1] at h h4; rw [e2] at h4 h2
    simp only at h2; subst h2
    cases r1 with
    | ok => simp at h
    | abort a => simp at h
    | err e1 =>
      cases r2 with
      | ok => exact absurd rfl ((h4 rfl).1 _)
      | abort a => simp
      | err e' => simp

theorem allLoop_det : ∀ (cs : List Sem) (i : Nat), (∀ c ∈ cs, Det c) → Det ⟨.none, allLoop i cs⟩
  | [], i, _ => by
    refine ⟨fun σ v v' hv h => (by cases h; exact hv), fun dv h => (by cases h), fun v w σ τ v' _ _ ha h => ?_⟩
    simp only [allLoop, Prod.mk.injEq, true_and] at h ⊢
    subst h
    exact ⟨fun e h => (by cases h), fun w' h => (by subst h; exact ha)⟩
  | c :: cs, i, hc => by
    have hs := hc c (by simp)
    have ih := allLoop_det cs (i + 1) (fun c h => hc c (by simp [h]))
    refine ⟨fun σ v v' hv h => ?_, fun dv h => (by cases h), fun v w σ τ v' hv hw ha h => ?_⟩
    · simp only [allLoop] at h
      rcases e1 : c.val (σ.sub i) v with ⟨r1, v1⟩
      rw [e1] at h
      cases r1 with
      | ok => exact ih.keep σ v1 v' (hs.keep _ _ _ hv e1) h
      | err e => simp at h
      | abort a => simp at h
    · simp only [allLoop] at h ⊢
      rcases e1 : c.val (σ.sub i) v with ⟨r1, v1⟩
      rcases e2 : c.val (τ.sub i) w with ⟨r2, w1⟩
      rw [e1] at h
      cases r1 with
      | err e => simp at h
      | abort a => simp at h
      | ok =>
        obtain ⟨h1, h2⟩ := hs.det v w (σ.sub i) (τ.sub i) v1 hv hw ha e1
        rw [e2] at h1
        cases r2 with
        | err e => exact absurd rfl (h1 e)
        | abort a => simp
        | ok => exact ih.det v1 w1 σ τ v' (hs.keep _ _ _ hv e1) (hs.keep _ _ _ hw e2) (h2 w1 e2) h

/-! ## Arrays -/

theorem runItems_keep {c : Sem} (hc : Det c) {σ : Sched} : ∀ (xs : List GoVal) (i : Nat) (ys : List GoVal),
    (∀ x ∈ xs, IsJson x) → runItems c σ i xs = (.ok, ys) → ∀ y ∈ ys, IsJson y
  | [], _, ys, _, h => by cases h; simp
  | x :: xs, i, ys, hx, h => by
    simp only [runItems] at h
    rcases e1 : c.val (σ.sub i) x with ⟨r1, x'⟩
    rw [e1] at h
    cases r1 with
    | err e => simp at h
    | abort a => simp at h
    | ok =>
      rcases e2 : runItems c σ (i + 1) xs with ⟨r2, zs⟩
      simp only [e2, Prod.mk.injEq] at h
      obtain ⟨rfl, rfl⟩ := h
      have ih := runItems_keep hc xs (i + 1) zs (fun x h => hx x (by simp [h])) e2
      intro y hy
      rcases List.mem_cons.1 hy with rfl | hy
      · exact hc.keep _ _ _ (hx x (by simp)) e1
      · exact ih y hy

theorem runItems_det {c : Sem} (hc : Det c) {σ τ : Sched} : ∀ (xs ws : List GoVal) (i : Nat) (ys : List GoVal),
    (∀ x ∈ xs, IsJson x) → (∀ x ∈ ws, IsJson x) → List.Forall₂ Alike xs ws → runItems c σ i xs = (.ok, ys) →
    (∀ e, (runItems c τ i ws).1 ≠ .err e) ∧ ∀ zs, runItems c τ i ws = (.ok, zs) → List.Forall₂ Alike ys zs
  | [], [], _, ys, _, _, _, h => by
    cases h
    exact ⟨fun e h => by simp [runItems] at h, fun zs h => by cases h; exact .nil⟩
  | x :: xs, w :: ws, i, ys, hx, hw, ha, h => by
    cases ha with
    | cons ha0 ha =>
    simp only [runItems] at h ⊢
    rcases e1 : c.val (σ.sub i) x with ⟨r1, x'⟩
    rcases e2 : c.val (τ.sub i) w with ⟨r2, w'⟩
    rw [e1] at h
    cases r1 with
    | err e => simp at h
    | abort a => simp at h
    | ok =>
      rcases e3 : runItems c σ (i + 1) xs with ⟨r3, zs⟩
      simp only [e3, Prod.mk.injEq] at h
      obtain ⟨rfl, rfl⟩ := h
      have ih := runItems_det hc (τ := τ) xs ws (i + 1) zs (fun x h => hx x (by simp [h])) (fun x h => hw x (by simp [h])) ha e3
      obtain ⟨h1, h2⟩ := hc.det x w (σ.sub i) (τ.sub i) x' (hx x (by simp)) (hw w (by simp)) ha0 e1
      rw [e2] at h1
      cases r2 with
      | err e => exact absurd rfl (h1 e)
      | abort a => simp
      | ok =>
        simp only
        refine ⟨ih.1, fun zs' h => ?_⟩
        rcases e4 : runItems c τ (i + 1) ws with ⟨r4, us⟩
        simp only [e4, Prod.mk.injEq] at h
        obtain ⟨rfl, rfl⟩ := h
        exact .cons (h2 w' e2) (ih.2 us e4)

theorem runPos_keep {σ : Sched} : ∀ (cs : List Sem) (xs : List GoVal) (i : Nat) (ys : List GoVal), (∀ c ∈ cs, Det c) →
    (∀ x ∈ xs, IsJson x) → runPos σ i cs xs = (.ok, ys) → ∀ y ∈ ys, IsJson y
  | [], xs, _, ys, _, hx, h => by cases h; exact hx
  | _ :: _, [], _, ys, _, hx, h => by cases h; exact hx
  | c :: cs, x :: xs, i, ys, hc, hx, h => by
    simp only [runPos] at h
    rcases e1 : c.val (σ.sub i) x with ⟨r1, x'⟩
    rw [e1] at h
    cases r1 with
    | err e => simp at h
    | abort a => simp at h
    | ok =>
      rcases e2 : runPos σ (i + 1) cs xs with ⟨r2, zs⟩
      simp only [e2, Prod.mk.injEq] at h
      obtain ⟨rfl, rfl⟩ := h
      have ih := runPos_keep cs xs (i + 1) zs (fun c h => hc c (by simp [h])) (fun x h => hx x (by simp [h])) e2
      intro y hy
      rcases List.mem_cons.1 hy with rfl | hy
      · exact (hc c (by simp)).keep _ _ _ (hx x (by simp)) e1
      · exact ih y hy

theorem runPos_det {σ τ : Sched} : ∀ (cs : List Sem) (xs ws : List GoVal) (i : Nat) (ys : List GoVal), (∀ c ∈ cs, Det c) →
    (∀ x ∈ xs, IsJson x) → (∀ x ∈ ws, IsJson x) → List.Forall₂ Alike xs ws → runPos σ i cs xs = (.ok, ys) →
    (∀ e, (runPos τ i cs ws).1 ≠ .err e) ∧ ∀ zs, runPos τ i cs ws = (.ok, zs) → List.Forall₂ Alike ys zs
  | [], xs, ws, _, ys, _, _, _, ha, h => by
    cases h
    exact ⟨fun e h => by simp [runPos] at h, fun zs h => by cases h; exact ha⟩
  | _ :: _, [], [], _, ys, _, _, _, ha, h => by
    cases h
    exact ⟨fun e h => by simp [runPos] at h, fun zs h => by cases h; exact ha⟩
  | c :: cs, x :: xs, w :: ws, i, ys, hc, hx, hw, ha, h => by
    cases ha with
    | cons ha0 ha =>
    simp only [runPos] at h ⊢
    rcases e1 : c.val (σ.sub i) x with ⟨r1, x'⟩
    rcases e2 : c.val (τ.sub i) w with ⟨r2, w'⟩
    rw [e1] at h
    cases r1 with
    | err e => simp at h
    | abort a => simp at h
    | ok =>
      rcases e3 : runPos σ (i + 1) cs xs with ⟨r3, zs⟩
      simp only [e3, Prod.mk.injEq] at h
      obtain ⟨rfl, rfl⟩ := h
      have ih := runPos_det (τ := τ) cs xs ws (i + 1) zs (fun c h => hc c (by simp [h])) (fun x h => hx x (by simp [h]))
        (fun x h => hw x (by simp [h])) ha e3
      obtain ⟨h1, h2⟩ := (hc c (by simp)).det x w (σ.sub i) (τ.sub i) x' (hx x (by simp)) (hw w (by simp)) ha0 e1
      rw [e2] at h1
      cases r2 with
      | err e => exact absurd rfl (h1 e)
      | abort a => simp
      | ok =>
        simp only
        refine ⟨ih.1, fun zs' h => ?_⟩
        rcases e4 : runPos τ (i + 1) cs ws with ⟨r4, us⟩
        simp only [e4, Prod.mk.injEq] at h
        obtain ⟨rfl, rfl⟩ := h
        exact .cons (h2 w' e2) (ih.2 us e4)


theorem forall₂_alike_symm {xs ys : List GoVal} (h : List.Forall₂ Alike xs ys) : List.Forall₂ Alike ys xs :=
  (h.flip).imp fun _ _ h => Alike.symm h

theorem arrayElems_keep {a : ArrC Sem} (hc : ∀ c, a.Child c → Det c) {σ : Sched} {xs ys : List GoVal}
    (hx : ∀ x ∈ xs, IsJson x) (h : arrayElems a σ xs = (.ok, ys)) : ∀ y ∈ ys, IsJson y := by
  obtain ⟨items, pos, add, mn, mx, u⟩ := a
  unfold arrayElems at h
  simp only at h
  cases items with
  | some c => exact runItems_keep (hc c (.items rfl)) xs 0 ys hx h
  | none =>
    simp only at h
    rcases e1 : runPos (σ.sub 1) 0 pos xs with ⟨r1, y1⟩
    rw [e1] at h
    cases r1 with
    | err a => simp at h
    | abort a => simp at h
    | ok =>
      have h1 := runPos_keep pos xs 0 y1 (fun c h => hc c (.positional h)) hx e1
      simp only [runAdditional] at h
      split at h
      · cases add with
        | none => simp at h
        | some c =>
          simp only at h
          rcases e2 : runItems c (σ.sub 2) (pos.length - 1) (y1.drop (pos.length - 1)) with ⟨r2, y2⟩
          simp only [e2, Prod.mk.injEq] at h
          obtain ⟨rfl, rfl⟩ := h
          have h2 := runItems_keep (hc c (.additional rfl)) _ _ y2 (fun x h => h1 x (List.mem_of_mem_drop h)) e2
          intro y hy
          rcases List.mem_append.1 hy with hy | hy
          · exact h1 y (List.mem_of_mem_take hy)
          · exact h2 y hy
      · cases h; exact h1

theorem arrayElems_det {a : ArrC Sem} (hc : ∀ c, a.Child c → Det c) {σ τ : Sched} {xs ws ys : List GoVal}
    (hx : ∀ x ∈ xs, IsJson x) (hw : ∀ x ∈ ws, IsJson x) (ha : List.Forall₂ Alike xs ws)
    (h : arrayElems a σ xs = (.ok, ys)) :
    (∀ e, (arrayElems a τ ws).1 ≠ .err e) ∧ ∀ zs, arrayElems a τ ws = (.ok, zs) → List.Forall₂ Alike ys zs := by
  obtain ⟨items, pos, add, mn, mx, u⟩ := a
  unfold arrayElems at h ⊢
  simp only at h ⊢
  cases items with
  | some c => exact runItems_det (hc c (.items rfl)) xs ws 0 ys hx hw ha h
  | none =>
    simp only at h ⊢
    rcases e1 : runPos (σ.sub 1) 0 pos xs with ⟨r1, y1⟩
    rcases e2 : runPos (τ.sub 1) 0 pos ws with ⟨r2, z1⟩
    rw [e1] at h
    cases r1 with
    | err a => simp at h
    | abort a => simp at h
    | ok =>
      obtain ⟨h1, h2⟩ := runPos_det (τ := τ.sub 1) pos xs ws 0 y1 (fun c h => hc c (.positional h)) hx hw ha e1
      rw [e2] at h1
      cases r2 with
      | err e => exact absurd rfl (h1 e)
      | abort a => simp
      | ok =>
        have ha1 := h2 z1 e2
        have k1 := runPos_keep pos xs 0 y1 (fun c h => hc c (.positional h)) hx e1
        have k2 := runPos_keep pos ws 0 z1 (fun c h => hc c (.positional h)) hw e2
        simp only [runAdditional, ← ha1.length_eq] at h ⊢
        split
        · rename_i hl
          rw [if_pos hl] at h
          cases add with
          | none => simp at h
          | some c =>
            simp only at h ⊢
            rcases e3 : runItems c (σ.sub 2) (pos.length - 1) (y1.drop (pos.length - 1)) with ⟨r3, y2⟩
            simp only [e3, Prod.mk.injEq] at h
            obtain ⟨rfl, rfl⟩ := h
            obtain ⟨g1, g2⟩ := runItems_det (τ := τ.sub 2) (hc c (.additional rfl)) _ (z1.drop (pos.length - 1)) _ y2
              (fun x h => k1 x (List.mem_of_mem_drop h)) (fun x h => k2 x (List.mem_of_mem_drop h))
              (List.forall₂_drop _ ha1) e3
            refine ⟨g1, fun zs h => ?_⟩
            rcases e4 : runItems c (τ.sub 2) (pos.length - 1) (z1.drop (pos.length - 1)) with ⟨r4, z2⟩
            simp only [e4, Prod.mk.injEq] at h
            obtain ⟨rfl, rfl⟩ := h
            exact List.rel_append (List.forall₂_take _ ha1) (g2 z2 e4)
        · rename_i hl
          rw [if_neg hl] at h
          cases h
          exact ⟨fun e h => (by cases h), fun zs h => (by cases h; exact ha1)⟩

theorem uniqueLoop_alike {ext : Ext} (hp : PrintsSorted ext) : ∀ (xs ws : List GoVal) (seen : List GoStr), (∀ x ∈ xs, IsJson x) →
    (∀ x ∈ ws, IsJson x) → List.Forall₂ Alike xs ws → uniqueLoop ext seen xs = uniqueLoop ext seen ws
  | [], [], _, _, _, _ => rfl
  | x :: xs, w :: ws, seen, hx, hw, ha => by
    cases ha with
    | cons h0 ha =>
    have : ext.sprint x = ext.sprint w := hp x w (hx x (by simp)) (hw w (by simp)) h0
    simp only [uniqueLoop, this]
    rw [uniqueLoop_alike hp xs ws _ (fun x h => hx x (by simp [h])) (fun x h => hw x (by simp [h])) ha]

theorem arrayV_det {ext : Ext} (hp : PrintsSorted ext) {a : ArrC Sem} (hc : ∀ c, a.Child c → Det c) :
    Det ⟨.none, arrayV ext a⟩ := by
  refine ⟨fun σ v v' hv h => ?_, fun dv h => (by cases h), fun v w σ τ v' hv hw ha h => ?_⟩
  · cases hv with
    | arr xs hx =>
      simp only [arrayV, valueOf] at h
      split at h
      · simp at h
      split at h
      · simp at h
      split at h
      · simp at h
      simp only [Prod.mk.injEq] at h
      obtain ⟨h1, rfl⟩ := h
      exact .arr _ (arrayElems_keep hc hx (Prod.ext h1 rfl))
    | _ => simp [arrayV, valueOf] at h
  · cases hv with
    | arr xs hx =>
      obtain ⟨ws, rfl, haw⟩ := alike_slice ha
      have hw' : ∀ x ∈ ws, IsJson x := by cases hw with | arr _ h => exact h
      simp only [arrayV, valueOf] at h ⊢
      rw [← uniqueLoop_alike hp xs ws [] hx hw' haw, ← haw.length_eq]
      split at h
      · simp at h
      split at h
      · simp at h
      split at h
      · simp at h
      rename_i h1 h2 h3
      rw [if_neg h1, if_neg h2, if_neg h3]
      simp only [Prod.mk.injEq] at h ⊢
      obtain ⟨g1, rfl⟩ := h
      obtain ⟨k1, k2⟩ := arrayElems_det (τ := τ) hc hx hw' haw (Prod.ext g1 rfl : arrayElems a σ xs = (.ok, (arrayElems a σ xs).2))
      refine ⟨k1, fun w' h => ?_⟩
      obtain ⟨h, rfl⟩ := h
      exact alike_slice_of (k2 _ (Prod.ext h rfl))
    | _ => simp [arrayV, valueOf] at h

end Jsval
