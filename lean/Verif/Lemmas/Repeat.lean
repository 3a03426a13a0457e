import Verif.Lemmas.OrderTrees
/-!
# Validating again what has been accepted
-/
namespace Jsval

/-- What the induction carries: an accepted result is not rejected when it is validated again, and stays as it is. -/
structure Rep (s : Sem) : Prop where
  own : ∀ dv, s.dflt = .some dv → dv ≠ .nil → ∀ τ, s.val τ dv = (.ok, dv)
  rep : ∀ v σ τ v', IsJson v → s.val σ v = (.ok, v') →
    (∀ e, (s.val τ v').1 ≠ .err e) ∧ ∀ w', s.val τ v' = (.ok, w') → Alike v' w'

/-- Reading only: nothing new to see. -/
theorem Rep.of_readOnly {s : Sem} (hd : Det s) (hr : s.ReadOnly) (hn : ∀ dv, s.dflt ≠ .some dv) : Rep s := by
  refine ⟨fun dv h => absurd h (hn dv), fun v σ τ v' hv h => ?_⟩
  have e := hr v σ
  rw [h] at e
  simp only at e
  subst e
  exact hd.det v' v' σ τ v' hv hv (.refl _) h

theorem rep_all {c : Sem} {cs : List Sem} {i : Nat} (hc : Det c) (hr : Rep c) (hcs : ∀ d ∈ cs, Det d ∧ d.ReadOnly) :
    Rep ⟨.none, allLoop i (c :: cs)⟩ := by
  have hro : ∀ (cs : List Sem) (i : Nat) σ v, (∀ d ∈ cs, Det d ∧ d.ReadOnly) → (allLoop i cs σ v).2 = v := by
    intro cs
    induction cs with
    | nil => intro i σ v _; rfl
    | cons d cs ih =>
      intro i σ v h
      have h1 := (h d (by simp)).2 v (σ.sub i)
      simp only [allLoop]
      rcases e : d.val (σ.sub i) v with ⟨r, u⟩
      rw [e] at h1
      simp only at h1; subst h1
      cases r with
      | ok => exact ih (i + 1) σ u (fun d hd => h d (by simp [hd]))
      | err e => rfl
      | abort a => rfl
  have hdet := allLoop_det cs (i + 1) (fun d hd => (hcs d hd).1)
  refine ⟨fun dv h => (by cases h), fun v σ τ v' hv h => ?_⟩
  simp only [allLoop] at h ⊢
  rcases e1 : c.val (σ.sub i) v with ⟨r1, v1⟩
  rw [e1] at h
  cases r1 with
  | err e => simp at h
  | abort a => simp at h
  | ok =>
    simp only at h
    have hv1 := hc.keep _ _ _ hv e1
    have ev : v' = v1 := by
      have := hro cs (i + 1) σ v1 hcs
      rw [h] at this; exact this
    subst ev
    obtain ⟨h1, h2⟩ := hr.rep v (σ.sub i) (τ.sub i) v' hv e1
    rcases e2 : c.val (τ.sub i) v' with ⟨r2, w1⟩
    rw [e2] at h1
    cases r2 with
    | err e => exact absurd rfl (h1 e)
    | abort a => simp
    | ok => exact hdet.det v' w1 σ τ v' hv1 (hc.keep _ _ _ hv1 e2) (h2 w1 e2) h

theorem runItems_rep {c : Sem} (hr : Rep c) {σ τ : Sched} : ∀ (xs : List GoVal) (i : Nat) (ys : List GoVal),
    (∀ x ∈ xs, IsJson x) → runItems c σ i xs = (.ok, ys) →
    (∀ e, (runItems c τ i ys).1 ≠ .err e) ∧ ∀ zs, runItems c τ i ys = (.ok, zs) → List.Forall₂ Alike ys zs
  | [], _, ys, _, h => by
    cases h
    exact ⟨fun e h => by simp [runItems] at h, fun zs h => by cases h; exact .nil⟩
  | x :: xs, i, ys, hx, h => by
    simp only [runItems] at h
    rcases e1 : c.val (σ.sub i) x with ⟨r1, x'⟩
    rw [e1] at h
    cases r1 with
    | err e => simp at h
    | abort a => simp at h
    | ok =>
      rcases e3 : runItems c σ (i + 1) xs with ⟨r3, zs⟩
      simp only [e3, Prod.mk.injEq] at h
      obtain ⟨rfl, rfl⟩ := h
      have ih := runItems_rep hr (τ := τ) xs (i + 1) zs (fun x h => hx x (by simp [h])) e3
      obtain ⟨h1, h2⟩ := hr.rep x (σ.sub i) (τ.sub i) x' (hx x (by simp)) e1
      simp only [runItems]
      rcases e2 : c.val (τ.sub i) x' with ⟨r2, w'⟩
      rw [e2] at h1
      cases r2 with
      | err e => exact absurd rfl (h1 e)
      | abort a => simp
      | ok =>
        simp only
        refine ⟨ih.1, fun zs' h => ?_⟩
        rcases e4 : runItems c τ (i + 1) zs with ⟨r4, us⟩
        simp only [e4, Prod.mk.injEq] at h
        obtain ⟨rfl, rfl⟩ := h
        exact .cons (h2 w' e2) (ih.2 us e4)

theorem runPos_rep {σ τ : Sched} : ∀ (cs : List Sem) (xs : List GoVal) (i : Nat) (ys : List GoVal), (∀ c ∈ cs, Rep c) →
    (∀ x ∈ xs, IsJson x) → runPos σ i cs xs = (.ok, ys) →
    (∀ e, (runPos τ i cs ys).1 ≠ .err e) ∧ ∀ zs, runPos τ i cs ys = (.ok, zs) → List.Forall₂ Alike ys zs
  | [], xs, _, ys, _, _, h => by
    cases h
    exact ⟨fun e h => by simp [runPos] at h, fun zs h => by cases h; exact List.forall₂_same.2 fun x _ => .refl x⟩
  | _ :: _, [], _, ys, _, _, h => by
    cases h
    exact ⟨fun e h => by simp [runPos] at h, fun zs h => by cases h; exact .nil⟩
  | c :: cs, x :: xs, i, ys, hr, hx, h => by
    simp only [runPos] at h
    rcases e1 : c.val (σ.sub i) x with ⟨r1, x'⟩
    rw [e1] at h
    cases r1 with
    | err e => simp at h
    | abort a => simp at h
    | ok =>
      rcases e3 : runPos σ (i + 1) cs xs with ⟨r3, zs⟩
      simp only [e3, Prod.mk.injEq] at h
      obtain ⟨rfl, rfl⟩ := h
      have ih := runPos_rep (τ := τ) cs xs (i + 1) zs (fun c h => hr c (by simp [h])) (fun x h => hx x (by simp [h])) e3
      obtain ⟨h1, h2⟩ := (hr c (by simp)).rep x (σ.sub i) (τ.sub i) x' (hx x (by simp)) e1
      simp only [runPos]
      rcases e2 : c.val (τ.sub i) x' with ⟨r2, w'⟩
      rw [e2] at h1
      cases r2 with
      | err e => exact absurd rfl (h1 e)
      | abort a => simp
      | ok =>
        simp only
        refine ⟨ih.1, fun zs' h => ?_⟩
        rcases e4 : runPos τ (i + 1) cs zs with ⟨r4, us⟩
        simp only [e4, Prod.mk.injEq] at h
        obtain ⟨rfl, rfl⟩ := h
        exact .cons (h2 w' e2) (ih.2 us e4)

theorem arrayElems_rep {a : ArrC Sem} (hd : ∀ c, a.Child c → Det c) (hr : ∀ c, a.Child c → Rep c)
    (hadd : ∀ c, a.additional = some c → c.ReadOnly) {σ τ : Sched} {xs ys : List GoVal} (hx : ∀ x ∈ xs, IsJson x)
    (h : arrayElems a σ xs = (.ok, ys)) :
    (∀ e, (arrayElems a τ ys).1 ≠ .err e) ∧ ∀ zs, arrayElems a τ ys = (.ok, zs) → List.Forall₂ Alike ys zs := by
  obtain ⟨items, pos, add, mn, mx, u⟩ := a
  unfold arrayElems at h ⊢
  simp only at h ⊢
  cases items with
  | some c => exact runItems_rep (hr c (.items rfl)) xs 0 ys hx h
  | none =>
    simp only at h ⊢
    rcases e1 : runPos (σ.sub 1) 0 pos xs with ⟨r1, y1⟩
    rw [e1] at h
    cases r1 with
    | err a => simp at h
    | abort a => simp at h
    | ok =>
      have k1 := runPos_keep pos xs 0 y1 (fun c h => hd c (.positional h)) hx e1
      obtain ⟨h1, h2⟩ := runPos_rep (τ := τ.sub 1) pos xs 0 y1 (fun c h => hr c (.positional h)) hx e1
      simp only [runAdditional] at h
      by_cases hl : pos.length > 0 ∧ y1.length > pos.length
      · rw [if_pos hl] at h
        cases add with
        | none => simp at h
        | some c =>
          simp only at h
          have hsame := runItems_same (hadd c rfl) (σ := σ.sub 2) (y1.drop (pos.length - 1)) (pos.length - 1)
          rcases e3 : runItems c (σ.sub 2) (pos.length - 1) (y1.drop (pos.length - 1)) with ⟨r3, y2⟩
          rw [e3] at hsame
          simp only at hsame; subst hsame
          simp only [e3, Prod.mk.injEq, List.take_append_drop] at h
          obtain ⟨rfl, rfl⟩ := h
          rcases e2 : runPos (τ.sub 1) 0 pos y1 with ⟨r2, z1⟩
          rw [e2] at h1
          cases r2 with
          | err e => exact absurd rfl (h1 e)
          | abort a => simp
          | ok =>
            have ha1 := h2 z1 e2
            have k2 := runPos_keep pos y1 0 z1 (fun c h => hd c (.positional h)) k1 e2
            simp only [runAdditional, ← ha1.length_eq, if_pos hl]
            obtain ⟨g1, g2⟩ := runItems_det (τ := τ.sub 2) (hd c (.additional rfl)) _ (z1.drop (pos.length - 1)) _ _
              (fun x h => k1 x (List.mem_of_mem_drop h)) (fun x h => k2 x (List.mem_of_mem_drop h))
              (List.forall₂_drop _ ha1) e3
            refine ⟨g1, fun zs h => ?_⟩
            have hsame' := runItems_same (hadd c rfl) (σ := τ.sub 2) (z1.drop (pos.length - 1)) (pos.length - 1)
            rw [Prod.mk.injEq] at h
            rw [← h.2, hsame', List.take_append_drop]
            exact ha1
      · rw [if_neg hl] at h
        simp only [Prod.mk.injEq, true_and] at h
        subst h
        rcases e2 : runPos (τ.sub 1) 0 pos y1 with ⟨r2, z1⟩
        rw [e2] at h1
        cases r2 with
        | err e => exact absurd rfl (h1 e)
        | abort a => simp
        | ok =>
          have ha1 := h2 z1 e2
          simp only [runAdditional, ← ha1.length_eq, if_neg hl]
          exact ⟨fun e h => (by cases h), fun zs h => (by cases h; exact ha1)⟩

theorem runItems_length {c : Sem} {σ : Sched} : ∀ (xs : List GoVal) (i : Nat), (runItems c σ i xs).2.length = xs.length
  | [], _ => rfl
  | x :: xs, i => by
    have ih := runItems_length (c := c) (σ := σ) xs (i + 1)
    simp only [runItems]
    rcases e1 : c.val (σ.sub i) x with ⟨r1, x'⟩
    cases r1 <;> simp [ih]

theorem arrayElems_length {a : ArrC Sem} {σ : Sched} {xs : List GoVal} : (arrayElems a σ xs).2.length = xs.length := by
  obtain ⟨items, pos, add, mn, mx, u⟩ := a
  unfold arrayElems
  simp only
  cases items with
  | some c => exact runItems_length xs 0
  | none =>
    simp only
    have h1 := runPos_length (σ := σ.sub 1) pos xs 0
    rcases e1 : runPos (σ.sub 1) 0 pos xs with ⟨r1, y1⟩
    rw [e1] at h1
    simp only at h1
    cases r1 with
    | err a => exact h1
    | abort a => exact h1
    | ok =>
      simp only [runAdditional]
      split
      · cases add with
        | none => exact h1
        | some c =>
          simp only [List.length_append, runItems_length, List.length_take, List.length_drop]
          omega
      · exact h1

theorem arrayV_rep {ext : Ext} {a : ArrC Sem} (hd : ∀ c, a.Child c → Det c) (hr : ∀ c, a.Child c → Rep c)
    (hu : a.unique = true → ∀ c, a.Child c → c.ReadOnly) (hadd : ∀ c, a.additional = some c → c.ReadOnly) :
    Rep ⟨.none, arrayV ext a⟩ := by
  refine ⟨fun dv h => (by cases h), fun v σ τ v' hv h => ?_⟩
  cases hv with
  | arr xs hx =>
    simp only [arrayV, valueOf] at h
    split at h
    · simp at h
    split at h
    · simp at h
    split at h
    · simp at h
    rename_i h1 h2 h3
    simp only [Prod.mk.injEq] at h
    obtain ⟨g1, rfl⟩ := h
    obtain ⟨k1, k2⟩ := arrayElems_rep (τ := τ) hd hr hadd hx (Prod.ext g1 rfl : arrayElems a σ xs = (.ok, (arrayElems a σ xs).2))
    have h3' : ¬ (a.unique ∧ uniqueLoop ext [] (arrayElems a σ xs).2 = false) := by
      rintro ⟨hu1, hu2⟩
      rw [arrayElems_same (hu hu1)] at hu2
      exact h3 ⟨hu1, hu2⟩
    simp only [arrayV, valueOf, arrayElems_length]
    rw [if_neg h1, if_neg h2, if_neg h3']
    simp only [Prod.mk.injEq]
    refine ⟨k1, fun w' h => ?_⟩
    obtain ⟨h, rfl⟩ := h
    exact alike_slice_of (k2 _ (Prod.ext h rfl))
  | _ => simp [arrayV, valueOf] at h

theorem objectV_rep {ext : Ext} {o : ObjC Sem} (hw : o.Wf)
    (hone : ∀ k c c', o.RuleFor ext k c → o.RuleFor ext k c' → c = c')
    (hc : ∀ k c, o.RuleFor ext k c → Det c) (hr : ∀ k c, o.RuleFor ext k c → Rep c)
    (hdep : ∀ k c, o.GetSchemaDependency k = some c → c.ReadOnly ∧ Det c)
    (hfill : ∀ p c dv, (p, c) ∈ o.props → c.dflt = .some dv → dv ≠ .nil →
      o.maxProps < 0 ∧ o.GetPropDependencies p = [] ∧ o.GetSchemaDependency p = none) : Rep ⟨.none, objectV ext o⟩ := by
  have hD := objectV_det hw hone hc hdep
  refine ⟨fun dv h => (by cases h), fun v σ τ v' hv h => ?_⟩
  have hv' := hD.keep σ v v' hv h
  cases hv with
  | obj kvs hn hx =>
    obtain ⟨kvs', rfl, a1, a2, a3, a4⟩ := objectV_left hw hn (fun k c h => (hdep k c h).1) h
    obtain ⟨s1, s2, s3, s4, s5, -⟩ := objectV_sound ext o σ (.map false kvs hn) hw (by rw [show objectV ext o σ _ = _ from h])
    have hx' : ∀ k x, (k, x) ∈ kvs' → IsJson x := by cases hv' with | obj _ _ h => exact h
    -- the keys afterwards
    have hold : ∀ k, Has kvs k → Has kvs' k := by
      intro k hk
      obtain ⟨x, hxk⟩ := has_iff.1 hk
      obtain ⟨c, ρ, y, -, -, e⟩ := (a2 k (Or.inr hk)).2 x hxk
      exact has_iff.2 ⟨y, e⟩
    have hnew : ∀ k, Has kvs' k → ¬ Has kvs k → ∃ c dv, (k, c) ∈ o.props ∧ c.dflt = .some dv ∧ dv ≠ .nil ∧
        alookup k kvs' = some dv := by
      intro k hk hno
      obtain ⟨y, hy⟩ := has_iff.1 hk
      by_cases hdk : o.Declares k
      · obtain ⟨c, hcp⟩ := hdk
        have := (a2 k (Or.inl ⟨c, hcp⟩)).1 (not_has_iff.1 hno) c hcp
        rw [hy] at this
        cases hdf : c.dflt with
        | none => rw [hdf] at this; cases this
        | abort a => rw [hdf] at this; cases this
        | some dv =>
          rw [hdf] at this
          have hnn : dv ≠ .nil := by rintro rfl; cases this
          have : dv = y := by
            cases dv <;> simp only [fillWith, Option.some.injEq, reduceCtorEq] at this <;> exact this.symm
          subst this
          exact ⟨c, dv, hcp, hdf, hnn, hy⟩
      · rw [a3 k hdk hno] at hy; cases hy
    have hlen : kvs.length ≤ kvs'.length := by
      have : (kvs.map (·.1)).Subperm (kvs'.map (·.1)) := List.subperm_of_subset hn fun k hk => by
        rw [← alookup_isSome, ← has_iff] at hk ⊢
        exact hold k hk
      simpa using this.length_le
    have hlen' : 0 ≤ o.maxProps → kvs'.length ≤ kvs.length := by
      intro hm
      have : (kvs'.map (·.1)).Subperm (kvs.map (·.1)) := List.subperm_of_subset a1 fun k hk => by
        rw [← alookup_isSome, ← has_iff] at hk ⊢
        by_contra hno
        obtain ⟨c, dv, h1, h2, h3, -⟩ := hnew k hk hno
        have := (hfill k c dv h1 h2 h3).1
        omega
      simpa using this.length_le
    have hcount : CountOk o kvs'.length := by
      refine ⟨fun h => ?_, fun h => ?_⟩
      · have := s1.1 h; omega
      · have h1 := s1.2 h
        have h2 := hlen' h
        omega
    have R := prePart_run (ext := ext) (o := o) (kvs := kvs') (Z := True)
      (Fin := fun k y => OptAlike (alookup k kvs') y) hw a1
      (by
        intro k c y hrl hy ρ
        by_cases hk : Has kvs k
        · obtain ⟨x, hxk⟩ := has_iff.1 hk
          obtain ⟨c', ρ', x', r1, r2, r3⟩ := (a2 k (Or.inr hk)).2 x hxk
          have : c' = c := hone k _ _ r1 hrl
          subst this
          rw [hy] at r3
          cases r3
          obtain ⟨d1, d2⟩ := (hr k c' hrl).rep x ρ' ρ y (hx k x (alookup_mem hxk)) r2
          refine ⟨fun _ => d1, fun y' hy' => ?_⟩
          rw [hy]
          exact d2 y' hy'
        · obtain ⟨c', dv, h1, h2, h3, h4⟩ := hnew k (has_iff.2 ⟨y, hy⟩) hk
          have : c' = c := hone k _ _ (Or.inl h1) hrl
          subst this
          rw [hy] at h4
          cases h4
          have := (hr k c' hrl).own y h2 h3 ρ
          refine ⟨fun _ e he => (by rw [this] at he; cases he), fun y' hy' => ?_⟩
          rw [this] at hy'
          cases hy'
          rw [hy]
          exact Alike.refl _)
      (by
        intro p c hpc hnone
        have hno : ¬ Has kvs p := fun h => not_has_iff.2 hnone (hold p h)
        refine ⟨fun _ hreq => hno (s3 p hreq ⟨c, hpc⟩), ?_⟩
        rw [← (a2 p (Or.inl ⟨c, hpc⟩)).1 (not_has_iff.1 hno) c hpc]
        exact .refl _)
      (by
        intro _ k hk hnd hnp hnone
        have hk' : Has kvs k := by
          by_contra hno
          obtain ⟨c, dv, h1, -⟩ := hnew k hk hno
          exact hnd ⟨c, h1⟩
        obtain ⟨x, hxk⟩ := has_iff.1 hk'
        obtain ⟨c, -, -, r1, -⟩ := (a2 k (Or.inr hk')).2 x hxk
        rcases r1 with r1 | ⟨-, id, src, r1, r2⟩ | ⟨-, -, r1⟩
        · exact hnd ⟨c, r1⟩
        · exact hnp ⟨id, src, c, r1, r2⟩
        · rw [hnone] at r1; cases r1) τ
    obtain ⟨c1, c2⟩ := countOk_iff.1 hcount
    have hobj : objectV ext o τ (.map false kvs') =
        ((objLoops ext o τ ⟨.map false kvs', nameSet (kvs'.map (·.1)), []⟩).1,
          (objLoops ext o τ ⟨.map false kvs', nameSet (kvs'.map (·.1)), []⟩).2.v) := by
      unfold objectV
      rw [show getPropNames (valueOf (.map false kvs')).indirect = .ok (kvs'.map (·.1)) from rfl]
      simp only [List.length_map]
      rw [if_neg c1, if_neg c2]
    have hsplit : objLoops ext o τ ⟨.map false kvs', nameSet (kvs'.map (·.1)), []⟩ =
        seqSt (prePart ext o τ ⟨.map false kvs', nameSet (kvs'.map (·.1)), []⟩)
          fun st => forLoop (depStep o (τ.sub 8)) 0 (shuffle (τ.sub 7).key st.pseen) st := by
      unfold objLoops prePart
      rw [seqSt_assoc]
      simp only [seqSt_assoc]
    simp only [hobj, hsplit]
    rcases hp : prePart ext o τ ⟨.map false kvs', nameSet (kvs'.map (·.1)), []⟩ with ⟨r, st⟩
    rw [hp] at R
    cases r with
    | err e => exact absurd rfl (R.1 trivial e)
    | abort a => exact ⟨fun e h => (by simp [seqSt, hp] at h), fun w' h => (by simp [seqSt, hp] at h)⟩
    | ok =>
      obtain ⟨cur, e, b1, b2, b3, b4⟩ := R.2 st rfl
      obtain ⟨cur2, e2, -, d2, -, -⟩ := prePart_left hw a1 hp
      obtain ⟨v2, pm, ps⟩ := st
      simp only at e b4 e2
      subst e
      cases e2
      have hfin : Alike (.map false kvs') (.map false cur) := by
        refine alike_of_lookup a1 b1 fun k => ?_
        by_cases hk : o.Declares k ∨ Has kvs' k
        · exact b2 k hk
        · rw [not_or] at hk
          rw [not_has_iff.1 hk.2, b3 k hk.1 hk.2]
          trivial
      have hcur : IsJson (.map false cur) := by
        refine .obj _ b1 (fun k y hy => ?_)
        have hl := alookup_of_mem b1 hy
        by_cases hk : o.Declares k ∨ Has kvs' k
        · have h3 := b2 k hk
          rw [hl] at h3
          obtain ⟨x, hxk, -⟩ := optAlike_some (optAlike_symm h3)
          obtain ⟨c, ρ, y', h1, h2, h3⟩ := (d2 k hk).2 x hxk
          rw [hl] at h3
          cases h3
          exact (hc k c h1).keep ρ x y (hx' k x (alookup_mem hxk)) h2
        · rw [not_or] at hk
          rw [b3 k hk.1 hk.2] at hl; cases hl
      simp only [seqSt, hp]
      have hd := depLoop_readOnly o (τ.sub 8) (.map false cur) pm ps (fun k c hc => (hdep k c hc).1 _) (shuffle (τ.sub 7).key ps) 0
      have hne := (forLoop_run (step := depStep o (τ.sub 8)) True
        (fun _ st => st = ⟨.map false cur, pm, ps⟩) (full := shuffle (τ.sub 7).key ps)
        (by
          rintro i d k rest st hfull rfl
          have hk : k ∈ ps := by rw [← mem_shuffle (k := (τ.sub 7).key), hfull]; simp
          obtain ⟨k1, k2⟩ := (b4 k).1 hk
          unfold depStep
          by_cases hkk : Has kvs k
          · obtain ⟨g1, g2⟩ := a4 k hkk k2
            by_cases hpd : o.GetPropDependencies k = []
            · simp only [hpd, ne_eq, not_true_eq_false, if_false]
              cases hsd : o.GetSchemaDependency k with
              | none =>
                refine ⟨fun _ e h => (by cases h), fun st' h => ?_⟩
                cases h; rfl
              | some c =>
                simp only
                obtain ⟨hro, hdc⟩ := hdep k c hsd
                obtain ⟨ρ, hρ⟩ := g2 hpd c hsd
                have e1 := hro (.map false kvs') ρ
                have := hdc.det (.map false kvs') (.map false cur) ρ ((τ.sub 8).sub i) (.map false kvs') hv' hcur hfin
                  (Prod.ext hρ e1)
                have e2 := hro (.map false cur) ((τ.sub 8).sub i)
                rcases hcv : c.val ((τ.sub 8).sub i) (.map false cur) with ⟨r, u⟩
                rw [hcv] at this e2
                simp only at e2
                subst e2
                simp only [hcv]
                refine ⟨fun _ => this.1, fun st' h => ?_⟩
                cases h; rfl
            · simp only [ne_eq, hpd, not_false_eq_true, if_true]
              have : depsCheck ps (o.GetPropDependencies k) = .ok := (depsCheck_ok ps _).2 fun d hd => by
                obtain ⟨q1, q2⟩ := g1 d hd
                exact (b4 d).2 ⟨hold d q1, q2⟩
              rw [this]
              refine ⟨fun _ e h => (by cases h), fun st' h => ?_⟩
              cases h; rfl
          · obtain ⟨c, dv, h1, h2, h3, -⟩ := hnew k k1 hkk
            obtain ⟨-, f1, f2⟩ := hfill k c dv h1 h2 h3
            simp only [f1, ne_eq, not_true_eq_false, if_false, f2]
            refine ⟨fun _ e h => (by cases h), fun st' h => ?_⟩
            cases h; rfl)
        (shuffle (τ.sub 7).key ps) [] 0 ⟨.map false cur, pm, ps⟩ rfl rfl).1 trivial
      refine ⟨hne, fun w' h => ?_⟩
      rw [Prod.mk.injEq] at h
      rw [← h.2, hd.2]
      exact hfin
  | _ => simp [objectV, valueOf, RV.indirect, getPropNames, Stop.toRes] at h

/-- What every constraint must satisfy so that validating again changes nothing. -/
def Stable (ext : Ext) (env : Env) (c : Constraint) : Prop := Settled ext env c ∧ DefaultPasses ext c ∧ FillsApart env c

theorem rep_pure {d : Dflt} {f : GoVal → Res} (hd : ∀ dv, d = .some dv → dv ≠ .nil → f dv = .ok) : Rep ⟨d, pureV f⟩ := by
  refine ⟨fun dv h hn τ => (by simp only [pureV, hd dv h hn]), fun v σ τ v' hv h => ?_⟩
  simp only [pureV, Prod.mk.injEq] at h ⊢
  obtain ⟨h1, rfl⟩ := h
  rw [h1]
  exact ⟨fun e h => (by cases h), fun w' h => (by cases h.2; exact .refl _)⟩

theorem rep_step {ext : Ext} {env : Env} (hp : PrintsSorted ext) (fuel : Nat)
    (hρd : ∀ m n, Det (refSem ext env fuel m n)) (hρ : ∀ m n, Rep (refSem ext env fuel m n)) :
    ∀ c : Constraint, c.Every (Stable ext env) → Rep (denote ext (refSem ext env fuel) c) := by
  intro c
  induction c using Constraint.ind with
  | h c ih =>
  intro hc
  have hdet : ∀ d : Constraint, d.Every (Stable ext env) → Det (denote ext (refSem ext env fuel) d) := fun d hd =>
    det_step hp fuel hρd d (hd.imp fun _ h => h.1)
  obtain ⟨⟨hdis, hdf, htr⟩, hpass, hap⟩ := hc.self
  have hch : ∀ d, c.Child d → Rep (denote ext (refSem ext env fuel) d) := fun d hd => ih d hd (hc.child hd)
  have hchd : ∀ d, c.Child d → Det (denote ext (refSem ext env fuel) d) := fun d hd => hdet d (hc.child hd)
  have hfree : ∀ d, Inert env d → (denote ext (refSem ext env fuel) d).ReadOnly := fun d hd => inert_readOnly fuel d hd
  have hwhole : (∀ d, c.Child d → (denote ext (refSem ext env fuel) d).ReadOnly) → (∀ o, c ≠ .object o) →
      (∀ m n, c ≠ .ref m n) → (∀ dv, (denote ext (refSem ext env fuel) c).dflt ≠ .some dv) →
      Rep (denote ext (refSem ext env fuel) c) := fun h1 h2 h3 h4 =>
    .of_readOnly (hdet c hc) (readOnly_node (fun m n h => absurd h (h3 m n)) (fun o h => absurd h (h2 o)) h1) h4
  have hofn : ∀ (d : Option GoVal) (f : GoVal → Res), c.ownDefault = d →
      (∀ σ v, ((sem ext (fun _ _ => none) 0 c).val σ v).1 = f v) → ∀ dv, Dflt.ofOption d = .some dv → dv ≠ .nil → f dv = .ok := by
    intro d f hd hf dv h hn
    cases d with
    | none => cases h
    | some x => cases h; rw [← hf sched0]; exact hpass _ hd hn _
  cases c with
  | empty => exact hwhole (fun d hd => by cases hd) (by intros; simp) (by intros; simp) (by simp [denote])
  | null => exact rep_pure (fun dv h => by cases h)
  | boolean d => exact rep_pure (hofn d _ rfl fun _ _ => rfl)
  | string s => exact rep_pure (hofn s.dflt _ rfl fun _ _ => rfl)
  | number s => exact rep_pure (hofn s.dflt _ rfl fun _ _ => rfl)
  | integer s => exact rep_pure (hofn s.dflt _ rfl fun _ _ => rfl)
  | enum vals => exact rep_pure (fun dv h => by cases h)
  | array a =>
    simp only [denote, denoteArr_eq]
    have hch' : ∀ s, (a.map (denote ext (refSem ext env fuel))).Child s → ∃ d, a.Child d ∧ denote ext (refSem ext env fuel) d = s := by
      intro s hs
      cases hs with
      | items hi =>
        obtain ⟨d, hd, rfl⟩ := Option.map_eq_some_iff.1 hi
        exact ⟨d, .items hd, rfl⟩
      | positional hi =>
        obtain ⟨d, hd, rfl⟩ := List.mem_map.1 hi
        exact ⟨d, .positional hd, rfl⟩
      | additional hi =>
        obtain ⟨d, hd, rfl⟩ := Option.map_eq_some_iff.1 hi
        exact ⟨d, .additional hd, rfl⟩
    refine arrayV_rep (fun s hs => ?_) (fun s hs => ?_) (fun hu s hs => ?_) (fun s hs => ?_)
    · obtain ⟨d, hd, rfl⟩ := hch' s hs
      exact hchd d (.array hd)
    · obtain ⟨d, hd, rfl⟩ := hch' s hs
      exact hch d (.array hd)
    · obtain ⟨d, hd, rfl⟩ := hch' s hs
      exact hfree d (hap.1 hu d hd)
    · obtain ⟨d, hd, rfl⟩ := Option.map_eq_some_iff.1 hs
      exact hfree d (hap.2 d hd)
  | object o =>
    have : denote ext (refSem ext env fuel) (.object o) = ⟨.none, objectV ext (o.map (denote ext (refSem ext env fuel)))⟩ := by
      simp [denote, denoteObj_eq]
    rw [this]
    have hdepm : ∀ k, ObjC.GetSchemaDependency (o.map (denote ext (refSem ext env fuel))) k =
        (o.GetSchemaDependency k).map (denote ext (refSem ext env fuel)) := fun k => alookup_map _ k o.schemadeps
    refine objectV_rep ((ObjC.map_wf _ o).2 hdis.1) (fun k s s' h h' => ruleFor_unique hdis h h') (fun k s h => ?_) (fun k s h => ?_)
      (fun k s h => ?_) (fun p s dv h hd hn => ?_)
    · obtain ⟨c, rfl, hcc, -⟩ := ruleFor_map h
      exact hchd c hcc
    · obtain ⟨c, rfl, hcc, -⟩ := ruleFor_map h
      exact hch c hcc
    · rw [hdepm] at h
      obtain ⟨d, hd, rfl⟩ := Option.map_eq_some_iff.1 h
      exact ⟨hfree d (htr d (.dependency hd)), hchd d (.object (.dependency hd))⟩
    · obtain ⟨c, h1, rfl⟩ := (ObjC.map_mem_props _ o).1 h
      obtain ⟨g1, g2, g3⟩ := hap p c h1 (dflt_defaulted fuel c dv hd)
      exact ⟨g1, g2, by rw [hdepm, g3]; rfl⟩
  | any cs => exact hwhole (fun d hd => by cases hd with | any h => exact inert_readOnly fuel d (htr d (.any h))) (by intros; simp) (by intros; simp) (by simp [denote])
  | all cs =>
    simp only [denote, denoteList_eq]
    cases cs with
    | nil =>
      refine ⟨fun dv h => (by cases h), fun v σ τ v' _ h => ?_⟩
      cases h
      exact ⟨fun e h => (by cases h), fun w' h => (by cases h; exact .refl _)⟩
    | cons c cs =>
      refine rep_all (hchd c (.all (by simp))) (hch c (.all (by simp))) (fun s hs => ?_)
      obtain ⟨d, hd, rfl⟩ := List.mem_map.1 hs
      exact ⟨hchd d (.all (by simp [hd])), hfree d (hap d hd)⟩
  | oneOf cs => exact hwhole (fun d hd => by cases hd with | oneOf h => exact inert_readOnly fuel d (htr d (.oneOf h))) (by intros; simp) (by intros; simp) (by simp [denote])
  | not c => exact hwhole (fun d hd => by cases hd with | not => exact inert_readOnly fuel d (htr d .not)) (by intros; simp) (by intros; simp) (by simp [denote])
  | ref m n => simp only [denote]; exact hρ m n

theorem rep_sem {ext : Ext} {env : Env} (hp : PrintsSorted ext) (henv : env.Every (Stable ext env)) (fuel : Nat) :
    ∀ c : Constraint, c.Every (Stable ext env) → Rep (sem ext env fuel c) := by
  have henv' : env.Every (Settled ext env) := fun m n c h => (henv m n c h).imp fun _ h => h.1
  induction fuel with
  | zero =>
    refine rep_step hp 0 (fun m n => ?_) (fun m n => ?_)
    · exact ⟨fun σ v v' _ h => (by simp [refSem, running] at h), fun dv h => (by simp [refSem, running] at h),
        fun v w σ τ v' _ _ _ h => (by simp [refSem, running] at h)⟩
    · exact ⟨fun dv h => (by simp [refSem, running] at h), fun v σ τ v' _ h => (by simp [refSem, running] at h)⟩
  | succ fuel ih =>
    refine rep_step hp _ (fun m n => ?_) (fun m n => ?_)
    all_goals
      simp only [refSem]
      cases he : env m n with
      | none => ?_
      | some c => ?_
    · exact ⟨fun σ v v' _ h => (by simp [unresolved] at h), fun dv h => (by simp [unresolved] at h),
        fun v w σ τ v' _ _ _ h => (by simp [unresolved] at h)⟩
    · exact det_sem hp henv' fuel c (henv' m n c he)
    · exact ⟨fun dv h => (by simp [unresolved] at h), fun v σ τ v' _ h => (by simp [unresolved] at h)⟩
    · exact ih c (henv m n c he)

end Jsval
