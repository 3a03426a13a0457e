import Verif.Lemmas.TypedSim
import Verif.Lemmas.HooksFail
/-!
# Typed maps that validation panics on
-/
namespace Jsval
variable {ext : Ext} {text : TVal → GoStr}

theorem MapIn.indirect {v : TVal} {n k e z kvs} (h : MapIn v n k e z kvs) : v.indirect = some (.map n k e z kvs) := by
  rcases h with rfl | ⟨t, rfl⟩ <;> rfl

/-! ## Keys of a defined type -/

theorem assignable_key {k : GoType} (h : k.under = .str) (hk : k ≠ .str) : GoType.str.assignable k = false := by
  cases k with
  | str => exact absurd rfl hk
  | named n u =>
    simp only [GoType.under] at h
    simp [GoType.assignable, GoType.under, h, GoType.isLiteral]
  | _ => cases h

theorem patInner_keys {v : TVal} {n k e z kvs} (hv : MapIn v n k e z kvs) (hk : GoType.str.assignable k = false) {src : GoStr} {c : SemT} {σ : Sched} :
    ∀ (l : List GoStr) (i : Nat) (st : ObjStT), st.v = v →
    ((∃ x ∈ l, ext.reMatch src x = true) → forLoop (patStepT ext src c σ) i l st = (.abort .panic, st)) ∧
    ((∀ x ∈ l, ext.reMatch src x = false) → forLoop (patStepT ext src c σ) i l st = (.ok, st))
  | [], _, _, _ => ⟨fun ⟨_, h, _⟩ => (by cases h), fun _ => rfl⟩
  | x :: l, i, st, hst => by
    obtain ⟨ih1, ih2⟩ := patInner_keys hv hk l (i + 1) st hst
    rw [forLoop, patStepT]
    cases hx : ext.reMatch src x with
    | false =>
      simp only [if_true]
      refine ⟨fun ⟨y, hy, he⟩ => ih1 ?_, fun h => ih2 fun y hy => h y (by simp [hy])⟩
      rcases List.mem_cons.1 hy with rfl | hy
      · rw [hx] at he; cases he
      · exact ⟨y, hy, he⟩
    | true =>
      refine ⟨fun _ => ?_, fun h => ?_⟩
      · simp [hst, hv.indirect, getPropT, hk]
      · have := h x (by simp)
        rw [hx] at this
        cases this

theorem patOuter_keys {v : TVal} {n k e z kvs} (hv : MapIn v n k e z kvs) (hk : GoType.str.assignable k = false) {σ : Sched} :
    ∀ (l : List (Nat × GoStr × SemT)) (i : Nat) (st : ObjStT), st.v = v →
    ((∃ p ∈ l, ∃ x ∈ st.premain, ext.reMatch p.2.1 x = true) → forLoop (patOuterT ext σ) i l st = (.abort .panic, st)) ∧
    ((∀ p ∈ l, ∀ x ∈ st.premain, ext.reMatch p.2.1 x = false) → forLoop (patOuterT ext σ) i l st = (.ok, st))
  | [], _, _, _ => ⟨fun ⟨_, h, _⟩ => (by cases h), fun _ => rfl⟩
  | p :: l, i, st, hst => by
    obtain ⟨ih1, ih2⟩ := patOuter_keys hv hk l (i + 1) st hst
    obtain ⟨h1, h2⟩ := patInner_keys (ext := ext) hv hk (src := p.2.1) (c := p.2.2) (σ := (σ.sub 4).sub i) (shuffle ((σ.sub 3).sub i).key st.premain) 0 st hst
    rw [forLoop, patOuterT]
    by_cases hp : ∃ x ∈ st.premain, ext.reMatch p.2.1 x = true
    · have hp' : ∃ x ∈ shuffle ((σ.sub 3).sub i).key st.premain, ext.reMatch p.2.1 x = true := by
        obtain ⟨x, hx, e⟩ := hp
        exact ⟨x, mem_shuffle.2 hx, e⟩
      refine ⟨fun _ => by rw [h1 hp'], fun h => ?_⟩
      obtain ⟨x, hx, e⟩ := hp
      rw [h p (by simp) x hx] at e
      cases e
    · have hp' : ∀ x ∈ shuffle ((σ.sub 3).sub i).key st.premain, ext.reMatch p.2.1 x = false := by
        intro x hx
        have : ¬ ext.reMatch p.2.1 x = true := fun e => hp ⟨x, mem_shuffle.1 hx, e⟩
        simpa using this
      rw [h2 hp']
      refine ⟨fun ⟨q, hq, hx⟩ => ih1 ?_, fun h => ih2 fun q hq => h q (by simp [hq])⟩
      rcases List.mem_cons.1 hq with rfl | hq
      · exact absurd hx hp
      · exact ⟨q, hq, hx⟩

/-- What is asked of the map at all. -/
def LooksUp (ext : Ext) (o : ObjC SemT) (keys : List GoStr) : Prop :=
  o.props ≠ [] ∨ (∃ p ∈ o.patterns, ∃ x ∈ keys, ext.reMatch p.2.1 x = true) ∨ (keys ≠ [] ∧ o.additional ≠ none)

theorem objLoops_keys {v : TVal} {n k e z kvs} (hv : MapIn v n k e z kvs) (hk : GoType.str.assignable k = false) (o : ObjC SemT) (σ : Sched) (st : ObjStT)
    (hst : st.v = v) (hs : st.pseen = []) :
    (LooksUp ext o st.premain → objLoopsT ext o σ st = (.abort .panic, st)) ∧
    (¬ LooksUp ext o st.premain → objLoopsT ext o σ st = (if st.premain = [] then .ok else .err .addlNotAllowed, st)) := by
  unfold objLoopsT
  by_cases hp : o.props = []
  · have e1 : forLoop (propStepT ext o (σ.sub 1)) 0 (shuffle (σ.sub 0).key o.props) st = (.ok, st) := by rw [hp]; rfl
    rw [e1, seqStT]
    obtain ⟨h1, h2⟩ := patOuter_keys (ext := ext) hv hk (σ := σ) (shuffle (σ.sub 2).key o.patterns) 0 st hst
    by_cases hq : ∃ p ∈ o.patterns, ∃ x ∈ st.premain, ext.reMatch p.2.1 x = true
    · have hq' : ∃ p ∈ shuffle (σ.sub 2).key o.patterns, ∃ x ∈ st.premain, ext.reMatch p.2.1 x = true := by
        obtain ⟨p, h, hx⟩ := hq
        exact ⟨p, mem_shuffle.2 h, hx⟩
      refine ⟨fun _ => by rw [h1 hq']; rfl, fun h => absurd (Or.inr (Or.inl hq)) h⟩
    · have hq' : ∀ p ∈ shuffle (σ.sub 2).key o.patterns, ∀ x ∈ st.premain, ext.reMatch p.2.1 x = false := by
        intro p h x hx
        have : ¬ ext.reMatch p.2.1 x = true := fun e => hq ⟨p, mem_shuffle.1 h, x, hx, e⟩
        simpa using this
      rw [h2 hq', seqStT]
      unfold addlPhaseT
      by_cases hm : st.premain = []
      · have e2 : ¬ st.premain.length > 0 := by simp [hm]
        rw [if_neg e2, seqStT, if_pos hm, hs]
        refine ⟨?_, fun _ => rfl⟩
        rintro (h | h | ⟨h, -⟩)
        · exact absurd hp h
        · exact absurd h hq
        · exact absurd hm h
      · have e2 : st.premain.length > 0 := List.length_pos_of_ne_nil hm
        rw [if_pos e2, if_neg hm]
        cases ha : o.additional with
        | none =>
          refine ⟨?_, fun _ => rfl⟩
          rintro (h | h | ⟨-, h⟩)
          · exact absurd hp h
          · exact absurd h hq
          · exact absurd ha h
        | some c =>
          refine ⟨fun _ => ?_, fun h => absurd (Or.inr (Or.inr ⟨hm, by rw [ha]; simp⟩)) h⟩
          simp only
          cases hl : shuffle (σ.sub 5).key st.premain with
          | nil =>
            have := (shuffle_perm st.premain (σ.sub 5).key).length_eq
            rw [hl] at this
            simp only [List.length_nil] at this
            omega
          | cons x l => simp [forLoop, addlStepT, hst, hv.indirect, getPropT, hk, seqStT]
  · refine ⟨fun _ => ?_, fun h => absurd (Or.inl hp) h⟩
    cases hl : shuffle (σ.sub 0).key o.props with
    | nil =>
      have := (shuffle_perm o.props (σ.sub 0).key).length_eq
      rw [hl] at this
      exact absurd (List.length_eq_zero_iff.1 this.symm) hp
    | cons x l => simp [forLoop, propStepT, viewPropT, hst, hv.indirect, getPropT, hk, seqStT]

/-! ## Defaults of another type -/

theorem setPropT_map {v v' : TVal} {n k e z kvs} (hv : MapIn v n k e z kvs) {p q : GoStr} (hpq : p ≠ q) {dv : GoVal} {o : Option TVal} (hp : alookup p kvs = o)
    (h : setPropT ext v q dv = .ok v') : ∃ kvs', MapIn v' n k e z kvs' ∧ alookup p kvs' = o := by
  have key : ∀ a w, setPropAtT ext a (.map n k e z kvs) q dv = .ok w → ∃ kvs', w = .map n k e z kvs' ∧ alookup p kvs' = o := by
    intro a w hw
    simp only [setPropAtT] at hw
    split at hw
    · by_cases hn : dv = .nil
      · subst hn
        cases hw
        exact ⟨_, rfl, (alookup_adelete_ne hpq _).trans hp⟩
      · have : (if z = true then Except.error (Stop.abort .panic) else if (TVal.ofPlain dv).typeOf.assignable e = true then
            Except.ok (.map n k e z (ainsert q (.ofPlain dv) kvs)) else .error (.abort .panic)) = .ok w := by
          cases dv <;> first | exact absurd rfl hn | exact hw
        split at this
        · cases this
        · split at this
          · cases this
            exact ⟨_, rfl, by rw [alookup_ainsert, if_neg hpq]; exact hp⟩
          · cases this
    · cases hw
  rcases hv with rfl | ⟨t, rfl⟩
  · obtain ⟨kvs', rfl, h'⟩ := key false v' h
    exact ⟨kvs', Or.inl rfl, h'⟩
  · simp only [setPropT, setPropRVT] at h
    cases hs : setPropAtT ext true (.map n k e z kvs) q dv with
    | error s => rw [hs] at h; cases h
    | ok w =>
      rw [hs] at h
      cases h
      obtain ⟨kvs', rfl, h'⟩ := key true w hs
      exact ⟨kvs', Or.inr ⟨t, rfl⟩, h'⟩

theorem putPropT_map {v : TVal} {n k e z kvs} (hv : MapIn v n k e z kvs) {p q : GoStr} (hpq : p ≠ q) (x : TVal) {o : Option TVal} (hp : alookup p kvs = o) :
    ∃ kvs', MapIn (putPropT v q x) n k e z kvs' ∧ alookup p kvs' = o := by
  have h' : alookup p (ainsert q x kvs) = o := by rw [alookup_ainsert, if_neg hpq]; exact hp
  rcases hv with rfl | ⟨t, rfl⟩
  · exact ⟨_, Or.inl rfl, h'⟩
  · exact ⟨_, Or.inr ⟨t, rfl⟩, h'⟩

theorem propStepT_map {o : ObjC SemT} {σ : Sched} {i : Nat} {pc : GoStr × SemT} {st : ObjStT} {n k e z} {p : GoStr} {w : Option TVal} (hpq : p ≠ pc.1)
    (h : ∃ kvs, MapIn st.v n k e z kvs ∧ alookup p kvs = w) : ∃ kvs, MapIn (propStepT ext o σ i pc st).2.v n k e z kvs ∧ alookup p kvs = w := by
  have h0 := h
  obtain ⟨kvs, hv, hp⟩ := h
  unfold propStepT
  split
  · exact h0
  · split
    · exact h0
    · split
      · exact h0
      · exact h0
      · split
        · exact h0
        · exact h0
        · rename_i hs
          exact setPropT_map hv hpq hp hs
  · rename_i x stored hw
    rcases hr : pc.2.val (σ.sub i) x with ⟨r, x'⟩
    have hput : ∃ kvs, MapIn (if stored then putPropT st.v pc.1 x' else st.v) n k e z kvs ∧ alookup p kvs = w := by
      cases stored with
      | true => exact putPropT_map hv hpq x' hp
      | false => exact h0
    cases r <;> exact hput

theorem seqStT_ok {r : Res × ObjStT} {k : ObjStT → Res × ObjStT} (h : (seqStT r k).1 = .ok) : r.1 = .ok := by
  obtain ⟨r, st⟩ := r
  cases r <;> first | rfl | exact h

theorem default_refused {o : ObjC SemT} {σ : Sched} {v : TVal} {n e z kvs} (hv : MapIn v n .str e z kvs) {p : GoStr} {c : SemT} (hp : (p, c) ∈ o.props)
    (hnd : (o.props.map (·.1)).Nodup) {dv : GoVal} (hd : c.dflt = .some dv) (hn : dv ≠ .nil) (habs : alookup p kvs = none)
    (ha : (TVal.ofPlain dv).typeOf.assignable e = false) : (objectVT ext o σ v).1 ≠ .ok := by
  intro h
  unfold objectVT at h
  split at h
  · rename_i s _
    cases s <;> cases h
  · rename_i fields _
    simp only at h
    split at h
    · cases h
    · split at h
      · cases h
      · unfold objLoopsT at h
        have h1 := seqStT_ok h
        obtain ⟨l₁, l₂, s₁, s₂, hl, hrun, hstep, -⟩ := forLoop_ok_mem h1 (mem_shuffle.2 hp)
        have hnd' : ((shuffle (σ.sub 0).key o.props).map (·.1)).Nodup := ((shuffle_perm _ _).map _).nodup_iff.2 hnd
        rw [hl, List.map_append, List.map_cons] at hnd'
        have hne : ∀ a ∈ l₁, p ≠ a.1 := by
          intro a ha e
          exact (List.nodup_append.1 hnd').2.2 a.1 (List.mem_map.2 ⟨a, ha, rfl⟩) p (by simp) e.symm
        have hinv := forLoop_inv (step := propStepT ext o (σ.sub 1)) (fun st : ObjStT => ∃ kvs, MapIn st.v n .str e z kvs ∧ alookup p kvs = none) 0 l₁ ⟨v, nameSet fields, []⟩
          (fun i a ha st hs => propStepT_map (hne a ha) hs) ⟨kvs, hv, habs⟩
        rw [hrun] at hinv
        obtain ⟨kvs', hv', habs'⟩ := hinv
        have hstr : GoType.str.assignable .str = true := by decide
        have hset : ∀ a, setPropAtT ext a (.map n .str e z kvs') p dv = .error (.abort .panic) := by
          intro a
          simp only [setPropAtT, hstr, if_true, ha]
          cases dv <;> first | exact absurd rfl hn | (cases z <;> rfl)
        have hset' : setPropT ext s₁.v p dv = .error (.abort .panic) := by
          rcases hv' with e1 | ⟨t, e1⟩
          · rw [e1]; exact hset false
          · rw [e1]; simp only [setPropT, setPropRVT, hset]; rfl
        have hview : viewPropT s₁.v.indirect p = .ok .absent := by
          simp [viewPropT, hv'.indirect, getPropT, hstr, habs']
        unfold propStepT at hstep
        simp only [hview, hd, hset'] at hstep
        split at hstep <;> cases hstep

/-- A nil pointer to a Maybe at a declared property. -/
theorem nil_element_panics {o : ObjC SemT} {σ : Sched} {v : TVal} {n e z kvs} (hv : MapIn v n .str e z kvs) {p : GoStr} {c : SemT} (hp : (p, c) ∈ o.props)
    (hnd : (o.props.map (·.1)).Nodup) (he : e.isMaybe = true) {t : GoType} (hx : alookup p kvs = some (.ptr t none)) : (objectVT ext o σ v).1 ≠ .ok := by
  intro h
  unfold objectVT at h
  split at h
  · rename_i s _
    cases s <;> cases h
  · rename_i fields _
    simp only at h
    split at h
    · cases h
    · split at h
      · cases h
      · unfold objLoopsT at h
        have h1 := seqStT_ok h
        obtain ⟨l₁, l₂, s₁, s₂, hl, hrun, hstep, -⟩ := forLoop_ok_mem h1 (mem_shuffle.2 hp)
        have hnd' : ((shuffle (σ.sub 0).key o.props).map (·.1)).Nodup := ((shuffle_perm _ _).map _).nodup_iff.2 hnd
        rw [hl, List.map_append, List.map_cons] at hnd'
        have hne : ∀ a ∈ l₁, p ≠ a.1 := by
          intro a ha e
          exact (List.nodup_append.1 hnd').2.2 a.1 (List.mem_map.2 ⟨a, ha, rfl⟩) p (by simp) e.symm
        have hinv := forLoop_inv (step := propStepT ext o (σ.sub 1)) (fun st : ObjStT => ∃ kvs, MapIn st.v n .str e z kvs ∧ alookup p kvs = some (.ptr t none)) 0 l₁ ⟨v, nameSet fields, []⟩
          (fun i a ha st hs => propStepT_map (hne a ha) hs) ⟨kvs, hv, hx⟩
        rw [hrun] at hinv
        obtain ⟨kvs', hv', hx'⟩ := hinv
        have hstr : GoType.str.assignable .str = true := by decide
        have hview : viewPropT s₁.v.indirect p = .error .panic := by
          simp [viewPropT, hv'.indirect, getPropT, hstr, hx', he]
        unfold propStepT at hstep
        simp only [hview] at hstep
        cases hstep

end Jsval
