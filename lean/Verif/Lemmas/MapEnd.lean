import Verif.Lemmas.ObjExact
import Verif.Lemmas.Policies
/-!
# What a map looks like after an accepting validation
-/
namespace Jsval

/-- What happens to one declared property. -/
structure Filled (p : GoStr) (d : Dflt) (kvs kvs' : List (GoStr × GoVal)) : Prop where
  kept : ∀ x, alookup p kvs = some x → ∃ x', alookup p kvs' = some x'
  filled : alookup p kvs = none → ∀ dv, d = .some dv → dv ≠ .nil → alookup p kvs' = some dv
  left : alookup p kvs = none → (∀ dv, d = .some dv → dv = .nil) → alookup p kvs' = none

theorem Filled.congr_right {p : GoStr} {d : Dflt} {kvs kvs' kvs'' : List (GoStr × GoVal)} (h : Filled p d kvs kvs')
    (he : alookup p kvs'' = alookup p kvs') : Filled p d kvs kvs'' :=
  ⟨fun x hx => by rw [he]; exact h.kept x hx, fun h1 dv h2 h3 => by rw [he]; exact h.filled h1 dv h2 h3,
    fun h1 h2 => by rw [he]; exact h.left h1 h2⟩

theorem Filled.congr_left {p : GoStr} {d : Dflt} {kvs kvs' kvs'' : List (GoStr × GoVal)} (h : Filled p d kvs kvs')
    (he : alookup p kvs = alookup p kvs'') : Filled p d kvs'' kvs' :=
  ⟨fun x hx => h.kept x (by rw [he]; exact hx), fun h1 => h.filled (by rw [he]; exact h1),
    fun h1 => h.left (by rw [he]; exact h1)⟩

theorem indirect_wrap_map (b n : Bool) (kvs) : (valueOf (wrap b (.map n kvs))).indirect = some (.map n kvs) :=
  indirect_wrap (.map n kvs) b

theorem propStep_map {ext : Ext} {o : ObjC Sem} {σ : Sched} {i : Nat} {p : GoStr} {c : Sem} {b n : Bool}
    {kvs : List (GoStr × GoVal)} {pm ps : List GoStr} {s' : ObjSt}
    (h : propStep ext o σ i (p, c) ⟨wrap b (.map n kvs), pm, ps⟩ = (.ok, s')) :
    ∃ kvs', s'.v = wrap b (.map n kvs') ∧ (∀ q, q ≠ p → alookup q kvs' = alookup q kvs) ∧ Filled p c.dflt kvs kvs' ∧
      (∀ k ∈ s'.premain, k ∈ pm) := by
  unfold propStep at h
  simp only [indirect_wrap_map, viewProp_map, setProp_wrap ext (.map n kvs)] at h
  cases hl : alookup p kvs with
  | none =>
    simp only [hl] at h
    split at h
    · cases h
    · split at h
      · cases h
      · rename_i hd
        cases h
        exact ⟨kvs, rfl, fun _ _ => rfl, ⟨fun x hx => (by rw [hl] at hx; cases hx),
          fun _ dv h => (by rw [hd] at h; cases h), fun h _ => h⟩, fun k hk => hk⟩
      · rename_i dv hd
        by_cases hnil : dv = .nil
        · subst hnil
          simp only [setPropAt, Except.map] at h
          cases h
          refine ⟨_, rfl, fun q hq => alookup_adelete_ne hq kvs, ⟨fun x hx => (by rw [hl] at hx; cases hx),
            fun _ dv h h' => ?_, fun _ _ => ?_⟩, fun k hk => hk⟩
          · rw [hd] at h; cases h; exact absurd rfl h'
          · rw [adelete_absent hl]; exact hl
        · have : setPropAt ext b (.map n kvs) p dv =
              if n then .error (.abort .panic) else .ok (.map n (ainsert p dv kvs)) := by
            cases dv <;> first | exact absurd rfl hnil | rfl
          rw [this] at h
          cases n with
          | true => simp only [if_true, Except.map] at h; cases h
          | false =>
            simp only [Except.map] at h
            cases h
            refine ⟨_, rfl, fun q hq => alookup_ainsert_ne hq _ kvs, ⟨fun x hx => (by rw [hl] at hx; cases hx),
              fun _ dv' h h' => ?_, fun _ h => ?_⟩, fun k hk => hk⟩
            · rw [hd] at h; cases h; exact alookup_ainsert_self ..
            · exact absurd (h dv hd) hnil
  | some x =>
    simp only [hl] at h
    rcases hc : c.val (σ.sub i) x with ⟨r, x'⟩
    simp only [hc, if_true, putProp_wrap (.map n kvs)] at h
    cases r with
    | ok =>
      cases h
      refine ⟨ainsert p x' kvs, rfl, fun q hq => alookup_ainsert_ne hq _ kvs, ⟨fun _ _ => ⟨x', alookup_ainsert_self ..⟩,
        fun h => (by rw [hl] at h; cases h), fun h => (by rw [hl] at h; cases h)⟩, fun k hk => (List.mem_filter.1 hk).1⟩
    | err e => cases h
    | abort e => cases h

theorem propLoop_map {ext : Ext} {o : ObjC Sem} {σ : Sched} {b n : Bool} : ∀ (l : List (GoStr × Sem)) (i : Nat)
    (kvs : List (GoStr × GoVal)) (pm ps : List GoStr) (s' : ObjSt), (l.map (·.1)).Nodup →
    forLoop (propStep ext o σ) i l ⟨wrap b (.map n kvs), pm, ps⟩ = (.ok, s') →
    ∃ kvs', s'.v = wrap b (.map n kvs') ∧ (∀ q, q ∉ l.map (·.1) → alookup q kvs' = alookup q kvs) ∧
      (∀ p c, (p, c) ∈ l → Filled p c.dflt kvs kvs') ∧ (∀ k ∈ s'.premain, k ∈ pm)
  | [], i, kvs, pm, ps, s', _, h => by
    cases h
    exact ⟨kvs, rfl, fun _ _ => rfl, fun p c h => by simp at h, fun k hk => hk⟩
  | (p, c) :: l, i, kvs, pm, ps, s', hn, h => by
    simp only [List.map_cons, List.nodup_cons] at hn
    rcases hst : propStep ext o σ i (p, c) ⟨wrap b (.map n kvs), pm, ps⟩ with ⟨r, s1⟩
    cases r with
    | err e => simp [forLoop, hst] at h
    | abort e => simp [forLoop, hst] at h
    | ok =>
      simp only [forLoop, hst] at h
      obtain ⟨kvs1, h1, h2, h3, h4⟩ := propStep_map hst
      obtain ⟨v1, pm1, ps1⟩ := s1
      simp only at h1 h4
      subst h1
      obtain ⟨kvs', g1, g2, g3, g4⟩ := propLoop_map l (i + 1) kvs1 pm1 ps1 s' hn.2 h
      refine ⟨kvs', g1, ?_, ?_, fun k hk => h4 k (g4 k hk)⟩
      · intro q hq
        simp only [List.map_cons, List.mem_cons, not_or] at hq
        rw [g2 q hq.2, h2 q hq.1]
      · intro q d hqd
        rcases List.mem_cons.1 hqd with hqd' | hqd'
        · simp only [Prod.mk.injEq] at hqd'
          obtain ⟨rfl, rfl⟩ := hqd'
          exact h3.congr_right (g2 q hn.1)
        · have hne : q ≠ p := by
            rintro rfl
            exact hn.1 (List.mem_map.2 ⟨(q, d), hqd', rfl⟩)
          exact (g3 q d hqd').congr_left (h2 q hne)

/-- Later loops only touch names in a given set, and keep the set of names. -/
structure Touch (pm : List GoStr) (kvs kvs' : List (GoStr × GoVal)) : Prop where
  other : ∀ q, q ∉ pm → alookup q kvs' = alookup q kvs
  same : ∀ q, alookup q kvs' = none ↔ alookup q kvs = none

theorem Touch.refl (pm : List GoStr) (kvs) : Touch pm kvs kvs := ⟨fun _ _ => rfl, fun _ => Iff.rfl⟩

theorem Touch.insert {pm : List GoStr} {kvs kvs' : List (GoStr × GoVal)} {k : GoStr} {x y : GoVal} (h : Touch pm kvs kvs')
    (hk : k ∈ pm) (hx : alookup k kvs' = some x) : Touch pm kvs (ainsert k y kvs') := by
  refine ⟨fun q hq => ?_, fun q => ?_⟩
  · have : q ≠ k := by rintro rfl; exact hq hk
    rw [alookup_ainsert_ne this, h.other q hq]
  · rw [alookup_ainsert]
    split
    · rename_i e; subst e
      rw [← h.same, hx]
      simp
    · exact h.same q

/-- Invariant of the pattern and additional loops. -/
def Touched (b n : Bool) (pm : List GoStr) (kvs : List (GoStr × GoVal)) (s : ObjSt) : Prop :=
  (∃ kvs', s.v = wrap b (.map n kvs') ∧ Touch pm kvs kvs') ∧ ∀ k ∈ s.premain, k ∈ pm

theorem patStep_touch {ext : Ext} {src : GoStr} {c : Sem} {σ : Sched} {i : Nat} {k : GoStr} {b n : Bool} {pm : List GoStr}
    {kvs : List (GoStr × GoVal)} {s : ObjSt} (hk : k ∈ pm) (hs : Touched b n pm kvs s) :
    Touched b n pm kvs (patStep ext src c σ i k s).2 := by
  unfold patStep
  split
  · exact hs
  · obtain ⟨⟨kvs', h1, h2⟩, h3⟩ := hs
    simp only [h1, indirect_wrap_map, getProp]
    cases hl : alookup k kvs' with
    | none => exact ⟨⟨kvs', h1, h2⟩, h3⟩
    | some x =>
      rcases hc : c.val (σ.sub i) x with ⟨r, x'⟩
      simp only [hc, putProp_wrap (.map n kvs')]
      have : Touched b n pm kvs ⟨wrap b (putAt (.map n kvs') k x'), s.premain.filter (fun q => decide (q ≠ k)),
          addName k s.pseen⟩ := ⟨⟨_, rfl, h2.insert hk hl⟩, fun q hq => h3 q (List.mem_filter.1 hq).1⟩
      cases r <;> exact this

theorem addlStep_touch {c : Sem} {σ : Sched} {i : Nat} {k : GoStr} {b n : Bool} {pm : List GoStr}
    {kvs : List (GoStr × GoVal)} {s : ObjSt} (hk : k ∈ pm) (hs : Touched b n pm kvs s) :
    Touched b n pm kvs (addlStep c σ i k s).2 := by
  unfold addlStep
  obtain ⟨⟨kvs', h1, h2⟩, h3⟩ := hs
  simp only [h1, indirect_wrap_map, getProp]
  cases hl : alookup k kvs' with
  | none => exact ⟨⟨kvs', h1, h2⟩, h3⟩
  | some x =>
    rcases hc : c.val (σ.sub i) x with ⟨r, x'⟩
    simp only [hc, putProp_wrap (.map n kvs')]
    have : Touched b n pm kvs { s with v := wrap b (putAt (.map n kvs') k x') } := ⟨⟨_, rfl, h2.insert hk hl⟩, h3⟩
    cases r <;> exact this

/-- The map after the first three loops, which the dependencies loop starts from. -/
theorem objectV_map_end {ext : Ext} {o : ObjC Sem} {σ : Sched} {b n : Bool} {kvs : List (GoStr × GoVal)} {v' : GoVal}
    (hw : o.Wf) (h : objectV ext o σ (wrap b (.map n kvs)) = (.ok, v')) :
    ∃ kvs' pm ps, v' = (depPart o σ (wrap b (.map n kvs')) pm ps).2.v ∧
      (depPart o σ (wrap b (.map n kvs')) pm ps).1 = .ok ∧
      (∀ p c, (p, c) ∈ o.props → Filled p c.dflt kvs kvs') ∧
      (∀ k, ¬ o.Declares k → (alookup k kvs' = none ↔ alookup k kvs = none)) ∧
      prePart ext o σ ⟨wrap b (.map n kvs), nameSet (kvs.map (·.1)), []⟩ = (.ok, ⟨wrap b (.map n kvs'), pm, ps⟩) := by
  unfold objectV at h
  rw [indirect_wrap_map, show getPropNames (some (.map n kvs)) = .ok (kvs.map (·.1)) from rfl] at h
  simp only at h
  split at h
  · cases h
  split at h
  · cases h
  have hmem : ∀ k, k ∈ nameSet (kvs.map (·.1)) → alookup k kvs ≠ none := by
    intro k hk he
    rw [alookup_eq_none] at he
    exact he (mem_nameSet.1 hk)
  generalize hN : nameSet (kvs.map (·.1)) = N at h hmem
  unfold objLoops at h
  have hnK : ((shuffle (σ.sub 0).key o.props).map (·.1)).Nodup := by
    rw [← shuffle_map]; exact shuffle_nodup.2 hw.props
  rcases h1 : forLoop (propStep ext o (σ.sub 1)) 0 (shuffle (σ.sub 0).key o.props) ⟨wrap b (.map n kvs), N, []⟩ with ⟨r1, s1⟩
  rw [h1] at h
  cases r1 with
  | err e => simp [seqSt] at h
  | abort e => simp [seqSt] at h
  | ok =>
  obtain ⟨kvs1, hv1, hq1, hf1, hpm1⟩ := propLoop_map _ _ _ _ _ _ hnK h1
  simp only [seqSt] at h
  have hT1 : Touched b n N kvs1 s1 := ⟨⟨kvs1, hv1, .refl ..⟩, hpm1⟩
  rcases h2 : forLoop (patOuter ext σ) 0 (shuffle (σ.sub 2).key o.patterns) s1 with ⟨r2, s2⟩
  have hT2 : Touched b n N kvs1 s2 := by
    have := forLoop_inv (step := patOuter ext σ) (Touched b n N kvs1) 0 (shuffle (σ.sub 2).key o.patterns) s1 ?_ hT1
    · rw [h2] at this; exact this
    · rintro j ⟨id, src, c⟩ - s hs
      unfold patOuter
      refine forLoop_inv (Touched b n N kvs1) 0 _ s ?_ hs
      intro i k hk s' hs'
      exact patStep_touch (hs.2 k (mem_shuffle.1 hk)) hs'
  rw [h2] at h
  cases r2 with
  | err e => simp at h
  | abort e => simp at h
  | ok =>
  simp only at h
  rcases h3 : addlPhase o σ s2 with ⟨r3, s3⟩
  have hT3 : Touched b n N kvs1 s3 := by
    unfold addlPhase at h3
    split at h3
    · cases ha : o.additional with
      | none => rw [ha] at h3; cases h3; exact hT2
      | some c =>
        rw [ha] at h3
        simp only at h3
        have := forLoop_inv (step := addlStep c (σ.sub 6)) (Touched b n N kvs1) 0 (shuffle (σ.sub 5).key s2.premain) s2 ?_ hT2
        · rw [h3] at this; exact this
        · intro i k hk s hs
          exact addlStep_touch (hT2.2 k (mem_shuffle.1 hk)) hs
    · cases h3; exact hT2
  rw [h3] at h
  cases r3 with
  | err e => simp at h
  | abort e => simp at h
  | ok =>
  simp only at h
  obtain ⟨⟨kvs3, hv3, ht3⟩, -⟩ := hT3
  obtain ⟨v3, pm3, ps3⟩ := s3
  simp only at hv3
  subst hv3
  refine ⟨kvs3, pm3, ps3, ?_, ?_, ?_, ?_, ?_⟩
  · exact (congrArg Prod.snd h).symm
  · exact congrArg Prod.fst h
  · intro p c hpc
    have hF := hf1 p c (mem_shuffle.2 hpc)
    cases hl : alookup p kvs with
    | none =>
      have hp : p ∉ N := fun hp => hmem p hp hl
      exact hF.congr_right (ht3.other p hp)
    | some x =>
      refine ⟨fun x' hx' => ?_, fun h => (by rw [hl] at h; cases h), fun h => (by rw [hl] at h; cases h)⟩
      obtain ⟨y, hy⟩ := hF.kept x' hx'
      cases h' : alookup p kvs3 with
      | none => rw [ht3.same, hy] at h'; cases h'
      | some z => exact ⟨z, rfl⟩
  · intro k hk
    have : k ∉ (shuffle (σ.sub 0).key o.props).map (·.1) := by
      rw [← shuffle_map, mem_shuffle, declares_iff]; exact hk
    rw [ht3.same, hq1 k this]
  · simp only [prePart, hN, h1, seqSt, h2, h3]

end Jsval
