import Verif.Lemmas.MapEnd
/-!
# What the first three loops of an object constraint do to a map, key by key
-/
namespace Jsval

/-- A loop whose steps keep an invariant about the part already done; `Z` switches the claim that nothing is rejected. -/
theorem forLoop_run {α S : Type} {step : Nat → α → S → Res × S} (Z : Prop) (I : List α → S → Prop) {full : List α}
    (hstep : ∀ i d a rest s, full = d ++ a :: rest → I d s →
      (Z → ∀ e, (step i a s).1 ≠ .err e) ∧ ∀ s', step i a s = (.ok, s') → I (d ++ [a]) s') :
    ∀ (l d : List α) (i : Nat) (s : S), full = d ++ l → I d s →
      (Z → ∀ e, (forLoop step i l s).1 ≠ .err e) ∧ ∀ s', forLoop step i l s = (.ok, s') → I full s'
  | [], d, i, s, hf, hI => by
    rw [List.append_nil] at hf
    subst hf
    exact ⟨fun _ e h => (by simp [forLoop] at h), fun s' h => by cases h; exact hI⟩
  | a :: l, d, i, s, hf, hI => by
    obtain ⟨h1, h2⟩ := hstep i d a l s hf hI
    rcases hst : step i a s with ⟨r, s'⟩
    rw [hst] at h1
    cases r with
    | ok =>
      have := forLoop_run Z I hstep l (d ++ [a]) (i + 1) s' (by rw [hf]; simp) (h2 s' hst)
      simpa only [forLoop, hst] using this
    | err e => exact ⟨fun hz => absurd rfl (h1 hz e), fun s'' h => by simp [forLoop, hst] at h⟩
    | abort a => exact ⟨fun _ e h => (by simp [forLoop, hst] at h), fun s'' h => by simp [forLoop, hst] at h⟩

/-- What an absent declared property becomes. -/
def fillWith : Dflt → Option GoVal
  | .some .nil => none
  | .some v => some v
  | _ => none

/-- The constraint that applies to the value at this name. -/
def ObjC.RuleFor (ext : Ext) (o : ObjC Sem) (k : GoStr) (c : Sem) : Prop :=
  (k, c) ∈ o.props ∨ (¬ o.Declares k ∧ ∃ id src, (id, src, c) ∈ o.patterns ∧ ext.reMatch src k = true) ∨
    (¬ o.Declares k ∧ ¬ o.PatternFor ext k ∧ o.additional = some c)

/-- The value part of the state: names in `D` are finished, the others as they were. -/
def ValInv (kvs : List (GoStr × GoVal)) (Fin : GoStr → Option GoVal → Prop) (D : GoStr → Prop) (st : ObjSt) : Prop :=
  ∃ cur, st.v = .map false cur ∧ (cur.map (·.1)).Nodup ∧ (∀ k, ¬ D k → alookup k cur = alookup k kvs) ∧
    (∀ k, D k → Fin k (alookup k cur))

/-- The two name sets: remaining, and seen. -/
structure SetInv (kvs : List (GoStr × GoVal)) (D : GoStr → Prop) (st : ObjSt) : Prop where
  remain : ∀ k, k ∈ st.premain ↔ Has kvs k ∧ ¬ D k
  nodup : st.premain.Nodup
  seen : ∀ k, k ∈ st.pseen ↔ Has kvs k ∧ D k

theorem ValInv.congr {kvs : List (GoStr × GoVal)} {Fin : GoStr → Option GoVal → Prop} {D D' : GoStr → Prop} {st : ObjSt}
    (h : ValInv kvs Fin D st) (hD : ∀ k, D k ↔ D' k) : ValInv kvs Fin D' st := by
  have : D = D' := funext fun k => propext (hD k)
  subst this; exact h

theorem SetInv.congr {kvs : List (GoStr × GoVal)} {D D' : GoStr → Prop} {st : ObjSt}
    (h : SetInv kvs D st) (hD : ∀ k, D k ↔ D' k) : SetInv kvs D' st := by
  have : D = D' := funext fun k => propext (hD k)
  subst this; exact h

theorem has_iff {kvs : List (GoStr × GoVal)} {k : GoStr} : Has kvs k ↔ ∃ x, alookup k kvs = some x := by
  rw [alookup_isSome, List.mem_map]
  constructor
  · rintro ⟨x, h⟩; exact ⟨(k, x), h, rfl⟩
  · rintro ⟨⟨k, x⟩, h, rfl⟩; exact ⟨x, h⟩

theorem not_has_iff {kvs : List (GoStr × GoVal)} {k : GoStr} : ¬ Has kvs k ↔ alookup k kvs = none := by
  rw [has_iff]
  cases alookup k kvs <;> simp

/-- Storing the result of a child at a name that was not finished. -/
theorem ValInv.put {kvs : List (GoStr × GoVal)} {Fin : GoStr → Option GoVal → Prop} {D : GoStr → Prop} {cur} {k : GoStr}
    {y : GoVal} {pm ps : List GoStr} (hn : (cur.map (·.1)).Nodup) (h1 : ∀ k, ¬ D k → alookup k cur = alookup k kvs)
    (h2 : ∀ k, D k → Fin k (alookup k cur)) (hy : Fin k (some y)) :
    ValInv kvs Fin (fun q => D q ∨ q = k) ⟨.map false (ainsert k y cur), pm, ps⟩ := by
  refine ⟨_, rfl, nodup_ainsert hn, fun q hq => ?_, fun q hq => ?_⟩
  · simp only [not_or] at hq
    rw [alookup_ainsert_ne hq.2, h1 q hq.1]
  · by_cases he : q = k
    · subst he; rw [alookup_ainsert_self]; exact hy
    · rw [alookup_ainsert_ne he]; exact h2 q (hq.resolve_right he)

/-- Ticking off a present name. -/
theorem SetInv.tick {kvs : List (GoStr × GoVal)} {D : GoStr → Prop} {k : GoStr} {v v' : GoVal} {pm ps : List GoStr}
    (h : SetInv kvs D ⟨v, pm, ps⟩) (hk : Has kvs k) :
    SetInv kvs (fun q => D q ∨ q = k) ⟨v', pm.filter (fun q => decide (q ≠ k)), addName k ps⟩ := by
  refine ⟨fun q => ?_, h.nodup.filter _, fun q => ?_⟩
  · have := h.remain q
    simp only at this ⊢
    rw [List.mem_filter, this]
    simp only [ne_eq, decide_not, Bool.not_eq_eq_eq_not, Bool.not_true, decide_eq_false_iff_not, not_or]
    tauto
  · have := h.seen q
    simp only at this ⊢
    rw [mem_addName, this]
    constructor
    · rintro (rfl | ⟨a, b⟩)
      · exact ⟨hk, Or.inr rfl⟩
      · exact ⟨a, Or.inl b⟩
    · rintro ⟨a, b | rfl⟩
      · exact Or.inr ⟨a, b⟩
      · exact Or.inl rfl

section
variable {ext : Ext} {o : ObjC Sem} {kvs : List (GoStr × GoVal)} {Fin : GoStr → Option GoVal → Prop} {Z : Prop}

theorem propStep_run
    (hrule : ∀ k c x, o.RuleFor ext k c → alookup k kvs = some x → ∀ ρ, (Z → ∀ e, (c.val ρ x).1 ≠ .err e) ∧
      ∀ x', c.val ρ x = (.ok, x') → Fin k (some x'))
    (habs : ∀ p c, (p, c) ∈ o.props → alookup p kvs = none → (Z → p ∉ o.required) ∧ Fin p (fillWith c.dflt))
    {σ : Sched} {i : Nat} {p : GoStr} {c : Sem} (hpc : (p, c) ∈ o.props) {D : GoStr → Prop} (hD : ¬ D p) {st : ObjSt}
    (hv : ValInv kvs Fin D st) (hs : SetInv kvs D st) :
    (Z → ∀ e, (propStep ext o σ i (p, c) st).1 ≠ .err e) ∧ ∀ st', propStep ext o σ i (p, c) st = (.ok, st') →
      ValInv kvs Fin (fun q => D q ∨ q = p) st' ∧ SetInv kvs (fun q => D q ∨ q = p) st' := by
  obtain ⟨v, pm, ps⟩ := st
  obtain ⟨cur, hcur, hnd, h1, h2⟩ := hv
  simp only at hcur
  subst hcur
  have hview : viewProp (valueOf (.map false cur)).indirect p =
      .ok (match alookup p kvs with | none => .absent | some x => .present x true) := by
    rw [← h1 p hD]; exact viewProp_map
  unfold propStep
  simp only [hview]
  cases hl : alookup p kvs with
  | none =>
    obtain ⟨hreq, hfin⟩ := habs p c hpc hl
    have hcur : alookup p cur = none := by rw [h1 p hD, hl]
    have hstay : Fin p none → ∀ st', (Res.ok, (⟨.map false cur, pm, ps⟩ : ObjSt)) = (.ok, st') →
        ValInv kvs Fin (fun q => D q ∨ q = p) st' ∧ SetInv kvs (fun q => D q ∨ q = p) st' := by
      intro hf st' he
      cases he
      have hno : ¬ Has kvs p := not_has_iff.2 hl
      refine ⟨⟨cur, rfl, hnd, fun q hq => h1 q (fun h => hq (Or.inl h)), fun q hq => ?_⟩, ⟨fun q => ?_, hs.nodup, fun q => ?_⟩⟩
      · rcases hq with hq | rfl
        · exact h2 q hq
        · rw [hcur]; exact hf
      · have := hs.remain q
        simp only at this ⊢
        rw [this]
        constructor
        · rintro ⟨a, b⟩
          exact ⟨a, by rintro (h | rfl); exacts [b h, hno a]⟩
        · rintro ⟨a, b⟩; exact ⟨a, fun h => b (Or.inl h)⟩
      · have := hs.seen q
        simp only at this ⊢
        rw [this]
        constructor
        · rintro ⟨a, b⟩; exact ⟨a, Or.inl b⟩
        · rintro ⟨a, b | rfl⟩
          · exact ⟨a, b⟩
          · exact absurd a hno
    simp only
    split
    · rename_i hr
      exact ⟨fun hz => absurd hr (hreq hz), fun st' h => by cases h⟩
    · cases hd : c.dflt with
      | abort a => exact ⟨fun _ e h => (by cases h), fun st' h => by cases h⟩
      | none =>
        rw [hd] at hfin
        exact ⟨fun _ e h => (by cases h), hstay hfin⟩
      | some dv =>
        rw [hd] at hfin
        by_cases hnil : dv = .nil
        · subst hnil
          simp only [setProp, setPropAt, adelete_absent hcur]
          exact ⟨fun _ e h => (by cases h), hstay hfin⟩
        · have hset : setProp ext (.map false cur) p dv = .ok (.map false (ainsert p dv cur)) := by
            cases dv <;> first | exact absurd rfl hnil | rfl
          have hfin' : Fin p (some dv) := by
            have : fillWith (.some dv) = some dv := by cases dv <;> first | exact absurd rfl hnil | rfl
            rw [this] at hfin; exact hfin
          simp only [hset]
          refine ⟨fun _ e h => (by cases h), fun st' h => ?_⟩
          cases h
          have := hstay
          refine ⟨.put hnd h1 h2 hfin', ?_⟩
          have hno : ¬ Has kvs p := not_has_iff.2 hl
          refine ⟨fun q => ?_, hs.nodup, fun q => ?_⟩
          · have := hs.remain q
            simp only at this ⊢
            rw [this]
            constructor
            · rintro ⟨a, b⟩
              exact ⟨a, by rintro (h | rfl); exacts [b h, hno a]⟩
            · rintro ⟨a, b⟩; exact ⟨a, fun h => b (Or.inl h)⟩
          · have := hs.seen q
            simp only at this ⊢
            rw [this]
            constructor
            · rintro ⟨a, b⟩; exact ⟨a, Or.inl b⟩
            · rintro ⟨a, b | rfl⟩
              · exact ⟨a, b⟩
              · exact absurd a hno
  | some x =>
    obtain ⟨hz, hf⟩ := hrule p c x (Or.inl hpc) hl (σ.sub i)
    simp only [if_true]
    rcases hc : c.val (σ.sub i) x with ⟨r, x'⟩
    rw [hc] at hz hf
    simp only [hc]
    cases r with
    | err e => exact ⟨fun h => absurd rfl (hz h e), fun st' h => by cases h⟩
    | abort a => exact ⟨fun _ e h => (by cases h), fun st' h => by cases h⟩
    | ok =>
      refine ⟨fun _ e h => (by cases h), fun st' h => ?_⟩
      cases h
      exact ⟨.put hnd h1 h2 (hf x' rfl), hs.tick (has_iff.2 ⟨x, hl⟩)⟩

theorem patStep_run
    (hrule : ∀ k c x, o.RuleFor ext k c → alookup k kvs = some x → ∀ ρ, (Z → ∀ e, (c.val ρ x).1 ≠ .err e) ∧
      ∀ x', c.val ρ x = (.ok, x') → Fin k (some x'))
    {σ : Sched} {i : Nat} {id : Nat} {src k : GoStr} {c : Sem} (hpc : (id, src, c) ∈ o.patterns) {D : GoStr → Prop}
    (hdecl : ∀ q, o.Declares q → D q) (hD : ¬ D k) (hk : Has kvs k) {st : ObjSt}
    (hv : ValInv kvs Fin D st) (hs : SetInv kvs D st) :
    (Z → ∀ e, (patStep ext src c σ i k st).1 ≠ .err e) ∧ ∀ st', patStep ext src c σ i k st = (.ok, st') →
      ValInv kvs Fin (fun q => D q ∨ (q = k ∧ ext.reMatch src k = true)) st' ∧
      SetInv kvs (fun q => D q ∨ (q = k ∧ ext.reMatch src k = true)) st' := by
  unfold patStep
  split
  · rename_i hm
    refine ⟨fun _ e h => (by cases h), fun st' h => ?_⟩
    cases h
    have : ∀ q, D q ↔ (D q ∨ (q = k ∧ ext.reMatch src k = true)) := by simp [hm]
    exact ⟨hv.congr this, hs.congr this⟩
  · rename_i hm
    simp only [Bool.not_eq_false] at hm
    obtain ⟨v, pm, ps⟩ := st
    obtain ⟨cur, hcur, hnd, h1, h2⟩ := hv
    simp only at hcur
    subst hcur
    obtain ⟨x, hx⟩ := has_iff.1 hk
    have hget : getProp (valueOf (.map false cur)).indirect k = .ok (some x) := by
      rw [← hx, ← h1 k hD]; rfl
    obtain ⟨hz, hf⟩ := hrule k c x (Or.inr (Or.inl ⟨fun h => hD (hdecl k h), id, src, hpc, hm⟩)) hx (σ.sub i)
    simp only [hget]
    rcases hc : c.val (σ.sub i) x with ⟨r, x'⟩
    rw [hc] at hz hf
    simp only [hc]
    cases r with
    | err e => exact ⟨fun h => absurd rfl (hz h e), fun st' h => by cases h⟩
    | abort a => exact ⟨fun _ e h => (by cases h), fun st' h => by cases h⟩
    | ok =>
      refine ⟨fun _ e h => (by cases h), fun st' h => ?_⟩
      cases h
      have : ∀ q, (D q ∨ q = k) ↔ (D q ∨ (q = k ∧ ext.reMatch src k = true)) := by simp [hm]
      have hput : ValInv kvs Fin (fun q => D q ∨ q = k) ⟨.map false (ainsert k x' cur),
        pm.filter (fun q => decide (q ≠ k)), addName k ps⟩ := .put hnd h1 h2 (hf x' rfl)
      exact ⟨hput.congr this, (hs.tick hk).congr this⟩

theorem addlStep_run
    (hrule : ∀ k c x, o.RuleFor ext k c → alookup k kvs = some x → ∀ ρ, (Z → ∀ e, (c.val ρ x).1 ≠ .err e) ∧
      ∀ x', c.val ρ x = (.ok, x') → Fin k (some x'))
    {σ : Sched} {i : Nat} {k : GoStr} {c : Sem} (hr : o.RuleFor ext k c) {D : GoStr → Prop} (hD : ¬ D k) (hk : Has kvs k)
    {st : ObjSt} (hv : ValInv kvs Fin D st) :
    (Z → ∀ e, (addlStep c σ i k st).1 ≠ .err e) ∧ ∀ st', addlStep c σ i k st = (.ok, st') →
      ValInv kvs Fin (fun q => D q ∨ q = k) st' ∧ st'.pseen = st.pseen := by
  unfold addlStep
  obtain ⟨v, pm, ps⟩ := st
  obtain ⟨cur, hcur, hnd, h1, h2⟩ := hv
  simp only at hcur
  subst hcur
  obtain ⟨x, hx⟩ := has_iff.1 hk
  have hget : getProp (valueOf (.map false cur)).indirect k = .ok (some x) := by
    rw [← hx, ← h1 k hD]; rfl
  obtain ⟨hz, hf⟩ := hrule k c x hr hx (σ.sub i)
  simp only [hget]
  rcases hc : c.val (σ.sub i) x with ⟨r, x'⟩
  rw [hc] at hz hf
  simp only [hc]
  cases r with
  | err e => exact ⟨fun h => absurd rfl (hz h e), fun st' h => by cases h⟩
  | abort a => exact ⟨fun _ e h => (by cases h), fun st' h => by cases h⟩
  | ok =>
    refine ⟨fun _ e h => (by cases h), fun st' h => ?_⟩
    cases h
    exact ⟨.put hnd h1 h2 (hf x' rfl), rfl⟩

/-- The first three loops on a map. Every child result at its name satisfies `Fin`; with `Z` (no child rejects, required names
exist, leftovers are allowed) nothing is rejected. -/
theorem prePart_run (hw : o.Wf) (hn : (kvs.map (·.1)).Nodup)
    (hrule : ∀ k c x, o.RuleFor ext k c → alookup k kvs = some x → ∀ ρ, (Z → ∀ e, (c.val ρ x).1 ≠ .err e) ∧
      ∀ x', c.val ρ x = (.ok, x') → Fin k (some x'))
    (habs : ∀ p c, (p, c) ∈ o.props → alookup p kvs = none → (Z → p ∉ o.required) ∧ Fin p (fillWith c.dflt))
    (hadd : Z → ∀ k, Has kvs k → ¬ o.Declares k → ¬ o.PatternFor ext k → o.additional ≠ none) (σ : Sched) :
    (Z → ∀ e, (prePart ext o σ ⟨.map false kvs, nameSet (kvs.map (·.1)), []⟩).1 ≠ .err e) ∧
    ∀ st, prePart ext o σ ⟨.map false kvs, nameSet (kvs.map (·.1)), []⟩ = (.ok, st) →
      ∃ cur, st.v = .map false cur ∧ (cur.map (·.1)).Nodup ∧
        (∀ k, o.Declares k ∨ Has kvs k → Fin k (alookup k cur)) ∧
        (∀ k, ¬ o.Declares k → ¬ Has kvs k → alookup k cur = none) ∧
        (∀ k, k ∈ st.pseen ↔ Has kvs k ∧ (o.Declares k ∨ o.PatternFor ext k)) := by
  have hkey : ∀ k, k ∈ nameSet (kvs.map (·.1)) ↔ Has kvs k := fun k => by
    rw [mem_nameSet, ← alookup_isSome, has_iff]
  generalize hN : nameSet (kvs.map (·.1)) = N at hkey
  have hNn : N.Nodup := by rw [← hN]; exact nodup_nameSet _
  -- declared properties
  let D1 : List (GoStr × Sem) → GoStr → Prop := fun d q => q ∈ d.map (·.1)
  have hnK : ((shuffle (σ.sub 0).key o.props).map (·.1)).Nodup := by
    rw [← shuffle_map]; exact shuffle_nodup.2 hw.props
  have L1 := forLoop_run (step := propStep ext o (σ.sub 1)) Z
    (fun d st => ValInv kvs Fin (D1 d) st ∧ SetInv kvs (D1 d) st) (full := shuffle (σ.sub 0).key o.props)
    (by
      rintro i d ⟨p, c⟩ rest st hfull ⟨hv, hs⟩
      have hpc : (p, c) ∈ o.props := by
        rw [← mem_shuffle (k := (σ.sub 0).key), hfull]; simp
      have hnD : ¬ D1 d p := by
        rw [hfull, List.map_append, List.nodup_append] at hnK
        intro h
        exact hnK.2.2 p h p (by simp) rfl
      obtain ⟨g1, g2⟩ := propStep_run (σ := σ.sub 1) (i := i) (D := D1 d) hrule habs hpc hnD hv hs
      refine ⟨g1, fun st' h => ?_⟩
      obtain ⟨a, b⟩ := g2 st' h
      have : ∀ q, (D1 d q ∨ q = p) ↔ D1 (d ++ [(p, c)]) q := by
        intro q
        simp only [D1, List.map_append, List.map_cons, List.map_nil, List.mem_append, List.mem_singleton]
      exact ⟨a.congr this, b.congr this⟩)
    (shuffle (σ.sub 0).key o.props) [] 0 ⟨.map false kvs, N, []⟩ rfl
    ⟨⟨kvs, rfl, hn, fun _ _ => rfl, fun k h => by simp [D1] at h⟩, ⟨fun k => by simp [D1, hkey], hNn, fun k => by simp [D1]⟩⟩
  have hD1 : ∀ q, D1 (shuffle (σ.sub 0).key o.props) q ↔ o.Declares q := by
    intro q
    simp only [D1]
    rw [← shuffle_map, mem_shuffle, declares_iff]
  unfold prePart
  rcases h1 : forLoop (propStep ext o (σ.sub 1)) 0 (shuffle (σ.sub 0).key o.props) ⟨.map false kvs, N, []⟩ with ⟨r1, s1⟩
  rw [h1] at L1
  cases r1 with
  | err e => exact ⟨fun hz => absurd rfl (L1.1 hz e), fun st h => by simp [seqSt] at h⟩
  | abort a => exact ⟨fun _ e h => (by simp [seqSt] at h), fun st h => by simp [seqSt] at h⟩
  | ok =>
  obtain ⟨hv1, hs1⟩ := L1.2 s1 rfl
  replace hv1 := hv1.congr hD1
  replace hs1 := hs1.congr hD1
  simp only [seqSt]
  -- patterns
  let D2 : List (Nat × GoStr × Sem) → GoStr → Prop := fun d q =>
    o.Declares q ∨ (Has kvs q ∧ ∃ p ∈ d, ext.reMatch p.2.1 q = true)
  have L2 := forLoop_run (step := patOuter ext σ) Z
    (fun d st => ValInv kvs Fin (D2 d) st ∧ SetInv kvs (D2 d) st) (full := shuffle (σ.sub 2).key o.patterns)
    (by
      rintro j d ⟨id, src, c⟩ rest st hfull ⟨hv, hs⟩
      have hpc : (id, src, c) ∈ o.patterns := by
        rw [← mem_shuffle (k := (σ.sub 2).key), hfull]; simp
      unfold patOuter
      let D3 : List GoStr → GoStr → Prop := fun e q => D2 d q ∨ (q ∈ e ∧ ext.reMatch src q = true)
      have L3 := forLoop_run (step := patStep ext src c ((σ.sub 4).sub j)) Z
        (fun e st => ValInv kvs Fin (D3 e) st ∧ SetInv kvs (D3 e) st)
        (full := shuffle ((σ.sub 3).sub j).key st.premain)
        (by
          rintro i e k rest st' hfull' ⟨hv', hs'⟩
          have hkm : k ∈ st.premain := by
            rw [← mem_shuffle (k := ((σ.sub 3).sub j).key), hfull']; simp
          obtain ⟨hk, hkD⟩ := (hs.remain k).1 hkm
          have hke : k ∉ e := by
            have := (shuffle_nodup (k := ((σ.sub 3).sub j).key)).2 hs.nodup
            rw [hfull', List.nodup_append] at this
            intro h
            exact this.2.2 k h k (by simp) rfl
          have hnD : ¬ D3 e k := by
            rintro (h | h)
            · exact hkD h
            · exact hke h.1
          obtain ⟨g1, g2⟩ := patStep_run (σ := (σ.sub 4).sub j) (i := i) (D := D3 e) hrule hpc (fun q h => Or.inl (Or.inl h)) hnD hk hv' hs'
          refine ⟨g1, fun st'' h => ?_⟩
          obtain ⟨a, b⟩ := g2 st'' h
          have : ∀ q, (D3 e q ∨ (q = k ∧ ext.reMatch src k = true)) ↔ D3 (e ++ [k]) q := by
            intro q
            simp only [D3, List.mem_append, List.mem_singleton]
            constructor
            · rintro ((h | h) | ⟨rfl, h⟩)
              · exact Or.inl h
              · exact Or.inr ⟨Or.inl h.1, h.2⟩
              · exact Or.inr ⟨Or.inr rfl, h⟩
            · rintro (h | ⟨h | rfl, h'⟩)
              · exact Or.inl (Or.inl h)
              · exact Or.inl (Or.inr ⟨h, h'⟩)
              · exact Or.inr ⟨rfl, h'⟩
          exact ⟨a.congr this, b.congr this⟩)
        (shuffle ((σ.sub 3).sub j).key st.premain) [] 0 st rfl
        (by
          have : ∀ q, D2 d q ↔ D3 [] q := by intro q; simp [D3]
          exact ⟨hv.congr this, hs.congr this⟩)
      refine ⟨L3.1, fun st' h => ?_⟩
      obtain ⟨a, b⟩ := L3.2 st' h
      have : ∀ q, D3 (shuffle ((σ.sub 3).sub j).key st.premain) q ↔ D2 (d ++ [(id, src, c)]) q := by
        intro q
        have hrem := hs.remain q
        simp only [D3, mem_shuffle, hrem]
        constructor
        · rintro (h | ⟨⟨h, -⟩, h'⟩)
          · rcases h with h | ⟨h, p, hp, h'⟩
            · exact Or.inl h
            · exact Or.inr ⟨h, p, by simp [hp], h'⟩
          · exact Or.inr ⟨h, (id, src, c), by simp, h'⟩
        · rintro (h | ⟨h, p, hp, h'⟩)
          · exact Or.inl (Or.inl h)
          · rcases List.mem_append.1 hp with hp | hp
            · exact Or.inl (Or.inr ⟨h, p, hp, h'⟩)
            · rw [List.mem_singleton] at hp
              subst hp
              by_cases hD : D2 d q
              · exact Or.inl hD
              · exact Or.inr ⟨⟨h, hD⟩, h'⟩
      exact ⟨a.congr this, b.congr this⟩)
    (shuffle (σ.sub 2).key o.patterns) [] 0 s1 rfl
    (by
      have : ∀ q, o.Declares q ↔ D2 [] q := by intro q; simp [D2]
      exact ⟨hv1.congr this, hs1.congr this⟩)
  have hD2 : ∀ q, D2 (shuffle (σ.sub 2).key o.patterns) q ↔ (o.Declares q ∨ (Has kvs q ∧ o.PatternFor ext q)) := by
    intro q
    simp only [D2, mem_shuffle, ← matched_iff]
    rfl
  rcases h2 : forLoop (patOuter ext σ) 0 (shuffle (σ.sub 2).key o.patterns) s1 with ⟨r2, s2⟩
  rw [h2] at L2
  cases r2 with
  | err e => exact ⟨fun hz => absurd rfl (L2.1 hz e), fun st h => by simp at h⟩
  | abort a => exact ⟨fun _ e h => (by simp at h), fun st h => by simp at h⟩
  | ok =>
  obtain ⟨hv2, hs2⟩ := L2.2 s2 rfl
  replace hv2 := hv2.congr hD2
  replace hs2 := hs2.congr hD2
  simp only
  have hfinish : ∀ st : ObjSt, ValInv kvs Fin (fun q => o.Declares q ∨ Has kvs q) st → st.pseen = s2.pseen →
      ∃ cur, st.v = .map false cur ∧ (cur.map (·.1)).Nodup ∧
        (∀ k, o.Declares k ∨ Has kvs k → Fin k (alookup k cur)) ∧
        (∀ k, ¬ o.Declares k → ¬ Has kvs k → alookup k cur = none) ∧
        (∀ k, k ∈ st.pseen ↔ Has kvs k ∧ (o.Declares k ∨ o.PatternFor ext k)) := by
    rintro st ⟨cur, a1, a2, a3, a4⟩ hps
    refine ⟨cur, a1, a2, a4, fun k h h' => ?_, fun k => ?_⟩
    · rw [a3 k (by rintro (g | g); exacts [h g, h' g])]
      exact not_has_iff.1 h'
    · rw [hps, hs2.seen]
      constructor
      · rintro ⟨h, h' | h'⟩
        · exact ⟨h, Or.inl h'⟩
        · exact ⟨h, Or.inr h'.2⟩
      · rintro ⟨h, h' | h'⟩
        · exact ⟨h, Or.inl h'⟩
        · exact ⟨h, Or.inr ⟨h, h'⟩⟩
  unfold addlPhase
  split
  · rename_i hlen
    have hmem : ∀ k ∈ s2.premain, Has kvs k ∧ ¬ o.Declares k ∧ ¬ o.PatternFor ext k := by
      intro k hk
      obtain ⟨a, b⟩ := (hs2.remain k).1 hk
      exact ⟨a, fun h => b (Or.inl h), fun h => b (Or.inr ⟨a, h⟩)⟩
    cases ha : o.additional with
    | none =>
      refine ⟨fun hz => ?_, fun st h => by cases h⟩
      obtain ⟨k, hk⟩ := List.exists_mem_of_length_pos hlen
      obtain ⟨a, b, c⟩ := hmem k hk
      exact absurd ha (hadd hz k a b c)
    | some c =>
      simp only
      let D4 : List GoStr → GoStr → Prop := fun e q => (o.Declares q ∨ (Has kvs q ∧ o.PatternFor ext q)) ∨ q ∈ e
      have L4 := forLoop_run (step := addlStep c (σ.sub 6)) Z
        (fun e st => ValInv kvs Fin (D4 e) st ∧ st.pseen = s2.pseen) (full := shuffle (σ.sub 5).key s2.premain)
        (by
          rintro i e k rest st' hfull' ⟨hv', hs'⟩
          have hkm : k ∈ s2.premain := by
            rw [← mem_shuffle (k := (σ.sub 5).key), hfull']; simp
          obtain ⟨a1, a2, a3⟩ := hmem k hkm
          have hke : k ∉ e := by
            have := (shuffle_nodup (k := (σ.sub 5).key)).2 hs2.nodup
            rw [hfull', List.nodup_append] at this
            intro h
            exact this.2.2 k h k (by simp) rfl
          have hnD : ¬ D4 e k := by
            rintro ((h | h) | h)
            · exact a2 h
            · exact a3 h.2
            · exact hke h
          obtain ⟨g1, g2⟩ := addlStep_run (σ := σ.sub 6) (i := i) (D := D4 e) hrule (Or.inr (Or.inr ⟨a2, a3, ha⟩)) hnD a1 hv'
          refine ⟨g1, fun st'' h => ?_⟩
          obtain ⟨a, b⟩ := g2 st'' h
          exact ⟨a.congr (by intro q; simp [D4, or_assoc]), b.trans hs'⟩)
        (shuffle (σ.sub 5).key s2.premain) [] 0 s2 rfl ⟨hv2.congr (by intro q; simp [D4]), rfl⟩
      refine ⟨L4.1, fun st h => ?_⟩
      obtain ⟨a, b⟩ := L4.2 st h
      refine hfinish st (a.congr fun q => ?_) b
      have hrem := hs2.remain q
      simp only [D4, mem_shuffle, hrem]
      constructor
      · rintro ((h | h) | h)
        · exact Or.inl h
        · exact Or.inr h.1
        · exact Or.inr h.1
      · intro h
        by_cases hh : o.Declares q ∨ (Has kvs q ∧ o.PatternFor ext q)
        · exact Or.inl hh
        · rcases h with h | h
          · exact absurd (Or.inl h) hh
          · exact Or.inr ⟨h, hh⟩
  · rename_i hlen
    refine ⟨fun _ e h => (by cases h), fun st h => ?_⟩
    cases h
    refine hfinish _ (hv2.congr fun q => ?_) rfl
    have hnil : s2.premain = [] := List.length_eq_zero_iff.1 (by omega)
    have hrem := hs2.remain q
    rw [hnil] at hrem
    simp only [List.not_mem_nil, false_iff, not_and, not_not] at hrem
    constructor
    · rintro (h | h)
      · exact Or.inl h
      · exact Or.inr h.1
    · rintro (h | h)
      · exact Or.inl h
      · exact hrem h
end
end Jsval
