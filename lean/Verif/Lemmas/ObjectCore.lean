import Verif.Lemmas.Object
import Verif.Lemmas.ReadOnly
/-!
# Object validation as a whole
-/
namespace Jsval

theorem viewProp_map {n : Bool} {kvs : List (GoStr × GoVal)} {k : GoStr} :
    viewProp (some (.map n kvs)) k = .ok (match alookup k kvs with | none => .absent | some x => .present x true) := by
  unfold viewProp
  simp only [getProp]
  cases alookup k kvs <;> rfl

theorem present_map {n : Bool} {kvs : List (GoStr × GoVal)} {k : GoStr} :
    Present (.map n kvs) k ↔ k ∈ kvs.map (·.1) := by
  unfold Present
  rw [viewProp_map, ← alookup_isSome]
  cases alookup k kvs <;> simp

theorem getProp_fieldVal {fs : List (Field × GoVal)} (h : FlatFields fs) (p : GoStr) :
    getProp (some (.struct fs)) p = .ok ((fieldVal p fs).map (·.2)) := by
  rw [getProp_flat h, ← fieldVal_eq h]
  cases fieldOf p fs with
  | none => rfl
  | some fn => simp only [Option.bind_some]; cases lookupField fn fs <;> rfl

/-- The view of a struct field's value. -/
def fieldView : GoVal → PropView
  | .maybe b p => if b then .present p.toGo false else .absent
  | .ptr (some (.maybe b p)) => if b then .present p.toGo false else .absent
  | x => .present x true

theorem viewProp_struct {fs : List (Field × GoVal)} (h : FlatFields fs) (k : GoStr) :
    viewProp (some (.struct fs)) k = .ok (match fieldVal k fs with | none => .absent | some nv => fieldView nv.2) := by
  unfold viewProp
  rw [getProp_fieldVal h]
  cases hv : fieldVal k fs with
  | none => rfl
  | some nv =>
    obtain ⟨n, v⟩ := nv
    simp only [Option.map_some]
    unfold fieldView
    split
    · rename_i heq; rfl
    · rename_i heq; rfl
    · rename_i h1 h2
      split
      · exact absurd rfl (h1 _ _)
      · exact absurd rfl (h2 _ _)
      · rfl

theorem fieldView_present {v : GoVal} : (∃ x s, fieldView v = .present x s) ↔ maybeValid v ≠ some false := by
  unfold fieldView maybeValid
  split
  · rename_i b p; cases b <;> simp
  · rename_i b p; cases b <;> simp
  · simp

theorem present_struct {fs : List (Field × GoVal)} (h : FlatFields fs) (k : GoStr) :
    Present (.struct fs) k ↔ ∃ n v, fieldVal k fs = some (n, v) ∧ maybeValid v ≠ some false := by
  unfold Present
  rw [viewProp_struct h]
  cases hv : fieldVal k fs with
  | none => simp
  | some nv =>
    obtain ⟨n, v⟩ := nv
    simp only [Except.ok.injEq, Option.some.injEq, Prod.mk.injEq]
    rw [fieldView_present]
    constructor
    · intro h; exact ⟨n, v, ⟨rfl, rfl⟩, h⟩
    · rintro ⟨_, _, ⟨rfl, rfl⟩, h⟩; exact h

/-- The property names found are exactly the present properties. -/
theorem propNames_plain {t : GoVal} (hp : PlainT t) :
    ∃ fields, getPropNames (some t) = .ok fields ∧ ∀ k, k ∈ fields ↔ Present t k := by
  cases hp with
  | map n kvs => exact ⟨kvs.map (·.1), rfl, fun k => present_map.symm⟩
  | struct fs h =>
    obtain ⟨names, h1, -, h3⟩ := structPropNames_flat h
    refine ⟨names, by simp [getPropNames, RV.indirect, h1], fun k => ?_⟩
    rw [h3, present_struct h]

theorem mem_nameSet {fields : List GoStr} {k : GoStr} : k ∈ nameSet fields ↔ k ∈ fields := by
  unfold nameSet
  rw [foldl_addName_mem]
  simp

theorem nodup_nameSet (fields : List GoStr) : (nameSet fields).Nodup :=
  foldl_addName_nodup fields [] List.nodup_nil

/-- A raw property exists when the property is present. -/
theorem Present.raw {t : GoVal} {k : GoStr} (h : Present t k) : ∃ x, getProp (some t) k = .ok (some x) := by
  obtain ⟨x, s, h⟩ := h
  unfold viewProp at h
  rcases hg : getProp (some t) k with a | w
  · rw [hg] at h; cases h
  · cases w with
    | none => rw [hg] at h; cases h
    | some x => exact ⟨x, rfl⟩

/-- What the first three loops ask for. -/
structure PreOk (ext : Ext) (o : ObjC Sem) (pats : List (Nat × GoStr × Sem)) (b : Bool) (t : GoVal) (τ : GoStr → Sched) :
    Prop where
  declared : ∀ p c, (p, c) ∈ o.props → PropOk ext o.required b t (τ p) p c
  pattern : ∀ k, Present t k → k ∉ o.props.map (·.1) → ∀ c, firstMatch ext pats k = some c → RawOk t (τ k) k c
  additional : ∀ k, Present t k → k ∉ o.props.map (·.1) → ¬ Matched ext o.patterns k →
    ∃ c, o.additional = some c ∧ RawOk t (τ k) k c

/-- No call of a child and no default of a declared, absent property changes anything. -/
structure AllReadOnly (o : ObjC Sem) (t : GoVal) : Prop where
  props : ∀ pc ∈ o.props, pc.2.ReadOnly
  dflts : ∀ pc ∈ o.props, viewProp (some t) pc.1 = .ok .absent → ∀ dv, pc.2.dflt ≠ .some dv
  pats : ∀ pc ∈ o.patterns, pc.2.2.ReadOnly
  addl : ∀ c, o.additional = some c → c.ReadOnly
  deps : ∀ k c, o.GetSchemaDependency k = some c → c.ReadOnly

theorem wrap_inj {b : Bool} {t t' : GoVal} (h : wrap b t = wrap b t') : t = t' := by
  cases b
  · exact h
  · simpa [wrap] using h

theorem matched_shuffle {ext : Ext} {k : Nat} {l : List (Nat × GoStr × Sem)} {q : GoStr} :
    Matched ext (shuffle k l) q ↔ Matched ext l q := by
  unfold Matched; simp only [mem_shuffle]

theorem firstMatch_matched {ext : Ext} {l : List (Nat × GoStr × Sem)} {q : GoStr} :
    (∃ c, firstMatch ext l q = some c) ↔ Matched ext l q := by
  unfold firstMatch Matched
  simp only [Option.map_eq_some_iff]
  constructor
  · rintro ⟨c, p, hp, -⟩
    exact ⟨p, List.mem_of_find?_eq_some hp, by simpa using List.find?_some hp⟩
  · rintro ⟨p, hp, hm⟩
    cases hf : l.find? (fun p => ext.reMatch p.2.1 q) with
    | none => rw [List.find?_eq_none] at hf; exact absurd hm (hf p hp)
    | some p' => exact ⟨_, p', rfl, rfl⟩

/-- The dependencies loop on the state the other loops leave. -/
def depPart (o : ObjC Sem) (σ : Sched) (v : GoVal) (pm ps : List GoStr) : Res × ObjSt :=
  forLoop (depStep o (σ.sub 8)) 0 (shuffle (σ.sub 7).key ps) ⟨v, pm, ps⟩

/-- The first three loops. -/
def prePart (ext : Ext) (o : ObjC Sem) (σ : Sched) (st : ObjSt) : Res × ObjSt :=
  seqSt (forLoop (propStep ext o (σ.sub 1)) 0 (shuffle (σ.sub 0).key o.props) st) fun st =>
  seqSt (forLoop (patOuter ext σ) 0 (shuffle (σ.sub 2).key o.patterns) st) fun st => addlPhase o σ st

/-- The four loops. Child number `k` runs with schedule `τ k`; the first three loops succeed exactly when `PreOk`
holds, and then leave a value `t'` and the set `ps` of declared or pattern-matched present names to the last. -/
theorem objLoops_core (ext : Ext) (o : ObjC Sem) (σ : Sched) (b : Bool) (t : GoVal) (names : List GoStr) (hp : PlainT t)
    (hn : (o.props.map (·.1)).Nodup) (hnm : ∀ k, k ∈ names ↔ Present t k) (hnd : names.Nodup) :
    ∃ τ : GoStr → Sched,
      (∀ k, (∃ i, τ k = (σ.sub 1).sub i) ∨ (∃ j i, τ k = ((σ.sub 4).sub j).sub i) ∨ (∃ i, τ k = (σ.sub 6).sub i)) ∧
      ((objLoops ext o σ ⟨wrap b t, names, []⟩).1 = .ok →
        PreOk ext o (shuffle (σ.sub 2).key o.patterns) b t τ) ∧
      (PreOk ext o (shuffle (σ.sub 2).key o.patterns) b t τ → ∃ t' pm ps,
        PlainT t' ∧
        (∀ k, k ∈ ps ↔ Present t k ∧ (k ∈ o.props.map (·.1) ∨ Matched ext o.patterns k)) ∧ ps.Nodup ∧
        (∀ q, q ∉ o.props.map (·.1) → ¬ Present t q → getProp (some t') q = getProp (some t) q) ∧
        objLoops ext o σ ⟨wrap b t, names, []⟩ = depPart o σ (wrap b t') pm ps ∧
        (AllReadOnly o t → t' = t) ∧
        prePart ext o σ ⟨wrap b t, names, []⟩ = (.ok, ⟨wrap b t', pm, ps⟩)) := by
  classical
  -- phase 1
  have hnK : ((shuffle (σ.sub 0).key o.props).map (·.1)).Nodup := by
    rw [← shuffle_map]; exact shuffle_nodup.2 hn
  obtain ⟨h1, h1'⟩ := propLoop_spec ext o (σ.sub 1) b (shuffle (σ.sub 0).key o.props) 0 t names [] hp hnK
  obtain ⟨pos, hpos⟩ := pos_exists (σ.sub 0).key (o.props.map (·.1)) hn
  have hkey : ∀ {k}, k ∈ (shuffle (σ.sub 0).key o.props).map (·.1) ↔ k ∈ o.props.map (·.1) := by
    intro k; rw [← shuffle_map, mem_shuffle]
  have hdecl : (∀ (j : Nat) (p : GoStr) (c : Sem), (shuffle (σ.sub 0).key o.props)[j]? = some (p, c) →
      PropOk ext o.required b t ((σ.sub 1).sub (0 + j)) p c) ↔
      ∀ p c, (p, c) ∈ o.props → PropOk ext o.required b t ((σ.sub 1).sub (pos p)) p c := by
    constructor
    · intro h p c hpc
      obtain ⟨j, hj⟩ := List.getElem?_of_mem ((mem_shuffle (k := (σ.sub 0).key)).2 hpc)
      have := h j p c hj
      have hj' : (shuffle (σ.sub 0).key (o.props.map (·.1)))[j]? = some p := by
        rw [shuffle_map, List.getElem?_map, hj]; rfl
      rw [Nat.zero_add, ((hpos j p).1 hj').2] at this
      exact this
    · intro h j p c hj
      have hj' : (shuffle (σ.sub 0).key (o.props.map (·.1)))[j]? = some p := by
        rw [shuffle_map, List.getElem?_map, hj]; rfl
      have := h p c (mem_shuffle.1 (List.mem_of_getElem? hj))
      rw [Nat.zero_add, ((hpos j p).1 hj').2]
      exact this
  rw [hdecl] at h1
  unfold objLoops
  rcases hr1 : forLoop (propStep ext o (σ.sub 1)) 0 (shuffle (σ.sub 0).key o.props) ⟨wrap b t, names, []⟩ with ⟨r1, s1⟩
  rw [hr1] at h1 h1'
  by_cases hok1 : r1 = .ok
  swap
  · -- phase 1 fails
    refine ⟨fun k => (σ.sub 1).sub (pos k), fun k => Or.inl ⟨_, rfl⟩, fun h => ?_, fun h => ?_⟩
    · rw [seqSt_ok] at h; exact absurd h.1 hok1
    · exact absurd (h1.2 h.declared) hok1
  simp only at h1 h1'
  obtain ⟨t1, pm1, ps1, rfl, hp1, hg1, hpm1, hpmn1, hps1, hpsn1⟩ := h1' hok1
  have hpm1' : ∀ k, k ∈ pm1 ↔ Present t k ∧ k ∉ o.props.map (·.1) := by
    intro k
    rw [hpm1, hkey, hnm]
    constructor
    · rintro ⟨a, c⟩; exact ⟨a, fun h => c ⟨h, a⟩⟩
    · rintro ⟨a, c⟩; exact ⟨a, fun h => c h.1⟩
  have hraw1 : ∀ k, k ∉ o.props.map (·.1) → getProp (some t1) k = getProp (some t) k :=
    fun k hk => hg1 k (fun h => hk (hkey.1 h))
  have hro1 : AllReadOnly o t → t1 = t := by
    intro h
    have := propLoop_readOnly ext o (σ := σ.sub 1) (i := 0) (l := shuffle (σ.sub 0).key o.props)
      (st := ⟨wrap b t, names, []⟩) (fun pc hpc => h.props pc (mem_shuffle.1 hpc))
      (fun pc hpc => by rw [indirect_wrap hp]; exact h.dflts pc (mem_shuffle.1 hpc))
    rw [hr1] at this
    exact wrap_inj this
  have hrok : ∀ k, k ∉ o.props.map (·.1) → ∀ s c, RawOk t1 s k c ↔ RawOk t s k c := by
    intro k hk s c; unfold RawOk; rw [hraw1 k hk]
  -- phase 2
  obtain ⟨τ2, hτ2, h2, h2'⟩ := patLoop_spec ext σ b (shuffle (σ.sub 2).key o.patterns) 0 t1 pm1 ps1 hp1 (hpmn1 hnd)
  subst hok1
  simp only [seqSt]
  rcases hr2 : forLoop (patOuter ext σ) 0 (shuffle (σ.sub 2).key o.patterns) ⟨wrap b t1, pm1, ps1⟩ with ⟨r2, s2⟩
  rw [hr2] at h2 h2'
  simp only at h2 h2'
  have hpat : (∀ k ∈ pm1, ∀ c, firstMatch ext (shuffle (σ.sub 2).key o.patterns) k = some c → RawOk t1 (τ2 k) k c) ↔
      ∀ k, Present t k → k ∉ o.props.map (·.1) → ∀ c, firstMatch ext (shuffle (σ.sub 2).key o.patterns) k = some c →
        RawOk t (τ2 k) k c := by
    constructor
    · intro h k hk hk' c hc
      exact (hrok k hk' _ c).1 (h k ((hpm1' k).2 ⟨hk, hk'⟩) c hc)
    · intro h k hk c hc
      obtain ⟨a, a'⟩ := (hpm1' k).1 hk
      exact (hrok k a' _ c).2 (h k a a' c hc)
  rw [hpat] at h2
  by_cases hok2 : r2 = .ok
  swap
  · refine ⟨fun k => if k ∈ o.props.map (·.1) then (σ.sub 1).sub (pos k) else τ2 k, fun k => ?_, fun h => ?_, fun h => ?_⟩
    · by_cases hk : k ∈ o.props.map (·.1)
      · simp only [hk, if_true]; exact Or.inl ⟨_, rfl⟩
      · simp only [hk, if_false]; exact Or.inr (Or.inl (hτ2 k))
    · exfalso
      have := (seqSt_ok.1 h).1
      exact hok2 this
    · exfalso
      apply hok2
      rw [h2]
      intro k hk hk' c hc
      have := h.pattern k hk hk' c hc
      simpa only [hk', if_false] using this
  obtain ⟨t2, pm2, ps2, rfl, hp2, hg2, hpm2, hpmn2, hps2, hpsn2⟩ := h2' hok2
  subst hok2
  simp only
  have hpm2' : ∀ k, k ∈ pm2 ↔ Present t k ∧ k ∉ o.props.map (·.1) ∧ ¬ Matched ext o.patterns k := by
    intro k; rw [hpm2, hpm1', matched_shuffle, and_assoc]
  have hraw2 : ∀ k, k ∉ o.props.map (·.1) → ¬ (Present t k ∧ Matched ext o.patterns k) →
      getProp (some t2) k = getProp (some t) k := by
    intro k hk hm
    rw [hg2 k, hraw1 k hk]
    rintro ⟨a, c⟩
    exact hm ⟨((hpm1' k).1 a).1, matched_shuffle.1 c⟩
  have hro2 : AllReadOnly o t → t2 = t := by
    intro h
    have := patLoop_readOnly ext (σ := σ) (i := 0) (l := shuffle (σ.sub 2).key o.patterns)
      (st := ⟨wrap b t1, pm1, ps1⟩) (fun pc hpc => h.pats pc (mem_shuffle.1 hpc))
    rw [hr2] at this
    rw [← hro1 h]
    exact wrap_inj this
  -- phase 3
  obtain ⟨τ3, hτ3, h3, h3'⟩ := addlPhase_spec o σ b t2 pm2 ps2 hp2 hpmn2
  rcases hr3 : addlPhase o σ ⟨wrap b t2, pm2, ps2⟩ with ⟨r3, s3⟩
  rw [hr3] at h3 h3'
  simp only at h3 h3'
  have hadd : (∀ k ∈ pm2, ∃ c, o.additional = some c ∧ RawOk t2 (τ3 k) k c) ↔
      ∀ k, Present t k → k ∉ o.props.map (·.1) → ¬ Matched ext o.patterns k →
        ∃ c, o.additional = some c ∧ RawOk t (τ3 k) k c := by
    have hr : ∀ k, k ∉ o.props.map (·.1) → ¬ Matched ext o.patterns k → ∀ s c, RawOk t2 s k c ↔ RawOk t s k c := by
      intro k hk hm s c; unfold RawOk; rw [hraw2 k hk (fun h => hm h.2)]
    constructor
    · intro h k hk hk' hm
      obtain ⟨c, hc, hc'⟩ := h k ((hpm2' k).2 ⟨hk, hk', hm⟩)
      exact ⟨c, hc, (hr k hk' hm _ c).1 hc'⟩
    · intro h k hk
      obtain ⟨a, a', a''⟩ := (hpm2' k).1 hk
      obtain ⟨c, hc, hc'⟩ := h k a a' a''
      exact ⟨c, hc, (hr k a' a'' _ c).2 hc'⟩
  rw [hadd] at h3
  let τ : GoStr → Sched := fun k => if k ∈ o.props.map (·.1) then (σ.sub 1).sub (pos k) else
    if Matched ext o.patterns k then τ2 k else τ3 k
  have hτd : ∀ k, k ∈ o.props.map (·.1) → τ k = (σ.sub 1).sub (pos k) := fun k hk => by simp only [τ, hk, if_true]
  have hτp : ∀ k, k ∉ o.props.map (·.1) → Matched ext o.patterns k → τ k = τ2 k :=
    fun k hk hm => by simp only [τ, hk, hm, if_true, if_false]
  have hτa : ∀ k, k ∉ o.props.map (·.1) → ¬ Matched ext o.patterns k → τ k = τ3 k :=
    fun k hk hm => by simp only [τ, hk, hm, if_false]
  have hpre : r3 = .ok → PreOk ext o (shuffle (σ.sub 2).key o.patterns) b t τ := by
    intro h
    refine ⟨fun p c hpc => ?_, fun k hk hk' c hc => ?_, fun k hk hk' hm => ?_⟩
    · rw [hτd p (List.mem_map.2 ⟨_, hpc, rfl⟩)]
      exact h1.1 rfl p c hpc
    · rw [hτp k hk' (matched_shuffle.1 (firstMatch_matched.1 ⟨c, hc⟩))]
      exact h2.1 rfl k hk hk' c hc
    · rw [hτa k hk' hm]
      exact h3.1 h k hk hk' hm
  have hpost : PreOk ext o (shuffle (σ.sub 2).key o.patterns) b t τ → r3 = .ok := by
    intro h
    rw [h3]
    intro k hk hk' hm
    rw [← hτa k hk' hm]
    exact h.additional k hk hk' hm
  refine ⟨τ, fun k => ?_, fun h => ?_, fun h => ?_⟩
  · by_cases hk : k ∈ o.props.map (·.1)
    · exact Or.inl ⟨_, hτd k hk⟩
    · by_cases hm : Matched ext o.patterns k
      · rw [hτp k hk hm]; exact Or.inr (Or.inl (hτ2 k))
      · rw [hτa k hk hm]; exact Or.inr (Or.inr (hτ3 k))
  · apply hpre
    exact (seqSt_ok.1 h).1
  · have hok3 := hpost h
    subst hok3
    obtain ⟨t3, rfl, hp3, hg3⟩ := h3' rfl
    refine ⟨t3, pm2, ps2, hp3, fun k => ?_, hpsn2 (hpsn1 List.nodup_nil), fun q hq hq' => ?_, rfl, fun hro => ?_, ?_⟩
    · rw [hps2, hps1, hpm1', hkey, matched_shuffle]
      simp only [List.not_mem_nil, false_or]
      constructor
      · rintro (⟨a, c⟩ | ⟨⟨a, c⟩, d⟩)
        · exact ⟨c, Or.inl a⟩
        · exact ⟨a, Or.inr d⟩
      · rintro ⟨a, c | c⟩
        · exact Or.inl ⟨c, a⟩
        · by_cases hk : k ∈ o.props.map (·.1)
          · exact Or.inl ⟨hk, a⟩
          · exact Or.inr ⟨⟨a, hk⟩, c⟩
    · rw [hg3 q (fun h => hq' ((hpm2' q).1 h).1), hraw2 q hq (fun h => hq' h.1)]
    · have := addlPhase_readOnly o (σ := σ) (st := ⟨wrap b t2, pm2, ps2⟩) hro.addl
      rw [hr3] at this
      rw [← hro2 hro]
      exact wrap_inj this
    · simp only [prePart, hr1, seqSt, hr2, hr3]

end Jsval
