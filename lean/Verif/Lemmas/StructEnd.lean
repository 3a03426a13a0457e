import Verif.Lemmas.ObjExact
/-!
# Declared properties of structs: what is filled in, and where it panics
-/
namespace Jsval

/-- What `setProp` makes of a field holding `fv`. -/
def stored (ext : Ext) (b : Bool) (fv dv : GoVal) : Except Stop GoVal :=
  match fv with
  | .maybe w m =>
    match coerce m.kind dv with
    | none => .error (.abort .panic)
    | some dv' =>
      if b then
        match (MaybeSt.mk w m).Set ext dv' with
        | (none, m') => .ok (.maybe m'.valid m'.p)
        | (some e, _) => .error (.err e)
      else .error (.abort .panic)
  | .ptr (some (.maybe w m)) =>
    match dv with
    | .nil => .error (.abort .panic)
    | dv =>
      match (MaybeSt.mk w m).Set ext dv with
      | (none, m') => .ok (.ptr (some (.maybe m'.valid m'.p)))
      | (some e, _) => .error (.err e)
  | _ => .error (.abort .outside)

theorem setPropAt_stored (ext : Ext) (b : Bool) {fs : List (Field × GoVal)} (hf : FlatFields fs) {p : GoStr} {fv : GoVal}
    (hg : getProp (some (.struct fs)) p = .ok (some fv)) (dv : GoVal) :
    ∃ fn, fieldOf p fs = some fn ∧
      setPropAt ext b (.struct fs) p dv = (stored ext b fv dv).map (fun x => .struct (setF fn x fs)) := by
  rw [getProp_flat hf] at hg
  simp only [Except.ok.injEq] at hg
  obtain ⟨fn, h1, h2⟩ := Option.bind_eq_some_iff.1 hg
  refine ⟨fn, h1, ?_⟩
  simp only [setPropAt, setPropStruct_flat ext b hf, h1, h2, Option.bind_some, Option.map_some]
  unfold stored
  split
  · simp_all
  · rename_i w m heq
    cases heq
    simp only
    cases hc : coerce m.kind dv with
    | none => rfl
    | some dv' =>
      rcases hs : (MaybeSt.mk w m).Set ext dv' with ⟨e, m'⟩
      cases b <;> cases e <;> simp [hs, Except.map]
  · rename_i w m heq
    cases heq
    simp only
    cases dv with
    | nil => rfl
    | _ =>
      simp only
      generalize MaybeSt.Set ext _ _ = q
      obtain ⟨e, m'⟩ := q
      cases e <;> rfl
  · rename_i hm hp heq
    cases heq
    split
    · exact absurd rfl (hm _ _ _)
    · exact absurd rfl (hp _ _ _)
    · rfl

theorem getProp_setF {fs : List (Field × GoVal)} (hf : FlatFields fs) {p fn : GoStr} (hfn : fieldOf p fs = some fn)
    {fv : GoVal} (hg : getProp (some (.struct fs)) p = .ok (some fv)) (x : GoVal) :
    getProp (some (.struct (setF fn x fs))) p = .ok (some x) := by
  rw [getProp_flat hf, hfn] at hg
  simp only [Option.bind_some, Except.ok.injEq] at hg
  rw [getProp_flat (flatFields_setF hf), fieldOf_congr (setF_fields fn x fs), hfn]
  simp [lookupField_setF, hg]

theorem UpdAt.isStruct {q : GoStr} {fs : List (Field × GoVal)} {t' : GoVal} (h : UpdAt q (.struct fs) t') :
    ∃ fs', t' = .struct fs' := by
  cases h with
  | same => exact ⟨_, rfl⟩
  | struct fn x => exact ⟨_, rfl⟩

theorem UpdAt.fields {q : GoStr} {fs fs' : List (Field × GoVal)} (h : UpdAt q (.struct fs) (.struct fs')) :
    fs'.map (·.1) = fs.map (·.1) := by
  cases h with
  | same => rfl
  | struct _ fn x => exact setF_fields fn x fs

/-- An accepted loop over declared properties keeps the struct's type. -/
theorem propLoop_fields {ext : Ext} {o : ObjC Sem} {σ : Sched} {b : Bool} : ∀ (l : List (GoStr × Sem)) (i : Nat)
    (fs : List (Field × GoVal)) (pm ps : List GoStr) (s' : ObjSt),
    FlatFields fs → forLoop (propStep ext o σ) i l ⟨wrap b (.struct fs), pm, ps⟩ = (.ok, s') →
    ∃ fs', s'.v = wrap b (.struct fs') ∧ fs'.map (·.1) = fs.map (·.1) := by
  intro l
  induction l with
  | nil => intro i fs pm ps s' _ h; cases h; exact ⟨fs, rfl, rfl⟩
  | cons a l ih =>
    intro i fs pm ps s' hf h
    obtain ⟨a, d⟩ := a
    obtain ⟨-, t1, pm1, ps1, h2, h3, -⟩ := propStep_spec ext o σ i a d b (.struct fs) pm ps (.struct fs hf)
    obtain ⟨fs1, rfl⟩ := h3.isStruct
    have hf1 : FlatFields fs1 := by
      have := h3.plain (.struct fs hf)
      cases this with | struct _ h => exact h
    rcases hst : propStep ext o σ i (a, d) ⟨wrap b (.struct fs), pm, ps⟩ with ⟨r, s1⟩
    rw [hst] at h2
    simp only at h2
    subst h2
    cases r with
    | err e => simp [forLoop, hst] at h
    | abort e => simp [forLoop, hst] at h
    | ok =>
      simp only [forLoop, hst] at h
      obtain ⟨fs', g1, g2⟩ := ih _ _ _ _ _ hf1 h
      exact ⟨fs', g1, g2.trans h3.fields⟩

theorem patLoop_nil (ext : Ext) (σ : Sched) (v : GoVal) (ps : List GoStr) : ∀ (l : List (Nat × GoStr × Sem)) (i : Nat),
    forLoop (patOuter ext σ) i l ⟨v, [], ps⟩ = (.ok, ⟨v, [], ps⟩)
  | [], _ => rfl
  | a :: l, i => by
    have : patOuter ext σ i a ⟨v, [], ps⟩ = (.ok, ⟨v, [], ps⟩) := by
      unfold patOuter
      rw [show shuffle ((σ.sub 3).sub i).key ([] : List GoStr) = [] from rfl]
      rfl
    simp only [forLoop, this]
    exact patLoop_nil ext σ v ps l (i + 1)

theorem viewProp_unset {fs : List (Field × GoVal)} {p : GoStr} {fv : GoVal}
    (hg : getProp (some (.struct fs)) p = .ok (some fv)) :
    viewProp (some (.struct fs)) p = .ok .absent ↔ maybeValid fv = some false := by
  unfold viewProp
  rw [hg]
  simp only [Except.ok.injEq]
  unfold maybeValid
  split
  · rename_i b m; cases b <;> simp
  · rename_i b m; cases b <;> simp
  · simp

/-- An accepted loop over declared properties: what becomes of an unset Maybe field. -/
theorem propLoop_unset {ext : Ext} {o : ObjC Sem} {σ : Sched} {b : Bool} {p : GoStr} {c : Sem} {fv : GoVal}
    (hu : maybeValid fv = some false) : ∀ (l : List (GoStr × Sem)) (i : Nat) (fs : List (Field × GoVal))
    (pm ps : List GoStr) (s' : ObjSt), FlatFields fs → (l.map (·.1)).Nodup → (p, c) ∈ l →
    getProp (some (.struct fs)) p = .ok (some fv) →
    forLoop (propStep ext o σ) i l ⟨wrap b (.struct fs), pm, ps⟩ = (.ok, s') →
    ∃ fs', s'.v = wrap b (.struct fs') ∧ FlatFields fs' ∧ p ∉ o.required ∧
      ((c.dflt = .none ∧ getProp (some (.struct fs')) p = .ok (some fv)) ∨
        ∃ dv x, c.dflt = .some dv ∧ stored ext b fv dv = .ok x ∧ getProp (some (.struct fs')) p = .ok (some x))
  | [], _, _, _, _, _, _, _, h, _, _ => by simp at h
  | (q, d) :: l, i, fs, pm, ps, s', hf, hn, hm, hg, h => by
    simp only [List.map_cons, List.nodup_cons] at hn
    obtain ⟨-, t1, pm1, ps1, h2, h3, -⟩ := propStep_spec ext o σ i q d b (.struct fs) pm ps (.struct fs hf)
    obtain ⟨fs1, rfl⟩ := h3.isStruct
    have hf1 : FlatFields fs1 := by
      have := h3.plain (.struct fs hf)
      cases this with | struct _ h => exact h
    rcases hst : propStep ext o σ i (q, d) ⟨wrap b (.struct fs), pm, ps⟩ with ⟨r, s1⟩
    rw [hst] at h2
    simp only at h2
    subst h2
    cases r with
    | err e => simp [forLoop, hst] at h
    | abort e => simp [forLoop, hst] at h
    | ok =>
      simp only [forLoop, hst] at h
      rcases List.mem_cons.1 hm with hm' | hm'
      · cases hm'
        -- the rest of the loop leaves `p` alone
        have hrest := propLoop_spec ext o σ b l (i + 1) (.struct fs1) pm1 ps1 (.struct fs1 hf1) hn.2
        rw [h] at hrest
        obtain ⟨t', pm', ps', e1, e2, e3, -⟩ := hrest.2 rfl
        simp only at e1
        subst e1
        have hs' : ∃ fs', t' = .struct fs' := by
          obtain ⟨fs', hfs', -⟩ := propLoop_fields l (i + 1) fs1 pm1 ps1 _ hf1 h
          exact ⟨fs', wrap_inj hfs'⟩
        obtain ⟨fs', rfl⟩ := hs'
        have hf' : FlatFields fs' := by cases e2 with | struct _ h => exact h
        have hgp := e3 p hn.1
        refine ⟨fs', rfl, hf', ?_⟩
        -- the step itself
        have hv := (viewProp_unset hg).2 hu
        unfold propStep at hst
        simp only [indirect_wrap (.struct fs hf), hv] at hst
        split at hst
        · cases hst
        · rename_i hr
          refine ⟨hr, ?_⟩
          rw [hgp]
          split at hst
          · cases hst
          · rename_i hd
            simp only [Prod.mk.injEq, ObjSt.mk.injEq, true_and] at hst
            have := wrap_inj hst.1
            cases this
            exact Or.inl ⟨hd, hg⟩
          · rename_i dv hd
            rw [setProp_wrap ext (.struct fs hf)] at hst
            obtain ⟨fn, hfn, hset⟩ := setPropAt_stored ext b hf hg dv
            rw [hset] at hst
            cases hsto : stored ext b fv dv with
            | error e =>
              rw [hsto] at hst
              cases e <;> cases hst
            | ok x =>
              rw [hsto] at hst
              simp only [Except.map, Prod.mk.injEq, ObjSt.mk.injEq, true_and] at hst
              have := wrap_inj hst.1
              cases this
              exact Or.inr ⟨dv, x, hd, hsto, getProp_setF hf hfn hg x⟩
      · have hne : p ≠ q := by
          rintro rfl
          exact hn.1 (List.mem_map.2 ⟨_, hm', rfl⟩)
        exact propLoop_unset hu l (i + 1) fs1 pm1 ps1 s' hf1 hn.2 hm' (by rw [h3.getProp (.struct fs hf) hne]; exact hg) h

/-- Replace the constraint of one property. -/
def substProp (p : GoStr) (d : Sem) (pc : GoStr × Sem) : GoStr × Sem := if pc.1 = p then (p, d) else pc

/-- `AddProp` of a declared name replaces its constraint where it stands. -/
theorem ainsert_subst {p : GoStr} {c d : Sem} : ∀ {l : List (GoStr × Sem)}, (l.map (·.1)).Nodup → (p, c) ∈ l →
    ainsert p d l = l.map (substProp p d)
  | [], _, h => by simp at h
  | (q, e) :: l, hn, h => by
    simp only [List.map_cons, List.nodup_cons] at hn
    by_cases hqp : q = p
    · subst hqp
      have : l.map (substProp q d) = l := by
        conv_rhs => rw [← List.map_id l]
        refine List.map_congr_left (fun a ha => ?_)
        have : a.1 ≠ q := fun h => hn.1 (List.mem_map.2 ⟨a, ha, h⟩)
        simp [substProp, this]
      simp [ainsert, substProp, this]
    · rcases List.mem_cons.1 h with h' | h'
      · cases h'; exact absurd rfl hqp
      · simp [ainsert, substProp, hqp, ainsert_subst hn.2 h']

/-- The exact verdict, order by order, when every present property is declared and there are no schema
dependencies. -/
theorem objectV_declared (ext : Ext) (o : ObjC Sem) (σ : Sched) {v : GoVal} {kvs raws : List (GoStr × GoVal)} {b : Bool}
    {t : GoVal} (h : ObjAcc v kvs raws b t) (hw : o.Wf) (hall : ∀ k, Has kvs k → o.Declares k)
    (hsd : ∀ k, o.GetSchemaDependency k = none) :
    ((objectV ext o σ v).1 = .ok ↔ CountOk o kvs.length ∧
      (∀ j p c, (shuffle (σ.sub 0).key o.props)[j]? = some (p, c) → PropOk ext o.required b t ((σ.sub 1).sub j) p c) ∧
      (∀ k, Has kvs k → ∀ d ∈ o.GetPropDependencies k, Has kvs d)) ∧
    ((objectV ext o σ v).1 = .ok → ∃ fields, ∃ st : ObjSt,
      forLoop (propStep ext o (σ.sub 1)) 0 (shuffle (σ.sub 0).key o.props) ⟨wrap b t, nameSet fields, []⟩ = (.ok, st) ∧
      (objectV ext o σ v).2 = st.v) := by
  obtain ⟨fields, hf, hlen, hmem⟩ := h.names
  have hnK : ((shuffle (σ.sub 0).key o.props).map (·.1)).Nodup := by
    rw [← shuffle_map]; exact shuffle_nodup.2 hw.props
  have hkey : ∀ {k}, k ∈ (shuffle (σ.sub 0).key o.props).map (·.1) ↔ o.Declares k := by
    intro k; rw [← shuffle_map, mem_shuffle, declares_iff]
  obtain ⟨h1, h1'⟩ := propLoop_spec ext o (σ.sub 1) b (shuffle (σ.sub 0).key o.props) 0 t (nameSet fields) [] h.plain hnK
  simp only [Nat.zero_add] at h1
  have hv : objectV ext o σ v =
      if o.minProps > -1 ∧ (kvs.length : Int) < o.minProps then (.err .fewProps, v)
      else if o.maxProps > -1 ∧ (kvs.length : Int) > o.maxProps then (.err .manyProps, v)
      else ((objLoops ext o σ ⟨wrap b t, nameSet fields, []⟩).1, (objLoops ext o σ ⟨wrap b t, nameSet fields, []⟩).2.v) := by
    unfold objectV
    rw [h.eq, indirect_wrap h.plain, hf]
    simp only [hlen]
  have hloops : ((objLoops ext o σ ⟨wrap b t, nameSet fields, []⟩).1 = .ok ↔
      (∀ j p c, (shuffle (σ.sub 0).key o.props)[j]? = some (p, c) → PropOk ext o.required b t ((σ.sub 1).sub j) p c) ∧
      (∀ k, Has kvs k → ∀ d ∈ o.GetPropDependencies k, Has kvs d)) ∧
      ((objLoops ext o σ ⟨wrap b t, nameSet fields, []⟩).1 = .ok → ∃ st : ObjSt,
      forLoop (propStep ext o (σ.sub 1)) 0 (shuffle (σ.sub 0).key o.props) ⟨wrap b t, nameSet fields, []⟩ = (.ok, st) ∧
      (objLoops ext o σ ⟨wrap b t, nameSet fields, []⟩).2.v = st.v) := by
    unfold objLoops
    rcases hr1 : forLoop (propStep ext o (σ.sub 1)) 0 (shuffle (σ.sub 0).key o.props) ⟨wrap b t, nameSet fields, []⟩ with ⟨r1, s1⟩
    rw [hr1] at h1 h1'
    by_cases hok1 : r1 = .ok
    swap
    · constructor
      · rw [seqSt_ok]
        constructor
        · exact fun h => absurd h.1 hok1
        · exact fun h => absurd (h1.2 h.1) hok1
      · intro h; rw [seqSt_ok] at h; exact absurd h.1 hok1
    simp only at h1 h1'
    obtain ⟨t1, pm1, ps1, rfl, hp1, hg1, hpm1, hpmn1, hps1, hpsn1⟩ := h1' hok1
    subst hok1
    simp only [true_iff] at h1
    have hpm : pm1 = [] := by
      rw [List.eq_nil_iff_forall_not_mem]
      intro k hk
      obtain ⟨a, a'⟩ := (hpm1 k).1 hk
      have hp : Present t k := (hmem k).1 (mem_nameSet.1 a)
      exact a' ⟨hkey.2 (hall k (h.present.1 hp)), hp⟩
    subst hpm
    simp only [seqSt, patLoop_nil]
    simp only [addlPhase, List.length_nil, gt_iff_lt, Nat.lt_irrefl, if_false]
    have hD := depLoop_readOnly o (σ.sub 8) (wrap b t1) [] ps1 (fun k c hc => by rw [hsd] at hc; cases hc)
      (shuffle (σ.sub 7).key ps1) 0
    have hps : ∀ k, k ∈ ps1 ↔ Has kvs k := by
      intro k
      rw [hps1, hkey, h.present]
      simp only [List.not_mem_nil, false_and, or_false, false_or]
      exact ⟨fun h => h.2, fun hk => ⟨hall k hk, hk⟩⟩
    constructor
    · rw [hD.1]
      constructor
      · intro hh
        refine ⟨h1, fun k hk d hd => ?_⟩
        obtain ⟨j, hj⟩ := List.getElem?_of_mem ((mem_shuffle (k := (σ.sub 7).key)).2 ((hps k).2 hk))
        exact (hps d).1 ((hh j k hj).1 d hd)
      · rintro ⟨-, hh⟩ j k hj
        have hk := (hps k).1 (mem_shuffle.1 (List.mem_of_getElem? hj))
        exact ⟨fun d hd => (hps d).2 (hh k hk d hd), fun _ c hc => by rw [hsd] at hc; cases hc⟩
    · intro _
      exact ⟨_, rfl, by rw [hD.2]⟩
  rw [hv, countOk_iff]
  by_cases c1 : o.minProps > -1 ∧ (kvs.length : Int) < o.minProps
  · simp [c1]
  · by_cases c2 : o.maxProps > -1 ∧ (kvs.length : Int) > o.maxProps
    · simp only [c1, c2, if_false, if_true, reduceCtorEq, not_true_eq_false, and_false, false_and, false_implies, and_true]
    · simp only [c1, c2, if_false, not_false_eq_true, true_and]
      exact ⟨hloops.1, fun hh => ⟨fields, hloops.2 hh⟩⟩

end Jsval
