import Verif.Spec.Object
import Verif.Lemmas.ObjectCore
/-!
# The declarative view of objects agrees with the accessors of the validator
-/
namespace Jsval

theorem flenLoop_spec : ∀ (cs : List UInt8) (j fl : Nat), j = fl + 1 →
    flenLoop cs j fl + 1 = j + (cs.takeWhile (fun c => c != 44)).length
  | [], j, fl, h => by simp [flenLoop]; omega
  | c :: cs, j, fl, h => by
    by_cases hc : c = 44
    · subst hc; simp [flenLoop]; omega
    · have := flenLoop_spec cs (j + 1) j rfl
      simp only [flenLoop, beq_iff_eq, hc, if_false]
      rw [this, List.takeWhile_cons]
      simp [hc]; omega

theorem take_takeWhile {p : UInt8 → Bool} : ∀ l : List UInt8, l.take (l.takeWhile p).length = l.takeWhile p
  | [] => rfl
  | a :: l => by
    by_cases h : p a
    · simp [h, take_takeWhile l]
    · simp [h]

/-- The tag scanner computes the part before the first comma. -/
theorem jsonName_spec (f : Field) (he : f.exported = true) : jsonName f.name f.tag = jsonNameSpec f := by
  unfold jsonName jsonNameSpec
  by_cases h : f.tag = [45]
  · simp [h]
  · simp only [h, if_false, he, reduceCtorEq, or_self]
    cases ht : f.tag with
    | nil => simp
    | cons c cs =>
      by_cases hc : c = 44
      · subst hc; simp
      · have h0 : flenLoop (c :: cs) 0 0 = flenLoop cs 1 0 := by simp [flenLoop, hc]
        have := flenLoop_spec cs 1 0 rfl
        have h1 : ((c :: cs).takeWhile (fun c => c != 44)) = c :: cs.takeWhile (fun c => c != 44) := by simp [hc]
        simp only [beq_iff_eq, hc, if_false, h1, reduceCtorEq, Option.some.injEq]
        rw [h0, this, Nat.add_comm, List.take_succ_cons, take_takeWhile]

theorem jsonNameSpec_exported {f : Field} {n : GoStr} (h : jsonNameSpec f = some n) : f.exported = true := by
  unfold jsonNameSpec at h
  by_contra he
  simp [Bool.not_eq_true _ ▸ he] at h

theorem FlatStruct.flat {fs : List (Field × GoVal)} (h : FlatStruct fs) : FlatFields fs := ⟨h.noEmb, h.goNames⟩

theorem FlatStruct.tail {q : Field × GoVal} {fs : List (Field × GoVal)} (h : FlatStruct (q :: fs)) : FlatStruct fs :=
  ⟨fun p hp => h.noEmb p (by simp [hp]), (List.nodup_cons.1 h.goNames).2, by
    have := h.jsonNames
    simp only [List.filterMap_cons] at this
    cases hq : jsonNameSpec q.1 with
    | none => rw [hq] at this; exact this
    | some n => rw [hq] at this; exact (List.nodup_cons.1 this).2⟩

/-- With distinct visible names, the field behind a name is the one carrying it. -/
theorem fieldVal_spec {k : GoStr} : ∀ {fs : List (Field × GoVal)}, FlatStruct fs → ∀ {n v},
    fieldVal k fs = some (n, v) ↔ ∃ f, (f, v) ∈ fs ∧ f.name = n ∧ jsonNameSpec f = some k := by
  intro fs
  induction fs with
  | nil => intro _ n v; simp [fieldVal]
  | cons q fs ih =>
    obtain ⟨f, w⟩ := q
    intro h n v
    have hvis : (f.exported = true ∧ jsonName f.name f.tag = some k) ↔ jsonNameSpec f = some k := by
      constructor
      · rintro ⟨a, b⟩; rw [← jsonName_spec f a]; exact b
      · intro a; exact ⟨jsonNameSpec_exported a, by rw [jsonName_spec f (jsonNameSpec_exported a)]; exact a⟩
    simp only [fieldVal, hvis]
    cases hv : fieldVal k fs with
    | some m =>
      obtain ⟨m, u⟩ := m
      obtain ⟨g, g1, g2, g3⟩ := (ih h.tail).1 hv
      simp only [Option.some.injEq, Prod.mk.injEq]
      constructor
      · rintro ⟨rfl, rfl⟩; exact ⟨g, by simp [g1], g2, g3⟩
      · rintro ⟨g', a1, a2, a3⟩
        rcases List.mem_cons.1 a1 with a1 | a1
        · cases a1
          exfalso
          have := h.jsonNames
          simp only [List.filterMap_cons, a3, List.nodup_cons] at this
          exact this.1 (List.mem_filterMap.2 ⟨(g, u), g1, g3⟩)
        · have := (ih h.tail (n := n) (v := v)).2 ⟨g', a1, a2, a3⟩
          rw [hv] at this
          cases this
          exact ⟨rfl, rfl⟩
    | none =>
      have hno : ∀ g, (g, v) ∈ fs → g.name = n → jsonNameSpec g ≠ some k := by
        intro g g1 g2 g3
        have := (ih h.tail (n := n) (v := v)).2 ⟨g, g1, g2, g3⟩
        rw [hv] at this; cases this
      by_cases hf : jsonNameSpec f = some k
      · simp only [hf, if_true, Option.some.injEq, Prod.mk.injEq]
        constructor
        · rintro ⟨rfl, rfl⟩; exact ⟨f, by simp, rfl, hf⟩
        · rintro ⟨g, a1, a2, a3⟩
          rcases List.mem_cons.1 a1 with a1 | a1
          · cases a1; exact ⟨a2, rfl⟩
          · exact absurd a3 (hno g a1 a2)
      · simp only [hf, if_false, reduceCtorEq, false_iff]
        rintro ⟨g, a1, a2, a3⟩
        rcases List.mem_cons.1 a1 with a1 | a1
        · cases a1; exact hf a3
        · exact hno g a1 a2 a3

theorem fieldContent_view {v x : GoVal} : fieldContent v = some x ↔ ∃ s, fieldView v = .present x s := by
  unfold fieldContent fieldView
  split
  · rename_i b m; cases b <;> simp
  · rename_i b m; cases b <;> simp
  · simp [eq_comm]

theorem mem_structProps {fs : List (Field × GoVal)} {k : GoStr} {x : GoVal} :
    (k, x) ∈ structProps fs ↔ ∃ f v, (f, v) ∈ fs ∧ jsonNameSpec f = some k ∧ fieldContent v = some x := by
  unfold structProps
  rw [List.mem_filterMap]
  constructor
  · rintro ⟨⟨f, v⟩, h1, h2⟩
    obtain ⟨n, h3, h4⟩ := Option.bind_eq_some_iff.1 h2
    obtain ⟨y, h5, h6⟩ := Option.map_eq_some_iff.1 h4
    cases h6
    exact ⟨f, v, h1, h3, h5⟩
  · rintro ⟨f, v, h1, h2, h3⟩
    exact ⟨(f, v), h1, by simp [h2, h3]⟩

theorem mem_structRaw {fs : List (Field × GoVal)} {k : GoStr} {v : GoVal} :
    (k, v) ∈ structRaw fs ↔ ∃ f x, (f, v) ∈ fs ∧ jsonNameSpec f = some k ∧ fieldContent v = some x := by
  unfold structRaw
  rw [List.mem_filterMap]
  constructor
  · rintro ⟨⟨f, v⟩, h1, h2⟩
    obtain ⟨n, h3, h4⟩ := Option.bind_eq_some_iff.1 h2
    obtain ⟨y, h5, h6⟩ := Option.map_eq_some_iff.1 h4
    cases h6
    exact ⟨f, y, h1, h3, h5⟩
  · rintro ⟨f, x, h1, h2, h3⟩
    exact ⟨(f, v), h1, by simp [h2, h3]⟩

theorem structProps_keys {fs : List (Field × GoVal)} (h : FlatStruct fs) : ((structProps fs).map (·.1)).Nodup := by
  have hsub : ((structProps fs).map (·.1)).Sublist (fs.filterMap (fun p => jsonNameSpec p.1)) := by
    clear h
    induction fs with
    | nil => simp [structProps]
    | cons q fs ih =>
      unfold structProps at ih ⊢
      simp only [List.filterMap_cons]
      cases hq : jsonNameSpec q.1 with
      | none => simpa using ih
      | some n =>
        cases hc : fieldContent q.2 with
        | none => simpa using ih.trans (List.sublist_cons_self ..)
        | some y => simpa using ih.cons_cons n
  exact hsub.nodup h.jsonNames

/-- The accessors of the validator, on an object given by its properties. -/
structure ObjAcc (v : GoVal) (kvs raws : List (GoStr × GoVal)) (b : Bool) (t : GoVal) : Prop where
  eq : v = wrap b t
  plain : PlainT t
  view : ∀ k x, (∃ s, viewProp (some t) k = .ok (.present x s)) ↔ (k, x) ∈ kvs
  raw : ∀ k x, (getProp (some t) k = .ok (some x) ∧ Present t k) ↔ (k, x) ∈ raws
  keys : (kvs.map (·.1)).Nodup
  names : ∃ fields, getPropNames (some t) = .ok fields ∧ fields.length = kvs.length ∧ ∀ k, k ∈ fields ↔ Present t k

theorem objAcc_map (b : Bool) (n : Bool) {kvs : List (GoStr × GoVal)} (h : (kvs.map (·.1)).Nodup) :
    ObjAcc (wrap b (.map n kvs)) kvs kvs b (.map n kvs) := by
  refine ⟨rfl, .map n kvs, fun k x => ?_, fun k x => ?_, h, kvs.map (·.1), rfl, by simp, fun k => present_map.symm⟩
  · rw [viewProp_map, ← alookup_iff_mem h]
    cases alookup k kvs <;> simp
  · rw [← alookup_iff_mem h, present_map, ← alookup_isSome]
    simp only [getProp, Except.ok.injEq]
    constructor
    · exact fun h => h.1
    · exact fun h => ⟨h, x, h⟩

theorem objAcc_struct (b : Bool) {fs : List (Field × GoVal)} (h : FlatStruct fs) :
    ObjAcc (wrap b (.struct fs)) (structProps fs) (structRaw fs) b (.struct fs) := by
  have hview : ∀ k x, (∃ s, viewProp (some (.struct fs)) k = .ok (.present x s)) ↔ (k, x) ∈ structProps fs := by
    intro k x
    rw [viewProp_struct h.flat, mem_structProps]
    cases hv : fieldVal k fs with
    | none =>
      simp only [Except.ok.injEq, reduceCtorEq, exists_false, false_iff]
      rintro ⟨f, v, h1, h2, -⟩
      have := (fieldVal_spec h (k := k) (n := f.name) (v := v)).2 ⟨f, h1, rfl, h2⟩
      rw [hv] at this; cases this
    | some nv =>
      obtain ⟨n, v⟩ := nv
      simp only [Except.ok.injEq]
      rw [← fieldContent_view]
      obtain ⟨f, h1, h2, h3⟩ := (fieldVal_spec h).1 hv
      constructor
      · intro hc; exact ⟨f, v, h1, h3, hc⟩
      · rintro ⟨f', v', g1, g2, g3⟩
        have := (fieldVal_spec h (k := k) (n := f'.name) (v := v')).2 ⟨f', g1, rfl, g2⟩
        rw [hv] at this
        cases this
        exact g3
  have hpres : ∀ k, Present (.struct fs) k ↔ k ∈ (structProps fs).map (·.1) := by
    intro k
    unfold Present
    rw [List.mem_map]
    constructor
    · rintro ⟨x, s, hx⟩; exact ⟨(k, x), (hview k x).1 ⟨s, hx⟩, rfl⟩
    · rintro ⟨⟨k', x⟩, hx, rfl⟩
      obtain ⟨s, hs⟩ := (hview _ x).2 hx
      exact ⟨x, s, hs⟩
  refine ⟨rfl, .struct fs h.flat, hview, fun k v => ?_, structProps_keys h, ?_⟩
  · rw [getProp_fieldVal h.flat, present_struct h.flat, mem_structRaw]
    simp only [Except.ok.injEq, Option.map_eq_some_iff]
    constructor
    · rintro ⟨⟨⟨n, v'⟩, h1, rfl⟩, n', v', h2, h3⟩
      rw [h1] at h2
      cases h2
      obtain ⟨f, g1, g2, g3⟩ := (fieldVal_spec h).1 h1
      obtain ⟨x, s, hx⟩ := fieldView_present.2 h3
      exact ⟨f, x, g1, g3, fieldContent_view.2 ⟨s, hx⟩⟩
    · rintro ⟨f, x, h1, h2, h3⟩
      have := (fieldVal_spec h (k := k) (n := f.name) (v := v)).2 ⟨f, h1, rfl, h2⟩
      obtain ⟨s, hs⟩ := fieldContent_view.1 h3
      exact ⟨⟨_, this, rfl⟩, f.name, v, this, fieldView_present.1 ⟨x, s, hs⟩⟩
  · obtain ⟨names, h1, h2, h3⟩ := structPropNames_flat h.flat
    have hm : ∀ k, k ∈ names ↔ Present (.struct fs) k := fun k => by rw [h3, present_struct h.flat]
    refine ⟨names, by simp [getPropNames, RV.indirect, h1], ?_, hm⟩
    have : names.Perm ((structProps fs).map (·.1)) :=
      (List.perm_ext_iff_of_nodup h2 (structProps_keys h)).2 (fun k => by rw [hm, hpres])
    simpa using this.length_eq

theorem IsObj.acc {v : GoVal} {kvs raws : List (GoStr × GoVal)} (h : IsObj v kvs raws) :
    ∃ b t, ObjAcc v kvs raws b t := by
  cases h with
  | map n kvs h => exact ⟨false, _, objAcc_map false n h⟩
  | ptrMap n kvs h => exact ⟨true, _, objAcc_map true n h⟩
  | struct fs h => exact ⟨false, _, objAcc_struct false h⟩
  | ptrStruct fs h => exact ⟨true, _, objAcc_struct true h⟩

theorem ObjAcc.present {v : GoVal} {kvs raws : List (GoStr × GoVal)} {b : Bool} {t : GoVal} (h : ObjAcc v kvs raws b t)
    {k : GoStr} : Present t k ↔ Has kvs k := by
  unfold Present Has
  constructor
  · rintro ⟨x, s, hx⟩; exact ⟨x, (h.view k x).1 ⟨s, hx⟩⟩
  · rintro ⟨x, hx⟩; obtain ⟨s, hs⟩ := (h.view k x).2 hx; exact ⟨x, s, hs⟩

theorem declares_iff {o : ObjC Sem} {k : GoStr} : k ∈ o.props.map (·.1) ↔ o.Declares k := by
  unfold ObjC.Declares
  rw [List.mem_map]
  constructor
  · rintro ⟨⟨k', c⟩, h, rfl⟩; exact ⟨c, h⟩
  · rintro ⟨c, h⟩; exact ⟨(k, c), h, rfl⟩

theorem matched_iff {ext : Ext} {o : ObjC Sem} {k : GoStr} : Matched ext o.patterns k ↔ o.PatternFor ext k := by
  unfold Matched ObjC.PatternFor
  constructor
  · rintro ⟨⟨id, src, c⟩, h1, h2⟩; exact ⟨id, src, c, h1, h2⟩
  · rintro ⟨id, src, c, h1, h2⟩; exact ⟨(id, src, c), h1, h2⟩

theorem countOk_iff {o : ObjC Sem} {n : Nat} :
    CountOk o n ↔ ¬ (o.minProps > -1 ∧ (n : Int) < o.minProps) ∧ ¬ (o.maxProps > -1 ∧ (n : Int) > o.maxProps) := by
  unfold CountOk
  constructor
  · rintro ⟨a, b⟩; exact ⟨fun h => by have := a (by omega); omega, fun h => by have := b (by omega); omega⟩
  · rintro ⟨a, b⟩; exact ⟨fun h => by by_contra h'; exact a ⟨by omega, by omega⟩,
      fun h => by by_contra h'; exact b ⟨by omega, by omega⟩⟩

/-- The whole validation of an object, given by its properties. -/
theorem objectV_core (ext : Ext) (o : ObjC Sem) (σ : Sched) {v : GoVal} {kvs raws : List (GoStr × GoVal)} {b : Bool}
    {t : GoVal} (h : ObjAcc v kvs raws b t) (hw : o.Wf) :
    ∃ τ : GoStr → Sched,
      (∀ k, (∃ i, τ k = (σ.sub 1).sub i) ∨ (∃ j i, τ k = ((σ.sub 4).sub j).sub i) ∨ (∃ i, τ k = (σ.sub 6).sub i)) ∧
      ((objectV ext o σ v).1 = .ok → CountOk o kvs.length ∧ PreOk ext o (shuffle (σ.sub 2).key o.patterns) b t τ) ∧
      (CountOk o kvs.length → PreOk ext o (shuffle (σ.sub 2).key o.patterns) b t τ → ∃ t' pm ps,
        PlainT t' ∧ (∀ k, k ∈ ps ↔ Has kvs k ∧ o.Covers ext k) ∧ ps.Nodup ∧
        (∀ q, ¬ o.Declares q → ¬ Has kvs q → getProp (some t') q = getProp (some t) q) ∧
        objectV ext o σ v = ((depPart o σ (wrap b t') pm ps).1, (depPart o σ (wrap b t') pm ps).2.v) ∧
        (AllReadOnly o t → t' = t) ∧
        ∃ fields, getPropNames (valueOf v).indirect = .ok fields ∧
          prePart ext o σ ⟨v, nameSet fields, []⟩ = (.ok, ⟨wrap b t', pm, ps⟩)) := by
  obtain ⟨fields, hf, hlen, hmem⟩ := h.names
  have hE := objLoops_core ext o σ b t (nameSet fields) h.plain hw.props
    (fun k => by rw [mem_nameSet, hmem]) (nodup_nameSet fields)
  obtain ⟨τ, h1, h2, h3⟩ := hE
  have hv : objectV ext o σ v =
      if o.minProps > -1 ∧ (kvs.length : Int) < o.minProps then (.err .fewProps, v)
      else if o.maxProps > -1 ∧ (kvs.length : Int) > o.maxProps then (.err .manyProps, v)
      else ((objLoops ext o σ ⟨wrap b t, nameSet fields, []⟩).1, (objLoops ext o σ ⟨wrap b t, nameSet fields, []⟩).2.v) := by
    unfold objectV
    rw [h.eq, indirect_wrap h.plain, hf]
    simp only [hlen]
  refine ⟨τ, h1, fun hok => ?_, fun hc hpre => ?_⟩
  · rw [hv] at hok
    split at hok
    · cases hok
    · split at hok
      · cases hok
      · rename_i a c
        exact ⟨countOk_iff.2 ⟨a, c⟩, h2 hok⟩
  · obtain ⟨t', pm, ps, a1, a2, a3, a4, a5, a6, a7⟩ := h3 hpre
    obtain ⟨c1, c2⟩ := countOk_iff.1 hc
    refine ⟨t', pm, ps, a1, fun k => ?_, a3, fun q hq hq' => ?_, ?_, a6, fields, ?_, ?_⟩
    · rw [a2, h.present, declares_iff, matched_iff]; rfl
    · exact a4 q (fun hh => hq (declares_iff.1 hh)) (fun hh => hq' (h.present.1 hh))
    · rw [hv]
      simp only [c1, c2, if_false, a5]
    · rw [h.eq, indirect_wrap h.plain, hf]
    · rw [h.eq]; exact a7

end Jsval
