import Verif.Lemmas.GenDet
import Verif.Lemmas.BuilderRefs
/-!
# Constraints that are written alike
-/
namespace Jsval

/-- Either both are missing, or both are there and related. -/
inductive OptRel {α β : Type} (r : α → β → Prop) : Option α → Option β → Prop
  | none : OptRel r none none
  | some {a b} : r a b → OptRel r (some a) (some b)

theorem OptRel.imp {α β : Type} {r r' : α → β → Prop} {a : Option α} {b : Option β} (h : OptRel r a b) (hi : ∀ x y, r x y → r' x y) :
    OptRel r' a b := by
  cases h with
  | none => exact .none
  | some h => exact .some (hi _ _ h)

/-- The same text under all schedules. -/
def SameF (f g : Sched → G) : Prop := ∀ σ σ', f σ = g σ'

/-- The generator writes the same text for both constraints under all schedules. -/
def SameText (c c' : Constraint) : Prop := ∀ isPrint cm, SameF (gen isPrint cm c) (gen isPrint cm c')

theorem genAdds_same : ∀ {l l' : List (Sched → G)} (i : Nat), List.Forall₂ SameF l l' → ∀ σ σ', genAdds i l σ = genAdds i l' σ'
  | [], [], _, _, _, _ => rfl
  | f :: l, g :: l', i, h, σ, σ' => by
    cases h with
    | cons h1 h2 => rw [genAdds, genAdds, h1 (σ.sub i) (σ'.sub i), genAdds_same (i + 1) h2 σ σ']

theorem genPositional_same : ∀ {l l' : List (Sched → G)} (i : Nat), List.Forall₂ SameF l l' → ∀ σ σ', genPositional i l σ = genPositional i l' σ'
  | [], [], _, _, _, _ => rfl
  | f :: l, g :: l', i, h, σ, σ' => by
    cases h with
    | cons h1 h2 => rw [genPositional, genPositional, h1 (σ.sub i) (σ'.sub i), genPositional_same (i + 1) h2 σ σ']

theorem genSub_same {m : GoStr} {o o' : Option (Sched → G)} (h : OptRel SameF o o') (σ σ' : Sched) :
    genSub m o σ = genSub m o' σ' := by
  cases h with
  | none => rfl
  | some h => rw [genSub, genSub, h σ σ']

theorem genNamed_same {isPrint : Nat → Bool} {m : GoStr} {tbl tbl' : List (GoStr × (Sched → G))}
    (ht : ∀ n, OptRel SameF (alookup n tbl) (alookup n tbl')) :
    ∀ (names : List GoStr) (i : Nat) (σ σ' : Sched), genNamed isPrint m tbl i names σ = genNamed isPrint m tbl' i names σ'
  | [], _, _, _ => rfl
  | n :: l, i, σ, σ' => by
    rw [genNamed, genNamed, genNamed_same ht l (i + 1) σ σ']
    rcases e : alookup n tbl with _ | f <;> rcases e' : alookup n tbl' with _ | g
    · rfl
    · have := ht n; rw [e, e'] at this; cases this
    · have := ht n; rw [e, e'] at this; cases this
    · have := ht n
      rw [e, e'] at this
      cases this with
      | some h => simp only [h (σ.sub i) (σ'.sub i)]

theorem genCombo_same {nm : GoStr} {l l' : List (Sched → G)} (h : List.Forall₂ SameF l l') (σ σ' : Sched) :
    genCombo nm l σ = genCombo nm l' σ' := by
  have := genAdds_same 0 h σ σ'
  unfold genCombo
  cases h with
  | nil => rfl
  | cons h1 h2 => simp only [this]

theorem genDeps_same {isPrint : Nat → Bool} {d d' : List (GoStr × List GoStr)} (h : ∀ n, alookup n d = alookup n d') (keys : List GoStr) :
    genDeps isPrint d keys = genDeps isPrint d' keys := by
  unfold genDeps
  simp only [h]

theorem genObject_same {isPrint : Nat → Bool} {o o' : ObjC (Sched → G)} (hr : o.required = o'.required)
    (ha : OptRel SameF o.additional o'.additional)
    (hp : (o.props.map (·.1)).Perm (o'.props.map (·.1))) (hpl : ∀ n, OptRel SameF (alookup n o.props) (alookup n o'.props))
    (hn : (o.patterns.map (·.2.1)).Nodup) (hn' : (o'.patterns.map (·.2.1)).Nodup)
    (hq : (o.patterns.map (·.2.1)).Perm (o'.patterns.map (·.2.1)))
    (hql : ∀ n, OptRel SameF (alookup n (o.patterns.map (·.2))) (alookup n (o'.patterns.map (·.2))))
    (hd : (o.propdeps.map (·.1)).Perm (o'.propdeps.map (·.1))) (hdl : ∀ n, alookup n o.propdeps = alookup n o'.propdeps)
    (σ σ' : Sched) : genObject isPrint o σ = genObject isPrint o' σ' := by
  unfold genObject
  rw [genSub_same ha (σ.sub 1) (σ'.sub 1), genNamed_same hpl _ 0 (σ.sub 3) (σ'.sub 3),
    genNamed_same (tbl' := ppmap (shuffle (σ'.sub 4).key o'.patterns)) (fun n => by
      rw [ppmap_shuffle hn, ppmap_shuffle hn']
      exact hql n) _ 0 (σ.sub 5) (σ'.sub 5), genDeps_same hdl]
  have e : (shuffle (σ.sub 4).key o.patterns).map (·.2.1) = shuffle (σ.sub 4).key (o.patterns.map (·.2.1)) := (shuffle_map _ _ _).symm
  have e' : (shuffle (σ'.sub 4).key o'.patterns).map (·.2.1) = shuffle (σ'.sub 4).key (o'.patterns.map (·.2.1)) := (shuffle_map _ _ _).symm
  rw [e, e', hr]
  simp only [sortStrings_shuffle]
  rw [sortStrings_congr hp, sortStrings_congr hq, sortStrings_congr hd]

theorem genArray_same {a a' : ArrC (Sched → G)} (hi : OptRel SameF a.items a'.items) (hp : List.Forall₂ SameF a.positional a'.positional)
    (ha : OptRel SameF a.additional a'.additional) (h1 : a.minItems = a'.minItems) (h2 : a.maxItems = a'.maxItems) (h3 : a.unique = a'.unique)
    (σ σ' : Sched) : genArray a σ = genArray a' σ' := by
  unfold genArray
  simp only [genSub_same hi (σ.sub 0) (σ'.sub 0), genSub_same ha (σ.sub 1) (σ'.sub 1), genPositional_same 0 hp (σ.sub 2) (σ'.sub 2),
    hp.length_eq, h1, h2, h3]

theorem same_opt {o o' : Option Constraint} (h : OptRel SameText o o') (isPrint : Nat → Bool) (cm : GoStr) :
    OptRel SameF (genOpt isPrint cm o) (genOpt isPrint cm o') := by
  cases h with
  | none => exact .none
  | some h => exact .some (h isPrint cm)

theorem same_list {l l' : List Constraint} (h : List.Forall₂ SameText l l') (isPrint : Nat → Bool) (cm : GoStr) :
    List.Forall₂ SameF (genList isPrint cm l) (genList isPrint cm l') := by
  induction h with
  | nil => exact .nil
  | cons h _ ih => exact .cons (h isPrint cm) ih

theorem sameText_combo {l l' : List Constraint} (h : List.Forall₂ SameText l l') :
    SameText (.all l) (.all l') ∧ SameText (.any l) (.any l') ∧ SameText (.oneOf l) (.oneOf l') := by
  refine ⟨?_, ?_, ?_⟩ <;> intro isPrint cm σ σ' <;> simp only [gen] <;> rw [genCombo_same (same_list h isPrint cm) σ σ']

theorem sameText_not {c c' : Constraint} (h : SameText c c') : SameText (.not (some c)) (.not (some c')) := by
  intro isPrint cm σ σ'
  simp only [gen, genOpt, genNot]
  rw [h isPrint cm (σ.sub 0) (σ'.sub 0)]

theorem sameText_array {a a' : ArrC Constraint} (hi : OptRel SameText a.items a'.items) (hp : List.Forall₂ SameText a.positional a'.positional)
    (ha : OptRel SameText a.additional a'.additional) (h1 : a.minItems = a'.minItems) (h2 : a.maxItems = a'.maxItems) (h3 : a.unique = a'.unique) :
    SameText (.array a) (.array a') := by
  intro isPrint cm σ σ'
  obtain ⟨i, p, ad, mn, mx, u⟩ := a
  obtain ⟨i', p', ad', mn', mx', u'⟩ := a'
  simp only [gen]
  rw [genArray_same (a' := genArr isPrint cm ⟨i', p', ad', mn', mx', u'⟩) (σ := σ) (σ' := σ')]
  · exact same_opt hi isPrint cm
  · exact same_list hp isPrint cm
  · exact same_opt ha isPrint cm
  · exact h1
  · exact h2
  · exact h3

theorem optRel_gen {o o' : Option Constraint} (h : OptRel SameText o o') (isPrint : Nat → Bool) (cm : GoStr) :
    OptRel SameF (o.map (gen isPrint cm)) (o'.map (gen isPrint cm)) := by
  cases h with
  | none => exact .none
  | some h => exact .some (h isPrint cm)

/-- Objects with the same entries in another order. -/
theorem sameText_object {o o' : ObjC Constraint} (hr : o.required = o'.required)
    (ha : OptRel SameText o.additional o'.additional)
    (hp : (o.props.map (·.1)).Perm (o'.props.map (·.1))) (hpl : ∀ n, OptRel SameText (alookup n o.props) (alookup n o'.props))
    (hn : (o.patterns.map (·.2.1)).Nodup)
    (hq : (o.patterns.map (·.2.1)).Perm (o'.patterns.map (·.2.1)))
    (hql : ∀ n, OptRel SameText (alookup n (o.patterns.map (·.2))) (alookup n (o'.patterns.map (·.2))))
    (hd : (o.propdeps.map (·.1)).Perm (o'.propdeps.map (·.1))) (hdl : ∀ n, alookup n o.propdeps = alookup n o'.propdeps) :
    SameText (.object o) (.object o') := by
  intro isPrint cm σ σ'
  obtain ⟨ps, pats, ad, req, pd, sd, mn, mx⟩ := o
  obtain ⟨ps', pats', ad', req', pd', sd', mn', mx'⟩ := o'
  simp only at hr ha hp hpl hn hq hql hd hdl
  simp only [gen]
  rw [genObject_same (o' := genObj isPrint cm ⟨ps', pats', ad', req', pd', sd', mn', mx'⟩) (σ := σ) (σ' := σ')]
  · exact hr
  · exact same_opt ha isPrint cm
  · simpa [genObj, genProps_eq, List.map_map, Function.comp_def] using hp
  · intro n
    simp only [genObj, genProps_eq]
    rw [alookup_map, alookup_map]
    exact optRel_gen (hpl n) isPrint cm
  · simpa [genObj, genPats_eq, List.map_map, Function.comp_def] using hn
  · simpa [genObj, genPats_eq, List.map_map, Function.comp_def] using hq.nodup_iff.1 hn
  · simpa [genObj, genPats_eq, List.map_map, Function.comp_def] using hq
  · intro n
    have e : ∀ l : List (Nat × GoStr × Constraint), (genPats isPrint cm l).map (·.2) =
        (l.map (·.2)).map (fun p => (p.1, gen isPrint cm p.2)) := by
      intro l
      rw [genPats_eq]
      simp [List.map_map, Function.comp_def]
    simp only [genObj, e]
    rw [alookup_map, alookup_map]
    exact optRel_gen (hql n) isPrint cm
  · exact hd
  · exact hdl

/-! ## `Process` -/

/-- Validators with the same name, roots and registered constraints that are written alike. -/
structure SameVal (v v' : GenVal) : Prop where
  name : v.name = v'.name
  same : v.same = v'.same
  root : OptRel SameText v.root v'.root
  nodup : (v.refs.map (·.1)).Nodup
  nodup' : (v'.refs.map (·.1)).Nodup
  refs : ∀ n, OptRel SameText (alookup n v.refs) (alookup n v'.refs)

theorem firstRef_same {vals vals' : List GenVal} (h : List.Forall₂ SameVal vals vals') (n : GoStr) :
    OptRel SameText (firstRef n vals) (firstRef n vals') := by
  unfold firstRef
  induction h with
  | nil => exact .none
  | @cons v v' l l' h _ ih =>
    simp only [List.findSome?_cons]
    have := h.refs n
    generalize alookup n v.refs = a at this
    generalize alookup n v'.refs = a' at this
    cases this with
    | none => exact ih
    | some h => exact .some h

theorem keys_perm {α β : Type} {l : List (GoStr × α)} {l' : List (GoStr × β)} {r : α → β → Prop} (h1 : (l.map (·.1)).Nodup)
    (h2 : (l'.map (·.1)).Nodup) (h : ∀ n, OptRel r (alookup n l) (alookup n l')) : (l.map (·.1)).Perm (l'.map (·.1)) := by
  rw [List.perm_ext_iff_of_nodup h1 h2]
  intro n
  have := h n
  constructor
  · intro hn
    obtain ⟨v, hv⟩ := alookup_isSome.2 hn
    rw [hv] at this
    generalize e : alookup n l' = a at this
    cases this with
    | some => exact alookup_isSome.1 ⟨_, e⟩
  · intro hn
    obtain ⟨v, hv⟩ := alookup_isSome.2 hn
    rw [hv] at this
    generalize e : alookup n l = a at this
    cases this with
    | some => exact alookup_isSome.1 ⟨_, e⟩

theorem genRefAssign_same {isPrint : Nat → Bool} {cm : GoStr} {refs refs' : List (GoStr × Constraint)}
    (hl : ∀ k, OptRel SameText (alookup k refs) (alookup k refs')) (σ σ' : Sched) :
    ∀ (vars : List (GoStr × GoStr)) (i : Nat), genRefAssign isPrint cm refs σ i vars = genRefAssign isPrint cm refs' σ' i vars
  | [], _ => rfl
  | (n, var) :: l, i => by
    rw [genRefAssign, genRefAssign, genRefAssign_same hl σ σ' l (i + 1)]
    have := hl n
    generalize alookup n refs = a at this
    generalize alookup n refs' = a' at this
    cases this with
    | none => rfl
    | some h => simp only; rw [h isPrint cm (σ.sub i) (σ'.sub i)]

theorem forall2_insertionSort {α : Type} {R : α → α → Prop} {le : α → α → Prop} [DecidableRel le]
    (hc : ∀ a a' b b', R a a' → R b b' → (le a b ↔ le a' b')) : ∀ {l l' : List α}, List.Forall₂ R l l' →
    List.Forall₂ R (l.insertionSort le) (l'.insertionSort le)
  | _, _, .nil => .nil
  | _, _, .cons (a := a) (b := b) h1 h2 => by
    have ih := forall2_insertionSort hc h2
    simp only [List.insertionSort_cons]
    generalize List.insertionSort le _ = l at ih
    generalize List.insertionSort le _ = l' at ih
    induction ih with
    | nil => exact .cons h1 .nil
    | @cons x y l l' h3 h4 ih =>
      simp only [List.orderedInsert_cons]
      by_cases h : le a x
      · rw [if_pos h, if_pos ((hc _ _ _ _ h1 h3).1 h)]
        exact .cons h1 (.cons h3 h4)
      · rw [if_neg h, if_neg (fun h' => h ((hc _ _ _ _ h1 h3).2 h'))]
        exact .cons h3 ih

theorem nameVals_same : ∀ {l l' : List GenVal} (i : Nat), List.Forall₂ SameVal l l' → List.Forall₂ SameVal (nameVals i l) (nameVals i l')
  | _, _, _, .nil => .nil
  | _, _, i, .cons (a := v) (b := v') h1 h2 => by
    rw [nameVals, nameVals]
    refine .cons ?_ (nameVals_same (i + 1) h2)
    by_cases hv : v.name = []
    · rw [if_pos hv, if_pos (h1.name ▸ hv)]
      exact ⟨rfl, h1.same, h1.root, h1.nodup, h1.nodup', h1.refs⟩
    · rw [if_neg hv, if_neg (h1.name ▸ hv)]
      exact h1

theorem names_same {l l' : List GenVal} (h : List.Forall₂ SameVal l l') : l.map (·.name) = l'.map (·.name) := by
  induction h with
  | nil => rfl
  | cons h _ ih => simp [h.name, ih]

theorem find_names (p : GoStr → Bool) : ∀ (l : List (GoStr × Constraint)), (l.find? (fun r => p r.1)).map (·.1) = (l.map (·.1)).find? p
  | [] => rfl
  | (n, c) :: l => by
    simp only [List.find?_cons, List.map_cons]
    cases p n with
    | true => rfl
    | false => exact find_names p l

theorem genValAssign_same {isPrint : Nat → Bool} {cm : GoStr} {refs refs' : List (GoStr × Constraint)} {vars : List (GoStr × GoStr)}
    (hp : (refs.map (·.1)).Perm (refs'.map (·.1))) (σ σ' : Sched) : ∀ {l l' : List GenVal} (i : Nat), List.Forall₂ SameVal l l' →
    (∀ v ∈ l, ∀ r ∈ refs.map (·.1), ∀ r' ∈ refs.map (·.1), v.same r = true → v.same r' = true → r = r') →
    genValAssign isPrint cm refs vars σ i l = genValAssign isPrint cm refs' vars σ' i l'
  | _, _, _, .nil, _ => rfl
  | _, _, i, .cons (a := v) (b := v') (l₁ := l) (l₂ := l') h1 h2, h => by
    rw [genValAssign, genValAssign, genValAssign_same hp σ σ' (i + 1) h2 (fun w hw => h w (List.mem_cons_of_mem _ hw)), h1.name]
    congr 3
    unfold genValidator
    have hf : ((shuffle ((σ.sub i).sub 0).key refs).find? (fun r => v.same r.1)).map (·.1) =
        ((shuffle ((σ'.sub i).sub 0).key refs').find? (fun r => v'.same r.1)).map (·.1) := by
      rw [find_names, find_names, ← h1.same]
      refine find_perm ((((shuffle_perm refs _).map _).trans hp).trans ((shuffle_perm refs' _).map _).symm) ?_
      intro a ha b hb
      exact h v (by simp) a (((shuffle_perm refs _).map _).mem_iff.1 ha) b (((shuffle_perm refs _).map _).mem_iff.1 hb)
    generalize (shuffle ((σ.sub i).sub 0).key refs).find? (fun r => v.same r.1) = x at hf
    generalize (shuffle ((σ'.sub i).sub 0).key refs').find? (fun r => v'.same r.1) = y at hf
    rw [h1.name]
    cases x with
    | none =>
      cases y with
      | some y => simp at hf
      | none =>
        have := h1.root
        generalize v.root = a at this
        generalize v'.root = a' at this
        cases this with
        | none => rfl
        | some h => simp only; rw [h isPrint cm ((σ.sub i).sub 1) ((σ'.sub i).sub 1)]
    | some x =>
      cases y with
      | none => simp at hf
      | some y =>
        simp only [Option.map_some, Option.some.injEq] at hf
        simp only [hf]

/-- The text for validators that are written alike. -/
theorem process_same {isPrint : Nat → Bool} {vals vals' : List GenVal} (h : List.Forall₂ SameVal vals vals')
    (hs : ∀ v ∈ vals, ∀ n n', v.same n = true → v.same n' = true → (firstRef n vals).isSome → (firstRef n' vals).isSome → n = n')
    (σ σ' : Sched) : process isPrint vals σ = process isPrint vals' σ' := by
  have ht : ∀ v ∈ vals, (v.refs.map (·.1)).Nodup := fun v hv => by
    obtain ⟨v', -, h'⟩ := forall2_left h v hv
    exact h'.nodup
  have ht' : ∀ v ∈ vals', (v.refs.map (·.1)).Nodup := fun v hv => by
    obtain ⟨v', -, h'⟩ := forall2_right h v hv
    exact h'.nodup'
  have hlk : ∀ k, OptRel SameText (alookup k (mergeAll (σ.sub 0) 0 vals [])) (alookup k (mergeAll (σ'.sub 0) 0 vals' [])) := fun k => by
    rw [merged_lookup ht, merged_lookup ht']
    exact firstRef_same h k
  have hnd := mergeAll_nodup (σ.sub 0) vals 0 [] (by simp)
  have hperm := keys_perm hnd (mergeAll_nodup (σ'.sub 0) vals' 0 [] (by simp)) hlk
  have hl : (mergeAll (σ.sub 0) 0 vals []).length = (mergeAll (σ'.sub 0) 0 vals' []).length := by
    simpa using hperm.length_eq
  have hnames := sortStrings_congr hperm
  have hv := nameVals_same 0 h
  unfold process
  simp only [hl, hnames, names_same hv]
  have hV : ∀ cm vars, genValAssign isPrint cm (mergeAll (σ.sub 0) 0 vals []) vars (σ.sub 2) 0 (sortVals (nameVals 0 vals)) =
      genValAssign isPrint cm (mergeAll (σ'.sub 0) 0 vals' []) vars (σ'.sub 2) 0 (sortVals (nameVals 0 vals')) := fun cm vars => by
    refine genValAssign_same hperm _ _ 0 (forall2_insertionSort (fun a a' b b' h1 h2 => by rw [h1.name, h2.name]) hv) ?_
    intro v hv r hr r' hr' h1 h2
    rw [mem_sortVals] at hv
    obtain ⟨w, hw, _, _, e3⟩ := mem_nameVals hv
    obtain ⟨x, hx⟩ := alookup_isSome.2 hr
    obtain ⟨x', hx'⟩ := alookup_isSome.2 hr'
    exact hs w hw r r' (e3 ▸ h1) (e3 ▸ h2) (by rw [← merged_lookup ht (σ.sub 0), hx]; rfl) (by rw [← merged_lookup ht (σ.sub 0), hx']; rfl)
  simp only [hV, fun cm vars => genRefAssign_same (isPrint := isPrint) (cm := cm) hlk (σ.sub 1) (σ'.sub 1) vars 0]

end Jsval
