import Verif.Spec.Calls
import Verif.Lemmas.RebuildSim
import Verif.Lemmas.Extend
/-!
# Chains of configuration calls: what they give
-/
namespace Jsval

theorem latest_concat {α β : Type} (g : α → Option β) (l : List α) (x : α) : Latest g (l ++ [x]) = (g x).or (Latest g l) := by
  unfold Latest
  rw [List.filterMap_append]
  cases h : g x with
  | none => simp [List.filterMap, h]
  | some b => simp [List.filterMap, h]

theorem latest_nil {α β : Type} (g : α → Option β) : Latest g [] = none := rfl

theorem strCalls_eq (l : List StrCall) : l.foldl StrCall.on String' =
    { dflt := Latest StrCall.default? l, enums := Latest StrCall.enum? l, maxLength := (Latest StrCall.maxLength? l).getD (-1),
      minLength := (Latest StrCall.minLength? l).getD 0, regexp := Latest StrCall.regexp? l,
      format := (Latest StrCall.format? l).getD [] } := by
  induction l using List.reverseRecOn with
  | nil => rfl
  | append_singleton l x ih =>
    rw [List.foldl_append, List.foldl_cons, List.foldl_nil, ih]
    simp only [latest_concat]
    cases x <;> rfl

theorem numCalls_eq (l : List NumCall) : l.foldl NumCall.on Number' =
    { dflt := Latest NumCall.default? l, minimum := Latest NumCall.minimum? l, maximum := Latest NumCall.maximum? l,
      multipleOf := Latest NumCall.multipleOf? l, exclMin := (Latest NumCall.exclMin? l).getD false,
      exclMax := (Latest NumCall.exclMax? l).getD false, enums := Latest NumCall.enum? l } := by
  induction l using List.reverseRecOn with
  | nil => rfl
  | append_singleton l x ih =>
    rw [List.foldl_append, List.foldl_cons, List.foldl_nil, ih]
    simp only [latest_concat]
    cases x <;> rfl

theorem numChain_number (l : List NumCall) (c : NumC) : l.foldl NumChain.call (.number c) = .number (l.foldl NumCall.on c) := by
  induction l generalizing c with
  | nil => rfl
  | cons x l ih => rw [List.foldl_cons, List.foldl_cons]; exact ih _

theorem numChain_integer (l : List NumCall) (c : NumC) : l.foldl NumChain.call (.integer c) =
    if l.all fun k => k.enum?.isNone && k.multipleOf?.isNone then .integer (l.foldl NumCall.on c) else .number (l.foldl NumCall.on c) := by
  induction l generalizing c with
  | nil => rfl
  | cons x l ih =>
    rw [List.foldl_cons, List.foldl_cons, List.all_cons]
    cases x with
    | enum v => exact numChain_number l _
    | multipleOf v => exact numChain_number l _
    | default v => exact ih _
    | minimum v => exact ih _
    | maximum v => exact ih _
    | exclMin v => exact ih _
    | exclMax v => exact ih _

theorem latest_none_iff {α β : Type} (g : α → Option β) (l : List α) : Latest g l = none ↔ ∀ x ∈ l, g x = none := by
  unfold Latest
  rw [List.getLast?_eq_none_iff, List.filterMap_eq_nil_iff]

theorem arrCalls_eq (l : List ArrCall) : l.foldl ArrCall.on Array' =
    { items := (Latest ArrCall.items? l).getD none, positional := (Latest ArrCall.positionalItems? l).getD [],
      additional := (Latest ArrCall.additionalItems? l).getD (some .empty), minItems := (Latest ArrCall.minItems? l).getD (-1),
      maxItems := (Latest ArrCall.maxItems? l).getD (-1), unique := (Latest ArrCall.uniqueItems? l).getD false } := by
  induction l using List.reverseRecOn with
  | nil => rfl
  | append_singleton l x ih =>
    rw [List.foldl_append, List.foldl_cons, List.foldl_nil, ih]
    simp only [latest_concat]
    cases x <;> rfl

/-! ## Objects -/

/-- Entry of the pattern map. -/
def plookup {C : Type} (id : Nat) : List (Nat × GoStr × C) → Option (GoStr × C)
  | [] => none
  | (i, s, c) :: l => if i = id then some (s, c) else plookup id l

theorem plookup_patInsert {C : Type} (id i : Nat) (s : GoStr) (c : C) : ∀ l,
    plookup id (patInsert i s c l) = if i = id then some (s, c) else plookup id l
  | [] => rfl
  | (j, s', c') :: l => by
    unfold patInsert
    by_cases h : j = i
    · subst h
      simp only [if_true, plookup]
      split <;> rfl
    · simp only [h, if_false, plookup]
      rw [plookup_patInsert id i s c l]
      by_cases h1 : j = id
      · have : ¬ i = id := fun e => h (h1.trans e.symm)
        simp [h1, this]
      · simp [h1]

theorem patInsert_keys {C : Type} (i : Nat) (s : GoStr) (c : C) : ∀ l : List (Nat × GoStr × C),
    (patInsert i s c l).map (·.1) = if i ∈ l.map (·.1) then l.map (·.1) else l.map (·.1) ++ [i]
  | [] => rfl
  | (j, s', c') :: l => by
    unfold patInsert
    by_cases h : j = i
    · subst h; simp
    · have h' : ¬ i = j := fun e => h e.symm
      simp only [h, if_false, List.map_cons, patInsert_keys i s c l, List.mem_cons, h', false_or]
      split <;> simp

theorem plookup_iff {C : Type} {id : Nat} {s : GoStr} {c : C} : ∀ {l : List (Nat × GoStr × C)}, (l.map (·.1)).Nodup →
    (plookup id l = some (s, c) ↔ (id, s, c) ∈ l)
  | [], _ => by simp [plookup]
  | (j, s', c') :: l, hn => by
    simp only [List.map_cons, List.nodup_cons] at hn
    unfold plookup
    by_cases h : j = id
    · subst h
      simp only [if_true, Option.some.injEq, Prod.mk.injEq, List.mem_cons, true_and]
      constructor
      · rintro ⟨rfl, rfl⟩; exact .inl ⟨rfl, rfl⟩
      · rintro (⟨rfl, rfl⟩ | h)
        · exact ⟨rfl, rfl⟩
        · exact absurd (List.mem_map.2 ⟨_, h, rfl⟩) hn.1
    · have h' : ¬ id = j := fun e => h e.symm
      simp only [h, if_false, plookup_iff hn.2, List.mem_cons, Prod.mk.injEq, h', false_and, false_or]

/-- An object configured by calls. -/
theorem objCalls_eq (l : List ObjCall) :
    (ObjectOf l).minProps = (Latest ObjCall.minProperties? l).getD (-1) ∧
    (ObjectOf l).maxProps = (Latest ObjCall.maxProperties? l).getD (-1) ∧
    (ObjectOf l).additional = (Latest ObjCall.additional? l).getD none ∧
    ((ObjectOf l).props.map (·.1)).Nodup ∧ (∀ n, alookup n (ObjectOf l).props = Latest (ObjCall.prop? n) l) ∧
    ((ObjectOf l).patterns.map (·.1)).Nodup ∧ (∀ id, plookup id (ObjectOf l).patterns = Latest (ObjCall.pattern? id) l) ∧
    (∀ p, p ∈ (ObjectOf l).required ↔ ∃ l', .required l' ∈ l ∧ p ∈ l') ∧
    (∀ n, (ObjectOf l).GetPropDependencies n = (l.filterMap (ObjCall.propDep? n)).flatten) ∧
    (∀ n, (ObjectOf l).GetSchemaDependency n = Latest (ObjCall.schemaDep? n) l) := by
  induction l using List.reverseRecOn with
  | nil =>
    refine ⟨rfl, rfl, rfl, by simp [ObjectOf, Object'], fun _ => rfl, by simp [ObjectOf, Object'], fun _ => rfl, fun p => ?_,
      fun _ => rfl, fun _ => rfl⟩
    simp [ObjectOf, Object']
  | append_singleton l x ih =>
    obtain ⟨h1, h2, h3, h4, h5, h6, h7, h8, h9, h10⟩ := ih
    have e : ObjectOf (l ++ [x]) = x.on (ObjectOf l) := by
      unfold ObjectOf; rw [List.foldl_append]; rfl
    rw [e]
    simp only [latest_concat, List.filterMap_append, List.flatten_append, List.mem_append, List.mem_singleton]
    generalize ObjectOf l = o at *
    cases x with
    | required r =>
      refine ⟨h1, h2, h3, h4, h5, h6, h7, fun p => ?_, fun n => ?_, h10⟩
      · refine (mem_required o r p).trans ?_
        rw [h8]
        constructor
        · rintro (⟨l', a, b⟩ | h)
          · exact ⟨l', .inl a, b⟩
          · exact ⟨r, .inr rfl, h⟩
        · rintro ⟨l', a | a, b⟩
          · exact .inl ⟨l', a, b⟩
          · cases a; exact .inr b
      · exact (h9 n).trans (by simp [List.filterMap, ObjCall.propDep?])
    | minProperties n =>
      refine ⟨rfl, h2, h3, h4, h5, h6, h7, fun p => ?_, fun n => ?_, h10⟩
      · exact (h8 p).trans (by simp)
      · exact (h9 n).trans (by simp [List.filterMap, ObjCall.propDep?])
    | maxProperties n =>
      refine ⟨h1, rfl, h3, h4, h5, h6, h7, fun p => ?_, fun n => ?_, h10⟩
      · exact (h8 p).trans (by simp)
      · exact (h9 n).trans (by simp [List.filterMap, ObjCall.propDep?])
    | additionalProperties c =>
      refine ⟨h1, h2, rfl, h4, h5, h6, h7, fun p => ?_, fun n => ?_, h10⟩
      · exact (h8 p).trans (by simp)
      · exact (h9 n).trans (by simp [List.filterMap, ObjCall.propDep?])
    | addProp m c =>
      refine ⟨h1, h2, h3, nodup_ainsert h4, fun n => ?_, h6, h7, fun p => ?_, fun n => ?_, h10⟩
      · show alookup n (ainsert m c o.props) = _
        rw [alookup_ainsert, h5]
        unfold ObjCall.prop?
        by_cases hn : n = m
        · subst hn; simp
        · have : ¬ m = n := fun e => hn e.symm
          simp [hn, this]
      · exact (h8 p).trans (by simp)
      · exact (h9 n).trans (by simp [List.filterMap, ObjCall.propDep?])
    | patternProperties i s c =>
      refine ⟨h1, h2, h3, h4, h5, ?_, fun id => ?_, fun p => ?_, fun n => ?_, h10⟩
      · show ((patInsert i s c o.patterns).map (·.1)).Nodup
        rw [patInsert_keys]
        split
        · exact h6
        · rename_i hi
          rw [List.nodup_append]
          refine ⟨h6, by simp, ?_⟩
          rintro a ha b hb rfl
          simp only [List.mem_singleton] at hb
          exact hi (hb ▸ ha)
      · show plookup id (patInsert i s c o.patterns) = _
        rw [plookup_patInsert, h7]
        unfold ObjCall.pattern?
        by_cases hn : i = id <;> simp [hn]
      · exact (h8 p).trans (by simp)
      · exact (h9 n).trans (by simp [List.filterMap, ObjCall.propDep?])
    | propDependency m r =>
      refine ⟨h1, h2, h3, h4, h5, h6, h7, fun p => ?_, fun n => ?_, h10⟩
      · exact (h8 p).trans (by simp)
      · show (alookup n (ainsert m (o.GetPropDependencies m ++ r) o.propdeps)).getD [] = _
        rw [alookup_ainsert]
        by_cases hn : n = m
        · subst hn; simp [ObjCall.propDep?, h9]
        · have hn' : ¬ m = n := fun e => hn e.symm
          have := h9 n
          unfold ObjC.GetPropDependencies at this
          simp [hn, hn', ObjCall.propDep?, this]
    | schemaDependency m c =>
      refine ⟨h1, h2, h3, h4, h5, h6, h7, fun p => ?_, fun n => ?_, fun n => ?_⟩
      · exact (h8 p).trans (by simp)
      · exact (h9 n).trans (by simp [List.filterMap, ObjCall.propDep?])
      · show alookup n (ainsert m c o.schemadeps) = _
        have := h10 n
        unfold ObjC.GetSchemaDependency at this
        rw [alookup_ainsert, this]
        unfold ObjCall.schemaDep?
        by_cases hn : n = m
        · subst hn; simp
        · have : ¬ m = n := fun e => hn e.symm
          simp [hn, this]

theorem perm_of_alookup {β : Type} {l l' : List (GoStr × β)} (hn : (l.map (·.1)).Nodup) (hn' : (l'.map (·.1)).Nodup)
    (h : ∀ n, alookup n l = alookup n l') : l.Perm l' := by
  refine (List.perm_ext_iff_of_nodup (List.Nodup.of_map _ hn) (List.Nodup.of_map _ hn')).2 ?_
  rintro ⟨n, x⟩
  rw [← alookup_iff_mem hn, ← alookup_iff_mem hn', h]

theorem perm_of_plookup {β : Type} {l l' : List (Nat × GoStr × β)} (hn : (l.map (·.1)).Nodup) (hn' : (l'.map (·.1)).Nodup)
    (h : ∀ n, plookup n l = plookup n l') : l.Perm l' := by
  refine (List.perm_ext_iff_of_nodup (List.Nodup.of_map _ hn) (List.Nodup.of_map _ hn')).2 ?_
  rintro ⟨n, s, x⟩
  rw [← plookup_iff hn, ← plookup_iff hn', h]

/-- Tables in another order. -/
theorem objectV_tables {ext : Ext} {o o' : ObjC Sem} (hp : o.props.Perm o'.props) (hq : o.patterns.Perm o'.patterns)
    (ha : o.additional = o'.additional) (hr : ∀ p, p ∈ o.required ↔ p ∈ o'.required)
    (hd : ∀ n, o.GetPropDependencies n = o'.GetPropDependencies n) (hs : ∀ n, o.GetSchemaDependency n = o'.GetSchemaDependency n)
    (h1 : o.minProps = o'.minProps) (h2 : o.maxProps = o'.maxProps) (σ : Sched) :
    ∃ τ, ∀ v, objectV ext o' τ v = objectV ext o σ v := by
  obtain ⟨k0, hk0⟩ := shuffle_surj o'.props (shuffle (σ.sub 0).key o.props) ((shuffle_perm _ _).trans hp)
  obtain ⟨k2, hk2⟩ := shuffle_surj o'.patterns (shuffle (σ.sub 2).key o.patterns) ((shuffle_perm _ _).trans hq)
  refine ⟨Sched.mk' 0 (fun i => if i = 0 then Sched.mk' k0 (fun _ => σ) else if i = 2 then Sched.mk' k2 (fun _ => σ) else σ.sub i),
    fun v => ?_⟩
  set τ := Sched.mk' 0 (fun i => if i = 0 then Sched.mk' k0 (fun _ => σ) else if i = 2 then Sched.mk' k2 (fun _ => σ) else σ.sub i) with hτ
  have e0 : (τ.sub 0).key = k0 := rfl
  have e1 : τ.sub 1 = σ.sub 1 := rfl
  have e2 : (τ.sub 2).key = k2 := rfl
  have e3 : τ.sub 3 = σ.sub 3 := rfl
  have e4 : τ.sub 4 = σ.sub 4 := rfl
  have e5 : τ.sub 5 = σ.sub 5 := rfl
  have e6 : τ.sub 6 = σ.sub 6 := rfl
  have e7 : τ.sub 7 = σ.sub 7 := rfl
  have e8 : τ.sub 8 = σ.sub 8 := rfl
  have f1 : propStep ext o' (σ.sub 1) = propStep ext o (σ.sub 1) := by
    funext i x st
    unfold propStep
    simp only [hr]
  have f2 : patOuter ext τ = patOuter ext σ := by
    funext i x st
    unfold patOuter
    rw [e3, e4]
  have f3 : ∀ st, addlPhase o' τ st = addlPhase o σ st := by
    intro st
    unfold addlPhase
    rw [e5, e6, ha]
  have f4 : depStep o' (σ.sub 8) = depStep o (σ.sub 8) := by
    funext i x st
    unfold depStep
    rw [hd, hs]
  have hl : ∀ st, objLoops ext o' τ st = objLoops ext o σ st := by
    intro st
    unfold objLoops
    simp only [e0, e1, e2, e7, e8, f1, f2, f3, f4, hk0, hk2]
  unfold objectV
  simp only [hl, h1, h2]

/-- The same calls, but for order. -/
theorem objectOf_same {ext : Ext} {ρ : RefSem} {l l' : List ObjCall} (h : SameObj l l') (σ : Sched) :
    ∃ τ, ∀ v, objectV ext ((ObjectOf l').map (denote ext ρ)) τ v = objectV ext ((ObjectOf l).map (denote ext ρ)) σ v := by
  obtain ⟨h1, h2, h3, h4, h5, h6, h7, h8, h9, h10⟩ := objCalls_eq l
  obtain ⟨g1, g2, g3, g4, g5, g6, g7, g8, g9, g10⟩ := objCalls_eq l'
  refine objectV_tables ?_ ?_ ?_ (fun p => ?_) (fun n => ?_) (fun n => ?_) ?_ ?_ σ
  · exact (perm_of_alookup h4 g4 fun n => by rw [h5, g5, h.prop]).map _
  · exact (perm_of_plookup h6 g6 fun n => by rw [h7, g7, h.pattern]).map _
  · show (ObjectOf l).additional.map _ = (ObjectOf l').additional.map _
    rw [h3, g3, h.additional]
  · show p ∈ (ObjectOf l).required ↔ p ∈ (ObjectOf l').required
    rw [h8, g8, h.required]
  · show (ObjectOf l).GetPropDependencies n = (ObjectOf l').GetPropDependencies n
    rw [h9, g9, h.propDep]
  · show alookup n ((ObjectOf l).schemadeps.map _) = alookup n ((ObjectOf l').schemadeps.map _)
    rw [alookup_map, alookup_map]
    have a := h10 n
    have b := g10 n
    unfold ObjC.GetSchemaDependency at a b
    rw [a, b, h.schemaDep]
  · show (ObjectOf l).minProps = (ObjectOf l').minProps
    rw [h1, g1, h.min]
  · show (ObjectOf l).maxProps = (ObjectOf l').maxProps
    rw [h2, g2, h.max]

end Jsval
