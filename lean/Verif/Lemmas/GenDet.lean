import Verif.Lemmas.GenObj
import Verif.Lemmas.Induct
import Verif.Spec.GenProg
/-!
# The generator does not depend on iteration orders
-/
namespace Jsval

/-- The generated text does not depend on the schedule. -/
def Indep (f : Sched → G) : Prop := ∀ σ σ', f σ = f σ'

theorem genAdds_indep : ∀ (l : List (Sched → G)) (i : Nat), (∀ f ∈ l, Indep f) → ∀ σ σ', genAdds i l σ = genAdds i l σ'
  | [], _, _, _, _ => rfl
  | f :: l, i, h, σ, σ' => by
    rw [genAdds, genAdds, h f (List.mem_cons_self ..) (σ.sub i) (σ'.sub i),
      genAdds_indep l (i + 1) (fun g hg => h g (List.mem_cons_of_mem _ hg)) σ σ']

theorem genPositional_indep : ∀ (l : List (Sched → G)) (i : Nat), (∀ f ∈ l, Indep f) → ∀ σ σ', genPositional i l σ = genPositional i l σ'
  | [], _, _, _, _ => rfl
  | f :: l, i, h, σ, σ' => by
    rw [genPositional, genPositional, h f (List.mem_cons_self ..) (σ.sub i) (σ'.sub i),
      genPositional_indep l (i + 1) (fun g hg => h g (List.mem_cons_of_mem _ hg)) σ σ']

theorem genSub_indep {m : GoStr} {o : Option (Sched → G)} (h : ∀ f, o = some f → Indep f) (σ σ' : Sched) :
    genSub m o σ = genSub m o σ' := by
  cases o with
  | none => rfl
  | some f => rw [genSub, genSub, h f rfl σ σ']

theorem genNamed_indep {isPrint : Nat → Bool} {m : GoStr} {tbl tbl' : List (GoStr × (Sched → G))}
    (ht : ∀ n, alookup n tbl = alookup n tbl') (h : ∀ n f, alookup n tbl = some f → Indep f) :
    ∀ (names : List GoStr) (i : Nat) (σ σ' : Sched), genNamed isPrint m tbl i names σ = genNamed isPrint m tbl' i names σ'
  | [], _, _, _ => rfl
  | n :: l, i, σ, σ' => by
    rw [genNamed, genNamed, genNamed_indep ht h l (i + 1) σ σ', ← ht n]
    cases hn : alookup n tbl with
    | none => rfl
    | some f => simp only [h n f hn (σ.sub i) (σ'.sub i)]

theorem genObject_indep {isPrint : Nat → Bool} {o : ObjC (Sched → G)} (hp : (o.patterns.map (·.2.1)).Nodup)
    (h1 : ∀ p ∈ o.props, Indep p.2) (h2 : ∀ p ∈ o.patterns, Indep p.2.2) (h3 : ∀ f, o.additional = some f → Indep f)
    (σ σ' : Sched) : genObject isPrint o σ = genObject isPrint o σ' := by
  unfold genObject
  rw [genSub_indep h3 (σ.sub 1) (σ'.sub 1)]
  rw [genNamed_indep (fun _ => rfl) (fun n f hf => h1 _ (alookup_mem hf)) _ 0 (σ.sub 3) (σ'.sub 3)]
  have ht : ∀ n, alookup n (ppmap (shuffle (σ.sub 4).key o.patterns)) = alookup n (ppmap (shuffle (σ'.sub 4).key o.patterns)) := by
    intro n
    rw [ppmap_shuffle hp, ppmap_shuffle hp]
  rw [genNamed_indep ht (fun n f hf => by
    rw [ppmap_shuffle hp] at hf
    have := alookup_mem hf
    rw [List.mem_map] at this
    obtain ⟨q, hq, he⟩ := this
    have := h2 q hq
    rw [he] at this
    exact this) _ 0 (σ.sub 5) (σ'.sub 5)]
  have e : (shuffle (σ.sub 4).key o.patterns).map (·.2.1) = shuffle (σ.sub 4).key (o.patterns.map (·.2.1)) := (shuffle_map _ _ _).symm
  have e' : (shuffle (σ'.sub 4).key o.patterns).map (·.2.1) = shuffle (σ'.sub 4).key (o.patterns.map (·.2.1)) := (shuffle_map _ _ _).symm
  rw [e, e']
  simp only [sortStrings_shuffle]

/-- The text for a tree does not depend on the schedule. -/
theorem gen_indep {isPrint : Nat → Bool} {cm : GoStr} : ∀ c, c.Every Constraint.DistinctPats → Indep (gen isPrint cm c) := by
  intro c
  induction c using Constraint.ind with
  | h c ih =>
  intro hd σ σ'
  have ih' : ∀ d, c.Child d → Indep (gen isPrint cm d) := fun d h => ih d h (hd.child h)
  have hl := hd.self
  have hlist : ∀ {l : List Constraint}, (∀ d ∈ l, c.Child d) → ∀ f ∈ genList isPrint cm l, Indep f := by
    intro l h f hf
    rw [genList_eq, List.mem_map] at hf
    obtain ⟨d, hd, rfl⟩ := hf
    exact ih' d (h d hd)
  have hopt : ∀ {o : Option Constraint}, (∀ d, o = some d → c.Child d) → ∀ f, genOpt isPrint cm o = some f → Indep f := by
    intro o h f hf
    rw [genOpt_eq] at hf
    cases o with
    | none => simp at hf
    | some d =>
      simp only [Option.map_some, Option.some.injEq] at hf
      subst hf
      exact ih' d (h d rfl)
  have hcombo : ∀ {l : List Constraint} {nm : GoStr}, (∀ d ∈ l, c.Child d) →
      genCombo nm (genList isPrint cm l) σ = genCombo nm (genList isPrint cm l) σ' := by
    intro l nm h
    unfold genCombo
    have := genAdds_indep (genList isPrint cm l) 0 (hlist h) σ σ'
    cases hl : genList isPrint cm l with
    | nil => rfl
    | cons f fs =>
      rw [hl] at this
      simp only [this]
  cases c with
  | empty => simp only [gen]
  | null => simp only [gen]
  | boolean d => simp only [gen]
  | string d => simp only [gen]
  | number d => simp only [gen]
  | integer d => simp only [gen]
  | enum d => simp only [gen]
  | ref m n => simp only [gen]
  | any l => simp only [gen]; rw [hcombo (fun d hd => .any hd)]
  | all l => simp only [gen]; rw [hcombo (fun d hd => .all hd)]
  | oneOf l => simp only [gen]; rw [hcombo (fun d hd => .oneOf hd)]
  | not d =>
    simp only [gen]
    cases d with
    | none => rfl
    | some d =>
      simp only [genOpt, genNot]
      rw [ih' d .not (σ.sub 0) (σ'.sub 0)]
  | array a =>
    obtain ⟨i, p, ad, mn, mx, u⟩ := a
    simp only [gen, genArr, genArray]
    rw [genSub_indep (hopt (fun d hd => .array (.items hd))) (σ.sub 0) (σ'.sub 0),
      genSub_indep (hopt (fun d hd => .array (.additional hd))) (σ.sub 1) (σ'.sub 1),
      genPositional_indep _ 0 (hlist (fun d hd => .array (.positional hd))) (σ.sub 2) (σ'.sub 2)]
  | object o =>
    obtain ⟨ps, pats, ad, req, pd, sd, mn, mx⟩ := o
    simp only [gen]
    rw [genObject_indep _ _ _ _ σ σ']
    · simpa [genObj, genPats_eq, List.map_map, Function.comp_def, Constraint.DistinctPats] using hl
    · intro p hp
      simp only [genObj, genProps_eq, List.mem_map] at hp
      obtain ⟨q, hq, rfl⟩ := hp
      exact ih' q.2 (.object (.prop hq))
    · intro p hp
      simp only [genObj, genPats_eq, List.mem_map] at hp
      obtain ⟨q, hq, rfl⟩ := hp
      exact ih' q.2.2 (.object (.pattern hq))
    · intro f hf
      exact hopt (fun d hd => .object (.additional hd)) f hf

/-! ## `Process` -/

theorem alookup_append {β : Type} (k : GoStr) : ∀ (l l' : List (GoStr × β)), alookup k (l ++ l') = (alookup k l).or (alookup k l')
  | [], l' => by simp [alookup]
  | (k', v) :: l, l' => by
    rw [List.cons_append, alookup, alookup]
    by_cases h : k' = k
    · rw [if_pos h, if_pos h]; rfl
    · rw [if_neg h, if_neg h, alookup_append k l l']

theorem mergeRefs_lookup (k : GoStr) : ∀ (l refs : List (GoStr × Constraint)), alookup k (mergeRefs refs l) = (alookup k refs).or (alookup k l)
  | [], refs => by simp [mergeRefs, alookup]
  | (n, c) :: l, refs => by
    rw [mergeRefs]
    by_cases h : (alookup n refs).isSome
    · rw [if_pos h, mergeRefs_lookup k l, alookup]
      by_cases hk : n = k
      · subst hk
        obtain ⟨d, hd⟩ := Option.isSome_iff_exists.1 h
        simp [hd]
      · rw [if_neg hk]
    · rw [if_neg h, mergeRefs_lookup k l, alookup_append, Option.or_assoc]
      congr 1
      by_cases hk : n = k
      · simp [hk, alookup]
      · simp [hk, alookup]

theorem mergeRefs_nodup : ∀ (l refs : List (GoStr × Constraint)), (refs.map (·.1)).Nodup → ((mergeRefs refs l).map (·.1)).Nodup
  | [], refs, h => h
  | (n, c) :: l, refs, h => by
    rw [mergeRefs]
    by_cases hn : (alookup n refs).isSome
    · rw [if_pos hn]; exact mergeRefs_nodup l refs h
    · rw [if_neg hn]
      apply mergeRefs_nodup l
      rw [List.map_append, List.nodup_append]
      refine ⟨h, by simp, ?_⟩
      rintro a ha b hb rfl
      simp only [List.map_cons, List.map_nil, List.mem_singleton] at hb
      subst hb
      apply hn
      obtain ⟨v, hv⟩ := alookup_isSome.2 ha
      rw [hv]; rfl

theorem mergeAll_lookup (σ : Sched) (k : GoStr) : ∀ (vals : List GenVal) (i : Nat) (refs : List (GoStr × Constraint)),
    (∀ v ∈ vals, (v.refs.map (·.1)).Nodup) → alookup k (mergeAll σ i vals refs) = (alookup k refs).or (firstRef k vals)
  | [], _, refs, _ => by simp [mergeAll, firstRef]
  | v :: vals, i, refs, h => by
    rw [mergeAll, mergeAll_lookup σ k vals (i + 1) _ (fun w hw => h w (List.mem_cons_of_mem _ hw)), mergeRefs_lookup, Option.or_assoc]
    rw [alookup_perm (shuffle_perm v.refs (σ.sub i).key) ((((shuffle_perm v.refs (σ.sub i).key)).map _).nodup_iff.2 (h v (List.mem_cons_self ..)))]
    simp only [firstRef, List.findSome?_cons]
    cases alookup k v.refs <;> simp

theorem mergeAll_nodup (σ : Sched) : ∀ (vals : List GenVal) (i : Nat) (refs : List (GoStr × Constraint)),
    (refs.map (·.1)).Nodup → ((mergeAll σ i vals refs).map (·.1)).Nodup
  | [], _, _, h => h
  | v :: vals, i, refs, h => mergeAll_nodup σ vals (i + 1) _ (mergeRefs_nodup _ _ h)

/-- The merged table. -/
theorem merged_lookup {vals : List GenVal} (h : ∀ v ∈ vals, (v.refs.map (·.1)).Nodup) (σ : Sched) (k : GoStr) :
    alookup k (mergeAll σ 0 vals []) = firstRef k vals := by
  rw [mergeAll_lookup σ k vals 0 [] h]; simp [alookup]

theorem perm_of_lookup {β : Type} {l l' : List (GoStr × β)} (h1 : (l.map (·.1)).Nodup) (h2 : (l'.map (·.1)).Nodup)
    (h : ∀ k, alookup k l = alookup k l') : l.Perm l' := by
  have n1 : l.Nodup := List.Nodup.of_map _ h1
  have n2 : l'.Nodup := List.Nodup.of_map _ h2
  rw [List.perm_ext_iff_of_nodup n1 n2]
  rintro ⟨k, v⟩
  rw [← alookup_iff_mem h1, ← alookup_iff_mem h2, h]

theorem merged_perm {vals : List GenVal} (h : ∀ v ∈ vals, (v.refs.map (·.1)).Nodup) (σ σ' : Sched) :
    (mergeAll σ 0 vals []).Perm (mergeAll σ' 0 vals []) :=
  perm_of_lookup (mergeAll_nodup σ vals 0 [] (by simp)) (mergeAll_nodup σ' vals 0 [] (by simp))
    (fun k => by rw [merged_lookup h, merged_lookup h])

/-- At most one match: the search does not depend on the order. -/
theorem find_perm {α : Type} {p : α → Bool} {l l' : List α} (hp : l.Perm l') (h : ∀ a ∈ l, ∀ b ∈ l, p a = true → p b = true → a = b) :
    l.find? p = l'.find? p := by
  cases h1 : l.find? p with
  | none =>
    rw [List.find?_eq_none] at h1
    symm
    rw [List.find?_eq_none]
    exact fun x hx => h1 x (hp.mem_iff.2 hx)
  | some a =>
    have ha := List.find?_some h1
    have ham := List.mem_of_find?_eq_some h1
    cases h2 : l'.find? p with
    | none =>
      rw [List.find?_eq_none] at h2
      exact absurd ha (h2 a (hp.mem_iff.1 ham))
    | some b =>
      have hb := List.find?_some h2
      have hbm := hp.mem_iff.2 (List.mem_of_find?_eq_some h2)
      rw [h a ham b hbm ha hb]

theorem mem_nameVals : ∀ {vals : List GenVal} {i : Nat} {w : GenVal}, w ∈ nameVals i vals →
    ∃ v ∈ vals, w.refs = v.refs ∧ w.root = v.root ∧ w.same = v.same
  | [], _, _, h => by simp [nameVals] at h
  | v :: vals, i, w, h => by
    rw [nameVals, List.mem_cons] at h
    rcases h with h | h
    · refine ⟨v, List.mem_cons_self .., ?_⟩
      subst h
      by_cases hv : v.name = []
      · rw [if_pos hv]; exact ⟨rfl, rfl, rfl⟩
      · rw [if_neg hv]; exact ⟨rfl, rfl, rfl⟩
    · obtain ⟨u, hu, h⟩ := mem_nameVals h
      exact ⟨u, List.mem_cons_of_mem _ hu, h⟩

theorem mem_sortVals {vals : List GenVal} {v : GenVal} : v ∈ sortVals vals ↔ v ∈ vals := (List.perm_insertionSort _ vals).mem_iff

theorem genRefAssign_indep {isPrint : Nat → Bool} {cm : GoStr} {refs refs' : List (GoStr × Constraint)}
    (hl : ∀ k, alookup k refs = alookup k refs') (hd : ∀ k c, alookup k refs = some c → c.Every Constraint.DistinctPats) (σ σ' : Sched) :
    ∀ (vars : List (GoStr × GoStr)) (i : Nat), genRefAssign isPrint cm refs σ i vars = genRefAssign isPrint cm refs' σ' i vars
  | [], _ => rfl
  | (n, var) :: l, i => by
    rw [genRefAssign, genRefAssign, genRefAssign_indep hl hd σ σ' l (i + 1), ← hl n]
    cases h : alookup n refs with
    | none => rfl
    | some c =>
      simp only
      rw [gen_indep c (hd n c h) (σ.sub i) (σ'.sub i)]

theorem genValAssign_indep {isPrint : Nat → Bool} {cm : GoStr} {refs refs' : List (GoStr × Constraint)} {vars : List (GoStr × GoStr)}
    (hp : refs.Perm refs') (σ σ' : Sched) : ∀ (l : List GenVal) (i : Nat),
    (∀ v ∈ l, (∀ c, v.root = some c → c.Every Constraint.DistinctPats) ∧
      ∀ r ∈ refs, ∀ r' ∈ refs, v.same r.1 = true → v.same r'.1 = true → r = r') →
    genValAssign isPrint cm refs vars σ i l = genValAssign isPrint cm refs' vars σ' i l
  | [], _, _ => rfl
  | v :: l, i, h => by
    rw [genValAssign, genValAssign, genValAssign_indep hp σ σ' l (i + 1) (fun w hw => h w (List.mem_cons_of_mem _ hw))]
    congr 3
    obtain ⟨h1, h2⟩ := h v (List.mem_cons_self ..)
    unfold genValidator
    have hf : (shuffle ((σ.sub i).sub 0).key refs).find? (fun r => v.same r.1) =
        (shuffle ((σ'.sub i).sub 0).key refs').find? (fun r => v.same r.1) := by
      refine find_perm ((shuffle_perm refs _).trans (hp.trans (shuffle_perm refs' _).symm)) ?_
      intro a ha b hb
      exact h2 a (mem_shuffle.1 ha) b (mem_shuffle.1 hb)
    rw [hf]
    cases hr : v.root with
    | none => rfl
    | some c =>
      simp only
      rw [gen_indep c (h1 c hr) ((σ.sub i).sub 1) ((σ'.sub i).sub 1)]

end Jsval
