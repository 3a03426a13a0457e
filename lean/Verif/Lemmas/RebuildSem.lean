import Verif.Lemmas.RebuildSim
import Verif.Lemmas.Induct
import Verif.Lemmas.Basic
import Verif.Spec.GenProg
/-!
# Rebuilt constraint trees behave like the originals
-/
namespace Jsval

/-! ## Tables in the order of their names -/

theorem rowsOf_keys {C : Type} : ∀ (tbl : List (GoStr × C)), (tbl.map (·.1)).Nodup → rowsOf tbl (tbl.map (·.1)) = tbl := by
  intro tbl hn
  have key : ∀ l : List (GoStr × C), (∀ p ∈ l, p ∈ tbl) → rowsOf tbl (l.map (·.1)) = l := by
    intro l
    induction l with
    | nil => intro _; rfl
    | cons p l ih =>
      intro h
      have hp : alookup p.1 tbl = some p.2 := alookup_of_mem hn (h p (List.mem_cons_self ..))
      have := ih (fun q hq => h q (List.mem_cons_of_mem _ hq))
      unfold rowsOf at this ⊢
      rw [List.map_cons, List.filterMap_cons, hp]
      simp only [Option.map_some]
      rw [this]
  exact key tbl (fun _ h => h)

theorem sortedRows_perm {C : Type} {tbl : List (GoStr × C)} (hn : (tbl.map (·.1)).Nodup) : (sortedRows tbl).Perm tbl := by
  have h := (sortStrings_perm (tbl.map (·.1))).filterMap (fun n => (alookup n tbl).map (fun c => (n, c)))
  have e : List.filterMap (fun n => (alookup n tbl).map (fun c => (n, c))) (tbl.map (·.1)) = tbl := rowsOf_keys tbl hn
  rw [e] at h
  exact h

theorem ainsert_fresh {C : Type} {k : GoStr} {c : C} : ∀ {l : List (GoStr × C)}, k ∉ l.map (·.1) → ainsert k c l = l ++ [(k, c)]
  | [], _ => rfl
  | (k', c') :: l, h => by
    rw [List.map_cons, List.mem_cons, not_or] at h
    rw [ainsert, if_neg (fun e => h.1 e.symm), ainsert_fresh h.2]
    rfl

theorem foldAddProp {C : Type} : ∀ (rows : List (GoStr × C)) (o : ObjC C), ((o.props ++ rows).map (·.1)).Nodup →
    rows.foldl (fun x p => x.AddProp p.1 p.2) o = { o with props := o.props ++ rows }
  | [], o, _ => by simp
  | (k, c) :: rows, o, h => by
    have hk : k ∉ o.props.map (·.1) := by
      rw [List.map_append, List.nodup_append] at h
      intro hk
      exact h.2.2 k hk k (by simp) rfl
    rw [List.foldl_cons, foldAddProp rows]
    · simp [ObjC.AddProp, ainsert_fresh hk]
    · simpa [ObjC.AddProp, ainsert_fresh hk] using h

theorem patInsert_fresh {C : Type} {i : Nat} {s : GoStr} {c : C} : ∀ {l : List (Nat × GoStr × C)}, i ∉ l.map (·.1) →
    patInsert i s c l = l ++ [(i, s, c)]
  | [], _ => rfl
  | (i', s', c') :: l, h => by
    rw [List.map_cons, List.mem_cons, not_or] at h
    rw [patInsert, if_neg (fun e => h.1 e.symm), patInsert_fresh h.2]
    rfl

theorem foldPattern {C : Type} : ∀ (rows : List (GoStr × C)) (o : ObjC C), (∀ i ∈ o.patterns.map (·.1), i < o.patterns.length) →
    ∃ l, rows.foldl (fun x p => x.PatternProperties x.patterns.length p.1 p.2) o = { o with patterns := l } ∧
      l.map (·.2) = o.patterns.map (·.2) ++ rows
  | [], o, _ => ⟨o.patterns, by simp⟩
  | (k, c) :: rows, o, h => by
    have hk : o.patterns.length ∉ o.patterns.map (·.1) := fun hk => absurd (h _ hk) (by omega)
    have he : (o.PatternProperties o.patterns.length k c) = { o with patterns := o.patterns ++ [(o.patterns.length, k, c)] } := by
      simp [ObjC.PatternProperties, patInsert_fresh hk]
    obtain ⟨l, h1, h2⟩ := foldPattern rows (o.PatternProperties o.patterns.length k c) (by
      rw [he]
      simp only [List.map_append, List.mem_append, List.length_append, List.map_cons, List.map_nil, List.length_cons, List.length_nil]
      rintro i (hi | hi)
      · have := h i hi; omega
      · simp at hi; omega)
    refine ⟨l, ?_, ?_⟩
    · rw [List.foldl_cons]
      simp only
      rw [h1, he]
    · rw [h2, he]; simp

theorem getPropDeps_add {C : Type} (o : ObjC C) (k d n : GoStr) :
    (o.PropDependency k [d]).GetPropDependencies n = o.GetPropDependencies n ++ (if k = n then [d] else []) := by
  unfold ObjC.PropDependency
  conv_lhs => unfold ObjC.GetPropDependencies
  simp only [alookup_ainsert]
  by_cases h : n = k
  · subst h; simp [ObjC.GetPropDependencies]
  · rw [if_neg h, if_neg (Ne.symm h)]
    simp [ObjC.GetPropDependencies]

theorem foldDeps {C : Type} : ∀ (ps : List (GoStr × GoStr)) (o : ObjC C), ∃ l,
    ps.foldl (fun x p => x.PropDependency p.1 [p.2]) o = { o with propdeps := l } ∧
    ∀ n, (ps.foldl (fun x p => x.PropDependency p.1 [p.2]) o).GetPropDependencies n =
      o.GetPropDependencies n ++ ps.filterMap (fun p => if p.1 = n then some p.2 else none)
  | [], o => ⟨o.propdeps, rfl, fun n => by simp⟩
  | (k, d) :: ps, o => by
    obtain ⟨l, h1, h2⟩ := foldDeps ps (o.PropDependency k [d])
    refine ⟨l, ?_, fun n => ?_⟩
    · rw [List.foldl_cons, h1]; rfl
    · rw [List.foldl_cons, h2, getPropDeps_add, List.filterMap_cons]
      by_cases h : k = n
      · simp [h]
      · simp [h]

theorem depPairs_of (deps : List (GoStr × List GoStr)) (n : GoStr) : ∀ (keys : List GoStr), keys.Nodup →
    (keys.flatMap (fun k => ((alookup k deps).getD []).map (fun d => (k, d)))).filterMap (fun p => if p.1 = n then some p.2 else none) =
      if n ∈ keys then (alookup n deps).getD [] else []
  | [], _ => by simp
  | k :: keys, h => by
    rw [List.nodup_cons] at h
    rw [List.flatMap_cons, List.filterMap_append, depPairs_of deps n keys h.2, List.filterMap_map]
    by_cases hk : k = n
    · subst hk
      have : List.filterMap ((fun p : GoStr × GoStr => if p.1 = k then some p.2 else none) ∘ (fun d => (k, d))) ((alookup k deps).getD []) =
          (alookup k deps).getD [] := by
        simp [Function.comp_def]
      rw [this, if_neg h.1]
      simp
    · have : List.filterMap ((fun p : GoStr × GoStr => if p.1 = n then some p.2 else none) ∘ (fun d => (k, d))) ((alookup k deps).getD []) = [] := by
        simp [Function.comp_def, hk]
      rw [this]
      simp [Ne.symm hk]

theorem mem_foldAddName {n : GoStr} : ∀ (l acc : List GoStr), n ∈ l.foldl (fun acc p => addName p acc) acc ↔ n ∈ acc ∨ n ∈ l
  | [], acc => by simp
  | a :: l, acc => by
    rw [List.foldl_cons, mem_foldAddName l]
    unfold addName
    by_cases h : a ∈ acc
    · rw [if_pos h, List.mem_cons]
      constructor
      · rintro (h | h)
        · exact .inl h
        · exact .inr (.inr h)
      · rintro (h1 | rfl | h1)
        · exact .inl h1
        · exact .inl h
        · exact .inr h1
    · rw [if_neg h, List.mem_append, List.mem_singleton, List.mem_cons, or_assoc]

/-- What `rebuildObj` makes of an object constraint. -/
structure ObjRebuilt {C : Type} (o o' : ObjC C) : Prop where
  props : o'.props.Perm o.props
  patterns : (o'.patterns.map (·.2)).Perm (o.patterns.map (·.2))
  additional : o'.additional = o.additional
  required : ∀ n, n ∈ o'.required ↔ n ∈ o.required
  propdeps : ∀ n, o'.GetPropDependencies n = o.GetPropDependencies n
  schemadeps : o'.schemadeps = []
  minProps : o'.minProps = -1
  maxProps : o'.maxProps = -1

theorem rebuildObj_rebuilt {o : ObjC Constraint} (h1 : (o.props.map (·.1)).Nodup) (h2 : (o.patterns.map (·.2.1)).Nodup)
    (h3 : (o.propdeps.map (·.1)).Nodup) : ObjRebuilt o (rebuildObj o) := by
  let o1 := Object'.Required (sortStrings o.required)
  let o2 : ObjC Constraint := match o.additional with | none => o1 | some c => o1.AdditionalProperties (some c)
  have e2 : o2 = { o1 with additional := o.additional } := by
    show (match o.additional with | none => o1 | some c => o1.AdditionalProperties (some c)) = _
    cases o.additional <;> rfl
  have e3 : (sortedRows o.props).foldl (fun x p => x.AddProp p.1 p.2) o2 = { o2 with props := sortedRows o.props } := by
    rw [foldAddProp]
    · rw [e2]; simp [o1, ObjC.Required, Object']
    · rw [e2]
      simp only [o1, ObjC.Required, Object', List.nil_append]
      exact ((sortedRows_perm h1).map _).nodup_iff.2 h1
  obtain ⟨l, e4, e4'⟩ := foldPattern (sortedRows (o.patterns.map (·.2))) { o2 with props := sortedRows o.props } (by
    rw [e2]; simp [o1, ObjC.Required, Object'])
  obtain ⟨d, e5, e5'⟩ := foldDeps (depPairs o.propdeps) { o2 with props := sortedRows o.props, patterns := l }
  have e : rebuildObj o = { o2 with props := sortedRows o.props, patterns := l, propdeps := d } := by
    show (depPairs o.propdeps).foldl _ ((sortedRows (o.patterns.map (·.2))).foldl _ ((sortedRows o.props).foldl _ o2)) = _
    rw [e3, e4, e5]
  rw [e5] at e5'
  have h2' : ((o.patterns.map (·.2)).map (·.1)).Nodup := by rw [List.map_map]; exact h2
  constructor
  · rw [e]; exact sortedRows_perm h1
  · rw [e]
    show (l.map (·.2)).Perm _
    rw [e4', e2]
    simp only [o1, ObjC.Required, Object', List.map_nil, List.nil_append]
    exact sortedRows_perm h2'
  · rw [e, e2]
  · intro n
    rw [e, e2]
    simp only [o1, ObjC.Required, Object', mem_foldAddName, List.not_mem_nil, false_or, mem_sortStrings]
  · intro n
    rw [e]
    rw [e5', depPairs, depPairs_of _ _ _ ((sortStrings_perm _).nodup_iff.2 h3), e2]
    simp only [ObjC.GetPropDependencies, o1, ObjC.Required, Object', alookup, Option.getD_none, List.nil_append, mem_sortStrings]
    by_cases hn : n ∈ o.propdeps.map (·.1)
    · rw [if_pos hn]
    · rw [if_neg hn, alookup_eq_none.2 hn]; rfl
  · rw [e, e2]; rfl
  · rw [e, e2]; rfl
  · rw [e, e2]; rfl

/-! ## The whole tree -/

theorem strCheck_rebuild (ext : Ext) (c : StrC) (v : GoVal) : strCheck ext c v = strCheck ext (rebuildStr c) v := by
  have h1 : ∀ s, maxLenCheck (rebuildStr c) s = maxLenCheck c s := by
    intro s
    unfold maxLenCheck rebuildStr
    by_cases h : c.maxLength > -1
    · simp only [if_pos h]
    · simp only [if_neg h, h, false_and, if_false]; simp
  have h2 : ∀ s, minLenCheck (rebuildStr c) s = minLenCheck c s := by
    intro s
    unfold minLenCheck rebuildStr
    by_cases h : c.minLength > 0
    · simp only [if_pos h]
    · simp only [if_neg h]
      rw [if_neg, if_neg] <;> omega
  unfold strCheck strCheckS
  simp only [h1, h2]
  rfl

theorem listSim_map {f g : Constraint → Sem} : ∀ {l : List Constraint}, (∀ c ∈ l, Sim (f c) (g c)) → ListSim (l.map f) (l.map g)
  | [], _ => .nil
  | c :: l, h => .cons (h c (List.mem_cons_self ..)) (listSim_map (fun d hd => h d (List.mem_cons_of_mem _ hd)))

theorem optSim_map {f g : Constraint → Sem} {o : Option Constraint} (h : ∀ c, o = some c → Sim (f c) (g c)) :
    OptSim (o.map f) (o.map g) := by
  cases o with
  | none => exact .none
  | some c => exact .some (h c rfl)

theorem Sem.eta_none (s : Sem) (h : s.dflt = .none) : s = ⟨.none, s.val⟩ := by
  cases s; cases h; rfl

/-- The table of the original and the permuted table of the rebuilt constraint. -/
theorem tblSim_of {f g : Constraint → Sem} {l : List (GoStr × Constraint)} {l' : List (GoStr × Sem)}
    (hp : l'.Perm (l.map (fun p => (p.1, g p.2)))) (h : ∀ p ∈ l, Sim (f p.2) (g p.2)) : TblSim (l.map (fun p => (p.1, f p.2))) l' := by
  refine ⟨l.map (fun p => (p.1, f p.2, g p.2)), ?_, ?_, ?_⟩
  · rw [List.map_map]; exact List.Perm.refl _
  · rw [List.map_map]; exact hp
  · intro x hx
    rw [List.mem_map] at hx
    obtain ⟨p, hp, rfl⟩ := hx
    exact h p hp

/-- Rebuilding this constraint, after its sub-constraints, keeps its behaviour. -/
def Constraint.Stays (refs : Bool) : Constraint → Prop
  | .boolean _ | .string _ | .number _ | .any _ | .oneOf _ => True
  | .integer c => rebuildInt c = c
  | c => c.Gen refs

theorem Constraint.Gen.stays {refs : Bool} {c : Constraint} (h : c.Gen refs) : c.Stays refs := by
  cases c with
  | boolean | string | number | any | oneOf => trivial
  | integer c =>
    show rebuildInt c = c
    cases hd : c.dflt with
    | none => cases c; simp only at hd; subst hd; rfl
    | some v => exact absurd (h.dflt v hd).1 id
  | _ => exact h

/-- **The rebuilt tree behaves like the original**, given that the references do. -/
theorem rebuild_sim {ext : Ext} {ρ ρ' : RefSem} {m0 m : Nat} {S : GoStr → Prop} (hρ : ∀ n, S n → Sim (ρ m0 n) (ρ' m n)) {refs : Bool} :
    ∀ c, c.Every (Constraint.Stays refs) → c.Every (Constraint.RefsTo m0 S) → Sim (denote ext ρ c) (denote ext ρ' (rebuild m c)) := by
  intro c
  induction c using Constraint.ind with
  | h c ih =>
  intro hg hr
  have ih' : ∀ d, c.Child d → Sim (denote ext ρ d) (denote ext ρ' (rebuild m d)) := fun d hd => ih d hd (hg.child hd) (hr.child hd)
  have hl := hg.self
  cases c with
  | empty => simp only [rebuild, denote]; exact Sim.refl _
  | null => simp only [rebuild, denote]; exact Sim.refl _
  | boolean d => simp only [rebuild, denote]; exact Sim.refl _
  | number c => simp only [rebuild, denote]; exact Sim.refl _
  | integer c => simp only [rebuild, denote]; rw [show rebuildInt c = c from hl]; exact Sim.refl _
  | string c => simp only [rebuild, denote]; exact Sim.pure rfl (strCheck_rebuild ext c)
  | enum l => exact hl.elim
  | not c => exact hl.elim
  | ref m1 n =>
    obtain ⟨rfl, hS⟩ := hr.self m1 n rfl
    simp only [rebuild, denote]
    exact hρ n hS
  | any l =>
    simp only [rebuild, denote, rebuildList_eq, denoteList_eq, List.map_map]
    exact any_sim (listSim_map (fun c hc => ih' c (.any hc)))
  | all l =>
    cases l with
    | nil => simp only [rebuild, denote, denoteList]; exact Sim.refl _
    | cons c l =>
      have e : rebuild m (.all (c :: l)) = .all ((c :: l).map (rebuild m)) := by simp [rebuild, rebuildList_eq]
      rw [e]
      simp only [denote, denoteList_eq, List.map_map]
      exact all_sim (listSim_map (fun c hc => ih' c (.all hc)))
  | oneOf l =>
    simp only [rebuild, denote, rebuildList_eq, denoteList_eq, List.map_map]
    exact oneOf_sim (listSim_map (fun c hc => ih' c (.oneOf hc)))
  | array a =>
    rw [rebuild_array]
    simp only [denote, denoteArr_eq]
    apply array_sim
    obtain ⟨i, p, ad, mn, mx, u⟩ := a
    simp only [ArrC.map, rebuildArr, Option.map_map]
    constructor
    · exact optSim_map (fun c hc => ih' c (.array (.items hc)))
    · simp only [List.map_map]
      exact listSim_map (fun c hc => ih' c (.array (.positional hc)))
    · simp only
      rcases hl with h | h | h
      · left
        obtain ⟨c, rfl⟩ := Option.ne_none_iff_exists'.1 h
        exact .some (ih' c (.array (.additional rfl)))
      · right; left
        simp only at h
        subst h
        exact ⟨rfl, rfl⟩
      · right; right
        obtain ⟨c, rfl⟩ := Option.ne_none_iff_exists'.1 h
        exact ⟨by simp, by simp⟩
    · by_cases h : mn > -1
      · simp [if_pos h]
      · simp [if_neg h]; omega
    · by_cases h : mx > -1
      · simp [if_pos h]
      · simp [if_neg h]; omega
    · rfl
  | object o =>
    rw [rebuild_object]
    simp only [denote, denoteObj_eq]
    apply object_sim
    have hk1 : ((o.map (rebuild m)).props.map (·.1)).Nodup := by simpa [ObjC.map, List.map_map, Function.comp_def] using hl.propNames
    have hk2 : ((o.map (rebuild m)).patterns.map (·.2.1)).Nodup := by simpa [ObjC.map, List.map_map, Function.comp_def] using hl.patSources
    have hR := rebuildObj_rebuilt hk1 hk2 (by simpa [ObjC.map] using hl.depNames)
    set o' := rebuildObj (o.map (rebuild m)) with ho'
    constructor
    · refine tblSim_of (f := denote ext ρ) (g := fun c => denote ext ρ' (rebuild m c)) ?_ (fun p hp => ih' p.2 (.object (.prop hp)))
      have := hR.props.map (fun p => (p.1, denote ext ρ' p.2))
      simpa [ObjC.map, List.map_map, Function.comp_def] using this
    · show TblSim ((o.patterns.map (fun p => (p.1, p.2.1, denote ext ρ p.2.2))).map (·.2)) ((o'.patterns.map (fun p => (p.1, p.2.1, denote ext ρ' p.2.2))).map (·.2))
      have e : (o.patterns.map (fun p => (p.1, p.2.1, denote ext ρ p.2.2))).map (·.2) =
          (o.patterns.map (·.2)).map (fun p => (p.1, denote ext ρ p.2)) := by simp [List.map_map, Function.comp_def]
      rw [e]
      refine tblSim_of (f := denote ext ρ) (g := fun c => denote ext ρ' (rebuild m c)) ?_ ?_
      · have := hR.patterns.map (fun p => (p.1, denote ext ρ' p.2))
        simpa [ObjC.map, List.map_map, Function.comp_def] using this
      · intro p hp
        rw [List.mem_map] at hp
        obtain ⟨q, hq, rfl⟩ := hp
        exact ih' q.2.2 (.object (.pattern hq))
    · show OptSim (o.additional.map _) (o'.additional.map _)
      rw [hR.additional]
      simp only [ObjC.map, Option.map_map]
      exact optSim_map (fun c hc => ih' c (.object (.additional hc)))
    · intro n
      exact (hR.required n).symm
    · intro n
      exact (hR.propdeps n).symm
    · have h1 : o.schemadeps = [] := hl.schemadeps
      have h2 := hR.schemadeps
      simp [ObjC.map, h1, h2]
    · have h1 : o.minProps < 0 := hl.minProps
      have h2 := hR.minProps
      exact ⟨h1, by show o'.minProps < 0; omega⟩
    · have h1 : o.maxProps < 0 := hl.maxProps
      have h2 := hR.maxProps
      exact ⟨h1, by show o'.maxProps < 0; omega⟩

/-- Against corresponding maps, every run of the one is a run of the other. -/
theorem rebuild_refSem {ext : Ext} {env env' : Env} {m0 m : Nat} {S : GoStr → Prop} {refs : Bool}
    (he : ∀ n, S n → env' m n = (env m0 n).map (rebuild m))
    (hg : ∀ n c, S n → env m0 n = some c → c.Every (Constraint.Stays refs) ∧ c.Every (Constraint.RefsTo m0 S)) :
    ∀ fuel n, S n → Sim (refSem ext env fuel m0 n) (refSem ext env' fuel m n)
  | 0, n, _ => Sim.refl _
  | k + 1, n, hS => by
    simp only [refSem, he n hS]
    cases h : env m0 n with
    | none => exact Sim.refl _
    | some c => exact rebuild_sim (rebuild_refSem he hg k) c (hg n c hS h).1 (hg n c hS h).2

theorem rebuild_returns {ext : Ext} {env env' : Env} {m0 m : Nat} {S : GoStr → Prop} {refs : Bool}
    (he : ∀ n, S n → env' m n = (env m0 n).map (rebuild m))
    (hg : ∀ n c, S n → env m0 n = some c → c.Every (Constraint.Stays refs) ∧ c.Every (Constraint.RefsTo m0 S))
    {c : Constraint} (h1 : c.Every (Constraint.Stays refs)) (h2 : c.Every (Constraint.RefsTo m0 S)) (v : GoVal) (r : Res) (v' : GoVal) :
    (∃ σ, Returns ext env' (rebuild m c) σ v r v') ↔ ∃ σ, Returns ext env c σ v r v' := by
  have hs : ∀ fuel, Sim (sem ext env fuel c) (sem ext env' fuel (rebuild m c)) := fun fuel =>
    rebuild_sim (rebuild_refSem he hg fuel) c h1 h2
  constructor
  · rintro ⟨σ, h0, fuel, h⟩
    obtain ⟨τ, hτ⟩ := (hs fuel).bwd σ
    exact ⟨τ, h0, fuel, (hτ v).trans h⟩
  · rintro ⟨σ, h0, fuel, h⟩
    obtain ⟨τ, hτ⟩ := (hs fuel).fwd σ
    exact ⟨τ, h0, fuel, (hτ v).trans h⟩

end Jsval
