import Verif.Lemmas.OrderDefaults
/-!
# Constraints that fill nothing in change nothing
-/
namespace Jsval

theorem anyLoop_same : ∀ (cs : List Sem) (i : Nat) σ v, (∀ d ∈ cs, d.ReadOnly) → (anyLoop i cs σ v).2 = v
  | [], _, _, _, _ => rfl
  | d :: cs, i, σ, v, h => by
    have h1 := h d (by simp) v (σ.sub i)
    simp only [anyLoop]
    rcases e : d.val (σ.sub i) v with ⟨r, u⟩
    rw [e] at h1
    simp only at h1; subst h1
    cases r with
    | ok => rfl
    | err e => exact anyLoop_same cs (i + 1) σ u (fun d hd => h d (by simp [hd]))
    | abort a => rfl

theorem allLoop_same : ∀ (cs : List Sem) (i : Nat) σ v, (∀ d ∈ cs, d.ReadOnly) → (allLoop i cs σ v).2 = v
  | [], _, _, _, _ => rfl
  | d :: cs, i, σ, v, h => by
    have h1 := h d (by simp) v (σ.sub i)
    simp only [allLoop]
    rcases e : d.val (σ.sub i) v with ⟨r, u⟩
    rw [e] at h1
    simp only at h1; subst h1
    cases r with
    | ok => exact allLoop_same cs (i + 1) σ u (fun d hd => h d (by simp [hd]))
    | err e => rfl
    | abort a => rfl

theorem oneOfLoop_same : ∀ (cs : List Sem) (i n : Nat) σ v, (∀ d ∈ cs, d.ReadOnly) → (oneOfLoop i n cs σ v).2 = v
  | [], _, n, _, _, _ => by simp only [oneOfLoop]; split <;> [skip; split] <;> rfl
  | d :: cs, i, n, σ, v, h => by
    have h1 := h d (by simp) v (σ.sub i)
    simp only [oneOfLoop]
    rcases e : d.val (σ.sub i) v with ⟨r, u⟩
    rw [e] at h1
    simp only at h1; subst h1
    cases r with
    | ok => exact oneOfLoop_same cs (i + 1) _ σ u (fun d hd => h d (by simp [hd]))
    | err e => exact oneOfLoop_same cs (i + 1) _ σ u (fun d hd => h d (by simp [hd]))
    | abort a => rfl

theorem notV_same (c : Option Sem) (σ v) (h : ∀ d, c = some d → d.ReadOnly) : (notV c σ v).2 = v := by
  cases c with
  | none => rfl
  | some d =>
    have h1 := h d rfl v (σ.sub 0)
    simp only [notV]
    rcases e : d.val (σ.sub 0) v with ⟨r, u⟩
    rw [e] at h1
    simp only at h1; subst h1
    cases r <;> rfl

theorem runPos_length {σ : Sched} : ∀ (cs : List Sem) (xs : List GoVal) (i : Nat), (runPos σ i cs xs).2.length = xs.length
  | [], _, _ => rfl
  | _ :: _, [], _ => rfl
  | c :: cs, x :: xs, i => by
    have ih := runPos_length (σ := σ) cs xs (i + 1)
    simp only [runPos]
    rcases e1 : c.val (σ.sub i) x with ⟨r1, x'⟩
    cases r1 <;> simp [ih]

theorem arrayElems_same {a : ArrC Sem} (hc : ∀ c, a.Child c → c.ReadOnly) {σ : Sched} {xs : List GoVal} :
    (arrayElems a σ xs).2 = xs := by
  obtain ⟨items, pos, add, mn, mx, u⟩ := a
  unfold arrayElems
  simp only
  cases items with
  | some c => exact runItems_same (hc c (.items rfl)) xs 0
  | none =>
    simp only
    have h1 := runPos_same (σ := σ.sub 1) pos xs 0 (fun c h => hc c (.positional h))
    rcases e1 : runPos (σ.sub 1) 0 pos xs with ⟨r1, y1⟩
    rw [e1] at h1
    simp only at h1; subst h1
    cases r1 with
    | err a => rfl
    | abort a => rfl
    | ok =>
      simp only [runAdditional]
      split
      · cases add with
        | none => rfl
        | some c =>
          simp only
          rw [runItems_same (hc c (.additional rfl)), List.take_append_drop]
      · rfl

theorem arrayV_same {ext : Ext} {a : ArrC Sem} (hc : ∀ c, a.Child c → c.ReadOnly) (σ : Sched) (v : GoVal) :
    (arrayV ext a σ v).2 = v := by
  unfold arrayV
  split
  · rename_i n xs hv
    split
    · rfl
    · split
      · rfl
      · split
        · rfl
        · simp only [arrayElems_same hc]
          cases v <;> simp [valueOf] at hv
          · rw [hv.1, hv.2]
  · rfl

theorem seqSt_same {r : Res × ObjSt} {k : ObjSt → Res × ObjSt} {v : GoVal} (h : r.2.v = v) (hk : ∀ st, st.v = v → (k st).2.v = v) :
    (seqSt r k).2.v = v := by
  rcases r with ⟨r, st⟩
  cases r with
  | ok => exact hk st h
  | err e => exact h
  | abort a => exact h

theorem objectV_same {ext : Ext} {o : ObjC Sem} (hc : ∀ c, o.Child c → c.ReadOnly)
    (hd : ∀ p c, (p, c) ∈ o.props → ∀ dv, c.dflt ≠ .some dv) (σ : Sched) (v : GoVal) : (objectV ext o σ v).2 = v := by
  unfold objectV
  split
  · rfl
  · simp only
    split
    · rfl
    · split
      · rfl
      · simp only [objLoops]
        refine seqSt_same (v := v) ?_ fun st h => seqSt_same ?_ fun st h => seqSt_same ?_ fun st h => ?_
        · exact propLoop_readOnly ext o (fun pc h => hc pc.2 (.prop (p := pc.1) ((shuffle_perm _ _).mem_iff.1 h)))
            (fun pc h _ => hd pc.1 pc.2 ((shuffle_perm _ _).mem_iff.1 h))
        · rw [patLoop_readOnly ext (fun pc h => hc pc.2.2 (.pattern (id := pc.1) (src := pc.2.1) ((shuffle_perm _ _).mem_iff.1 h))), h]
        · rw [addlPhase_readOnly o (fun c h => hc c (.additional h)), h]
        · rw [depLoop_readOnly' o (fun k c h => hc c (.dependency h)), h]

/-- A default is the default of the constraint behind the references. -/
theorem dflt_defaulted {ext : Ext} {env : Env} : ∀ (fuel : Nat) (c : Constraint) (dv : GoVal),
    (denote ext (refSem ext env fuel) c).dflt = .some dv → Defaulted env c := by
  have hleaf : ∀ (d : Option GoVal) (dv : GoVal), Dflt.ofOption d = .some dv → d ≠ none := by
    intro d dv h
    cases d with
    | none => cases h
    | some x => simp
  have hother : ∀ (fuel : Nat) (c : Constraint) (dv : GoVal), (∀ m n, c ≠ .ref m n) →
      (denote ext (refSem ext env fuel) c).dflt = .some dv → Defaulted env c := by
    intro fuel c dv hc h
    cases c with
    | boolean d => exact ⟨_, .refl _, hleaf d dv h⟩
    | string s => exact ⟨_, .refl _, hleaf s.dflt dv h⟩
    | number s => exact ⟨_, .refl _, hleaf s.dflt dv h⟩
    | integer s => exact ⟨_, .refl _, hleaf s.dflt dv h⟩
    | ref m n => exact absurd rfl (hc m n)
    | _ => simp [denote] at h
  intro fuel
  induction fuel with
  | zero =>
    intro c dv h
    by_cases hc : ∃ m n, c = .ref m n
    · obtain ⟨m, n, rfl⟩ := hc
      simp [denote, refSem, running] at h
    · exact hother 0 c dv (fun m n hh => hc ⟨m, n, hh⟩) h
  | succ fuel ih =>
    intro c dv h
    by_cases hc : ∃ m n, c = .ref m n
    · obtain ⟨m, n, rfl⟩ := hc
      simp only [denote, refSem] at h
      cases he : env m n with
      | none => simp [he, unresolved] at h
      | some d =>
        simp only [he] at h
        obtain ⟨e, h1, h2⟩ := ih d dv h
        exact ⟨e, .ref he h1, h2⟩
    · exact hother _ c dv (fun m n hh => hc ⟨m, n, hh⟩) h

theorem Inert.child {env : Env} {c d : Constraint} (h : Inert env c) (hd : c.Child d) : Inert env d :=
  fun e he => h e (.child hd he)

/-- A constraint fills nothing in when it does not itself and its sub-constraints do not. -/
theorem inert_node {env : Env} {c : Constraint} (h1 : ¬ c.FillsIn env) (h2 : ∀ m n, c ≠ .ref m n) (h3 : ∀ d ∈ c.kids, Inert env d) :
    Inert env c := by
  intro e he
  cases he with
  | refl => exact h1
  | child h he => exact h3 _ h.mem e he
  | ref => exact absurd rfl (h2 _ _)

theorem not_defaulted {env : Env} {c : Constraint} (h1 : c.ownDefault = none) (h2 : ∀ m n, c ≠ .ref m n) : ¬ Defaulted env c := by
  rintro ⟨d, h, h3⟩
  cases h with
  | refl => exact h3 h1
  | ref => exact h2 _ _ rfl

/-- A node changes nothing when its sub-constraints do not and it fills nothing in. -/
theorem readOnly_node {ext : Ext} {ρ : RefSem} {c : Constraint} (hρ : ∀ m n, c = .ref m n → (ρ m n).ReadOnly)
    (hd : ∀ o, c = .object o → ∀ p d, (p, d) ∈ o.props → ∀ dv, (denote ext ρ d).dflt ≠ .some dv)
    (hch : ∀ d, c.Child d → (denote ext ρ d).ReadOnly) : (denote ext ρ c).ReadOnly := by
  have hlist : ∀ cs : List Constraint, (∀ d ∈ cs, c.Child d) → ∀ s ∈ cs.map (denote ext ρ), s.ReadOnly := by
    intro cs h s hs
    obtain ⟨d, hd, rfl⟩ := List.mem_map.1 hs
    exact hch d (h d hd)
  intro v σ
  cases c with
  | empty => rfl
  | null => rfl
  | boolean d => rfl
  | string s => rfl
  | number s => rfl
  | integer s => rfl
  | enum vals => rfl
  | array a =>
    simp only [denote, denoteArr_eq]
    refine arrayV_same (fun s hs => ?_) σ v
    cases hs with
    | items hi =>
      obtain ⟨d, hd, rfl⟩ := Option.map_eq_some_iff.1 hi
      exact hch d (.array (.items hd))
    | positional hi =>
      obtain ⟨d, hd, rfl⟩ := List.mem_map.1 hi
      exact hch d (.array (.positional hd))
    | additional hi =>
      obtain ⟨d, hd, rfl⟩ := Option.map_eq_some_iff.1 hi
      exact hch d (.array (.additional hd))
  | object o =>
    simp only [denote, denoteObj_eq]
    refine objectV_same (fun s hs => ?_) (fun p s h dv => ?_) σ v
    · cases hs with
      | prop h =>
        obtain ⟨d, h1, rfl⟩ := (ObjC.map_mem_props _ o).1 h
        exact hch d (.object (.prop h1))
      | pattern h =>
        simp only [ObjC.map, List.mem_map] at h
        obtain ⟨⟨id', src', d⟩, h1, h2⟩ := h
        simp only [Prod.mk.injEq] at h2
        obtain ⟨rfl, rfl, rfl⟩ := h2
        exact hch d (.object (.pattern h1))
      | additional h =>
        simp only [ObjC.map, Option.map_eq_some_iff] at h
        obtain ⟨d, h1, rfl⟩ := h
        exact hch d (.object (.additional h1))
      | @dependency k s h =>
        have h' : (o.GetSchemaDependency k).map (denote ext ρ) = some s := by
          rw [← h]; exact (alookup_map _ k o.schemadeps).symm
        obtain ⟨d, h1, rfl⟩ := Option.map_eq_some_iff.1 h'
        exact hch d (.object (.dependency h1))
    · obtain ⟨d, h1, rfl⟩ := (ObjC.map_mem_props _ o).1 h
      exact hd o rfl p d h1 dv
  | any cs =>
    simp only [denote, denoteList_eq]
    exact anyLoop_same _ _ _ _ (hlist cs fun d h => .any h)
  | all cs =>
    simp only [denote, denoteList_eq]
    exact allLoop_same _ _ _ _ (hlist cs fun d h => .all h)
  | oneOf cs =>
    simp only [denote, denoteList_eq]
    exact oneOfLoop_same _ _ _ _ _ (hlist cs fun d h => .oneOf h)
  | not c =>
    simp only [denote, denoteOpt_eq]
    refine notV_same _ _ _ (fun s hs => ?_)
    obtain ⟨d, rfl, rfl⟩ := Option.map_eq_some_iff.1 hs
    exact hch d .not
  | ref m n => exact hρ m n rfl v σ

/-- A constraint that fills nothing in, references included, changes nothing. -/
theorem inert_readOnly {ext : Ext} {env : Env} (fuel : Nat) : ∀ c : Constraint, Inert env c →
    (denote ext (refSem ext env fuel) c).ReadOnly := by
  induction fuel with
  | zero =>
    intro c
    induction c using Constraint.ind with
    | h c ih =>
      intro hc
      exact readOnly_node (fun m n _ v σ => rfl) (fun o ho p d h dv hdv => hc c (.refl c) (ho ▸ .mk h (dflt_defaulted 0 d dv hdv)))
        (fun d hd => ih d hd (hc.child hd))
  | succ fuel ihf =>
    intro c
    induction c using Constraint.ind with
    | h c ih =>
      intro hc
      refine readOnly_node (fun m n hmn => ?_) (fun o ho p d h dv hdv => hc c (.refl c) (ho ▸ .mk h (dflt_defaulted _ d dv hdv)))
        (fun d hd => ih d hd (hc.child hd))
      subst hmn
      cases he : env m n with
      | none => simp only [refSem, he]; exact fun v σ => rfl
      | some d => simp only [refSem, he]; exact ihf d (fun e h => hc e (.ref he h))

end Jsval
