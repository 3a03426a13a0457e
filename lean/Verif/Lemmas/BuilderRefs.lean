import Verif.Lemmas.BuilderShape
import Verif.Spec.Tree
/-!
# References in built constraints, and termination of `compileReferences`
-/
namespace Jsval

/-- Every reference in the tree goes to map `m` and has a name in `R`. -/
def RefsIn (m : Nat) (R : List GoStr) (c : Constraint) : Prop :=
  ∀ m' n, (Constraint.ref m' n).In c → m' = m ∧ n ∈ R

theorem RefsIn.mono {m : Nat} {R R' : List GoStr} {c : Constraint} (h : RefsIn m R c) (hs : ∀ n ∈ R, n ∈ R') :
    RefsIn m R' c := fun m' n hi => ⟨(h m' n hi).1, hs n (h m' n hi).2⟩

theorem refsIn_of_children {m : Nat} {R : List GoStr} {c : Constraint} (hr : ∀ m' n, c ≠ .ref m' n)
    (h : ∀ d, c.Child d → RefsIn m R d) : RefsIn m R c := by
  intro m' n hi
  cases hi with
  | refl => exact absurd rfl (hr m' n)
  | child hd hi => exact h _ hd m' n hi

theorem refsIn_reduceAll {m : Nat} {R : List GoStr} {l : List Constraint} (h : ∀ c ∈ l, RefsIn m R c) :
    RefsIn m R (reduceAll l) := by
  unfold reduceAll reduceCombined
  split
  · exact h _ (by simp)
  · exact refsIn_of_children (fun _ _ h => by cases h) (fun d hd => by cases hd with | all hd => exact h d hd)

theorem refsIn_reduceAny {m : Nat} {R : List GoStr} {l : List Constraint} (h : ∀ c ∈ l, RefsIn m R c) :
    RefsIn m R (reduceAny l) := by
  unfold reduceAny reduceCombined
  split
  · exact h _ (by simp)
  · exact refsIn_of_children (fun _ _ h => by cases h) (fun d hd => by cases hd with | any hd => exact h d hd)

theorem refsIn_reduceOneOf {m : Nat} {R : List GoStr} {l : List Constraint} (h : ∀ c ∈ l, RefsIn m R c) :
    RefsIn m R (reduceOneOf l) := by
  unfold reduceOneOf reduceCombined
  split
  · exact h _ (by simp)
  · exact refsIn_of_children (fun _ _ h => by cases h) (fun d hd => by cases hd with | oneOf hd => exact h d hd)

theorem refsIn_leaf {m : Nat} {R : List GoStr} {c : Constraint} (hr : ∀ m' n, c ≠ .ref m' n)
    (h : ∀ d, ¬ c.Child d) : RefsIn m R c := refsIn_of_children hr (fun d hd => absurd hd (h d))

theorem forall2_right {α β : Type} {P : α → β → Prop} : ∀ {l : List α} {l' : List β}, List.Forall₂ P l l' →
    ∀ b ∈ l', ∃ a ∈ l, P a b
  | _, _, .nil, b, hb => by simp at hb
  | _, _, .cons (a := a) h t, b, hb => by
    rcases List.mem_cons.1 hb with rfl | hb
    · exact ⟨a, by simp, h⟩
    · obtain ⟨a', ha, hp⟩ := forall2_right t b hb
      exact ⟨a', by simp [ha], hp⟩

theorem forall2_left {α β : Type} {P : α → β → Prop} : ∀ {l : List α} {l' : List β}, List.Forall₂ P l l' →
    ∀ a ∈ l, ∃ b ∈ l', P a b
  | _, _, .nil, b, hb => by simp at hb
  | _, _, .cons (b := b') h t, b, hb => by
    rcases List.mem_cons.1 hb with rfl | hb
    · exact ⟨b', by simp, h⟩
    · obtain ⟨a', ha, hp⟩ := forall2_left t b hb
      exact ⟨a', by simp [ha], hp⟩

theorem mem_ainsert_pair {β : Type} {k k' : GoStr} {v v' : β} : ∀ {l : List (GoStr × β)}, (k', v') ∈ ainsert k v l →
    (k' = k ∧ v' = v) ∨ (k', v') ∈ l
  | [], h => by simp only [ainsert, List.mem_singleton, Prod.mk.injEq] at h; exact Or.inl h
  | (k'', v'') :: l, h => by
    unfold ainsert at h
    split at h
    · rcases List.mem_cons.1 h with h | h
      · simp only [Prod.mk.injEq] at h; exact Or.inl h
      · exact Or.inr (by simp [h])
    · rcases List.mem_cons.1 h with h | h
      · exact Or.inr (by rw [h]; simp)
      · rcases mem_ainsert_pair h with h | h
        · exact Or.inl h
        · exact Or.inr (by simp [h])

theorem mem_foldl_ainsert {β : Type} {k : GoStr} {v : β} : ∀ {cs acc : List (GoStr × β)},
    (k, v) ∈ cs.foldl (fun acc q => ainsert q.1 q.2 acc) acc → (k, v) ∈ cs ∨ (k, v) ∈ acc
  | [], acc, h => Or.inr h
  | q :: cs, acc, h => by
    rcases mem_foldl_ainsert (cs := cs) h with h | h
    · exact Or.inl (by simp [h])
    · rcases mem_ainsert_pair h with h | h
      · exact Or.inl (by rw [List.mem_cons]; exact Or.inl (Prod.ext h.1 h.2))
      · exact Or.inr h

theorem mem_patInsert {β : Type} {id id' : Nat} {src src' : GoStr} {v v' : β} : ∀ {l : List (Nat × GoStr × β)},
    (id', src', v') ∈ patInsert id src v l → (id' = id ∧ src' = src ∧ v' = v) ∨ (id', src', v') ∈ l
  | [], h => by simp only [patInsert, List.mem_singleton, Prod.mk.injEq] at h; exact Or.inl h
  | (i, s, v'') :: l, h => by
    unfold patInsert at h
    split at h
    · rcases List.mem_cons.1 h with h | h
      · simp only [Prod.mk.injEq] at h; exact Or.inl h
      · exact Or.inr (by simp [h])
    · rcases List.mem_cons.1 h with h | h
      · exact Or.inr (by rw [h]; simp)
      · rcases mem_patInsert h with h | h
        · exact Or.inl h
        · exact Or.inr (by simp [h])

theorem mem_foldl_patInsert {β : Type} {x : Nat × GoStr × β} : ∀ {cs acc : List (Nat × GoStr × β)},
    x ∈ cs.foldl (fun acc q => patInsert q.1 q.2.1 q.2.2 acc) acc → x ∈ cs ∨ x ∈ acc
  | [], acc, h => Or.inr h
  | q :: cs, acc, h => by
    rcases mem_foldl_patInsert (cs := cs) h with h | h
    · exact Or.inl (by simp [h])
    · obtain ⟨i, s, v⟩ := x
      rcases mem_patInsert h with h | h
      · refine Or.inl ?_
        rw [List.mem_cons]
        exact Or.inl (Prod.ext h.1 (Prod.ext h.2.1 h.2.2))
      · exact Or.inr h

section
variable {lib : SchemaLib} {m : Nat} {s : SchemaF Act} {R : List GoStr} {T : Act → List GoStr → Constraint → Prop}
  (hT : ∀ a c, s.Child a → T a R c → RefsIn m R c)
include hT

theorem refsIn_arrayEnd {a : ArrC Constraint} (h : ItemsBuilt T R s a) : RefsIn m R (.array (arrayEnd s a)) := by
  refine refsIn_of_children (fun _ _ h => by cases h) (fun d hd => ?_)
  have hd : a.Child d := by
    cases hd with
    | array hd =>
      unfold arrayEnd applyIf at hd
      cases hd with
      | items hd =>
        refine .items ?_
        revert hd
        cases s.uniqueItems <;> cases s.maxItems <;> cases s.minItems <;> exact id
      | positional hd =>
        refine .positional ?_
        revert hd
        cases s.uniqueItems <;> cases s.maxItems <;> cases s.minItems <;> exact id
      | additional hd =>
        refine .additional ?_
        revert hd
        cases s.uniqueItems <;> cases s.maxItems <;> cases s.minItems <;> exact id
  have hempty : RefsIn m R .empty := refsIn_leaf (fun _ _ h => by cases h) (fun d hd => by cases hd)
  cases h with
  | nil hi =>
    cases hd with
    | items hd => cases hd
    | positional hd => cases hd
    | additional hd => cases hd; exact hempty
  | list hi t =>
    cases hd with
    | items hd => cases hd; exact hT _ _ (.list hi (by simp)) t
    | positional hd => cases hd
    | additional hd => cases hd; exact hempty
  | tuple hi t x =>
    cases hd with
    | items hd => cases hd
    | positional hd =>
      obtain ⟨a, ha, ht⟩ := forall2_right t d hd
      exact hT _ _ (.tuple hi ha) ht
    | additional hd =>
      simp only [ArrC.AdditionalItems] at hd
      rw [hd] at x
      generalize hx : s.additionalItems = y at x
      cases x with
      | allow => exact hempty
      | schema t => exact hT _ _ (.additionalItems hx) t

theorem refsIn_object {o : ObjC Constraint} (h : ObjectBuilt T R s o) : RefsIn m R (.object o) := by
  refine refsIn_of_children (fun _ _ h => by cases h) (fun d hd => ?_)
  cases hd with
  | object hd =>
    cases hd with
    | prop hd =>
      obtain ⟨k, cs, hn, he⟩ := h.props
      rw [he] at hd
      rcases mem_foldl_ainsert hd with hd | hd
      · obtain ⟨a, ha, ht⟩ := forall2_right hn _ hd
        exact hT _ _ (.property (mem_shuffle.1 ha)) ht.2
      · cases hd
    | pattern hd =>
      obtain ⟨k, cs, hn, he⟩ := h.patterns
      rw [he] at hd
      rcases mem_foldl_patInsert hd with hd | hd
      · obtain ⟨a, ha, ht⟩ := forall2_right hn _ hd
        exact hT _ _ (.patternProp (mem_shuffle.1 ha)) ht.2.2
      · cases hd
    | additional hd =>
      have x := h.additional
      rw [hd] at x
      generalize hx : s.additionalProps = y at x
      cases x with
      | allow => exact refsIn_leaf (fun _ _ h => by cases h) (fun d hd => by cases hd)
      | schema t => exact hT _ _ (.additionalProps hx) t
    | dependency hd =>
      obtain ⟨k, cs, hn, he⟩ := h.schemadeps
      unfold ObjC.GetSchemaDependency at hd
      rw [he] at hd
      rcases mem_foldl_ainsert (alookup_mem hd) with hd | hd
      · obtain ⟨a, ha, ht⟩ := forall2_right hn _ hd
        exact hT _ _ (.dependency (mem_shuffle.1 ha)) ht.2
      · cases hd

theorem refsIn_type {t : PrimType} {c : Constraint} (h : TypeBuilt T R s t c) : RefsIn m R c := by
  cases h with
  | array h => exact refsIn_arrayEnd hT h
  | object h => exact refsIn_object hT h
  | _ => exact refsIn_leaf (fun _ _ h => by cases h) (fun d hd => by cases hd)

theorem refsIn_combo {l : List Constraint} (h : ComboBuilt T R s l) : ∀ c ∈ l, RefsIn m R c := by
  intro c hc
  cases h with
  | not hn t =>
    simp only [List.mem_singleton] at hc
    subst hc
    exact refsIn_of_children (fun _ _ h => by cases h) (fun d hd => by cases hd; exact hT _ _ (.not hn) t)
  | allOf h1 h2 t =>
    simp only [List.mem_singleton] at hc
    subst hc
    exact refsIn_reduceAll (fun c hc => by obtain ⟨a, ha, ht⟩ := forall2_right t c hc; exact hT _ _ (.allOf ha) ht)
  | anyOf h1 h2 h3 t =>
    simp only [List.mem_singleton] at hc
    subst hc
    exact refsIn_reduceAny (fun c hc => by obtain ⟨a, ha, ht⟩ := forall2_right t c hc; exact hT _ _ (.anyOf ha) ht)
  | oneOf h1 h2 h3 h4 t =>
    simp only [List.mem_singleton] at hc
    subst hc
    exact refsIn_reduceOneOf (fun c hc => by obtain ⟨a, ha, ht⟩ := forall2_right t c hc; exact hT _ _ (.oneOf ha) ht)
  | none => simp at hc

theorem refsIn_node {c : Constraint} (h : NodeBuilt lib m T R s c) : RefsIn m R c := by
  cases h with
  | ref hr hm =>
    intro m' n hi
    cases hi with
    | refl => exact ⟨rfl, hm⟩
    | child hd _ => cases hd
  | typed hr hc hn ht =>
    refine refsIn_reduceAll (fun c h => ?_)
    rcases List.mem_append.1 h with h | h
    · exact refsIn_combo hT hc c h
    · simp only [List.mem_singleton] at h
      subst h
      exact refsIn_reduceAny (fun c hc => by obtain ⟨t, _, ht⟩ := forall2_right ht c hc; exact refsIn_type hT ht)
  | enum hr hc hn he =>
    refine refsIn_reduceAll (fun c h => ?_)
    rcases List.mem_append.1 h with h | h
    · exact refsIn_combo hT hc c h
    · simp only [List.mem_singleton] at h
      subst h
      exact refsIn_leaf (fun _ _ h => by cases h) (fun d hd => by cases hd)
  | plain hr hc hn he => exact refsIn_reduceAll (refsIn_combo hT hc)

end

/-- Every reference in a built constraint is recorded in `ctx.R`. -/
theorem build_refs {lib : SchemaLib} {m : Nat} {s : Schema} {σ : Sched} {R R' : List GoStr} {c : Constraint}
    (h : build lib m s σ R = .ok (c, R')) : Grow (s.Mentions ·) R R' ∧ RefsIn m R' c := by
  refine build_ind (fun _ R c => RefsIn m R c) (fun s R R' c h hs => h.mono hs) ?_ s σ R c R' h
  intro s R c hn
  refine refsIn_node (fun a c ha ht => ?_) hn
  obtain ⟨d, hd, rfl⟩ := SchemaF.child_map ha
  exact ht d hd rfl

/-- The action can produce this constraint. -/
def BuiltBy (a : Act) (c : Constraint) : Prop := ∃ σ R R', a σ R = .ok (c, R')

/-- Building the schema can produce this constraint. -/
def BuiltFrom (lib : SchemaLib) (m : Nat) (s : Schema) (c : Constraint) : Prop := ∃ σ R R', build lib m s σ R = .ok (c, R')

theorem node_of_build {lib : SchemaLib} {m : Nat} {s : SchemaF Schema} {c : Constraint} (h : BuiltFrom lib m (.mk s) c) :
    ∃ R, NodeBuilt lib m (fun a _ c => BuiltBy a c) R (s.map (build lib m)) c := by
  obtain ⟨σ, R, R', h⟩ := h
  rw [build_mk] at h
  refine ⟨R', (buildNode_shape (N := fun _ => True) (fun _ _ _ _ h _ => h) ?_ (fun _ => trivial) h).2⟩
  intro _ a ha σ R c R' hb
  obtain ⟨d, hd, rfl⟩ := SchemaF.child_map ha
  exact ⟨(build_refs hb).1.imp (fun _ _ => trivial), σ, R, R', hb⟩

/-! ## `compileReferences` -/

/-- The registered names. -/
def BState.keys (st : BState) : List GoStr := st.table.map (·.1)

/-- Every reference in the tree is registered or recorded. -/
def Covered (m : Nat) (st : BState) (c : Constraint) : Prop :=
  ∀ m' n, (Constraint.ref m' n).In c → m' = m ∧ (n ∈ st.names ∨ n ∈ st.keys)

/-- What `compileReferences` does to the state. -/
structure Compiled (m : Nat) (st st' : BState) : Prop where
  keys : ∀ n ∈ st.keys, n ∈ st'.keys
  names : ∀ n ∈ st.names, n ∈ st'.names
  new : ∀ n ∈ st'.names, n ∈ st.names ∨ n ∈ st'.keys
  table : (∀ p ∈ st.table, Covered m st p.2) → ∀ p ∈ st'.table, Covered m st' p.2

theorem Compiled.refl (m : Nat) (st : BState) : Compiled m st st :=
  ⟨fun _ h => h, fun _ h => h, fun _ h => Or.inl h, fun h => h⟩

theorem Compiled.trans {m : Nat} {a b c : BState} (h : Compiled m a b) (h' : Compiled m b c) : Compiled m a c :=
  ⟨fun n hn => h'.keys n (h.keys n hn), fun n hn => h'.names n (h.names n hn),
    fun n hn => (h'.new n hn).elim (fun h1 => (h.new n h1).imp_right (h'.keys n)) Or.inr, fun ht => h'.table (h.table ht)⟩

theorem mem_pick {α : Type} {a : α} : ∀ {l : List α} {k : Nat}, a ∈ pick k l → a ∈ l
  | [], _, h => by simp [pick] at h
  | b :: l, k, h => by
    unfold pick at h
    split at h
    · rcases List.mem_cons.1 h with h | h
      · simp [h]
      · simp [mem_pick h]
    · simp [mem_pick h]

theorem mem_revisit {σ : Sched} {rest new : List GoStr} {n : GoStr} (h : n ∈ rest) : n ∈ revisit σ rest new :=
  mem_shuffle.2 (List.mem_append.2 (Or.inl h))

theorem of_mem_revisit {σ : Sched} {rest new : List GoStr} {n : GoStr} (h : n ∈ revisit σ rest new) :
    n ∈ rest ∨ n ∈ new := (List.mem_append.1 (mem_shuffle.1 h)).imp_right mem_pick

section
variable {lib : SchemaLib} {m : Nat} {resolve : Resolver}

mutual
theorem compileRef_compiled : ∀ {fuel : Nat} {σ : Sched} {ref : GoStr} {st st' : BState},
    compileRef lib m resolve fuel σ ref st = .ok st' → Compiled m st st' ∧ ref ∈ st'.keys
  | 0, σ, ref, st, st', h => by rw [compileRef] at h; cases h
  | k + 1, σ, ref, st, st', h => by
    rw [compileRef] at h
    split at h
    · rename_i hs
      cases h
      refine ⟨.refl m st, ?_⟩
      rw [Option.isSome_iff_exists] at hs
      exact alookup_isSome.1 hs
    · rcases hr : (resolve ref).target with e | s1
      · rw [hr] at h; cases h
      · rw [hr] at h
        simp only at h
        rcases hb : build lib m s1 (σ.sub 0) st.names with e | ⟨c1, names⟩
        · rw [hb] at h; cases h
        · rw [hb] at h
          simp only at h
          obtain ⟨g, r⟩ := build_refs hb
          obtain ⟨hc, hv⟩ := compileLoop_compiled h
          have hk : ∀ n ∈ st.keys, n ∈ BState.keys ⟨ainsert ref c1 st.table, names⟩ := fun n hn =>
            mem_keys_ainsert.2 (Or.inr hn)
          refine ⟨⟨fun n hn => hc.keys n (hk n hn), fun n hn => hc.names n (g.sub n hn),
            fun n hn => Or.inr ?_, fun ht => hc.table ?_⟩, hc.keys ref (mem_keys_ainsert.2 (Or.inl rfl))⟩
          · rcases hc.new n hn with h1 | h1
            · exact hv n (mem_shuffle.2 h1)
            · exact h1
          · rintro ⟨n, c⟩ hp
            rcases mem_ainsert_pair hp with ⟨rfl, rfl⟩ | hp
            · intro m' n' hi
              exact ⟨(r m' n' hi).1, Or.inl (r m' n' hi).2⟩
            · intro m' n' hi
              obtain ⟨h1, h2⟩ := ht _ hp m' n' hi
              exact ⟨h1, h2.elim (fun h => Or.inl (g.sub _ h)) (fun h => Or.inr (hk _ h))⟩

theorem compileLoop_compiled : ∀ {fuel : Nat} {σ : Sched} {l : List GoStr} {st st' : BState},
    compileLoop lib m resolve fuel σ l st = .ok st' → Compiled m st st' ∧ ∀ n ∈ l, n ∈ st'.keys
  | 0, σ, [], st, st', h => by
    rw [compileLoop] at h; cases h
    exact ⟨.refl m st, fun n hn => by simp at hn⟩
  | 0, σ, _ :: _, st, st', h => by rw [compileLoop] at h; cases h
  | k + 1, σ, [], st, st', h => by
    rw [compileLoop] at h; cases h
    exact ⟨.refl m st, fun n hn => by simp at hn⟩
  | k + 1, σ, ref :: rest, st, st', h => by
    rw [compileLoop] at h
    rcases h1 : compileRef lib m resolve k (σ.sub 0) ref st with e | st1
    · rw [h1] at h; cases h
    · rw [h1] at h
      obtain ⟨c1, k1⟩ := compileRef_compiled h1
      obtain ⟨c2, k2⟩ := compileLoop_compiled h
      refine ⟨c1.trans c2, fun n hn => ?_⟩
      rcases List.mem_cons.1 hn with rfl | hn
      · exact c2.keys _ k1
      · exact k2 n (mem_revisit hn)
end

/-! ## Termination -/

/-- How many of the names in `F` are not registered. -/
def missing (F : List GoStr) (st : BState) : Nat := (F.filter (fun n => n ∉ st.keys)).length

theorem missing_le {F : List GoStr} {st st' : BState} (h : ∀ n ∈ st.keys, n ∈ st'.keys) :
    missing F st' ≤ missing F st := by
  unfold missing
  refine List.Sublist.length_le (List.monotone_filter_right F (fun n hn => ?_))
  simp only [decide_eq_true_eq] at hn ⊢
  exact fun h' => hn (h n h')

theorem missing_lt {F : List GoStr} {st st' : BState} (h : ∀ n ∈ st.keys, n ∈ st'.keys) {r : GoStr} (hr : r ∈ F)
    (h1 : r ∉ st.keys) (h2 : r ∈ st'.keys) : missing F st' < missing F st := by
  unfold missing
  have hsub : List.Sublist (F.filter (fun n => decide (n ∉ st'.keys))) (F.filter (fun n => decide (n ∉ st.keys))) :=
    List.monotone_filter_right F (fun n hn => by
      simp only [decide_eq_true_eq] at hn ⊢
      exact fun h' => hn (h n h'))
  rcases Nat.lt_or_eq_of_le hsub.length_le with hl | hl
  · exact hl
  · have := hsub.eq_of_length hl
    have hm : r ∈ F.filter (fun n => decide (n ∉ st.keys)) := by simp [hr, h1]
    rw [← this] at hm
    simp [h2] at hm

/-- The names recorded when building what names in `F` stand for stay within `F`; those in `K` are registered already. -/
def ClosedUnder (lib : SchemaLib) (m : Nat) (resolve : Resolver) (F : List GoStr) (K : GoStr → Prop) : Prop :=
  ∀ n ∈ F, ¬ K n → ∀ s1, (resolve n).target = .ok s1 → ∀ σ R c R', build lib m s1 σ R = .ok (c, R') → ∀ k ∈ R', k ∈ R ∨ k ∈ F

theorem closedUnder_of_mentions {F : List GoStr} (h : ∀ n ∈ F, ∀ s1, (resolve n).target = .ok s1 → ∀ k, s1.Mentions k → k ∈ F) :
    ClosedUnder lib m resolve F (fun _ => False) :=
  fun n hn _ s1 h1 _ _ _ _ hb k hk => ((build_refs hb).1.new k hk).imp_right (h n hn s1 h1 k)

/-- Enough fuel for `compileReferences` when `u` names of `F` are missing. -/
def enough (F : List GoStr) (u : Nat) : Nat := (F.length + 2) * u + 1

theorem pick_sublist {α : Type} : ∀ (k : Nat) (l : List α), (pick k l).Sublist l
  | _, [] => by simp [pick]
  | k, a :: l => by
    unfold pick
    split
    · exact (pick_sublist _ l).cons₂ a
    · exact (pick_sublist _ l).cons a

theorem revisit_nodup {σ : Sched} {rest new : List GoStr} (h1 : rest.Nodup) (h2 : new.Nodup)
    (h3 : ∀ n ∈ rest, n ∉ new) : (revisit σ rest new).Nodup := by
  unfold revisit
  refine shuffle_nodup.2 (List.nodup_append'.2 ⟨h1, h2.sublist (pick_sublist _ _), ?_⟩)
  intro n hn hn'
  exact h3 n hn (mem_pick hn')

mutual
theorem compileRef_returns (F : List GoStr) {K : GoStr → Prop} (hF : ClosedUnder lib m resolve F K) : ∀ (fuel : Nat) (σ : Sched) (ref : GoStr)
    (st : BState), (∀ n, K n → n ∈ st.keys) → ref ∈ F → (∀ n ∈ st.names, n ∈ F) → st.names.Nodup → enough F (missing F st) ≤ fuel →
    (compileRef lib m resolve fuel σ ref st ≠ .error .diverge) ∧
      ∀ st', compileRef lib m resolve fuel σ ref st = .ok st' → (∀ n ∈ st'.names, n ∈ F) ∧ st'.names.Nodup
  | 0, σ, ref, st, hk, hr, hn, hd, hf => by unfold enough at hf; omega
  | k + 1, σ, ref, st, hk, hr, hn, hd, hf => by
    rw [compileRef]
    split
    · exact ⟨by simp, fun st' h => by cases h; exact ⟨hn, hd⟩⟩
    · rename_i hs
      have hnk : ¬ K ref := fun h => by
        obtain ⟨v, hv⟩ := alookup_isSome.2 (hk ref h)
        rw [hv] at hs
        exact hs rfl
      rcases ht : (resolve ref).target with e | s1
      · exact ⟨by simp, fun st' h => by simp at h⟩
      · simp only
        rcases hb : build lib m s1 (σ.sub 0) st.names with e | ⟨c1, names⟩
        · exact ⟨by simp, fun st' h => by simp at h⟩
        · simp only
          obtain ⟨g, -⟩ := build_refs hb
          have hnF : ∀ n ∈ names, n ∈ F := fun n h => (hF ref hr hnk s1 ht _ _ _ _ hb n h).elim (hn n) id
          have hnd := g.nodup hd
          have hlt : missing F ⟨ainsert ref c1 st.table, names⟩ < missing F st := by
            refine missing_lt (r := ref) (fun n hn => mem_keys_ainsert.2 (Or.inr hn)) hr ?_ (mem_keys_ainsert.2 (Or.inl rfl))
            intro hk
            obtain ⟨v, hv⟩ := alookup_isSome.2 hk
            rw [hv] at hs
            exact hs rfl
          have hlen : names.length ≤ F.length := (List.subperm_of_subset hnd hnF).length_le
          refine compileLoop_returns F hF k (σ.sub 1) _ _ [] (fun n h => mem_keys_ainsert.2 (Or.inr (hk n h))) (fun n h => hnF n (mem_shuffle.1 h)) hnF hnd
            (by simpa using shuffle_nodup.2 hnd) (by simp) (fun n h => mem_shuffle.1 h) ?_
          unfold enough at hf ⊢
          simp only [List.length_nil]
          have : (F.length + 2) * (missing F ⟨ainsert ref c1 st.table, names⟩ + 1) ≤ (F.length + 2) * missing F st :=
            Nat.mul_le_mul_left _ hlt
          rw [Nat.mul_add] at this
          omega

theorem compileLoop_returns (F : List GoStr) {K : GoStr → Prop} (hF : ClosedUnder lib m resolve F K) : ∀ (fuel : Nat) (σ : Sched) (l : List GoStr)
    (st : BState) (seen : List GoStr), (∀ n, K n → n ∈ st.keys) → (∀ n ∈ l, n ∈ F) → (∀ n ∈ st.names, n ∈ F) → st.names.Nodup →
    (seen ++ l).Nodup → (∀ n ∈ seen, n ∈ st.names ∧ n ∈ F) → (∀ n ∈ l, n ∈ st.names) →
    enough F (missing F st) + (F.length - seen.length) ≤ fuel →
    (compileLoop lib m resolve fuel σ l st ≠ .error .diverge) ∧
      ∀ st', compileLoop lib m resolve fuel σ l st = .ok st' → (∀ n ∈ st'.names, n ∈ F) ∧ st'.names.Nodup
  | 0, σ, l, st, seen, _, _, _, _, _, _, _, hf => by unfold enough at hf; omega
  | k + 1, σ, [], st, seen, _, _, hn, hd, _, _, _, _ => by
    rw [compileLoop]
    exact ⟨by simp, fun st' h => by cases h; exact ⟨hn, hd⟩⟩
  | k + 1, σ, ref :: rest, st, seen, hk, hl, hn, hd, hnd, hseen, hls, hf => by
    rw [compileLoop]
    have hlen : seen.length < F.length := by
      have hsub : ∀ n ∈ seen ++ ref :: rest, n ∈ F := by
        intro n h
        rcases List.mem_append.1 h with h | h
        · exact (hseen n h).2
        · exact hl n h
      have := (List.subperm_of_subset hnd hsub).length_le
      simp only [List.length_append, List.length_cons] at this
      omega
    obtain ⟨i1, i2⟩ := compileRef_returns F hF k (σ.sub 0) ref st hk (hl ref (by simp)) hn hd (by omega)
    rcases h1 : compileRef lib m resolve k (σ.sub 0) ref st with e | st1
    · simp only
      rw [h1] at i1
      exact ⟨i1, fun st' h => by simp at h⟩
    · simp only
      obtain ⟨hn1, hd1⟩ := i2 st1 h1
      obtain ⟨hc, -⟩ := compileRef_compiled h1
      have hmis := missing_le (F := F) hc.keys
      have hnewF : ∀ n, n ∈ st1.names.filter (fun n => decide (n ∉ st.names)) → n ∈ st1.names ∧ n ∉ st.names := by
        intro n h; simpa using h
      refine compileLoop_returns F hF k (σ.sub 1) _ st1 (seen ++ [ref]) (fun n h => hc.keys n (hk n h)) ?_ hn1 hd1 ?_ ?_ ?_ ?_
      · intro n h
        rcases of_mem_revisit h with h | h
        · exact hl n (by simp [h])
        · exact hn1 n (hnewF n h).1
      · rw [List.append_assoc, List.nodup_append']
        rw [List.nodup_append'] at hnd
        obtain ⟨a1, a2, a3⟩ := hnd
        rw [List.nodup_cons] at a2
        refine ⟨a1, ?_, ?_⟩
        · rw [List.singleton_append, List.nodup_cons]
          refine ⟨fun h => ?_, revisit_nodup a2.2 (hd1.filter _) (fun n h h' => ?_)⟩
          · rcases of_mem_revisit h with h | h
            · exact a2.1 h
            · exact (hnewF _ h).2 (hls ref (by simp))
          · exact (hnewF n h').2 (hls n (by simp [h]))
        · intro n hs h2
          rw [List.singleton_append, List.mem_cons] at h2
          rcases h2 with h2 | h2
          · exact a3 hs (by simp [h2])
          · rcases of_mem_revisit h2 with h2 | h2
            · exact a3 hs (by simp [h2])
            · exact (hnewF n h2).2 (hseen n hs).1
      · intro n h
        rcases List.mem_append.1 h with h | h
        · exact ⟨hc.names n (hseen n h).1, (hseen n h).2⟩
        · simp only [List.mem_singleton] at h
          rw [h]
          exact ⟨hc.names _ (hls ref (by simp)), hl ref (by simp)⟩
      · intro n h
        rcases of_mem_revisit h with h | h
        · exact hc.names n (hls n (by simp [h]))
        · exact (hnewF n h).1
      · have : enough F (missing F st1) ≤ enough F (missing F st) := by
          unfold enough
          have := Nat.mul_le_mul_left (F.length + 2) hmis
          omega
        simp only [List.length_append, List.length_singleton]
        omega
end

/-! More fuel does not change the outcome. -/
mutual
theorem compileRef_fuel : ∀ {k : Nat} {σ : Sched} {ref : GoStr} {st : BState},
    compileRef lib m resolve k σ ref st ≠ .error .diverge → ∀ j, k ≤ j →
    compileRef lib m resolve j σ ref st = compileRef lib m resolve k σ ref st
  | 0, σ, ref, st, h, j, hj => by rw [compileRef] at h; exact absurd rfl h
  | k + 1, σ, ref, st, h, 0, hj => by omega
  | k + 1, σ, ref, st, h, j + 1, hj => by
    rw [compileRef] at h
    rw [compileRef, compileRef]
    split
    · rfl
    · rename_i hs
      rw [if_neg hs] at h
      rcases ht : (resolve ref).target with e | s1
      · rfl
      · rw [ht] at h
        simp only at h ⊢
        rcases hb : build lib m s1 (σ.sub 0) st.names with e | ⟨c1, names⟩
        · rfl
        · rw [hb] at h
          simp only at h ⊢
          exact compileLoop_fuel h j (by omega)

theorem compileLoop_fuel : ∀ {k : Nat} {σ : Sched} {l : List GoStr} {st : BState},
    compileLoop lib m resolve k σ l st ≠ .error .diverge → ∀ j, k ≤ j →
    compileLoop lib m resolve j σ l st = compileLoop lib m resolve k σ l st
  | 0, σ, [], st, h, 0, hj => rfl
  | 0, σ, [], st, h, j + 1, hj => by rw [compileLoop, compileLoop]
  | 0, σ, _ :: _, st, h, j, hj => by rw [compileLoop] at h; exact absurd rfl h
  | k + 1, σ, l, st, h, 0, hj => by omega
  | k + 1, σ, [], st, h, j + 1, hj => by rw [compileLoop, compileLoop]
  | k + 1, σ, ref :: rest, st, h, j + 1, hj => by
    rw [compileLoop] at h
    rw [compileLoop, compileLoop]
    have i1 : compileRef lib m resolve k (σ.sub 0) ref st ≠ .error .diverge := by
      intro h'
      rw [h'] at h
      exact absurd rfl h
    rw [compileRef_fuel i1 j (by omega)]
    rcases h1 : compileRef lib m resolve k (σ.sub 0) ref st with e | st1
    · rfl
    · rw [h1] at h
      exact compileLoop_fuel h j (by omega)
end
end

end Jsval
