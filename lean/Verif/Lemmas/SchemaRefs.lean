import Verif.Lemmas.SchemaNode
import Verif.Lemmas.Terminate
import Verif.Props.Builder
import Verif.Props.References
/-!
# Compiled references of a conforming schema
-/
namespace Jsval
open Tracks

/-! ## Defaults -/

theorem noDflt_of_children {c : Constraint} (hr : c.ownDefault = none)
    (h : ∀ d, c.Child d → d.Every NoDefault) : c.Every NoDefault := by
  intro d hi
  cases hi with
  | refl => exact hr
  | child hd hi => exact h _ hd _ hi

theorem noDflt_leaf {c : Constraint} (hr : c.ownDefault = none) (h : ∀ d, ¬ c.Child d) : c.Every NoDefault :=
  noDflt_of_children hr (fun d hd => absurd hd (h d))

theorem noDflt_reduceAll {l : List Constraint} (h : ∀ c ∈ l, c.Every NoDefault) : (reduceAll l).Every NoDefault := by
  unfold reduceAll reduceCombined
  split
  · exact h _ (by simp)
  · exact noDflt_of_children rfl (fun d hd => by cases hd with | all hd => exact h d hd)

theorem noDflt_reduceAny {l : List Constraint} (h : ∀ c ∈ l, c.Every NoDefault) : (reduceAny l).Every NoDefault := by
  unfold reduceAny reduceCombined
  split
  · exact h _ (by simp)
  · exact noDflt_of_children rfl (fun d hd => by cases hd with | any hd => exact h d hd)

theorem noDflt_reduceOneOf {l : List Constraint} (h : ∀ c ∈ l, c.Every NoDefault) :
    (reduceOneOf l).Every NoDefault := by
  unfold reduceOneOf reduceCombined
  split
  · exact h _ (by simp)
  · exact noDflt_of_children rfl (fun d hd => by cases hd with | oneOf hd => exact h d hd)

theorem boundsOf_dflt {S : Type} (s : SchemaF S) : (boundsOf s).dflt = none := by
  unfold boundsOf applyIf
  cases s.minimum <;> cases s.maximum <;> cases s.exclMin <;> cases s.exclMax <;> cases s.multipleOf <;> rfl

theorem integerOf_dflt {S : Type} {s : SchemaF S} (h : s.dflt = .nil) : (integerOf s).dflt = none := by
  unfold integerOf
  simp only [h]
  split
  · exact boundsOf_dflt s
  · exact boundsOf_dflt s

theorem numberOf_dflt {S : Type} {s : SchemaF S} (h : s.dflt = .nil) : (numberOf s).dflt = none := by
  unfold numberOf
  simp only [h]
  split
  · exact boundsOf_dflt s
  · exact boundsOf_dflt s

section
variable {lib : SchemaLib} {m : Nat} {s : SchemaF Act} {R : List GoStr} {T : Act → List GoStr → Constraint → Prop}
  (hd0 : s.dflt = .nil) (hT : ∀ a c, s.Child a → T a R c → c.Every NoDefault)
include hd0 hT

theorem noDflt_arrayEnd {a : ArrC Constraint} (h : ItemsBuilt T R s a) : (Constraint.array (arrayEnd s a)).Every NoDefault := by
  refine noDflt_of_children rfl (fun d hd => ?_)
  have hd : a.Child d := by
    cases hd with
    | array hd =>
      unfold arrayEnd applyIf at hd
      cases hd with
      | items hd =>
        refine .items ?_
        revert hd
        cases s.uniqueItems <;> cases s.maxItems <;> cases s.minItems <;> exact id
      | positional hd =>
        refine .positional ?_
        revert hd
        cases s.uniqueItems <;> cases s.maxItems <;> cases s.minItems <;> exact id
      | additional hd =>
        refine .additional ?_
        revert hd
        cases s.uniqueItems <;> cases s.maxItems <;> cases s.minItems <;> exact id
  have hempty : Constraint.empty.Every NoDefault := noDflt_leaf rfl (fun d hd => by cases hd)
  cases h with
  | nil hi =>
    cases hd with
    | items hd => cases hd
    | positional hd => cases hd
    | additional hd => cases hd; exact hempty
  | list hi t =>
    cases hd with
    | items hd => cases hd; exact hT _ _ (.list hi (by simp)) t
    | positional hd => cases hd
    | additional hd => cases hd; exact hempty
  | tuple hi t x =>
    cases hd with
    | items hd => cases hd
    | positional hd =>
      obtain ⟨a, ha, ht⟩ := forall2_right t d hd
      exact hT _ _ (.tuple hi ha) ht
    | additional hd =>
      simp only [ArrC.AdditionalItems] at hd
      rw [hd] at x
      generalize hx : s.additionalItems = y at x
      cases x with
      | allow => exact hempty
      | schema t => exact hT _ _ (.additionalItems hx) t

theorem noDflt_object {o : ObjC Constraint} (h : ObjectBuilt T R s o) : (Constraint.object o).Every NoDefault := by
  refine noDflt_of_children rfl (fun d hd => ?_)
  cases hd with
  | object hd =>
    cases hd with
    | prop hd =>
      obtain ⟨k, cs, hn, he⟩ := h.props
      rw [he] at hd
      rcases mem_foldl_ainsert hd with hd | hd
      · obtain ⟨a, ha, ht⟩ := forall2_right hn _ hd
        exact hT _ _ (.property (mem_shuffle.1 ha)) ht.2
      · cases hd
    | pattern hd =>
      obtain ⟨k, cs, hn, he⟩ := h.patterns
      rw [he] at hd
      rcases mem_foldl_patInsert hd with hd | hd
      · obtain ⟨a, ha, ht⟩ := forall2_right hn _ hd
        exact hT _ _ (.patternProp (mem_shuffle.1 ha)) ht.2.2
      · cases hd
    | additional hd =>
      have x := h.additional
      rw [hd] at x
      generalize hx : s.additionalProps = y at x
      cases x with
      | allow => exact noDflt_leaf rfl (fun d hd => by cases hd)
      | schema t => exact hT _ _ (.additionalProps hx) t
    | dependency hd =>
      obtain ⟨k, cs, hn, he⟩ := h.schemadeps
      unfold ObjC.GetSchemaDependency at hd
      rw [he] at hd
      rcases mem_foldl_ainsert (alookup_mem hd) with hd | hd
      · obtain ⟨a, ha, ht⟩ := forall2_right hn _ hd
        exact hT _ _ (.dependency (mem_shuffle.1 ha)) ht.2
      · cases hd

theorem noDflt_type {t : PrimType} {c : Constraint} (h : TypeBuilt T R s t c) : c.Every NoDefault := by
  cases h with
  | array h => exact noDflt_arrayEnd hd0 hT h
  | object h => exact noDflt_object hd0 hT h
  | booleanDflt hb => rw [hd0] at hb; cases hb
  | string => exact noDflt_leaf (by simp [NoDefault, Constraint.ownDefault, stringOf_fields s hd0]) (fun d hd => by cases hd)
  | number => exact noDflt_leaf (numberOf_dflt hd0) (fun d hd => by cases hd)
  | integer => exact noDflt_leaf (integerOf_dflt hd0) (fun d hd => by cases hd)
  | _ => exact noDflt_leaf rfl (fun d hd => by cases hd)

theorem noDflt_combo {l : List Constraint} (h : ComboBuilt T R s l) : ∀ c ∈ l, c.Every NoDefault := by
  intro c hc
  cases h with
  | not hn t =>
    simp only [List.mem_singleton] at hc
    subst hc
    exact noDflt_of_children rfl (fun d hd => by cases hd; exact hT _ _ (.not hn) t)
  | allOf h1 h2 t =>
    simp only [List.mem_singleton] at hc
    subst hc
    exact noDflt_reduceAll (fun c hc => by obtain ⟨a, ha, ht⟩ := forall2_right t c hc; exact hT _ _ (.allOf ha) ht)
  | anyOf h1 h2 h3 t =>
    simp only [List.mem_singleton] at hc
    subst hc
    exact noDflt_reduceAny (fun c hc => by obtain ⟨a, ha, ht⟩ := forall2_right t c hc; exact hT _ _ (.anyOf ha) ht)
  | oneOf h1 h2 h3 h4 t =>
    simp only [List.mem_singleton] at hc
    subst hc
    exact noDflt_reduceOneOf (fun c hc => by obtain ⟨a, ha, ht⟩ := forall2_right t c hc; exact hT _ _ (.oneOf ha) ht)
  | none => simp at hc

theorem noDflt_node {c : Constraint} (h : NodeBuilt lib m T R s c) : c.Every NoDefault := by
  cases h with
  | ref hr hm => exact noDflt_leaf rfl (fun d hd => by cases hd)
  | typed hr hc hn ht =>
    refine noDflt_reduceAll (fun c h => ?_)
    rcases List.mem_append.1 h with h | h
    · exact noDflt_combo hd0 hT hc c h
    · simp only [List.mem_singleton] at h
      subst h
      exact noDflt_reduceAny (fun c hc => by obtain ⟨t, _, ht⟩ := forall2_right ht c hc; exact noDflt_type hd0 hT ht)
  | enum hr hc hn he =>
    refine noDflt_reduceAll (fun c h => ?_)
    rcases List.mem_append.1 h with h | h
    · exact noDflt_combo hd0 hT hc c h
    · simp only [List.mem_singleton] at h
      subst h
      exact noDflt_leaf rfl (fun d hd => by cases hd)
  | plain hr hc hn he => exact noDflt_reduceAll (noDflt_combo hd0 hT hc)

end

/-- A conforming schema has no defaults, and neither has what is built from it. -/
theorem noDflt_built {ext : Ext} {cls : DocClass} {lib : SchemaLib} {m : Nat} {s : Schema}
    (h : s.Conforms ext lib.formats cls) : ∀ c, BuiltFrom lib m s c → c.Every NoDefault := by
  induction h with
  | ref s hne =>
    intro c hb
    obtain ⟨R, hb⟩ := node_of_build hb
    cases hb with
    | ref => exact noDflt_leaf rfl (fun d hd => by cases hd)
    | typed h => exact absurd h hne
    | enum h => exact absurd h hne
    | plain h => exact absurd h hne
  | node s hr hcf _ ih =>
    intro c hb
    obtain ⟨R, hb⟩ := node_of_build hb
    refine noDflt_node (s := s.map (build lib m)) hcf.dflt (fun a c ha ht => ?_) hb
    obtain ⟨d, hd, rfl⟩ := SchemaF.child_map ha
    exact ih d hd c ht

/-! ## References met without descending into the value -/

section
variable {lib : SchemaLib} {m m' : Nat} {n : GoStr}

theorem here_of_same {c : Constraint} (hr : c ≠ .ref m' n) (h : (Constraint.ref m' n).Here c) :
    ∃ d, c.Same d ∧ (Constraint.ref m' n).Here d := by
  cases h with
  | refl => exact absurd rfl hr
  | same hs h => exact ⟨_, hs, h⟩

theorem here_reduceAll {l : List Constraint} (h : (Constraint.ref m' n).Here (reduceAll l)) :
    ∃ c ∈ l, (Constraint.ref m' n).Here c := by
  unfold reduceAll reduceCombined at h
  split at h
  · exact ⟨_, by simp, h⟩
  · obtain ⟨d, hs, hd⟩ := here_of_same (by simp) h
    cases hs with | all hs => exact ⟨d, hs, hd⟩

theorem here_reduceAny {l : List Constraint} (h : (Constraint.ref m' n).Here (reduceAny l)) :
    ∃ c ∈ l, (Constraint.ref m' n).Here c := by
  unfold reduceAny reduceCombined at h
  split at h
  · exact ⟨_, by simp, h⟩
  · obtain ⟨d, hs, hd⟩ := here_of_same (by simp) h
    cases hs with | any hs => exact ⟨d, hs, hd⟩

theorem here_reduceOneOf {l : List Constraint} (h : (Constraint.ref m' n).Here (reduceOneOf l)) :
    ∃ c ∈ l, (Constraint.ref m' n).Here c := by
  unfold reduceOneOf reduceCombined at h
  split at h
  · exact ⟨_, by simp, h⟩
  · obtain ⟨d, hs, hd⟩ := here_of_same (by simp) h
    cases hs with | oneOf hs => exact ⟨d, hs, hd⟩

/-- A reference met in a built constraint without descending is met so in the schema. -/
theorem mentionsHere_of_built : ∀ s : Schema, ∀ c, BuiltFrom lib m s c → (Constraint.ref m' n).Here c →
    m' = m ∧ s.MentionsHere n := by
  refine Schema.ind (P := fun s => ∀ c, BuiltFrom lib m s c → (Constraint.ref m' n).Here c → m' = m ∧ s.MentionsHere n) ?_ ?_
  · intro c hb
    obtain ⟨σ, R, R', hb⟩ := hb
    rw [build_nil] at hb; cases hb
  · intro s ih c hb hh
    obtain ⟨R, hb⟩ := node_of_build hb
    have one : ∀ a c, (s.map (build lib m)).Child a → BuiltBy a c → (Constraint.ref m' n).Here c →
        ∃ x, s.Child x ∧ build lib m x = a ∧ m' = m ∧ x.MentionsHere n := by
      intro a c ha hc hh
      obtain ⟨x, hx, rfl⟩ := SchemaF.child_map ha
      obtain ⟨h1, h2⟩ := ih x hx c hc hh
      exact ⟨x, hx, rfl, h1, h2⟩
    have combo : ∀ ct, s.reference = [] → ComboBuilt (fun a _ c => BuiltBy a c) R (s.map (build lib m)) ct → ∀ c ∈ ct,
        (Constraint.ref m' n).Here c → m' = m ∧ (Schema.mk s).MentionsHere n := by
      intro ct hr hct c hc hh
      cases hct with
      | not hn t =>
        simp only [List.mem_singleton] at hc
        subst hc
        obtain ⟨d, hs, hd⟩ := here_of_same (by simp) hh
        cases hs
        simp only [SchemaF.map, Option.map_eq_some_iff] at hn
        obtain ⟨x, hx, rfl⟩ := hn
        obtain ⟨h1, h2⟩ := ih x (.not hx) _ t hd
        exact ⟨h1, .not hr hx h2⟩
      | allOf h1 h2 t =>
        simp only [List.mem_singleton] at hc
        subst hc
        obtain ⟨d, hs, hd⟩ := here_reduceAll hh
        obtain ⟨a, ha, ht⟩ := forall2_right t d hs
        simp only [SchemaF.map, List.mem_map] at ha
        obtain ⟨x, hx, rfl⟩ := ha
        obtain ⟨h1, h2⟩ := ih x (.allOf hx) _ ht hd
        exact ⟨h1, .allOf hr hx h2⟩
      | anyOf h1 h2 h3 t =>
        simp only [List.mem_singleton] at hc
        subst hc
        obtain ⟨d, hs, hd⟩ := here_reduceAny hh
        obtain ⟨a, ha, ht⟩ := forall2_right t d hs
        simp only [SchemaF.map, List.mem_map] at ha
        obtain ⟨x, hx, rfl⟩ := ha
        obtain ⟨h1, h2⟩ := ih x (.anyOf hx) _ ht hd
        exact ⟨h1, .anyOf hr hx h2⟩
      | oneOf h1 h2 h3 h4 t =>
        simp only [List.mem_singleton] at hc
        subst hc
        obtain ⟨d, hs, hd⟩ := here_reduceOneOf hh
        obtain ⟨a, ha, ht⟩ := forall2_right t d hs
        simp only [SchemaF.map, List.mem_map] at ha
        obtain ⟨x, hx, rfl⟩ := ha
        obtain ⟨h1, h2⟩ := ih x (.oneOf hx) _ ht hd
        exact ⟨h1, .oneOf hr hx h2⟩
      | none => simp at hc
    cases hb with
    | ref hr hm =>
      cases hh with
      | refl => exact ⟨rfl, .here hr rfl⟩
      | same hs => cases hs
    | typed hr hc hn ht =>
      obtain ⟨c, hcm, hh⟩ := here_reduceAll hh
      rcases List.mem_append.1 hcm with h | h
      · exact combo _ hr hc c h hh
      · simp only [List.mem_singleton] at h
        subst h
        obtain ⟨c, hcm, hh⟩ := here_reduceAny hh
        obtain ⟨t, _, ht⟩ := forall2_right ht c hcm
        cases ht with
        | object ho =>
          obtain ⟨d, hs, hd⟩ := here_of_same (by simp) hh
          cases hs with
          | dependency hs =>
            obtain ⟨k, cs, hn, he⟩ := ho.schemadeps
            unfold ObjC.GetSchemaDependency at hs
            rw [he] at hs
            rcases mem_foldl_ainsert (alookup_mem hs) with hs | hs
            · obtain ⟨a, ha, ht⟩ := forall2_right hn _ hs
              have ha := mem_shuffle.1 ha
              obtain ⟨p, a⟩ := a
              simp only [SchemaF.map, List.mem_map] at ha
              obtain ⟨⟨p', x⟩, hx, he⟩ := ha
              cases he
              obtain ⟨h1, h2⟩ := ih x (.dependency hx) _ ht.2 hd
              exact ⟨h1, .dependency hr hx h2⟩
            · cases hs
        | _ => cases hh with | same hs => cases hs
    | enum hr hc hn he =>
      obtain ⟨c, hcm, hh⟩ := here_reduceAll hh
      rcases List.mem_append.1 hcm with h | h
      · exact combo _ hr hc c h hh
      · simp only [List.mem_singleton] at h
        subst h
        cases hh with | same hs => cases hs
    | plain hr hc hn he =>
      obtain ⟨c, hcm, hh⟩ := here_reduceAll hh
      exact combo _ hr hc c hcm hh

/-! ## The table -/

variable {resolve : Resolver} {s : Schema}

/-- The state holds what the schema refers to. -/
structure From (lib : SchemaLib) (m : Nat) (resolve : Resolver) (s : Schema) (st : BState) : Prop where
  names : ∀ n ∈ st.names, Reaches resolve s n
  table : ∀ p ∈ st.table, Reaches resolve s p.1 ∧ ∃ s1, RefersTo resolve s p.1 s1 ∧ BuiltFrom lib m s1 p.2

mutual
theorem compileRef_from (hroot : Reaches resolve s (b! "#") → ∀ s1, (resolve (b! "#")).target = .ok s1 → s1 = s) : ∀ {fuel : Nat} {σ : Sched} {ref : GoStr}
    {st st' : BState}, compileRef lib m resolve fuel σ ref st = .ok st' → Reaches resolve s ref → From lib m resolve s st →
    From lib m resolve s st'
  | 0, σ, ref, st, st', h, _, _ => by rw [compileRef] at h; cases h
  | k + 1, σ, ref, st, st', h, hr, hf => by
    rw [compileRef] at h
    split at h
    · cases h
      exact hf
    · rcases ht : (resolve ref).target with e | s1
      · rw [ht] at h; cases h
      · rw [ht] at h
        simp only at h
        rcases hb : build lib m s1 (σ.sub 0) st.names with e | ⟨c1, names⟩
        · rw [hb] at h; cases h
        · rw [hb] at h
          simp only at h
          obtain ⟨g, -⟩ := build_refs hb
          have hto : RefersTo resolve s ref s1 := by
            by_cases hh : ref = b! "#"
            · subst hh
              rw [hroot hr s1 ht]; exact .root
            · exact .resolved hh ht
          have hnames : ∀ n ∈ names, Reaches resolve s n := fun n hn =>
            (g.new n hn).elim (hf.names n) (fun h => .step hr hto h)
          refine compileLoop_from hroot h (fun n hn => hnames n (mem_shuffle.1 hn)) ⟨hnames, ?_⟩
          rintro ⟨n, c⟩ hp
          rcases mem_ainsert_pair hp with ⟨rfl, rfl⟩ | hp
          · exact ⟨hr, s1, hto, _, _, _, hb⟩
          · exact hf.table _ hp

theorem compileLoop_from (hroot : Reaches resolve s (b! "#") → ∀ s1, (resolve (b! "#")).target = .ok s1 → s1 = s) : ∀ {fuel : Nat} {σ : Sched}
    {l : List GoStr} {st st' : BState}, compileLoop lib m resolve fuel σ l st = .ok st' → (∀ n ∈ l, Reaches resolve s n) →
    From lib m resolve s st → From lib m resolve s st'
  | 0, σ, [], st, st', h, _, hf => by rw [compileLoop] at h; cases h; exact hf
  | 0, σ, _ :: _, st, st', h, _, _ => by rw [compileLoop] at h; cases h
  | k + 1, σ, [], st, st', h, _, hf => by rw [compileLoop] at h; cases h; exact hf
  | k + 1, σ, ref :: rest, st, st', h, hl, hf => by
    rw [compileLoop] at h
    rcases h1 : compileRef lib m resolve k (σ.sub 0) ref st with e | st1
    · rw [h1] at h; cases h
    · rw [h1] at h
      have hf1 := compileRef_from hroot h1 (hl ref (by simp)) hf
      refine compileLoop_from hroot h (fun n hn => ?_) hf1
      rcases of_mem_revisit hn with hn | hn
      · exact hl n (by simp [hn])
      · exact hf1.names n (List.mem_filter.1 hn).1
end

/-- Where the root constraint and the table come from. -/
theorem built_from (hroot : Reaches resolve s (b! "#") → ∀ s1, (resolve (b! "#")).target = .ok s1 → s1 = s) {fuel : Nat} {σ : Sched} {b : Built}
    (h : BuildWithCtx lib m resolve fuel σ s = .ok b) : BuiltFrom lib m s b.root ∧
      ∀ p ∈ b.table, Reaches resolve s p.1 ∧ ∃ s1, RefersTo resolve s p.1 s1 ∧ BuiltFrom lib m s1 p.2 := by
  cases s with
  | nil => cases h
  | mk s =>
    simp only [BuildWithCtx] at h
    rcases hb : build lib m (.mk s) (σ.sub 0) [] with e | ⟨c, names⟩
    · rw [hb] at h; cases h
    · rw [hb] at h
      simp only at h
      generalize hst : (if b! "#" ∈ names then (⟨[(b! "#", c)], names.filter (· ≠ b! "#")⟩ : BState) else ⟨[], names⟩) = st at h
      rcases hl : compileLoop lib m resolve fuel (σ.sub 1) (shuffle (σ.sub 2).key st.names) st with e | st'
      · rw [hl] at h; cases h
      · rw [hl] at h
        cases h
        obtain ⟨g, -⟩ := build_refs hb
        have hbf : BuiltFrom lib m (.mk s) c := ⟨_, _, _, hb⟩
        have hn : ∀ n ∈ names, Reaches resolve (.mk s) n := fun n hn =>
          (g.new n hn).elim (fun h => by simp at h) (fun h => .root h)
        have hf : From lib m resolve (.mk s) st := by
          rw [← hst]
          split
          · rename_i hm
            refine ⟨fun n h => hn n (List.mem_filter.1 h).1, fun p hp => ?_⟩
            simp only [List.mem_singleton] at hp
            subst hp
            exact ⟨hn _ hm, _, .root, hbf⟩
          · exact ⟨hn, fun p hp => by simp at hp⟩
        exact ⟨hbf, (compileLoop_from hroot hl (fun n h => hf.names n (mem_shuffle.1 h)) hf).table⟩

end

/-! ## Fuel -/

section
variable {ext : Ext} {cls : DocClass} {lib : SchemaLib} {m : Nat} {resolve : Resolver} {s : Schema}

theorem running_tracks {P : GoVal → Prop} : Tracks ext (Doc cls) running P :=
  ⟨⟨fun dv h => by simp [running] at h, fun a _ => trivial, fun σ v _ => ⟨trivial, rfl, fun _ _ => trivial⟩⟩,
    ⟨fun dv h => by simp [running] at h, fun a h => by simp [running] at h; exact h.symm,
      fun σ v hv => ⟨hv, trivial, fun a h => by simp [running] at h; exact h.symm⟩⟩,
    fun σ v _ h => by simp [running] at h, fun σ v e _ h => by simp [running] at h⟩

theorem refSem_tracks {R : GoStr → GoVal → Prop} {b : Built}
    (hto : ∀ n s1, Reaches resolve s n → RefersTo resolve s n s1 → s1.Conforms ext lib.formats cls)
    (hR : Meaning ext resolve s R)
    (htab : ∀ p ∈ b.table, Reaches resolve s p.1 ∧ ∃ s1, RefersTo resolve s p.1 s1 ∧ BuiltFrom lib m s1 p.2)
    (hdang : ∀ k c, alookup k b.table = some c → ∀ n, (Constraint.ref m n).In c → ∃ d, alookup n b.table = some d) :
    ∀ fuel n c, alookup n b.table = some c → Tracks ext (Doc cls) (refSem ext (b.env m) fuel m n) (R n)
  | 0, n, c, _ => running_tracks
  | k + 1, n, c, h => by
    have henv : b.env m m n = some c := by simp [Built.env, h]
    have : refSem ext (b.env m) (k + 1) m n = denote ext (refSem ext (b.env m) k) c := by
      simp only [refSem, henv]
    rw [this]
    obtain ⟨hre, s1, hs1, hbf⟩ := htab _ (alookup_mem h)
    refine (schema_tracks (hto n s1 hre hs1) c hbf (R := R) (fun n' _ hi => ?_)).congr (fun v _ => (hR n s1 hre hs1 v).symm)
    obtain ⟨d, hd⟩ := hdang n c h n' hi
    exact refSem_tracks hto hR htab hdang k n' d hd

/-- The validator built from a conforming schema decides validity. -/
theorem built_tracks (hroot : Reaches resolve s (b! "#") → ∀ s1, (resolve (b! "#")).target = .ok s1 → s1 = s) {bfuel : Nat} {σ : Sched} {b : Built}
    (h : BuildWithCtx lib m resolve bfuel σ s = .ok b) (hs : s.Conforms ext lib.formats cls)
    (hto : ∀ n s1, Reaches resolve s n → RefersTo resolve s n s1 → s1.Conforms ext lib.formats cls)
    {R : GoStr → GoVal → Prop} (hR : Meaning ext resolve s R) (fuel : Nat) :
    Tracks ext (Doc cls) (sem ext (b.env m) fuel b.root) (s.Valid ext R) := by
  obtain ⟨hbf, htab⟩ := built_from hroot h
  refine schema_tracks hs _ hbf (fun n _ hi => ?_)
  obtain ⟨-, c, hc⟩ := C61_no_dangling_ctx h (Or.inl hi)
  refine refSem_tracks hto hR htab (fun k c hk n hi => ?_) fuel n c hc
  exact (C61_no_dangling_ctx h (Or.inr ⟨k, c, hk, hi⟩)).2

theorem guarded_of_grounded (hroot : Reaches resolve s (b! "#") → ∀ s1, (resolve (b! "#")).target = .ok s1 → s1 = s) {bfuel : Nat} {σ : Sched} {b : Built}
    (h : BuildWithCtx lib m resolve bfuel σ s = .ok b) (hg : Grounded resolve s) : Guarded (b.env m) := by
  obtain ⟨-, htab⟩ := built_from hroot h
  refine Subrelation.wf (fun {q p} hqp => ?_) (InvImage.wf (fun p : Nat × GoStr => p.2) hg)
  obtain ⟨c, hc, hh⟩ := hqp
  unfold Built.env at hc
  split at hc
  · obtain ⟨-, s1, hs1, hb⟩ := htab _ (alookup_mem hc)
    exact ⟨s1, hs1, (mentionsHere_of_built s1 c hb hh).2⟩
  · cases hc

theorem built_noDflt (hroot : Reaches resolve s (b! "#") → ∀ s1, (resolve (b! "#")).target = .ok s1 → s1 = s) {bfuel : Nat} {σ : Sched} {b : Built}
    (h : BuildWithCtx lib m resolve bfuel σ s = .ok b) (hs : s.Conforms ext lib.formats cls)
    (hto : ∀ n s1, Reaches resolve s n → RefersTo resolve s n s1 → s1.Conforms ext lib.formats cls) :
    b.root.Every (DefaultIn Flat) ∧ (b.env m).Every (DefaultIn Flat) := by
  obtain ⟨hbf, htab⟩ := built_from hroot h
  have hno : ∀ c : Constraint, c.Every NoDefault → c.Every (DefaultIn Flat) := fun c hc d hd dv e => by
    rw [hc d hd] at e; cases e
  refine ⟨hno _ (noDflt_built hs _ hbf), fun m' n c hc => ?_⟩
  unfold Built.env at hc
  split at hc
  · obtain ⟨hre, s1, hs1, hb⟩ := htab _ (alookup_mem hc)
    exact hno _ (noDflt_built (hto n s1 hre hs1) _ hb)
  · cases hc

end

end Jsval
