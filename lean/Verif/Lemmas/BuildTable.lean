import Verif.Lemmas.BuildDet
import Verif.Lemmas.PipelineRun
import Verif.Spec.Buildable
/-!
# The table of a built validator
-/
namespace Jsval
variable {lib : SchemaLib} {m : Nat} {resolve : Resolver}

section
variable {T K : GoStr → Prop} (hT : ∀ n, T n → K n ∨ GoodRef lib.formats resolve T n) {P : GoStr → Constraint → Prop}
  (hP : ∀ n s1 c, T n → ¬ K n → (resolve n).target = .ok s1 → BuiltFrom lib m s1 c → P n c)
include hT hP

mutual
theorem compileRef_entries : ∀ {fuel : Nat} {σ : Sched} {ref : GoStr} {st st' : BState}, compileRef lib m resolve fuel σ ref st = .ok st' →
    T ref → (∀ n ∈ st.names, T n) → (∀ n, K n → n ∈ st.keys) → (∀ p ∈ st.table, P p.1 p.2) → ∀ p ∈ st'.table, P p.1 p.2
  | 0, σ, ref, st, st', h, _, _, _, _ => by rw [compileRef] at h; cases h
  | k + 1, σ, ref, st, st', h, hr, hn, hk, hp => by
    rw [compileRef] at h
    split at h
    · cases h
      exact hp
    · rename_i hs
      have hnk : ¬ K ref := fun h1 => by
        obtain ⟨v, hv⟩ := alookup_isSome.2 (hk ref h1)
        rw [hv] at hs
        exact absurd rfl hs
      rcases hT ref hr with h1 | ⟨s1, h1, h2, h3⟩
      · exact absurd h1 hnk
      · rw [h1] at h
        simp only at h
        obtain ⟨c, R', e1, e2⟩ := (build_does lib m s1).1 h2 (σ.sub 0) st.names
        rw [e1] at h
        simp only at h
        have hn' : ∀ n ∈ R', T n := fun n h => ((e2 n).1 h).elim (hn n) (h3 n)
        refine compileLoop_entries h (fun n h => hn' n (mem_shuffle.1 h)) hn' (fun n h => mem_keys_ainsert.2 (.inr (hk n h))) ?_
        rintro ⟨n, d⟩ hd
        rcases mem_ainsert_pair hd with ⟨rfl, rfl⟩ | hd
        · exact hP _ s1 _ hr hnk h1 ⟨_, _, _, e1⟩
        · exact hp _ hd

theorem compileLoop_entries : ∀ {fuel : Nat} {σ : Sched} {l : List GoStr} {st st' : BState}, compileLoop lib m resolve fuel σ l st = .ok st' →
    (∀ n ∈ l, T n) → (∀ n ∈ st.names, T n) → (∀ n, K n → n ∈ st.keys) → (∀ p ∈ st.table, P p.1 p.2) → ∀ p ∈ st'.table, P p.1 p.2
  | 0, σ, [], st, st', h, _, _, _, hp => by rw [compileLoop] at h; cases h; exact hp
  | 0, σ, _ :: _, st, st', h, _, _, _, _ => by rw [compileLoop] at h; cases h
  | k + 1, σ, [], st, st', h, _, _, _, hp => by rw [compileLoop] at h; cases h; exact hp
  | k + 1, σ, ref :: rest, st, st', h, hl, hn, hk, hp => by
    rw [compileLoop] at h
    rcases h1 : compileRef lib m resolve k (σ.sub 0) ref st with e | st1
    · rw [h1] at h; cases h
    · rw [h1] at h
      simp only at h
      have hn1 := (compileRef_good hT k (σ.sub 0) ref st (hl ref (by simp)) hn hk).2 st1 h1
      refine compileLoop_entries h (fun n h => ?_) hn1 (fun n h => (compileRef_compiled h1).1.keys n (hk n h))
        (compileRef_entries h1 (hl ref (by simp)) hn hk hp)
      rcases of_mem_revisit h with h | h
      · exact hl n (by simp [h])
      · exact hn1 n (List.mem_filter.1 h).1
end
end

/-- The name stands for the schema as a whole. -/
def IsRoot (formats : List GoStr) (s : Schema) (n : GoStr) : Prop := n = b! "#" ∧ s.UsesRef formats (b! "#")

/-- What a built validator consists of. -/
structure BuiltParts (lib : SchemaLib) (m : Nat) (resolve : Resolver) (s : Schema) (b : Built) : Prop where
  root : BuiltFrom lib m s b.root
  nodup : (b.table.map (·.1)).Nodup
  keys : ∀ n, n ∈ b.table.map (·.1) ↔ MustResolve lib.formats resolve s n ∨ IsRoot lib.formats s n
  self : ∀ n c, alookup n b.table = some c → IsRoot lib.formats s n → c = b.root
  others : ∀ n c, alookup n b.table = some c → ¬ IsRoot lib.formats s n → ∃ s1, (resolve n).target = .ok s1 ∧ BuiltFrom lib m s1 c

theorem builtParts {s : Schema} {fuel : Nat} {σ : Sched} {b : Built} (h : BuildWithCtx lib m resolve fuel σ s = .ok b) :
    BuiltParts lib m resolve s b := by
  have hcan := canBuild_of_built h
  have hnd := built_nodup h
  have hreg := fun hu => root_registered (m := m) h hu
  cases s with
  | nil => cases h
  | mk s =>
    rw [BuildWithCtx] at h
    · obtain ⟨c, names, hb, e2⟩ := (build_does lib m (.mk s)).1 hcan.self (σ.sub 0) []
      rw [hb] at h
      simp only at h
      generalize hst : (if b! "#" ∈ names then (⟨[(b! "#", c)], names.filter (· ≠ b! "#")⟩ : BState) else ⟨[], names⟩) = st at h
      rcases hl : compileLoop lib m resolve fuel (σ.sub 1) (shuffle (σ.sub 2).key st.names) st with e | st'
      · rw [hl] at h; cases h
      · rw [hl] at h
        cases h
        have hnames : ∀ n ∈ st.names, MustResolve lib.formats resolve (.mk s) n ∨ IsRoot lib.formats (.mk s) n := by
          intro n hn
          have hu : n ∈ names → (Schema.mk s).UsesRef lib.formats n := fun h => ((e2 n).1 h).elim (fun h => by simp at h) id
          rw [← hst] at hn
          split_ifs at hn with hi
          · simp only [List.mem_filter, decide_eq_true_eq, ne_eq] at hn
            exact .inl (.root (hu hn.1) hn.2)
          · by_cases hne : n = b! "#"
            · subst hne
              exact .inr ⟨rfl, hu hn⟩
            · exact .inl (.root (hu hn) hne)
        have hent := compileLoop_entries (lib := lib) (m := m) (resolve := resolve)
          (T := fun n => MustResolve lib.formats resolve (.mk s) n ∨ IsRoot lib.formats (.mk s) n) (K := IsRoot lib.formats (.mk s))
          (P := fun n d => (MustResolve lib.formats resolve (.mk s) n ∨ IsRoot lib.formats (.mk s) n) ∧
            (¬ IsRoot lib.formats (.mk s) n → ∃ s1, (resolve n).target = .ok s1 ∧ BuiltFrom lib m s1 d))
          (fun n hn => by
            rcases hn with hn | hn
            · obtain ⟨s1, h1, h2⟩ := hcan.refs n hn
              refine .inr ⟨s1, h1, h2, fun k hk => ?_⟩
              by_cases hc : IsRoot lib.formats (.mk s) k
              · exact .inr hc
              · exact .inl (.step hn h1 hk hc)
            · exact .inl hn)
          (fun n s1 d hn _ h1 h2 => ⟨hn, fun _ => ⟨s1, h1, h2⟩⟩) hl
          (fun n h => hnames n (mem_shuffle.1 h)) hnames
          (by
            rintro n ⟨rfl, hu⟩
            have : b! "#" ∈ names := (e2 _).2 (.inr hu)
            rw [← hst, if_pos this]
            simp [BState.keys])
          (by
            rintro ⟨n, d⟩ hd
            rw [← hst] at hd
            split_ifs at hd with hi
            · simp only [List.mem_singleton, Prod.mk.injEq] at hd
              have hr : IsRoot lib.formats (.mk s) n := ⟨hd.1, ((e2 _).1 hi).elim (fun h => by simp at h) id⟩
              exact ⟨.inr hr, fun h => absurd hr h⟩
            · simp at hd)
        obtain ⟨hc, hall⟩ := compileLoop_compiled hl
        have hs := compileLoop_sound hl
        have hclosed : ∀ n ∈ st'.names, n ∈ st'.keys := fun n hn =>
          (hc.new n hn).elim (fun h => hall n (mem_shuffle.2 h)) id
        have hkeys : ∀ n ∈ st.keys, IsRoot lib.formats (.mk s) n := by
          intro n hn
          rw [← hst] at hn
          split_ifs at hn with hi
          · exact ⟨by simpa [BState.keys] using hn, ((e2 _).1 hi).elim (fun h => by simp at h) id⟩
          · simp [BState.keys] at hn
        refine ⟨⟨_, _, _, hb⟩, hnd, fun n => ⟨fun hn => ?_, fun hn => ?_⟩, fun n d hd hr => ?_, fun n d hd hr => ?_⟩
        · obtain ⟨v, hv⟩ := alookup_isSome.2 hn
          exact (hent _ (alookup_mem hv)).1
        · rcases hn with hn | ⟨rfl, hu⟩
          · have key : ∀ n, MustResolve lib.formats resolve (.mk s) n → n ∈ st'.keys ∧ ¬ IsRoot lib.formats (.mk s) n := by
              intro n hn
              induction hn with
              | @root n h1 h2 =>
                refine ⟨hall n (mem_shuffle.2 ?_), fun h => h2 h.1⟩
                have : n ∈ names := (e2 n).2 (.inr h1)
                rw [← hst]
                split_ifs
                · simp [this, h2]
                · exact this
              | step _ h1 h2 h3 ih =>
                refine ⟨?_, h3⟩
                rcases hs _ ih.1 with h4 | ⟨s1, h4, -, h5⟩
                · exact absurd (hkeys _ h4) ih.2
                · rw [h1] at h4
                  cases h4
                  exact hclosed _ (h5 _ h2)
            exact (key n hn).1
          · exact alookup_isSome.1 ⟨_, hreg hu⟩
        · obtain ⟨rfl, hu⟩ := hr
          have := hreg hu
          simp only at this hd
          rw [this] at hd
          cases hd
          rfl
        · exact (hent _ (alookup_mem hd)).2 hr
    · exact fun h => (nomatch h)

/-- Two validators built from one schema have the same names, and roots and entries that are the same up to the order of maps. -/
theorem built_rel {Q : Constraint → Constraint → Prop} (hQ : OrderBlind Q) {s : Schema} (hk : KeyedAll lib.formats resolve s)
    {fuel fuel' : Nat} {σ σ' : Sched} {b b' : Built}
    (h : BuildWithCtx lib m resolve fuel σ s = .ok b) (h' : BuildWithCtx lib m resolve fuel' σ' s = .ok b') :
    Q b.root b'.root ∧ ∀ n, OptRel Q (alookup n b.table) (alookup n b'.table) := by
  have p := builtParts h
  have p' := builtParts h'
  have hroot := built_same hQ s hk.self _ _ p.root p'.root
  refine ⟨hroot, fun n => ?_⟩
  rcases e : alookup n b.table with _ | c
  · rcases e' : alookup n b'.table with _ | c'
    · exact .none
    · have := alookup_isSome.1 ⟨_, e'⟩
      rw [p'.keys, ← p.keys] at this
      obtain ⟨v, hv⟩ := alookup_isSome.2 this
      rw [e] at hv
      cases hv
  · have hm := alookup_isSome.1 ⟨_, e⟩
    have hm' := hm
    rw [p.keys, ← p'.keys] at hm'
    obtain ⟨c', e'⟩ := alookup_isSome.2 hm'
    rw [e']
    refine .some ?_
    by_cases hr : IsRoot lib.formats s n
    · rw [p.self n c e hr, p'.self n c' e' hr]
      exact hroot
    · obtain ⟨s1, t1, b1⟩ := p.others n c e hr
      obtain ⟨s2, t2, b2⟩ := p'.others n c' e' hr
      rw [t1] at t2
      cases t2
      exact built_same hQ s1 (hk.refs n s1 (((p.keys n).1 hm).resolve_right hr) t1) _ _ b1 b2

/-- Two validators built from one schema are written alike. -/
theorem built_sameVal {s : Schema} (hk : KeyedAll lib.formats resolve s) {fuel fuel' : Nat} {σ σ' : Sched} {b b' : Built}
    (h : BuildWithCtx lib m resolve fuel σ s = .ok b) (h' : BuildWithCtx lib m resolve fuel' σ' s = .ok b') (name : GoStr) (same : GoStr → Bool) :
    SameVal ⟨name, b.table, some b.root, same⟩ ⟨name, b'.table, some b'.root, same⟩ :=
  have r := built_rel sameText_blind hk h h'
  ⟨rfl, rfl, .some r.1, (builtParts h).nodup, (builtParts h').nodup, r.2⟩

/-- What could be built under one order can be built under all, with enough fuel. -/
theorem built_any_order {s : Schema} {fuel : Nat} {σ : Sched} {b : Built} (h : BuildWithCtx lib m resolve fuel σ s = .ok b) :
    ∃ N, ∀ fuel', N ≤ fuel' → ∀ σ', ∃ b', BuildWithCtx lib m resolve fuel' σ' s = .ok b' := by
  have hcan := canBuild_of_built h
  have p := builtParts h
  generalize hF : b.table.map (·.1) = F at p
  have hkeys : ∀ n, n ∈ F ↔ MustResolve lib.formats resolve s n ∨ IsRoot lib.formats s n := by rw [← hF]; exact p.keys
  have hclosed : ClosedUnder lib m resolve F (IsRoot lib.formats s) := by
    intro n hn hnk s1 h1 σ R c R' hb k hk
    have hm : MustResolve lib.formats resolve s n := ((hkeys n).1 hn).resolve_right hnk
    obtain ⟨s2, h2, hb2⟩ := hcan.refs n hm
    rw [h1] at h2
    cases h2
    obtain ⟨c', R1, e1, e2⟩ := (build_does lib m s1).1 hb2 σ R
    rw [hb] at e1
    cases e1
    refine ((e2 k).1 hk).imp_right (fun hu => (hkeys k).2 ?_)
    by_cases hr : IsRoot lib.formats s k
    · exact .inr hr
    · exact .inl (.step hm h1 hu hr)
  refine ⟨enough F F.length + F.length, fun fuel' hf' σ' => built_of_canBuild hcan fuel' σ' ?_⟩
  cases s with
  | nil => cases h
  | mk s =>
    obtain ⟨c, names, e1, e2⟩ := (build_does lib m (.mk s)).1 hcan.self (σ'.sub 0) []
    simp only [BuildWithCtx, e1]
    generalize hst : (if b! "#" ∈ names then (⟨[(b! "#", c)], names.filter (· ≠ b! "#")⟩ : BState) else ⟨[], names⟩) = st
    have hnd : names.Nodup := (build_refs e1).1.nodup List.nodup_nil
    have hsub : ∀ n ∈ st.names, n ∈ names := by
      intro n hn
      rw [← hst] at hn
      split at hn
      · exact (List.mem_filter.1 hn).1
      · exact hn
    have hF0 : ∀ n ∈ st.names, n ∈ F := fun n hn => by
      have hu : (Schema.mk s).UsesRef lib.formats n := ((e2 n).1 (hsub n hn)).elim (fun h => by simp at h) id
      rw [hkeys]
      by_cases hne : n = b! "#"
      · exact .inr ⟨hne, hne ▸ hu⟩
      · exact .inl (.root hu hne)
    have hnd' : st.names.Nodup := by
      rw [← hst]
      split
      · exact hnd.filter _
      · exact hnd
    have hle : missing F st ≤ F.length := List.length_filter_le _ _
    have hf : enough F (missing F st) + (F.length - ([] : List GoStr).length) ≤ fuel' := by
      unfold enough at hf' ⊢
      have := Nat.mul_le_mul_left (F.length + 2) hle
      simp only [List.length_nil]
      omega
    have hm : ∀ n, n ∈ shuffle (σ'.sub 2).key st.names → n ∈ st.names := fun n h => mem_shuffle.1 h
    obtain ⟨r1, -⟩ := compileLoop_returns (lib := lib) (m := m) F hclosed _ (σ'.sub 1) (shuffle (σ'.sub 2).key st.names) st []
      (by
        rintro n ⟨rfl, hu⟩
        have : b! "#" ∈ names := (e2 _).2 (.inr hu)
        rw [← hst, if_pos this]
        simp [BState.keys])
      (fun n h => hF0 n (hm n h)) hF0 hnd' (by simpa using shuffle_nodup.2 hnd') (by simp) hm hf
    rcases hl : compileLoop lib m resolve fuel' (σ'.sub 1) (shuffle (σ'.sub 2).key st.names) st with e | st'
    · rw [hl] at r1
      simpa using r1
    · simp

/-! ## Checking whether maps are proper -/

/-- The children. -/
def SchemaF.childList {α : Type} (s : SchemaF α) : List α :=
  s.not.toList ++ s.allOf ++ s.anyOf ++ s.oneOf ++ (match s.items with | .nil => [] | .list l => l | .tuple l => l) ++
    (match s.additionalItems with | .schema c => [c] | _ => []) ++ s.properties.map (·.2) ++ s.patternProps.map (·.2.2) ++
    (match s.additionalProps with | .schema c => [c] | _ => []) ++ s.depSchemas.map (·.2)

theorem SchemaF.Child.mem_childList {α : Type} {s : SchemaF α} {c : α} (h : s.Child c) : c ∈ s.childList := by
  unfold SchemaF.childList
  cases h with
  | not h => simp [h]
  | allOf h => simp [h]
  | anyOf h => simp [h]
  | oneOf h => simp [h]
  | list h hm => simp [h, hm]
  | tuple h hm => simp [h, hm]
  | additionalItems h => simp [h]
  | property h => have := List.mem_map_of_mem (f := (·.2)) h; simp only [List.mem_append]; tauto
  | patternProp h => have := List.mem_map_of_mem (f := (·.2.2)) h; simp only [List.mem_append]; tauto
  | additionalProps h => simp [h]
  | dependency h => have := List.mem_map_of_mem (f := (·.2)) h; simp only [List.mem_append]; tauto

theorem SchemaF.childList_map {α β : Type} (g : α → β) (s : SchemaF α) : (s.map g).childList = s.childList.map g := by
  unfold SchemaF.childList
  simp only [List.map_append]
  congr 1
  · congr 1
    · congr 1
      · congr 1
        · congr 1
          · congr 1
            · congr 1
              cases h : s.not <;> simp [SchemaF.map, h]
            · cases h : s.items <;> simp [SchemaF.map, ItemSpec.map, h]
          · cases h : s.additionalItems <;> simp [SchemaF.map, Extra.map, h]
        · simp [SchemaF.map]
      · simp [SchemaF.map]
    · cases h : s.additionalProps <;> simp [SchemaF.map, Extra.map, h]
  · simp [SchemaF.map]

/-- The check. -/
def Schema.keyedB : Schema → Bool :=
  Schema.fold true fun s => decide (s.reference ≠ []) || (decide (s.properties.map (·.1)).Nodup && decide (s.patternProps.map (·.1)).Nodup &&
    decide (s.patternProps.map (·.2.1)).Nodup && decide (s.depNames.map (·.1)).Nodup && decide (s.depSchemas.map (·.1)).Nodup && s.childList.all id)

theorem Schema.keyed_of_check : ∀ s : Schema, s.keyedB = true → s.Keyed := by
  refine Schema.ind (fun _ => .nil) fun s ih h => ?_
  rw [Schema.keyedB, Schema.fold_mk] at h
  simp only [Bool.or_eq_true, Bool.and_eq_true, decide_eq_true_eq, List.all_eq_true, id] at h
  rcases h with h | ⟨⟨⟨⟨⟨h1, h2⟩, h3⟩, h4⟩, h5⟩, h6⟩
  · exact .ref s h
  · by_cases hr : s.reference = []
    · refine .node s hr ⟨?_, ?_, ?_, h4, ?_⟩ (fun c hc => ih c hc (h6 _ (by rw [SchemaF.childList_map]; exact List.mem_map_of_mem hc.mem_childList)))
      · simpa [SchemaF.map, Function.comp_def] using h1
      · simpa [SchemaF.map, Function.comp_def] using h2
      · simpa [SchemaF.map, Function.comp_def] using h3
      · simpa [SchemaF.map, Function.comp_def] using h5
    · exact .ref s hr

end Jsval
