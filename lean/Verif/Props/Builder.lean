import Verif.Lemmas.BuilderRefs
import Verif.Lemmas.BuilderTypes
import Verif.Lemmas.SchemaFinite
import Verif.Props.Combinators
import Verif.Props.Scalars
import Verif.Spec.Reference
/-!
# The builder (C61-C67)
-/
namespace Jsval
variable {lib : SchemaLib} {m : Nat} {resolve : Resolver}

/-- Some numbering of the type constants, and some formats, for the examples. -/
def lib0 : SchemaLib where
  rank
    | .unspecified => 0 | .null => 1 | .integer => 2 | .string => 3 | .object => 4 | .array => 5 | .boolean => 6
    | .number => 7 | .other n => n + 8
  rank_inj := by
    intro a b h
    cases a <;> cases b <;> simp_all <;> omega
  formats := [b! "email", b! "uri"]

/-! ## C61 -/

/-- C61: a nil schema is an error. -/
theorem C61_nil (fuel : Nat) (σ : Sched) :
    Build lib m resolve fuel σ .nil = .error (.stop (.err .nilSchema)) ∧
      BuildWithCtx lib m resolve fuel σ .nil = .error (.stop (.err .nilSchema)) := ⟨rfl, rfl⟩

theorem C61_no_dangling_ctx {fuel : Nat} {σ : Sched} {s : Schema} {b : Built}
    (h : BuildWithCtx lib m resolve fuel σ s = .ok b) {m' : Nat} {n : GoStr}
    (hi : (Constraint.ref m' n).In b.root ∨ ∃ k c, alookup k b.table = some c ∧ (Constraint.ref m' n).In c) :
    m' = m ∧ ∃ c, alookup n b.table = some c := by
  cases s with
  | nil => cases h
  | mk s =>
    simp only [BuildWithCtx] at h
    rcases hb : build lib m (.mk s) (σ.sub 0) [] with e | ⟨c, names⟩
    · rw [hb] at h; cases h
    · rw [hb] at h
      simp only at h
      generalize hst : (if b! "#" ∈ names then (⟨[(b! "#", c)], names.filter (· ≠ b! "#")⟩ : BState) else ⟨[], names⟩) = st at h
      rcases hl : compileLoop lib m resolve fuel (σ.sub 1) (shuffle (σ.sub 2).key st.names) st with e | st'
      · rw [hl] at h; cases h
      · rw [hl] at h
        cases h
        obtain ⟨-, r⟩ := build_refs hb
        obtain ⟨cp, kp⟩ := compileLoop_compiled hl
        have hc : Covered m st c := by
          intro m' n hi
          refine ⟨(r m' n hi).1, ?_⟩
          have := (r m' n hi).2
          by_cases hh : n = b! "#"
          · refine Or.inr ?_
            rw [← hst, if_pos (hh ▸ this)]
            simp [BState.keys, hh]
          · refine Or.inl ?_
            rw [← hst]
            split
            · simp only [List.mem_filter]; exact ⟨this, by simpa using hh⟩
            · exact this
        have ht : ∀ p ∈ st.table, Covered m st p.2 := by
          intro p hp
          have : p.2 = c := by
            rw [← hst] at hp
            split at hp
            · simp only [List.mem_singleton] at hp; rw [hp]
            · simp at hp
          rw [this]
          exact hc
        have key : ∀ d, Covered m st' d → (Constraint.ref m' n).In d → m' = m ∧ n ∈ st'.keys := by
          intro d hd hi
          refine ⟨(hd m' n hi).1, (hd m' n hi).2.elim (fun h1 => ?_) id⟩
          exact (cp.new n h1).elim (fun h2 => kp n (mem_shuffle.2 h2)) id
        have : m' = m ∧ n ∈ st'.keys := by
          rcases hi with hi | ⟨k, d, hk, hi⟩
          · refine ⟨(hc m' n hi).1, (hc m' n hi).2.elim (fun h1 => kp n (mem_shuffle.2 h1)) (cp.keys n)⟩
          · exact key d (cp.table ht _ (alookup_mem hk)) hi
        exact ⟨this.1, alookup_isSome.2 this.2⟩

/-- C61: when `Build` succeeds, every reference in the root constraint or in a registered constraint goes to the
validator's own map and is registered there. -/
theorem C61_no_dangling {fuel : Nat} {σ : Sched} {s : Schema} {b : Built} (h : Build lib m resolve fuel σ s = .ok b)
    {m' : Nat} {n : GoStr}
    (hi : (Constraint.ref m' n).In b.root ∨ ∃ k c, alookup k b.table = some c ∧ (Constraint.ref m' n).In c) :
    m' = m ∧ ∃ c, alookup n b.table = some c := by
  have h' : BuildWithCtx lib m resolve fuel σ s = .ok b := by cases s <;> exact h
  exact C61_no_dangling_ctx h' hi

/-- A linked list: `{"type": "object", "properties": {"next": {"$ref": "#"}, "val": {"$ref": "#/definitions/v"}}}`. -/
def exListSchema : Schema := .mk
  { type := [.object], properties := [(b! "next", .mk { reference := b! "#" }), (b! "val", .mk { reference := b! "v" })] }
/-- `v` is an array of `w`s, `w` a non-negative integer or a list again. -/
def exListResolve : Resolver := fun n =>
  if n = b! "v" then .object (some { type := [.array], items := .list [.mk { reference := b! "w" }] })
  else if n = b! "w" then
    .schema (.mk { anyOf := [.mk { type := [.integer], minimum := some F64.zero }, .mk { reference := b! "v" }] })
  else .fail
/-- The built validator. -/
def exListBuilt : Built where
  root := .object (((Object'.AddProp (b! "next") (.ref 7 (b! "#"))).AddProp (b! "val") (.ref 7 (b! "v"))).AdditionalProperties
    (some .empty))
  table := [(b! "#", .object (((Object'.AddProp (b! "next") (.ref 7 (b! "#"))).AddProp (b! "val")
      (.ref 7 (b! "v"))).AdditionalProperties (some .empty))),
    (b! "v", .array (Array'.Items (some (.ref 7 (b! "w"))))),
    (b! "w", .any [.integer (Number'.Minimum F64.zero), .ref 7 (b! "v")])]

/-- A successful build with references between references. -/
example : Build lib0 7 exListResolve 10 sched0 exListSchema = .ok exListBuilt := by
  rfl

/-! ## C62 -/

/-- C62: if the reference names that can be reached lie in a finite set, then some amount of fuel is enough: `Build`
returns, whatever the map iteration orders, and more fuel changes nothing. -/
theorem C62_terminates (F : List GoStr) (s : Schema) (h0 : ∀ n, s.Mentions n → n ∈ F)
    (hF : ∀ n ∈ F, ∀ s1, (resolve n).target = .ok s1 → ∀ k, s1.Mentions k → k ∈ F) :
    ∃ fuel, ∀ σ, Build lib m resolve fuel σ s ≠ .error .diverge ∧
      ∀ fuel', fuel ≤ fuel' → Build lib m resolve fuel' σ s = Build lib m resolve fuel σ s := by
  cases s with
  | nil => exact ⟨0, fun σ => ⟨by simp [Build], fun _ _ => rfl⟩⟩
  | mk s =>
    refine ⟨enough F F.length + F.length, fun σ => ?_⟩
    simp only [Build, BuildWithCtx]
    rcases hb : build lib m (.mk s) (σ.sub 0) [] with e | ⟨c, names⟩
    · exact ⟨by simp, fun _ _ => rfl⟩
    · simp only
      generalize hst : (if b! "#" ∈ names then (⟨[(b! "#", c)], names.filter (· ≠ b! "#")⟩ : BState) else ⟨[], names⟩) = st
      obtain ⟨g, -⟩ := build_refs hb
      have hnd : names.Nodup := g.nodup List.nodup_nil
      have hsub : ∀ n ∈ st.names, n ∈ names := by
        intro n hn
        rw [← hst] at hn
        split at hn
        · exact (List.mem_filter.1 hn).1
        · exact hn
      have hF0 : ∀ n ∈ st.names, n ∈ F := fun n hn =>
        (g.new n (hsub n hn)).elim (fun h => by simp at h) (h0 n)
      have hnd' : st.names.Nodup := by
        rw [← hst]
        split
        · exact hnd.filter _
        · exact hnd
      have hle : missing F st ≤ F.length := List.length_filter_le _ _
      have hf : enough F (missing F st) + (F.length - ([] : List GoStr).length) ≤ enough F F.length + F.length := by
        unfold enough
        have := Nat.mul_le_mul_left (F.length + 2) hle
        simp only [List.length_nil]
        omega
      have hm : ∀ n, n ∈ shuffle (σ.sub 2).key st.names → n ∈ st.names := fun n h => mem_shuffle.1 h
      obtain ⟨r1, -⟩ := compileLoop_returns (lib := lib) (m := m) F (closedUnder_of_mentions hF) _ (σ.sub 1) (shuffle (σ.sub 2).key st.names) st []
        (fun _ h => h.elim) (fun n h => hF0 n (hm n h)) hF0 hnd' (by simpa using shuffle_nodup.2 hnd') (by simp) hm hf
      refine ⟨?_, fun fuel' hf' => ?_⟩
      · rcases hl : compileLoop lib m resolve (enough F F.length + F.length) (σ.sub 1) (shuffle (σ.sub 2).key st.names) st with
          e | st'
        · rw [hl] at r1
          simpa using r1
        · simp
      · rw [compileLoop_fuel r1 fuel' hf']

/-- C62: in particular, `Build` returns when the resolver can resolve only finitely many names. -/
theorem C62_finite_document (L : List GoStr) (hL : ∀ n s1, (resolve n).target = .ok s1 → n ∈ L) (s : Schema) :
    ∃ fuel, ∀ σ, Build lib m resolve fuel σ s ≠ .error .diverge ∧
      ∀ fuel', fuel ≤ fuel' → Build lib m resolve fuel' σ s = Build lib m resolve fuel σ s := by
  obtain ⟨l0, h0⟩ := mentions_finite s
  have : ∀ n ∈ L, ∃ r : List GoStr, ∀ k, (∃ s1, (resolve n).target = .ok s1 ∧ s1.Mentions k) → k ∈ r := by
    intro n _
    rcases ht : (resolve n).target with e | s1
    · exact ⟨[], fun k ⟨s1, h, _⟩ => by cases h⟩
    · obtain ⟨r, hr⟩ := mentions_finite s1
      exact ⟨r, fun k ⟨s2, h, hk⟩ => by cases h; exact hr k hk⟩
  obtain ⟨l1, h1⟩ := finite_union L this
  exact C62_terminates (l0 ++ l1) s (fun n hn => by simp [h0 n hn])
    (fun n _ s1 hs k hk => by simp [h1 n (hL n s1 hs) k ⟨s1, hs, hk⟩])

/-- The linked list meets the hypothesis of `C62_terminates`. -/
example : (∀ n, exListSchema.Mentions n → n ∈ [b! "#", b! "v", b! "w"]) ∧
    ∀ n s1, (exListResolve n).target = .ok s1 → n ∈ [b! "v", b! "w"] := by
  refine ⟨fun n h => ?_, fun n s1 h => ?_⟩
  · cases h with
    | here h => exact absurd rfl h
    | child _ hc hm =>
      cases hc with
      | property h =>
        rcases List.mem_cons.1 h with h | h
        · simp only [Prod.mk.injEq] at h
          obtain ⟨-, rfl⟩ := h
          cases hm with
          | here _ h => rw [← h]; simp
          | child h => cases h
        · simp only [List.mem_singleton, Prod.mk.injEq] at h
          obtain ⟨-, rfl⟩ := h
          cases hm with
          | here _ h => rw [← h]; simp
          | child h => cases h
      | allOf h => cases h
      | anyOf h => cases h
      | oneOf h => cases h
      | patternProp h => cases h
      | dependency h => cases h
      | not h => cases h
      | list h => cases h
      | tuple h => cases h
      | additionalItems h => cases h
      | additionalProps h => cases h
  · unfold exListResolve at h
    split at h
    · simp [*]
    · split at h
      · simp [*]
      · cases h

/-- Without finiteness it need not return: each name refers to a longer one. -/
def exEndless : Resolver := fun n => .schema (.mk { reference := 65 :: n })

theorem exEndless_target (n : GoStr) : (exEndless n).target = .ok (.mk { reference := 65 :: n }) := rfl

theorem exEndless_build (n : GoStr) (σ : Sched) (R : List GoStr) :
    build lib m (.mk { reference := 65 :: n }) σ R = .ok (.ref m (65 :: n), addName (65 :: n) R) := by
  rw [build_mk]
  rfl

mutual
theorem exEndless_ref : ∀ (k : Nat) (σ : Sched) (ref : GoStr) (st : BState),
    (∀ p ∈ st.table, p.2 = .ref m (65 :: p.1)) → (∀ e, compileRef lib m exEndless k σ ref st ≠ .error (.stop e)) ∧
      ∀ st', compileRef lib m exEndless k σ ref st = .ok st' → ∀ p ∈ st'.table, p.2 = .ref m (65 :: p.1)
  | 0, σ, ref, st, h => by rw [compileRef]; simp
  | k + 1, σ, ref, st, h => by
    rw [compileRef]
    split
    · refine ⟨by simp, fun st' h' => ?_⟩
      cases h'
      exact h
    · rw [exEndless_target]
      simp only [exEndless_build]
      refine exEndless_loop k (σ.sub 1) _ _ ?_
      rintro ⟨n, c⟩ hp
      rcases mem_ainsert_pair hp with ⟨rfl, rfl⟩ | hp
      · rfl
      · exact h _ hp

theorem exEndless_loop : ∀ (k : Nat) (σ : Sched) (l : List GoStr) (st : BState),
    (∀ p ∈ st.table, p.2 = .ref m (65 :: p.1)) → (∀ e, compileLoop lib m exEndless k σ l st ≠ .error (.stop e)) ∧
      ∀ st', compileLoop lib m exEndless k σ l st = .ok st' → ∀ p ∈ st'.table, p.2 = .ref m (65 :: p.1)
  | k, σ, [], st, h => by
    have : compileLoop lib m exEndless k σ [] st = .ok st := by cases k <;> rw [compileLoop]
    rw [this]
    refine ⟨by simp, fun st' h' => ?_⟩
    cases h'
    exact h
  | 0, σ, _ :: _, st, h => by rw [compileLoop]; simp
  | k + 1, σ, ref :: rest, st, h => by
    rw [compileLoop]
    obtain ⟨i1, i2⟩ := exEndless_ref k (σ.sub 0) ref st h
    rcases h1 : compileRef lib m exEndless k (σ.sub 0) ref st with e | st1
    · simp only
      rw [h1] at i1
      exact ⟨fun e' h' => i1 e' (by cases h'; rfl), by simp⟩
    · exact exEndless_loop k (σ.sub 1) _ st1 (i2 st1 h1)
end

theorem lengths_bounded : ∀ l : List GoStr, ∃ b, ∀ k ∈ l, k.length ≤ b
  | [] => ⟨0, by simp⟩
  | a :: l => by
    obtain ⟨b, h⟩ := lengths_bounded l
    refine ⟨max a.length b, fun k hk => ?_⟩
    rcases List.mem_cons.1 hk with rfl | hk
    · exact le_max_left _ _
    · exact (h k hk).trans (le_max_right _ _)

theorem unbounded_keys {l : List GoStr} (h : ∀ k ∈ l, (65 : UInt8) :: k ∈ l) {k : GoStr} (hk : k ∈ l) : False := by
  have : ∀ n, ∃ k ∈ l, n ≤ k.length := by
    intro n
    induction n with
    | zero => exact ⟨k, hk, Nat.zero_le _⟩
    | succ n ih =>
      obtain ⟨k', h1, h2⟩ := ih
      exact ⟨_, h k' h1, by simpa using h2⟩
  obtain ⟨b, hb⟩ := lengths_bounded l
  obtain ⟨k', h1, h2⟩ := this (b + 1)
  have := hb k' h1
  omega

/-- No amount of fuel is enough there, so the finiteness hypothesis of `C62_terminates` cannot be dropped. -/
theorem C62_endless (fuel : Nat) (σ : Sched) (n : GoStr) (hn : n ≠ []) (hn' : n ≠ b! "#") :
    Build lib m exEndless fuel σ (.mk { reference := n }) = .error .diverge := by
  have hb : build lib m (.mk { reference := n }) (σ.sub 0) [] = .ok (.ref m n, [n]) := by
    rw [build_mk]
    cases n with
    | nil => exact absurd rfl hn
    | cons a n => rfl
  simp only [Build, BuildWithCtx, hb]
  rw [if_neg (by simpa using Ne.symm hn')]
  obtain ⟨i1, i2⟩ := exEndless_loop (lib := lib) (m := m) fuel (σ.sub 1) (shuffle (σ.sub 2).key [n]) ⟨[], [n]⟩ (by simp)
  rcases hl : compileLoop lib m exEndless fuel (σ.sub 1) (shuffle (σ.sub 2).key [n]) ⟨[], [n]⟩ with e | st'
  · cases e with
    | stop e => exact absurd hl (i1 e)
    | diverge => rfl
  · exfalso
    obtain ⟨cp, kp⟩ := compileLoop_compiled hl
    have hk : n ∈ st'.keys := kp n (mem_shuffle.2 (by simp))
    refine unbounded_keys (l := st'.keys) (fun k hk => ?_) hk
    obtain ⟨⟨k', c⟩, hp, rfl⟩ := List.mem_map.1 hk
    have hc := i2 st' hl _ hp
    simp only at hc
    obtain ⟨-, h2⟩ := cp.table (by simp) _ hp m (65 :: k') (by rw [hc]; exact .refl _)
    rcases h2 with h2 | h2
    · rcases cp.new _ h2 with h3 | h3
      · simp only [List.mem_singleton] at h3
        rw [h3]
        exact kp n (mem_shuffle.2 (by simp))
      · exact h3
    · exact h2

/-! ## C66 -/

/-- C66: a schema and a copy of it with `type` lists in another order are built into the same constraint, with the same
reference names. -/
theorem C66_schema {s s' : Schema} (h : Retyped s s') : build lib m s' = build lib m s := by
  induction h with
  | nil => rfl
  | mk s ty hp hc ih =>
    rw [build_mk, build_mk]
    have e : SchemaF.map (build lib m) { s.map (·.2) with type := ty } = { (s.map (·.1)).map (build lib m) with type := ty } := by
      have e1 : (s.map (·.1)).map (build lib m) = (s.map (·.2)).map (build lib m) := by
        rw [SchemaF.map_map, SchemaF.map_map]
        exact SchemaF.map_congr (fun p hp => (ih p hp).symm)
      rw [e1]
      rfl
    rw [e]
    exact buildNode_perm lib m _ ty hp

/-- The second result of resolving a reference is the first with `type` lists in another order. -/
inductive RetypedResolved : Resolved → Resolved → Prop where
  | fail : RetypedResolved .fail .fail
  | schema {s s'} : Retyped s s' → RetypedResolved (.schema s) (.schema s')
  | object {s s'} : Retyped (.mk s) (.mk s') → RetypedResolved (.object (some s)) (.object (some s'))
  | bad : RetypedResolved (.object none) (.object none)
  | other : RetypedResolved .other .other

theorem retyped_target {r r' : Resolved} (h : RetypedResolved r r') :
    (∃ e, r.target = .error e ∧ r'.target = .error e) ∨
      ∃ s s', r.target = .ok s ∧ r'.target = .ok s' ∧ Retyped s s' := by
  cases h with
  | fail => exact Or.inl ⟨_, rfl, rfl⟩
  | schema h => exact Or.inr ⟨_, _, rfl, rfl, h⟩
  | object h => exact Or.inr ⟨_, _, rfl, rfl, h⟩
  | bad => exact Or.inl ⟨_, rfl, rfl⟩
  | other => exact Or.inr ⟨_, _, rfl, rfl, .nil⟩

mutual
theorem compileRef_retyped {resolve' : Resolver} (hr : ∀ n, RetypedResolved (resolve n) (resolve' n)) :
    ∀ (k : Nat) (σ : Sched) (ref : GoStr) (st : BState),
    compileRef lib m resolve' k σ ref st = compileRef lib m resolve k σ ref st
  | 0, σ, ref, st => by rw [compileRef, compileRef]
  | k + 1, σ, ref, st => by
    rw [compileRef, compileRef]
    rcases retyped_target (hr ref) with ⟨e, h1, h2⟩ | ⟨s, s', h1, h2, h⟩
    · rw [h1, h2]
    · rw [h1, h2]
      simp only [C66_schema h]
      split
      · rfl
      · split
        · rfl
        · exact compileLoop_retyped hr k _ _ _
theorem compileLoop_retyped {resolve' : Resolver} (hr : ∀ n, RetypedResolved (resolve n) (resolve' n)) :
    ∀ (k : Nat) (σ : Sched) (l : List GoStr) (st : BState),
    compileLoop lib m resolve' k σ l st = compileLoop lib m resolve k σ l st
  | 0, σ, [], st => by rw [compileLoop, compileLoop]
  | k + 1, σ, [], st => by rw [compileLoop, compileLoop]
  | 0, σ, _ :: _, st => by rw [compileLoop, compileLoop]
  | k + 1, σ, ref :: rest, st => by
    rw [compileLoop, compileLoop, compileRef_retyped hr k]
    split
    · rfl
    · exact compileLoop_retyped hr k _ _ _
end

/-- C66: the whole validator is the same when `type` lists in the schema and in the referenced schemas are reordered. -/
theorem C66_validator {s s' : Schema} (h : Retyped s s') {resolve' : Resolver}
    (hr : ∀ n, RetypedResolved (resolve n) (resolve' n)) (fuel : Nat) (σ : Sched) :
    Build lib m resolve' fuel σ s' = Build lib m resolve fuel σ s := by
  have hb := C66_schema (lib := lib) (m := m) h
  cases h with
  | nil => rfl
  | mk s ty hp hc =>
    simp only [Build, BuildWithCtx, hb, compileLoop_retyped hr]

/-- Two nested type lists reversed: `{"type": ["null", "array"], "items": {"type": ["string", "integer"]}}`. -/
def exRetyped : SchemaF (Schema × Schema) :=
  { type := [.null, .array],
    items := .list [(.mk { type := [.string, .integer] }, .mk { type := [.integer, .string] })] }
example : Retyped (.mk (exRetyped.map (·.1))) (.mk { exRetyped.map (·.2) with type := [.array, .null] }) := by
  refine .mk exRetyped _ (by decide) (fun p hp => ?_)
  have : p = (.mk { type := [.string, .integer] }, .mk { type := [.integer, .string] }) := by
    cases hp with
    | list h h' => cases h; simpa using h'
    | allOf h => cases h
    | anyOf h => cases h
    | oneOf h => cases h
    | property h => cases h
    | patternProp h => cases h
    | dependency h => cases h
    | not h => cases h
    | tuple h => cases h
    | additionalItems h => cases h
    | additionalProps h => cases h
  rw [this]
  exact .mk { type := [.string, .integer] } [.integer, .string] (by decide) (fun p hp => by
    cases hp with
    | list h h' => cases h
    | allOf h => cases h
    | anyOf h => cases h
    | oneOf h => cases h
    | property h => cases h
    | patternProp h => cases h
    | dependency h => cases h
    | not h => cases h
    | tuple h => cases h
    | additionalItems h => cases h
    | additionalProps h => cases h)
/-- It is built (both ways) into the union in the order of the type constants. -/
example : ((build lib0 0 (.mk { exRetyped.map (·.2) with type := [.array, .null] })) sched0 []) =
    .ok (.any [.null, .array (Array'.Items (some (.any [.integer Number', .string String'])))], []) := by
  rfl

/-! ## C67 -/

/-- C67: a schema without `type` is built exactly like the same schema with the list of the types its keywords suggest. -/
theorem C67_union (s : SchemaF Schema) (ht : s.type = []) :
    ∃ l : List PrimType, l.Nodup ∧ (∀ t, t ∈ l ↔ Suggests lib.formats s t) ∧
      build lib m (.mk s) = build lib m (.mk { s with type := l }) := by
  refine ⟨guessSchemaType lib s, guess_nodup lib, fun t => mem_guess, ?_⟩
  rw [build_mk, build_mk]
  have := buildNode_guess lib m (s.map (build lib m)) ht (guessSchemaType lib s) (by rw [guess_map])
  exact this.symm

/-- C67: with no suggesting keyword and no enum, only the combinator keywords matter: the schema is built exactly like one
that has nothing else. -/
theorem C67_no_suggestion (s : SchemaF Schema) (ht : s.type = []) (hs : ∀ t, ¬ Suggests lib.formats s t)
    (he : s.enum = []) (hf : ([] : GoStr) ∉ lib.formats) :
    build lib m (.mk s) =
      build lib m (.mk { reference := s.reference, not := s.not, allOf := s.allOf, anyOf := s.anyOf, oneOf := s.oneOf }) := by
  have hg : ∀ x : SchemaF Schema, x.type = [] → (∀ t, ¬ Suggests lib.formats x t) →
      schemaTypes lib (x.map (build lib m)) = [] := by
    intro x hx hn
    unfold schemaTypes
    have : guessSchemaType lib (x.map (build lib m)) = [] := by
      rw [guess_map, List.eq_nil_iff_forall_not_mem]
      exact fun t h => hn t (mem_guess.1 h)
    rw [this]
    have e : (x.map (build lib m)).type = [] := hx
    rw [e]
    rfl
  have h2 := hg { reference := s.reference, not := s.not, allOf := s.allOf, anyOf := s.anyOf, oneOf := s.oneOf } rfl
    (fun t h => by
      cases h with
      | properties h => exact h rfl
      | additionalProps h => exact h rfl
      | minProps h => exact h rfl
      | maxProps h => exact h rfl
      | required h => exact h rfl
      | patternProps h => exact h rfl
      | objectEnum h => simp at h
      | items h => exact h rfl
      | additionalItems h => exact h rfl
      | minItems h => exact h rfl
      | maxItems h => exact h rfl
      | uniqueItems h => exact h rfl
      | arrayEnum h => simp at h
      | minLength h => exact h rfl
      | maxLength h => exact h rfl
      | pattern h => exact h rfl
      | format h => exact hf h
      | stringEnum h => simp at h
      | whole h => simp [SchemaF.firstBound] at h
      | fractional h => simp [SchemaF.firstBound] at h
      | exclusive _ h => simp at h
      | intEnum _ _ _ h => simp at h
      | floatEnum _ _ _ h => simp at h
      | boolEnum h => simp at h)
  have h1 := hg s ht hs
  rw [build_mk, build_mk]
  funext σ
  have he' : (s.map (build lib m)).enum = [] := he
  unfold buildNode
  simp only [h1, h2, he']
  rfl

/-- C67: in particular, if there is no combinator keyword either, every value is accepted. -/
theorem C67_unconstrained (s : SchemaF Schema) (hr : s.reference = []) (ht : s.type = [])
    (hs : ∀ t, ¬ Suggests lib.formats s t) (he : s.enum = []) (hf : ([] : GoStr) ∉ lib.formats)
    (hn : s.not = none) (h1 : s.allOf = []) (h2 : s.anyOf = []) (h3 : s.oneOf = []) (σ : Sched) (R : List GoStr) :
    ∃ c, build lib m (.mk s) σ R = .ok (c, R) ∧ ∀ ext ρ τ v, (denote ext ρ c).val τ v = (.ok, v) := by
  refine ⟨.all [], ?_, fun ext ρ τ v => C02_all_empty ext ρ τ v⟩
  rw [C67_no_suggestion s ht hs he hf, hr, hn, h1, h2, h3]
  have hg : schemaTypes lib (SchemaF.map (build lib m) {}) = [] := by
    unfold schemaTypes
    have : guessSchemaType lib (SchemaF.map (build lib m) {}) = [] := by
      rw [guess_map]
      simp [guessSchemaType, schemaLooksLikeObject, schemaLooksLikeArray, schemaLooksLikeString, schemaLooksLikeNumber,
        schemaLooksLikeBool, numberFromEnum, ItemSpec.isSome, hf]
    rw [this]
    rfl
  rw [build_mk]
  unfold buildNode
  simp only [hg]
  rfl

/-- `{"minimum": 1, "minLength": 2}`: integers from 1 and strings from 2 bytes, nothing else (1.5 is rejected). -/
def exGuess : SchemaF Schema := { minimum := some (F64.exactInt 1), minLength := some 2 }
example : Suggests lib0.formats exGuess .integer ∧ Suggests lib0.formats exGuess .string :=
  ⟨.whole rfl ⟨1, by decide +kernel⟩, .minLength (by simp [exGuess])⟩
example : build lib0 0 (.mk exGuess) sched0 [] =
    .ok (.any [.integer (Number'.Minimum (F64.exactInt 1)), .string (String'.MinLength 2)], []) := by
  rw [build_mk]
  unfold buildNode
  have : schemaTypes lib0 (exGuess.map (build lib0 0)) = [.integer, .string] := by decide +kernel
  simp only [this]
  rfl

/-! ## C64 -/

/-- C64 as expected: a value the built constraint accepts passes every combinator keyword: it is rejected by the
constraint of `not`, and accepted by `All`, `Any` and `OneOf` of the constraints built from `allOf`, `anyOf`, `oneOf`. -/
def C64_statement : Prop :=
  ∀ (lib : SchemaLib) (m : Nat) (s : SchemaF Schema) (c : Constraint), s.reference = [] → BuiltFrom lib m (.mk s) c →
    ∀ (ext : Ext) (ρ : RefSem) (σ : Sched) (v : GoVal), (denote ext ρ c).AcceptsBy σ v →
    (∀ d, s.not = some d → ∃ cd, BuiltFrom lib m d cd ∧ ∃ τ, ((denote ext ρ cd).val τ v).1.Rejects) ∧
    (s.allOf ≠ [] → ∃ cs, List.Forall₂ (BuiltFrom lib m) s.allOf cs ∧ ∃ τ, (denote ext ρ (.all cs)).AcceptsBy τ v) ∧
    (s.anyOf ≠ [] → ∃ cs, List.Forall₂ (BuiltFrom lib m) s.anyOf cs ∧ ∃ τ, (denote ext ρ (.any cs)).AcceptsBy τ v) ∧
    (s.oneOf ≠ [] → ∃ cs, List.Forall₂ (BuiltFrom lib m) s.oneOf cs ∧ ∃ τ, (denote ext ρ (.oneOf cs)).AcceptsBy τ v)

/-- `{"not": {"type": "string"}, "anyOf": [{"type": "integer"}]}` -/
def exTwoCombos : SchemaF Schema := { not := some (.mk { type := [.string] }), anyOf := [.mk { type := [.integer] }] }

theorem built_integer {c : Constraint} (h : BuiltFrom lib m (.mk { type := [.integer] }) c) : c = .integer Number' := by
  obtain ⟨σ, R, R', h⟩ := h
  rw [build_mk] at h
  have : buildNode lib m (SchemaF.map (build lib m) { type := [.integer] }) σ R = .ok (.integer Number', R) := rfl
  rw [this] at h
  cases h
  rfl

/-- C64 is false: that schema accepts `true`, although its `anyOf` asks for an integer. -/
theorem C64_refuted : ¬ C64_statement := by
  intro h
  have hb : BuiltFrom lib0 0 (.mk exTwoCombos) (.not (some (.string String'))) := ⟨sched0, [], [], by rfl⟩
  obtain ⟨-, -, h3, -⟩ := h lib0 0 exTwoCombos _ rfl hb demoExt (refSem demoExt env0 0) sched0 (.bool true) rfl
  obtain ⟨cs, hcs, τ, ha⟩ := h3 (by simp [exTwoCombos])
  cases hcs with
  | cons hc hcs =>
    cases hcs
    rw [built_integer hc] at ha
    cases ha

theorem all_first {ext : Ext} {ρ : RefSem} {k : Constraint} {l : List Constraint} {σ : Sched} {v : GoVal}
    (h : (denote ext ρ (reduceAll (k :: l))).AcceptsBy σ v) : ∃ τ, (denote ext ρ k).AcceptsBy τ v := by
  cases l with
  | nil => exact ⟨σ, h⟩
  | cons k' l =>
    have h' : (denote ext ρ (.all (k :: k' :: l))).AcceptsBy σ v := h
    obtain ⟨w, hw⟩ := (C02_all_accepts_iff ext ρ _ σ v).1 h' 0 (by simp)
    refine ⟨σ.sub 0, ?_⟩
    simp only [resAt, List.map_cons, List.getElem?_cons_zero, Option.map_some, argAt, Option.some.injEq] at hw
    unfold Sem.AcceptsBy
    rw [hw]

theorem accepts_of_same {s t : Sem} (h : s.SameVerdicts t) {σ : Sched} {v : GoVal} (ha : s.AcceptsBy σ v) :
    ∃ τ, t.AcceptsBy τ v := by
  obtain ⟨τ, h2⟩ := (h v (s.val σ v).2).1.1 ⟨σ, Prod.ext ha rfl⟩
  exact ⟨τ, by unfold Sem.AcceptsBy; rw [h2]⟩

/-- C64 for the first combinator keyword present, in the order not, allOf, anyOf, oneOf; so for every schema that has at most
one of them. (Missing: the later ones, which are ignored.) -/
theorem C64_first_partial {s : SchemaF Schema} {c : Constraint} (hr : s.reference = []) (hb : BuiltFrom lib m (.mk s) c)
    {ext : Ext} {ρ : RefSem} {σ : Sched} {v : GoVal} (ha : (denote ext ρ c).AcceptsBy σ v) :
    (∀ d, s.not = some d → ∃ cd, BuiltFrom lib m d cd ∧ ∃ τ, ((denote ext ρ cd).val τ v).1.Rejects) ∧
    (s.not = none → s.allOf ≠ [] →
      ∃ cs, List.Forall₂ (BuiltFrom lib m) s.allOf cs ∧ ∃ τ, (denote ext ρ (.all cs)).AcceptsBy τ v) ∧
    (s.not = none → s.allOf = [] → s.anyOf ≠ [] →
      ∃ cs, List.Forall₂ (BuiltFrom lib m) s.anyOf cs ∧ ∃ τ, (denote ext ρ (.any cs)).AcceptsBy τ v) ∧
    (s.not = none → s.allOf = [] → s.anyOf = [] → s.oneOf ≠ [] →
      ∃ cs, List.Forall₂ (BuiltFrom lib m) s.oneOf cs ∧ ∃ τ, (denote ext ρ (.oneOf cs)).AcceptsBy τ v) := by
  obtain ⟨R, hn⟩ := node_of_build hb
  have key : ∃ ct, ComboBuilt (fun a _ c => BuiltBy a c) R (s.map (build lib m)) ct ∧
      ∀ k l, ct = k :: l → ∃ τ, (denote ext ρ k).AcceptsBy τ v := by
    cases hn with
    | ref h => exact absurd hr h
    | typed _ hc => exact ⟨_, hc, fun k l hk => by subst hk; exact all_first ha⟩
    | enum _ hc => exact ⟨_, hc, fun k l hk => by subst hk; exact all_first ha⟩
    | plain _ hc => exact ⟨_, hc, fun k l hk => by subst hk; exact all_first ha⟩
  obtain ⟨ct, hc, hk⟩ := key
  have f2 : ∀ (l : List Schema) (cs : List Constraint), List.Forall₂ (fun a c => BuiltBy a c) (l.map (build lib m)) cs →
      List.Forall₂ (BuiltFrom lib m) l cs := fun l cs h => by
    rw [List.forall₂_map_left_iff] at h
    exact h
  have mno : ∀ {d}, s.not = some d → (s.map (build lib m)).not = some (build lib m d) := fun h => by simp [SchemaF.map, h]
  cases hc with
  | @not a c hs ht =>
    obtain ⟨τ, h⟩ := hk _ _ rfl
    cases hd : s.not with
    | none => simp [SchemaF.map, hd] at hs
    | some d =>
      rw [mno hd] at hs
      cases hs
      refine ⟨fun d' h' => ?_, fun h' => (by simp at h'), fun h' => (by simp at h'), fun h' => (by simp at h')⟩
      cases h'
      exact ⟨c, ht, _, (C04_not_exact ext ρ c τ v).1 h⟩
  | @allOf cs hs h1 ht =>
    obtain ⟨τ, h⟩ := hk _ _ rfl
    have hs' : s.not = none := by simpa [SchemaF.map] using hs
    have h1' : s.allOf ≠ [] := by simpa [SchemaF.map] using h1
    refine ⟨fun d h' => (by simp [hs'] at h'), fun _ _ => ⟨cs, f2 _ _ ht, ?_⟩, fun _ h' => absurd h' h1',
      fun _ h' => absurd h' h1'⟩
    exact accepts_of_same (C05_reduce_preserves ext ρ cs).2.1 h
  | @anyOf cs hs h1 h2 ht =>
    obtain ⟨τ, h⟩ := hk _ _ rfl
    have hs' : s.not = none := by simpa [SchemaF.map] using hs
    have h1' : s.allOf = [] := by simpa [SchemaF.map] using h1
    have h2' : s.anyOf ≠ [] := by simpa [SchemaF.map] using h2
    refine ⟨fun d h' => (by simp [hs'] at h'), fun _ h' => absurd h1' h', fun _ _ _ => ⟨cs, f2 _ _ ht, ?_⟩,
      fun _ _ h' => absurd h' h2'⟩
    exact accepts_of_same (C05_reduce_preserves ext ρ cs).1 h
  | @oneOf cs hs h1 h2 h3 ht =>
    obtain ⟨τ, h⟩ := hk _ _ rfl
    have hs' : s.not = none := by simpa [SchemaF.map] using hs
    have h1' : s.allOf = [] := by simpa [SchemaF.map] using h1
    have h2' : s.anyOf = [] := by simpa [SchemaF.map] using h2
    refine ⟨fun d h' => (by simp [hs'] at h'), fun _ h' => absurd h1' h', fun _ _ h' => absurd h2' h',
      fun _ _ _ _ => ⟨cs, f2 _ _ ht, ?_⟩⟩
    exact accepts_of_same (C05_reduce_preserves ext ρ cs).2.2 h
  | none hs h1 h2 h3 =>
    have hs' : s.not = none := by simpa [SchemaF.map] using hs
    have h1' : s.allOf = [] := by simpa [SchemaF.map] using h1
    have h2' : s.anyOf = [] := by simpa [SchemaF.map] using h2
    have h3' : s.oneOf = [] := by simpa [SchemaF.map] using h3
    exact ⟨fun d h' => (by simp [hs'] at h'), fun _ h' => absurd h1' h', fun _ _ h' => absurd h2' h',
      fun _ _ _ h' => absurd h3' h'⟩

/-- `{"oneOf": [{"type": "integer"}, {"type": "string"}]}` accepts an integer. -/
example : ∃ c, BuiltFrom lib0 0 (.mk { oneOf := [.mk { type := [.integer] }, .mk { type := [.string] }] }) c ∧
    (sem0 c).AcceptsBy sched0 (fl 3) :=
  ⟨.oneOf [.integer Number', .string String'], ⟨sched0, [], [], by rfl⟩, by unfold Sem.AcceptsBy; decide +kernel⟩

/-! ## C65 -/

/-- C65 as expected: a value the built constraint accepts is one of the enum values. -/
def C65_statement : Prop :=
  ∀ (lib : SchemaLib) (m : Nat) (s : SchemaF Schema) (c : Constraint), s.reference = [] → s.enum ≠ [] →
    BuiltFrom lib m (.mk s) c → ∀ (ext : Ext) (ρ : RefSem) (σ : Sched) (v : GoVal), (denote ext ρ c).AcceptsBy σ v →
    ∃ e ∈ s.enum, SameGo e v

/-- C65 is false: `{"type": "boolean", "enum": [true]}` accepts `false`. -/
theorem C65_refuted : ¬ C65_statement := by
  intro h
  have hb : BuiltFrom lib0 0 (.mk { type := [.boolean], enum := [.bool true] }) (.boolean none) := ⟨sched0, [], [], by rfl⟩
  obtain ⟨e, he, hs⟩ := h lib0 0 _ _ rfl (by simp) hb demoExt (refSem demoExt env0 0) sched0 (.bool false) rfl
  simp only [List.mem_singleton] at he
  subst he
  cases hs

/-- … and a number schema with an enum accepts nothing at all, not even the listed numbers. -/
theorem C65_number_enum_rejects_all {s : SchemaF Schema} {c : Constraint} (hr : s.reference = []) (he : s.enum ≠ [])
    (ht : s.type = [.number]) (hn : s.not = none) (h1 : s.allOf = []) (h2 : s.anyOf = []) (h3 : s.oneOf = [])
    (hb : BuiltFrom lib m (.mk s) c) (ext : Ext) (ρ : RefSem) (σ : Sched) (v : GoVal) :
    ¬ (denote ext ρ c).AcceptsBy σ v := by
  obtain ⟨R, hnode⟩ := node_of_build hb
  have hty : schemaTypes lib (s.map (build lib m)) = [.number] := by
    unfold schemaTypes
    have : (s.map (build lib m)).type = [.number] := ht
    rw [this]
    rfl
  have hcombo : ∀ ct, ComboBuilt (fun a _ c => BuiltBy a c) R (s.map (build lib m)) ct → ct = [] := by
    intro ct h
    cases h with
    | not h => simp [SchemaF.map, hn] at h
    | allOf _ h => simp [SchemaF.map, h1] at h
    | anyOf _ _ h => simp [SchemaF.map, h2] at h
    | oneOf _ _ _ h => simp [SchemaF.map, h3] at h
    | none => rfl
  cases hnode with
  | ref h => exact absurd hr h
  | enum _ _ h => rw [hty] at h; simp at h
  | plain _ _ h => rw [hty] at h; simp at h
  | typed _ hc _ hts =>
    rw [hcombo _ hc]
    rw [hty] at hts
    cases hts with
    | cons h1 h2 =>
      cases h2
      cases h1
      have hen : ∃ cc : NumC, numberOf (s.map (build lib m)) = cc ∧ cc.enums = some [.slice false s.enum] := by
        refine ⟨_, rfl, ?_⟩
        have : 0 < (s.map (build lib m)).enum.length := List.length_pos_iff.2 he
        unfold numberOf
        simp only [this, if_true]
        split <;> rfl
      obtain ⟨cc, e1, e2⟩ := hen
      have : cc = cc.Enum [.slice false s.enum] := by
        cases cc; simp only [NumC.Enum] at e2 ⊢; rw [e2]
      show ¬ (denote ext ρ (.number (numberOf (s.map (build lib m))))).AcceptsBy σ v
      rw [e1, this]
      exact (C21_enum_no_floats ext ρ σ cc _ v (by simp)).1

/-- `{"type": "number", "enum": [1]}` rejects 1. -/
example : ∃ c, BuiltFrom lib0 0 (.mk { type := [.number], enum := [fl 1] }) c ∧ ¬ (sem0 c).AcceptsBy sched0 (fl 1) :=
  ⟨.number (Number'.Enum [.slice false [fl 1]]), ⟨sched0, [], [], by rfl⟩, by unfold Sem.AcceptsBy; decide +kernel⟩

theorem stringOf_enums {S : Type} (s : SchemaF S) (he : s.enum ≠ []) : (stringOf s).enums = some s.enum := by
  have : 0 < s.enum.length := List.length_pos_iff.2 he
  unfold stringOf
  simp only [this, if_true]
  split <;> rfl

theorem integerOf_enums {S : Type} (s : SchemaF S) (he : s.enum ≠ []) : (integerOf s).enums = some s.enum := by
  have : 0 < s.enum.length := List.length_pos_iff.2 he
  unfold integerOf
  simp only [this, if_true]
  split <;> rfl

/-- C65 for string and integer schemas without combinator keywords: an accepted value is one of the enum values (an
integer of any kind counts as the float64 it is compared by). Missing: the types for which it is false, and schemas
with combinator keywords, where the value compared is the one the combinator leaves behind. -/
theorem C65_listed_partial {s : SchemaF Schema} {c : Constraint} (hr : s.reference = []) (he : s.enum ≠ [])
    (ht : s.type ≠ []) (hst : ∀ t ∈ s.type, t = .string ∨ t = .integer)
    (hn : s.not = none) (h1 : s.allOf = []) (h2 : s.anyOf = []) (h3 : s.oneOf = [])
    (hb : BuiltFrom lib m (.mk s) c) {ext : Ext} {ρ : RefSem} {σ : Sched} {v : GoVal}
    (ha : (denote ext ρ c).AcceptsBy σ v) :
    (∃ t, Target v (.str t) ∧ .str t ∈ s.enum) ∨
      ∃ x f g, Target v x ∧ IntView x f ∧ .float .f64 g ∈ s.enum ∧ F64.Eq g f := by
  obtain ⟨R, hnode⟩ := node_of_build hb
  have hlen : 0 < s.type.length := List.length_pos_iff.2 ht
  have hty : ∀ t ∈ schemaTypes lib (s.map (build lib m)), t = .string ∨ t = .integer := by
    intro t h
    unfold schemaTypes sortTypes at h
    rw [(List.perm_insertionSort _ _).mem_iff] at h
    have e : (s.map (build lib m)).type = s.type := rfl
    rw [e, if_pos hlen] at h
    exact hst t h
  have hne : schemaTypes lib (s.map (build lib m)) ≠ [] := by
    intro h
    unfold schemaTypes sortTypes at h
    have h' := (List.perm_insertionSort (fun a b : PrimType => lib.rank a ≤ lib.rank b)
      (if 0 < (s.map (build lib m)).type.length then (s.map (build lib m)).type
        else guessSchemaType lib (s.map (build lib m)))).length_eq
    rw [h] at h'
    have e : (s.map (build lib m)).type = s.type := rfl
    rw [e, if_pos hlen] at h'
    simp only [List.length_nil] at h'
    omega
  have hcombo : ∀ ct, ComboBuilt (fun a _ c => BuiltBy a c) R (s.map (build lib m)) ct → ct = [] := by
    intro ct h
    cases h with
    | not h => simp [SchemaF.map, hn] at h
    | allOf _ h => simp [SchemaF.map, h1] at h
    | anyOf _ _ h => simp [SchemaF.map, h2] at h
    | oneOf _ _ _ h => simp [SchemaF.map, h3] at h
    | none => rfl
  cases hnode with
  | ref h => exact absurd hr h
  | enum _ _ h => exact absurd h hne
  | plain _ _ h => exact absurd h hne
  | @typed ct cs _ hc _ hts =>
    rw [hcombo _ hc] at ha
    have hcs : ∀ c ∈ cs, c = .string (stringOf (s.map (build lib m))) ∨ c = .integer (integerOf (s.map (build lib m))) := by
      intro c hc
      obtain ⟨t, ht, hb⟩ := forall2_right hts c hc
      rcases hty t ht with rfl | rfl
      · cases hb; exact Or.inl rfl
      · cases hb; exact Or.inr rfl
    have htot : ∀ c ∈ cs, (denote ext ρ c).ReadOnlyOn v ∧ (denote ext ρ c).NormalOn v := by
      intro c hc
      rcases hcs c hc with rfl | rfl
      · exact ⟨fun σ => (C10_string_total ext ρ σ _ v).2, fun σ => (C10_string_total ext ρ σ _ v).1⟩
      · refine ⟨fun σ => by simp [denote, pureV], fun σ => ?_⟩
        simp only [denote, pureV, intCheck, numCheck, valueOf, RV.indirect]
        split
        · exact numCheckF_normal _ _
        · exact numCheckF_normal _ _
        · split
          · exact Res.Normal_err _
          · exact numCheckF_normal _ _
        · exact Res.Normal_err _
    obtain ⟨τ, hτ⟩ := accepts_of_same (C05_reduce_preserves ext ρ cs).1 (show (denote ext ρ (reduceAny cs)).AcceptsBy σ v from ha)
    obtain ⟨j, hj, hacc⟩ := (C01_any_accepts_iff ext ρ cs τ v (fun c hc => (htot c hc).1) (fun c hc => (htot c hc).2)).1 hτ
    have he' : (s.map (build lib m)).enum ≠ [] := he
    rcases hcs cs[j] (List.getElem_mem hj) with h | h
    · rw [h, C10_string_exact] at hacc
      obtain ⟨t, h1, h2⟩ := hacc
      exact Or.inl ⟨t, h1, h2.enums _ (stringOf_enums _ he')⟩
    · rw [h, C18_integer_exact] at hacc
      obtain ⟨x, f, h1, h2, h3⟩ := hacc
      obtain ⟨g, h4, h5⟩ := h3.enums _ (integerOf_enums _ he')
      exact Or.inr ⟨x, f, g, h1, h2, h4, h5⟩

/-- `{"type": ["integer", "string"], "enum": [1, "a"]}` accepts 1. -/
example : ∃ c, BuiltFrom lib0 0 (.mk { type := [.integer, .string], enum := [fl 1, .str (b! "a")] }) c ∧
    (sem0 c).AcceptsBy sched0 (.int .int 1) :=
  ⟨.any [.integer (Number'.Enum [fl 1, .str (b! "a")]), .string (String'.Enum [fl 1, .str (b! "a")])],
    ⟨sched0, [], [], by rfl⟩, by unfold Sem.AcceptsBy; decide +kernel⟩

/-- C65 for schemas of no type (neither given nor suggested) and no combinators: an accepted scalar is one of the enum
values. -/
theorem C65_untyped_partial {s : SchemaF Schema} {c : Constraint} (hr : s.reference = []) (he : s.enum ≠ [])
    (ht : s.type = []) (hst : ∀ t, ¬ Suggests lib.formats s t)
    (hn : s.not = none) (h1 : s.allOf = []) (h2 : s.anyOf = []) (h3 : s.oneOf = [])
    (hb : BuiltFrom lib m (.mk s) c) {ext : Ext} {ρ : RefSem} {σ : Sched} {v : GoVal} (hv : Scalar v) :
    (denote ext ρ c).AcceptsBy σ v ↔ ∃ e ∈ s.enum, SameGo e v := by
  obtain ⟨R, hnode⟩ := node_of_build hb
  have hty : schemaTypes lib (s.map (build lib m)) = [] := by
    unfold schemaTypes
    have : guessSchemaType lib (s.map (build lib m)) = [] := by
      rw [guess_map, List.eq_nil_iff_forall_not_mem]
      exact fun t h => hst t (mem_guess.1 h)
    rw [this]
    have e : (s.map (build lib m)).type = [] := ht
    rw [e]
    rfl
  have hcombo : ∀ ct, ComboBuilt (fun a _ c => BuiltBy a c) R (s.map (build lib m)) ct → ct = [] := by
    intro ct h
    cases h with
    | not h => simp [SchemaF.map, hn] at h
    | allOf _ h => simp [SchemaF.map, h1] at h
    | anyOf _ _ h => simp [SchemaF.map, h2] at h
    | oneOf _ _ _ h => simp [SchemaF.map, h3] at h
    | none => rfl
  cases hnode with
  | ref h => exact absurd hr h
  | typed _ _ h => exact absurd hty h
  | plain _ _ _ h => exact absurd h he
  | enum _ hc =>
    rw [hcombo _ hc]
    exact (C09_enum_exact ext ρ σ s.enum v hv).1

/-- `{"enum": [null]}` -/
example : ∃ c, BuiltFrom lib0 0 (.mk { enum := [.nil] }) c ∧ (sem0 c).AcceptsBy sched0 .nil :=
  ⟨.enum [.nil], ⟨sched0, [], [], by rfl⟩, rfl⟩

end Jsval
