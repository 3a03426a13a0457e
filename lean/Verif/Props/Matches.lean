import Verif.Lemmas.BuildRename
import Verif.Props.Rebuilt
/-!
# C120: the names of definitions do not matter
-/
namespace Jsval

section
variable {ext : Ext} {env env' : Env} {R : Nat × GoStr → Nat × GoStr → Prop}

/-- C120: constraints that match under a correspondence of their names return the same, error included, and leave the same in the argument, order
by order. A call that comes back on one side comes back on the other. -/
theorem C120_same (h : Corresponds env env' R) {c d : Constraint} (hm : BuiltAlike env env' R c d) (σ : Sched) (v : GoVal) (r : Res) (v' : GoVal) :
    Returns ext env c σ v r v' ↔ Returns ext env' d σ v r v' :=
  ⟨fun hr => hm.returns h hr, fun hr => hm.symm.returns h.symm hr⟩

/-- C120: they have the same default. -/
theorem C120_default (h : Corresponds env env' R) {c d : Constraint} (hm : BuiltAlike env env' R c d) (x : Dflt) :
    DefaultReturns ext env c x ↔ DefaultReturns ext env' d x :=
  ⟨fun hr => hm.default h hr, fun hr => hm.symm.default h.symm hr⟩

/-- C120: references can be renamed, and moved to other maps, if what they stand for is found there with its references renamed. The new names
need not differ where the constraints are equal. Unresolved references keep their names, which errors show. -/
theorem C120_rename (f : Nat → GoStr → Nat × GoStr) (c : Constraint)
    (h : ∀ m n, Mentioned env c m n → env' (f m n).1 (f m n).2 = (env m n).map (Constraint.rename f))
    (h0 : ∀ m n, Mentioned env c m n → env m n = none → (f m n).2 = n) (σ : Sched) (v : GoVal) (r : Res) (v' : GoVal) :
    Returns ext env c σ v r v' ↔ Returns ext env' (c.rename f) σ v r v' := by
  refine C120_same (R := fun p q => q = f p.1 p.2 ∧ Mentioned env c p.1 p.2) ⟨?_, ?_, ?_⟩
    (matches_rename fun m n hin => ⟨rfl, .here hin⟩) σ v r v'
  · intro m n m' n' c1 d1 hR he he'
    obtain ⟨hq, hm⟩ := hR
    have hx := h m n hm
    rw [← hq] at hx
    simp only [he', he, Option.map_some, Option.some.injEq] at hx
    rw [hx]
    exact matches_rename fun a b hin => ⟨rfl, .there hm he hin⟩
  · intro m n m' n' hR
    obtain ⟨hq, hm⟩ := hR
    have hx := h m n hm
    rw [← hq] at hx
    simp only at hx
    rw [hx, Option.map_eq_none_iff]
  · intro m n m' n' hR he
    obtain ⟨hq, hm⟩ := hR
    have := h0 m n hm he
    rw [← hq] at this
    exact this.symm

/-- C120: what is registered under names that are not mentioned does not matter. -/
theorem C120_unmentioned (c : Constraint) (h : ∀ m n, Mentioned env c m n → env' m n = env m n) (σ : Sched) (v : GoVal) (r : Res) (v' : GoVal) :
    Returns ext env c σ v r v' ↔ Returns ext env' c σ v r v' := by
  refine C120_same (R := fun p q => p = q ∧ Mentioned env c p.1 p.2) ⟨?_, ?_, ?_⟩ (matches_self fun m n hin => ⟨rfl, .here hin⟩) σ v r v'
  · intro m n m' n' c1 d1 hR he he'
    obtain ⟨hq, hm⟩ := hR
    cases hq
    rw [h m n hm, he] at he'
    cases he'
    exact matches_self fun a b hin => ⟨rfl, .there hm he hin⟩
  · intro m n m' n' hR
    obtain ⟨hq, hm⟩ := hR
    cases hq
    rw [h m n hm]
  · intro m n m' n' hR _
    obtain ⟨hq, _⟩ := hR
    cases hq
    rfl
end

/-! ## Schemas -/

section
variable {lib : SchemaLib} {m m' : Nat} {resolve resolve' : Resolver} {s : Schema} {fuel fuel' : Nat} {σ σ' : Sched} {b b' : Built}
  {ρ : Equiv.Perm GoStr}

/-- C120: a schema in which the definitions have other names (`#` stays the whole) can be built where the original can, by the same steps; and the
validator for another map returns the same, order by order. -/
theorem C120_built (h0 : ρ [] = []) (h1 : ρ (b! "#") = b! "#") (hr : ∀ n, resolve' (ρ n) = (resolve n).rename ρ)
    (h : BuildWithCtx lib m resolve fuel σ s = .ok b) : ∃ b', BuildWithCtx lib m' resolve' fuel σ (s.rename ρ) = .ok b' ∧
      ∀ ext τ v r v', Returns ext (b.env m) b.root τ v r v' ↔ Returns ext (b'.env m') b'.root τ v r v' := by
  refine ⟨b.rename ρ m', by rw [buildWithCtx_rename (m := m) lib resolve resolve' h0 h1 hr, h]; rfl, fun ext τ v r v' => ?_⟩
  have key : ∀ a n, Mentioned (b.env m) b.root a n → a = m ∧ ∃ c, alookup n b.table = some c := by
    intro a n hm
    induction hm with
    | here hin => exact C61_no_dangling_ctx h (.inl hin)
    | there _ he hin ih =>
      obtain ⟨rfl, _⟩ := ih
      simp only [Built.env, if_true] at he
      exact C61_no_dangling_ctx h (.inr ⟨_, _, he, hin⟩)
  refine C120_rename (fun _ n => (m', ρ n)) b.root (fun a n hm => ?_) (fun a n hm he => ?_) τ v r v'
  · obtain ⟨rfl, _⟩ := key a n hm
    exact built_env_rename b n
  · obtain ⟨rfl, c, hc⟩ := key a n hm
    simp only [Built.env, if_true, hc] at he
    cases he

/-- C120: neither can be built, or both; with the same error. -/
theorem C120_buildable (h0 : ρ [] = []) (h1 : ρ (b! "#") = b! "#") (hr : ∀ n, resolve' (ρ n) = (resolve n).rename ρ) (e : CompileStop) :
    BuildWithCtx lib m resolve fuel σ s = .error e ↔ BuildWithCtx lib m' resolve' fuel σ (s.rename ρ) = .error e := by
  rw [buildWithCtx_rename (m := m) lib resolve resolve' h0 h1 hr]
  cases BuildWithCtx lib m resolve fuel σ s <;> simp [Except.map]

/-- C120: and whatever the orders of the two builders: what one validator returns with some order of its loops, the other does with some order. -/
theorem C120_schema (h0 : ρ [] = []) (h1 : ρ (b! "#") = b! "#") (hr : ∀ n, resolve' (ρ n) = (resolve n).rename ρ)
    (hk : KeyedAll lib.formats resolve s) (h : BuildWithCtx lib m resolve fuel σ s = .ok b)
    (h' : BuildWithCtx lib m' resolve' fuel' σ' (s.rename ρ) = .ok b') (ext : Ext) (v v' : GoVal) (r : Res) :
    (∃ τ, Returns ext (b.env m) b.root τ v r v') ↔ ∃ τ, Returns ext (b'.env m') b'.root τ v r v' := by
  have hb := buildWithCtx_rename (m := m) (m' := m') lib resolve resolve' h0 h1 hr fuel' σ' s
  rw [h'] at hb
  rcases hb0 : BuildWithCtx lib m resolve fuel' σ' s with e | b0
  · rw [hb0] at hb; cases hb
  · obtain ⟨b1, h1', e⟩ := C120_built (m' := m') h0 h1 hr hb0
    rw [h'] at h1'
    cases h1'
    rw [C109_outcomes hk h hb0 ext v v' r]
    exact exists_congr fun τ => e ext τ v r v'
end

/-! ## Examples -/

/-- A list of numbers by name: `node` is an object with a number and another `node`. -/
def exListItem (m : Nat) (n : GoStr) (next : Constraint) : Constraint :=
  .object ((Object'.AddProp (b! "val") (.number Number')).AddProp n next |>.AdditionalProperties (some (.ref m (b! "rest"))))
def exRolled : Env := fun _ n =>
  if n = b! "node" then some (exListItem 0 (b! "next") (.ref 0 (b! "node"))) else if n = b! "rest" then some (.string String') else none
/-- The same, written out twice, with the string in place, in another map and under another name. -/
def exUnrolled : Env := fun _ n =>
  if n = b! "list" then some (exListItem 3 (b! "next") (.object (((Object'.AddProp (b! "val") (.number Number')).AddProp (b! "next")
    (.ref 5 (b! "list"))).AdditionalProperties (some (.string String'))))) else if n = b! "rest" then some (.string String') else none

def exTaken (p q : Nat × GoStr) : Prop := p = (0, b! "node") ∧ q = (5, b! "list") ∨ p.2 = b! "rest" ∧ q.2 = b! "rest"

theorem exTaken_rest (m m' : Nat) : BuiltAlike exRolled exUnrolled exTaken (.ref m (b! "rest")) (.ref m' (b! "rest")) := .ref (.inr ⟨rfl, rfl⟩)
theorem exTaken_node : BuiltAlike exRolled exUnrolled exTaken (.ref 0 (b! "node")) (.ref 5 (b! "list")) := .ref (.inl ⟨rfl, rfl⟩)

/-- Object constraints with these three parts. -/
def exPairs (next rest : Constraint × Constraint) : ObjC (Constraint × Constraint) :=
  ⟨[(b! "val", (.number Number', .number Number')), (b! "next", next)], [], some rest, [], [], [], -1, -1⟩

theorem exPairs_matches {next rest : Constraint × Constraint} (h : BuiltAlike exRolled exUnrolled exTaken next.1 next.2)
    (h' : BuiltAlike exRolled exUnrolled exTaken rest.1 rest.2) : ∀ p, (exPairs next rest).Child p → BuiltAlike exRolled exUnrolled exTaken p.1 p.2 := by
  intro p hp
  cases hp with
  | prop hp =>
    simp only [exPairs, List.mem_cons, List.not_mem_nil, or_false, Prod.mk.injEq] at hp
    rcases hp with ⟨rfl, rfl⟩ | ⟨rfl, rfl⟩
    · exact .leaf (fun d hd => by cases hd) (fun m n h => by cases h)
    · exact h
  | pattern hp => cases hp
  | additional hp => cases hp; exact h'
  | dependency hp => cases hp

theorem exUnrolled_corresponds : Corresponds exRolled exUnrolled exTaken where
  found := by
    intro m n m' n' c d hR hc hd
    rcases hR with ⟨h1, h2⟩ | ⟨h1, h2⟩
    · cases h1
      cases h2
      cases hc
      cases hd
      -- one level on the left is left for two on the right
      refine .object (o := exPairs (.ref 0 (b! "node"), _) (.ref 0 (b! "rest"), .ref 3 (b! "rest"))) (exPairs_matches ?_ (exTaken_rest 0 3))
      refine .left (c := exListItem 0 (b! "next") (.ref 0 (b! "node"))) rfl ?_
      exact .object (o := exPairs (.ref 0 (b! "node"), .ref 5 (b! "list")) (.ref 0 (b! "rest"), .string String'))
        (exPairs_matches exTaken_node (.left (c := .string String') rfl
          (.leaf (fun d hd => by cases hd) (fun m n h => by cases h))))
    · simp only at h1 h2
      subst h1
      subst h2
      have e1 : exRolled m (b! "rest") = some (.string String') := by
        simp only [exRolled]; rfl
      have e2 : exUnrolled m' (b! "rest") = some (.string String') := by
        simp only [exUnrolled]; rfl
      rw [e1] at hc
      rw [e2] at hd
      cases hc
      cases hd
      exact .leaf (fun d hd => by cases hd) (fun m n h => by cases h)
  both := by
    intro m n m' n' hR
    rcases hR with ⟨h1, h2⟩ | ⟨h1, h2⟩
    · cases h1
      cases h2
      simp [exRolled, exUnrolled]
    · simp only at h1 h2
      subst h1
      subst h2
      simp only [exRolled, exUnrolled, if_true]
      constructor <;> intro h <;> split at h <;> simp at h
  missing := by
    intro m n m' n' hR he
    rcases hR with ⟨h1, h2⟩ | ⟨h1, h2⟩
    · cases h1
      simp [exRolled] at he
    · exact h1.trans h2.symm

/-- A list that says the same thing twice accepts the same lists, and reports the same. -/
example (σ : Sched) (v : GoVal) (r : Res) (v' : GoVal) :
    Returns demoExt exRolled (.ref 0 (b! "node")) σ v r v' ↔ Returns demoExt exUnrolled (.ref 5 (b! "list")) σ v r v' :=
  C120_same exUnrolled_corresponds exTaken_node σ v r v'
/-- For one, a fault in the third element is found by both. -/
def exThree : GoVal :=
  .map false [(b! "next", .map false [(b! "next", .map false [(b! "val", .bool true)])])]
example : Returns demoExt exRolled (.ref 0 (b! "node")) sched0 exThree (.err (.prop (b! "next") (.prop (b! "next") (.prop (b! "val") .notFloat)))) exThree :=
  ⟨by simp, 4, by with_unfolding_all rfl⟩
example : Returns demoExt exUnrolled (.ref 5 (b! "list")) sched0 exThree (.err (.prop (b! "next") (.prop (b! "next") (.prop (b! "val") .notFloat)))) exThree :=
  (C120_same exUnrolled_corresponds exTaken_node _ _ _ _).1 ⟨by simp, 4, by with_unfolding_all rfl⟩

/-- The linked list of `Props/Builder.lean` with the names of its two definitions exchanged. -/
def exExchange : Equiv.Perm GoStr := Equiv.swap (b! "v") (b! "w")
def exExchanged : Resolver := fun n => (exListResolve (exExchange.symm n)).rename exExchange

example (ext : Ext) : ∃ b', BuildWithCtx lib0 2 exExchanged 10 sched0 (exListSchema.rename exExchange) = .ok b' ∧
    ∀ τ v r v', Returns ext (exListBuilt.env 7) exListBuilt.root τ v r v' ↔ Returns ext (b'.env 2) b'.root τ v r v' := by
  obtain ⟨b', h, e⟩ := C120_built (m' := 2) (resolve' := exExchanged) (ρ := exExchange) (by decide) (by decide)
    (fun n => by simp [exExchanged]) (show BuildWithCtx lib0 7 exListResolve 10 sched0 exListSchema = .ok exListBuilt from rfl)
  exact ⟨b', h, e ext⟩

/-- However both are built. -/
example (ext : Ext) {fuel fuel' : Nat} {σ σ' : Sched} {b b' : Built} (h : BuildWithCtx lib0 7 exListResolve fuel σ exListSchema = .ok b)
    (h' : BuildWithCtx lib0 2 exExchanged fuel' σ' (exListSchema.rename exExchange) = .ok b') (v v' : GoVal) (r : Res) :
    (∃ τ, Returns ext (b.env 7) b.root τ v r v') ↔ ∃ τ, Returns ext (b'.env 2) b'.root τ v r v' :=
  C120_schema (by decide) (by decide) (fun n => by simp [exExchanged]) exList_keyed h h' ext v v' r

/-- The map of the list with one more entry, which nothing mentions. -/
example (d : Constraint) (σ : Sched) (v : GoVal) (r : Res) (v' : GoVal) : Returns demoExt exRolled (.ref 0 (b! "node")) σ v r v' ↔
    Returns demoExt (fun m n => if n = b! "other" then some d else exRolled m n) (.ref 0 (b! "node")) σ v r v' := by
  refine C120_unmentioned _ (fun m n hm => if_neg ?_) σ v r v'
  have hin : ∀ {c : Constraint} {m n}, exRolled m n = some c → ∀ {m' n'}, (Constraint.ref m' n').In c → n' ≠ b! "other" := by
    intro c m n hc m' n' hin
    simp only [exRolled] at hc
    split_ifs at hc <;> cases hc
    · have : ∀ d : Constraint, d.In (exListItem 0 (b! "next") (.ref 0 (b! "node"))) → ∀ m' n', d = .ref m' n' → n' ≠ b! "other" := by
        refine Constraint.Every.intro (L := fun d => ∀ m' n', d = .ref m' n' → n' ≠ b! "other") (fun _ _ h => by cases h) ?_
        intro d hd
        have hd : d ∈ [Constraint.number Number', .ref 0 (b! "node"), .ref 0 (b! "rest")] := hd
        simp only [List.mem_cons, List.not_mem_nil, or_false] at hd
        rcases hd with rfl | rfl | rfl
        all_goals
          refine Constraint.Every.intro (fun _ _ h => ?_) (fun d hd => by cases hd)
          cases h <;> decide
      exact this _ hin _ _ rfl
    · cases hin with
      | child h _ => cases h
  cases hm with
  | here h =>
    cases h with
    | refl => decide
    | child h _ => cases h
  | there _ he h => exact hin he h

/-- The renaming is a real one. -/
example : exListSchema.rename exExchange ≠ exListSchema ∧ (exExchanged (b! "v")).target ≠ (exListResolve (b! "v")).target := by
  refine ⟨fun h => ?_, fun h => ?_⟩
  · have := congrArg (Schema.fold [] fun s => s.reference ++ (s.properties.map (·.2)).flatten) h
    revert this
    decide +kernel
  · have := congrArg (fun t : Except BuildStop Schema => match t with | .ok s => s.fold 0 (fun s => s.anyOf.length) | .error _ => 0) h
    revert this
    decide +kernel

end Jsval
