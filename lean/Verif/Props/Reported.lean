import Verif.Lemmas.ReportedTree
import Verif.Lemmas.ReportedFixed
import Verif.Props.Faults
/-!
# C119: which of several faults is reported
-/
namespace Jsval

variable {ext : Ext} {env : Env} {σ τ : Sched}

/-- C119: what a call reports has its turn: everything that is checked before it is in order. -/
theorem C119_reported {c : Constraint} {v v' : GoVal} {e : Err} (henv : env.Every fun c => NoDefault c ∧ DisjointPatterns ext c)
    (hc : c.Every fun c => NoDefault c ∧ DisjointPatterns ext c) (hv : Tidy v) (h : Returns ext env c σ v (.err e) v') :
    Reported ext env c v e := by
  obtain ⟨-, fuel, h⟩ := h
  exact sem_reported henv fuel c hc v hv σ e (by rw [h])

/-- C119: and what has its turn is reported in some iteration order; the value stays as it is. -/
theorem C119_possible {c : Constraint} {v : GoVal} {e : Err} (henv : env.Every fun c => NoDefault c ∧ DisjointPatterns ext c)
    (hc : c.Every fun c => NoDefault c ∧ DisjointPatterns ext c) (hv : Tidy v) (h : Reported ext env c v e) :
    ∃ σ, Returns ext env c σ v (.err e) v := by
  obtain ⟨N, hN⟩ := h.possible henv hc hv
  obtain ⟨τ, hτ⟩ := hN N (Nat.le_refl _)
  refine ⟨τ, by simp, N, Prod.ext hτ ?_⟩
  exact (bare_sem (henv.imp fun _ h => h.1) (hc.imp fun _ h => h.1) N).1 v τ

/-- C119: a reported error is a fault, and where some error can be reported none is accepted. -/
theorem C119_fault {c : Constraint} {v : GoVal} {e : Err} (henv : env.Every fun c => NoDefault c ∧ DisjointPatterns ext c)
    (hc : c.Every fun c => NoDefault c ∧ DisjointPatterns ext c) (hv : Tidy v) (h : Reported ext env c v e) :
    Fault ext env c v e ∧ ¬ Accepted ext env c v := by
  obtain ⟨σ, hr⟩ := C119_possible henv hc hv h
  have := C103_cause (henv.imp fun c h => ⟨h.1, wfNode_of_disjoint h.2⟩) (hc.imp fun c h => ⟨h.1, wfNode_of_disjoint h.2⟩) hv hr
  exact ⟨this, C103_blocks henv hc hv this⟩

/-- C119: an error about the elements of an array is about the first element that has any fault. -/
theorem C119_leftmost {a : ArrC Constraint} {c : Constraint} {n : Bool} {xs : List GoVal} {v' : GoVal} {e : Err}
    (henv : env.Every fun c => NoDefault c ∧ DisjointPatterns ext c) (hc : (Constraint.array a).Every fun c => NoDefault c ∧ DisjointPatterns ext c)
    (hv : Tidy (.slice n xs)) (hi : a.items = some c) (hl : a.minItems < 0 ∧ a.maxItems < 0 ∧ a.unique = false)
    (h : Returns ext env (.array a) σ (.slice n xs) (.err e) v') :
    ∃ (j : ℕ) (x : GoVal), xs[j]? = some x ∧ Reported ext env c x e ∧ ∀ (i : ℕ) (y : GoVal), i < j → xs[i]? = some y → ∀ e', ¬ Fault ext env c y e' := by
  have hx : ∀ x ∈ xs, Tidy x := by cases hv; assumption
  have hcc := hc.child (.array (.items hi))
  cases C119_reported henv hc hv h with
  | fewItems h1 => omega
  | manyItems _ h1 => omega
  | dupItem _ h1 => rw [hl.2.2] at h1; cases h1
  | notSlice h1 => exact absurd rfl (h1 _ _)
  | item _ _ h3 h4 h5 h6 =>
    rw [hi] at h3; cases h3
    exact ⟨_, _, h4, h6, fun i y hij hy e' hf => C103_blocks henv hcc (hx y (List.mem_of_getElem? hy)) hf (h5 i y hij hy)⟩
  | positional _ _ h3 => rw [hi] at h3; cases h3
  | extra _ _ h3 => rw [hi] at h3; cases h3
  | addlItems _ _ h3 => rw [hi] at h3; cases h3

/-- C119: properties that are not allowed are complained about only if no declared property has a fault and none is missing. -/
theorem C119_declared_first {o : ObjC Constraint} {v v' : GoVal} {kvs raws : List (GoStr × GoVal)}
    (henv : env.Every fun c => NoDefault c ∧ DisjointPatterns ext c) (hc : (Constraint.object o).Every fun c => NoDefault c ∧ DisjointPatterns ext c)
    (hv : Tidy v) (hp : Props v kvs raws) (h : Returns ext env (.object o) σ v (.err .addlNotAllowed) v') :
    (∀ p c x, (p, c) ∈ o.props → (p, x) ∈ kvs → ∀ e, ¬ Fault ext env c x e) ∧ (∀ p ∈ o.required, o.Declares p → Has kvs p) := by
  have key : ∀ {kvs' raws'}, Props v kvs' raws' → DeclaredPass ext env o kvs' →
      (∀ p c x, (p, c) ∈ o.props → (p, x) ∈ kvs → ∀ e, ¬ Fault ext env c x e) ∧ (∀ p ∈ o.required, o.Declares p → Has kvs p) := by
    intro kvs' raws' hp' hd
    obtain ⟨rfl, rfl⟩ := hp.unique hp'
    refine ⟨fun p c x hpc hx e hf => ?_, fun p hpr hpd => ?_⟩
    · exact C103_blocks henv (hc.child (.object (.prop hpc))) ((hp.tidy hv).1 _ _ hx) hf (hd.present p c x hpc hx)
    · by_contra hn
      obtain ⟨c, hpc⟩ := hpd
      exact (hd.absent p c hpc hn).1 hpr
  cases C119_reported henv hc hv h with
  | addlNotAllowed hp' _ hd =>
    exact key hp' hd
  | dependency hp' _ hd => exact key hp' hd

/-- C119: where no object constraint is involved, calls do the same in every iteration order: the error is always the same one. -/
theorem C119_one_way {c : Constraint} {v v' : GoVal} {r : Res} (henv : env.Every fun c => ∀ o, c ≠ .object o)
    (hc : c.Every fun c => ∀ o, c ≠ .object o) (h : Returns ext env c σ v r v') : Returns ext env c τ v r v' := by
  obtain ⟨hr, fuel, h⟩ := h
  exact ⟨hr, fuel, by rw [← h]; exact sem_oneWay henv fuel c hc τ σ v⟩

/-! ### Cases -/

/-- short words, non-negative numbers, at most three properties, no others -/
def exRanked : Constraint :=
  .object { ((Object'.AddProp (b! "a") (.string ((String'.MaxLength 3).Regexp (b! "x")))).AddProp (b! "b") (.number (Number'.Minimum (.exactInt 0)))) with
    additional := none, maxProps := 3 }

theorem exRanked_every : exRanked.Every fun c => NoDefault c ∧ DisjointPatterns demoExt c := by
  refine .intro ⟨rfl, ⟨by decide⟩, fun k _ p hp => by cases hp⟩ fun d hd => ?_
  rw [show exRanked.kids = [.string ((String'.MaxLength 3).Regexp (b! "x")), .number (Number'.Minimum (.exactInt 0))] from rfl] at hd
  simp only [List.mem_cons, List.not_mem_nil, or_false] at hd
  rcases hd with rfl | rfl <;> exact .intro ⟨rfl, trivial⟩ (by simp [Constraint.kids])

/-- two faults in different properties: either is reported, depending on the order -/
def exTwoFaults : GoVal := .map false [(b! "a", .str (b! "abcd")), (b! "b", fl (-1))]

example : Returns demoExt env0 exRanked sched0 exTwoFaults (.err (.prop (b! "a") (.tooLong 3))) exTwoFaults := ⟨by simp, 1, by rfl⟩

theorem exTwoFaults_tidy : Tidy exTwoFaults := by
  refine .map _ _ (by decide) fun k x hx => ?_
  simp only [List.mem_cons, Prod.mk.injEq, List.not_mem_nil, or_false] at hx
  rcases hx with ⟨-, rfl⟩ | ⟨-, rfl⟩
  · exact .str _
  · exact .float _ _

example : ∃ σ, Returns demoExt env0 exRanked σ exTwoFaults (.err (.prop (b! "b") .belowMin)) exTwoFaults := by
  refine C119_possible (by intro m n c h; cases h) exRanked_every exTwoFaults_tidy ?_
  refine .prop (.obj (.map false _ (by decide))) (c := .number (Number'.Minimum (.exactInt 0))) (x := fl (-1)) ⟨by decide, by decide⟩
    (by simp [ObjC.AddProp, ainsert, Object']) (by simp) ?_
  refine .number (.self _ (by simp) (by simp)) ⟨.belowMin rfl rfl ((F64.lt_iff _ _).1 (by decide +kernel)), fun e' _ => Nat.zero_le _⟩

/-- the word is too long and does not match; only the first is reported, in whatever order -/
example (σ : Sched) (v' : GoVal) :
    ¬ Returns demoExt env0 exRanked σ exTwoFaults (.err (.prop (b! "a") (.badRegexp (b! "abcd") (b! "x")))) v' := by
  intro h
  have hp : Props exTwoFaults _ _ := .obj (.map false _ (by decide))
  cases C119_reported (by intro m n c h; cases h) exRanked_every exTwoFaults_tidy h with
  | prop hp' _ h1 h2 h3 =>
    obtain ⟨rfl, -⟩ := hp.unique hp'
    simp only [List.mem_cons, Prod.mk.injEq, List.not_mem_nil, or_false] at h2
    rcases h2 with ⟨-, rfl⟩ | ⟨h2, -⟩
    · simp [ObjC.AddProp, ainsert, Object'] at h1
      subst h1
      cases h3 with
      | string ht hf =>
        cases ht
        have := hf.2 (.tooLong 3) (.tooLong (by decide) (by decide))
        simp [Err.strRank] at this
    · cases h2
  | pattern _ _ _ _ h1 => simp [ObjC.AddProp, ainsert, Object'] at h1
  | dependency _ _ _ _ _ _ _ _ h4 => simp [ObjC.AddProp, ainsert, Object', ObjC.GetSchemaDependency, alookup] at h4

/-- a property that is not allowed and a fault in a declared one: the latter is reported, in whatever order -/
example (σ : Sched) (v' : GoVal) : ¬ Returns demoExt env0 exRanked σ (.map false [(b! "z", .nil), (b! "b", fl (-1))]) (.err .addlNotAllowed) v' := by
  intro h
  have hv : Tidy (.map false [(b! "z", .nil), (b! "b", fl (-1))]) := by
    refine .map _ _ (by decide) fun k x hx => ?_
    simp only [List.mem_cons, Prod.mk.injEq, List.not_mem_nil, or_false] at hx
    rcases hx with ⟨-, rfl⟩ | ⟨-, rfl⟩
    · exact .nil
    · exact .float _ _
  refine (C119_declared_first (by intro m n c h; cases h) exRanked_every hv (.obj (.map false _ (by decide))) h).1 (b! "b")
    (.number (Number'.Minimum (.exactInt 0))) (fl (-1)) ?_ ?_ .belowMin ?_
  · simp [ObjC.AddProp, ainsert, Object']
  · simp
  · exact .number (.self _ (by simp) (by simp)) (.belowMin rfl rfl ((F64.lt_iff _ _).1 (by decide +kernel)))

/-- the same without the fault -/
example : Returns demoExt env0 exRanked sched0 (.map false [(b! "z", .nil), (b! "a", .str (b! "xy"))]) (.err .addlNotAllowed)
    (.map false [(b! "z", .nil), (b! "a", .str (b! "xy"))]) := ⟨by simp, 1, by rfl⟩

/-- too many properties: nothing else is reported -/
example : Returns demoExt env0 exRanked sched0 (.map false [(b! "a", .nil), (b! "b", .nil), (b! "c", .nil), (b! "d", .nil)]) (.err .manyProps)
    (.map false [(b! "a", .nil), (b! "b", .nil), (b! "c", .nil), (b! "d", .nil)]) := ⟨by simp, 1, by rfl⟩

/-- elements from left to right, alternatives, in every order -/
example (τ : Sched) : Returns demoExt env0 (.array (Array'.Items (Constraint.any [.string (String'.MaxLength 3), .null]))) τ
    (.slice false [.str (b! "abc"), fl 1, .str (b! "abcd")]) (.err .anyNone) (.slice false [.str (b! "abc"), fl 1, .str (b! "abcd")]) := by
  refine C119_one_way (σ := sched0) (by intro m n c h; cases h) ?_ ⟨by simp, 1, by rfl⟩
  refine .intro (by simp) fun d hd => ?_
  rw [show Constraint.kids _ = [.any [.string (String'.MaxLength 3), .null], .empty] from rfl] at hd
  simp only [List.mem_cons, List.not_mem_nil, or_false] at hd
  rcases hd with rfl | rfl
  · refine .intro (by simp) fun d hd => ?_
    simp only [Constraint.kids, List.mem_cons, List.not_mem_nil, or_false] at hd
    rcases hd with rfl | rfl <;> exact .intro (by simp) (by simp [Constraint.kids])
  · exact .intro (by simp) (by simp [Constraint.kids])

/-- an array whose second element is the first with a fault -/
example : ∃ (j : ℕ) (x : GoVal), [GoVal.str (b! "abc"), .str (b! "abcd"), fl 1][j]? = some x ∧
    Reported demoExt env0 (.string (String'.MaxLength 3)) x (.tooLong 3) ∧ ∀ (i : ℕ) (y : GoVal), i < j →
      [GoVal.str (b! "abc"), .str (b! "abcd"), fl 1][i]? = some y → ∀ e', ¬ Fault demoExt env0 (.string (String'.MaxLength 3)) y e' := by
  refine C119_leftmost (a := Array'.Items (Constraint.string (String'.MaxLength 3))) (σ := sched0) (n := false)
    (by intro m n c h; cases h) ?_ ?_ rfl ⟨by decide, by decide, rfl⟩ ⟨by simp, 1, by rfl⟩
  · refine .intro ⟨rfl, trivial⟩ fun d hd => ?_
    rw [show Constraint.kids _ = [.string (String'.MaxLength 3), .empty] from rfl] at hd
    simp only [List.mem_cons, List.not_mem_nil, or_false] at hd
    rcases hd with rfl | rfl <;> exact .intro ⟨rfl, trivial⟩ (by simp [Constraint.kids])
  · refine .slice _ _ fun x hx => ?_
    simp only [List.mem_cons, List.not_mem_nil, or_false] at hx
    rcases hx with rfl | rfl | rfl
    · exact .str _
    · exact .str _
    · exact .float _ _

end Jsval
