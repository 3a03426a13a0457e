import Verif.Lemmas.Determined
import Verif.Props.Defaults
/-!
# Iteration order and repeated validation (C35, C42)
-/
namespace Jsval
variable {ext : Ext} {env : Env} {σ τ : Sched}

/-! ## C35 -/

/-- C35 (partial: trees without defaults, no two patterns of an object matching the same undeclared name): what is
accepted in one iteration order is rejected in none, for every tree (references included) and every tidy value.
Missing: overlapping patterns (`C35_refuted`) and defaults. -/
theorem C35_tree_partial {c : Constraint} {v : GoVal} (henv : env.Every fun c => NoDefault c ∧ DisjointPatterns ext c)
    (hc : c.Every fun c => NoDefault c ∧ DisjointPatterns ext c) (hv : Tidy v) (fuel fuel' : Nat)
    (h : (sem ext env fuel c).AcceptsBy σ v) : ¬ ((sem ext env fuel' c).val τ v).1.Rejects := by
  rintro ⟨e, he⟩
  rcases h1 : (sem ext env fuel c).val σ v with ⟨r, v1⟩
  rcases h2 : (sem ext env fuel' c).val τ v with ⟨r', v2⟩
  unfold Sem.AcceptsBy at h
  rw [h1] at h
  rw [h2] at he
  simp only at h he
  subst h; subst he
  have g1 := sem_mono (Nat.le_max_left fuel fuel') h1 (by simp)
  have g2 := sem_mono (Nat.le_max_right fuel fuel') h2 (by simp)
  exact (steady_sem henv hc (max fuel fuel')).compat v hv σ τ (by rw [g1]) e (by rw [g2])

/-- C35 (partial, as above) for decoded JSON and scalar enumerations: any two calls that come back agree. -/
theorem C35_json_partial {c : Constraint} {v v1 v2 : GoVal} {r r' : Res}
    (henv : env.Every fun c => NoDefault c ∧ DisjointPatterns ext c ∧ ScalarEnum c)
    (hc : c.Every fun c => NoDefault c ∧ DisjointPatterns ext c ∧ ScalarEnum c) (hv : IsJson v)
    (h : Returns ext env c σ v r v1) (h' : Returns ext env c τ v r' v2) : r = .ok ↔ r' = .ok := by
  have key : ∀ {σ τ : Sched} {r r' : Res} {v1 v2 : GoVal}, Returns ext env c σ v r v1 → Returns ext env c τ v r' v2 →
      r = .ok → r' = .ok := by
    intro σ τ r r' v1 v2 h h' hr
    have imp : ∀ c, NoDefault c ∧ DisjointPatterns ext c ∧ ScalarEnum c → DefaultIn IsJson c ∧ ScalarEnum c :=
      fun c h => ⟨fun dv hd => (by rw [h.1] at hd; cases hd), h.2.2⟩
    have hn := C44_json (henv.imp imp) (hc.imp imp) hv h'
    subst hr
    obtain ⟨-, fuel, h1⟩ := h
    obtain ⟨-, fuel', h2⟩ := h'
    have imp2 : ∀ c, NoDefault c ∧ DisjointPatterns ext c ∧ ScalarEnum c → NoDefault c ∧ DisjointPatterns ext c :=
      fun c h => ⟨h.1, h.2.1⟩
    have := C35_tree_partial (τ := τ) (henv.imp imp2) (hc.imp imp2) hv.tidy fuel fuel' (show (_ : Res × GoVal).1 = .ok by rw [h1])
    rw [h2] at this
    cases r' with
    | ok => rfl
    | err e => exact absurd ⟨e, rfl⟩ this
    | abort a => exact absurd rfl (hn a)
  exact ⟨key h h', key h' h⟩

/-- A tree to which both apply: nested objects, two disjoint patterns, a reference. -/
def exOrderly : Constraint :=
  .object ((((Object'.AddProp (b! "tag") (.enum [.str (b! "x"), .nil])).AddProp (b! "next") (.ref 0 (b! "self"))
    ).PatternProperties 0 (b! "n-") (.number Number')).PatternProperties 1 (b! "s-") (.string String'))

/-- its reference points back at it -/
def exOrderlyEnv : Env := fun _ n => if n = b! "self" then some exOrderly else none

theorem exOrderly_every : exOrderly.Every fun c => NoDefault c ∧ DisjointPatterns demoExt c ∧ ScalarEnum c := by
  have hleaf : ∀ c : Constraint, c.kids = [] → NoDefault c → DisjointPatterns demoExt c → ScalarEnum c →
      c.Every fun c => NoDefault c ∧ DisjointPatterns demoExt c ∧ ScalarEnum c :=
    fun c hk h1 h2 h3 => .intro ⟨h1, h2, h3⟩ (by rw [hk]; simp)
  have hkids : exOrderly.kids = [.enum [.str (b! "x"), .nil], .ref 0 (b! "self"), .number Number', .string String'] := rfl
  refine .intro ⟨rfl, ⟨⟨by decide⟩, ?_⟩, fun x hx => by simp [Constraint.enumOf, exOrderly] at hx⟩ ?_
  · intro k _ p hp q hq h1 h2
    have hpat : ∀ p ∈ [(0, b! "n-", Constraint.number Number'), (1, b! "s-", .string String')],
        ∀ q ∈ [(0, b! "n-", Constraint.number Number'), (1, b! "s-", .string String')],
        (p.2.1).isPrefixOf k = true → (q.2.1).isPrefixOf k = true → p = q := by
      intro p hp q hq
      simp only [List.mem_cons, List.not_mem_nil, or_false] at hp hq
      cases k with
      | nil => rcases hp with rfl | rfl <;> rcases hq with rfl | rfl <;> simp
      | cons x k =>
        rcases hp with rfl | rfl <;> rcases hq with rfl | rfl <;> simp
        · rintro rfl - h; simp at h
        · rintro rfl - h; simp at h
    exact hpat p hp q hq h1 h2
  · rw [hkids]
    intro d hd
    simp only [List.mem_cons, List.not_mem_nil, or_false] at hd
    rcases hd with rfl | rfl | rfl | rfl
    · exact hleaf _ rfl rfl trivial (fun x hx => by
        simp only [Constraint.enumOf, List.mem_cons, List.not_mem_nil, or_false] at hx
        rcases hx with rfl | rfl
        · exact .str _
        · exact .nil)
    · exact hleaf _ rfl rfl trivial (fun x hx => by simp [Constraint.enumOf] at hx)
    · exact hleaf _ rfl rfl trivial (fun x hx => by simp [Constraint.enumOf, Number'] at hx)
    · exact hleaf _ rfl rfl trivial (fun x hx => by simp [Constraint.enumOf, String'] at hx)

theorem exOrderlyEnv_every : exOrderlyEnv.Every fun c => NoDefault c ∧ DisjointPatterns demoExt c ∧ ScalarEnum c := by
  intro m n c h
  unfold exOrderlyEnv at h
  split at h
  · cases h; exact exOrderly_every
  · cases h

/-- a value with two links, accepted -/
example : (sem demoExt exOrderlyEnv 3 exOrderly).AcceptsBy sched0
    (.map false [(b! "next", .map false [(b! "n-1", fl 4), (b! "tag", .nil)]), (b! "s-a", .str [])]) := by
  unfold Sem.AcceptsBy; decide
/-- and one rejected two levels down -/
example : ((sem demoExt exOrderlyEnv 3 exOrderly).val sched0
    (.map false [(b! "next", .map false [(b! "n-1", .str [])])])).1.Rejects := by
  refine ⟨.prop (b! "next") (.prop (b! "n-1") .notFloat), ?_⟩; decide

/-! ## C42 -/

/-- C42 is false: an unvalidated default of the wrong type is injected by the first, accepted, call and rejected by the
second. -/
theorem C42_refuted : ¬ ∀ (c : Constraint) (v : GoVal) (σ τ : Sched), (sem0 c).AcceptsBy σ v →
    (sem0 c).AcceptsBy τ ((sem0 c).val σ v).2 := by
  intro h
  have := h (.object (Object'.AddProp (b! "a") (.string (String'.Default (.int .int 5))))) (.map false []) sched0 sched0
    (by unfold Sem.AcceptsBy; decide)
  revert this
  have h2 : ((sem0 (.object (Object'.AddProp (b! "a") (.string (String'.Default (.int .int 5)))))).val sched0 (.map false [])).2
      = .map false [(b! "a", .int .int 5)] := by rfl
  rw [h2]
  unfold Sem.AcceptsBy
  decide

/-- C42 (partial: no defaults, disjoint patterns): an accepted tidy value is unchanged, and no later call, in whatever
iteration order, rejects it. Missing: trees with defaults (`C42_refuted`). -/
theorem C42_default_free_partial {c : Constraint} {v v' : GoVal}
    (henv : env.Every fun c => NoDefault c ∧ DisjointPatterns ext c)
    (hc : c.Every fun c => NoDefault c ∧ DisjointPatterns ext c) (hv : Tidy v) {fuel : Nat}
    (h : (sem ext env fuel c).val σ v = (.ok, v')) (fuel' : Nat) :
    v' = v ∧ ¬ ((sem ext env fuel' c).val τ v').1.Rejects := by
  have hv' : v' = v := by
    have := C41_read_only (ext := ext) (σ := σ) (henv.imp fun _ h => h.1) (hc.imp fun _ h => h.1) fuel v
    rw [h] at this
    exact this
  subst hv'
  exact ⟨rfl, C35_tree_partial henv hc hv fuel fuel' (show (_ : Res × GoVal).1 = .ok by rw [h])⟩

/-- C42 (partial, as above) for decoded JSON and scalar enumerations: a second call that comes back accepts. -/
theorem C42_json_partial {c : Constraint} {v v1 v2 : GoVal} {r : Res}
    (henv : env.Every fun c => NoDefault c ∧ DisjointPatterns ext c ∧ ScalarEnum c)
    (hc : c.Every fun c => NoDefault c ∧ DisjointPatterns ext c ∧ ScalarEnum c) (hv : IsJson v)
    (h : Returns ext env c σ v .ok v1) (h' : Returns ext env c τ v1 r v2) : r = .ok ∧ v2 = v := by
  obtain ⟨-, fuel, h1⟩ := id h
  have e1 : v1 = v := by
    have := C41_read_only (ext := ext) (σ := σ) (henv.imp fun _ h => h.1) (hc.imp fun _ h => h.1) fuel v
    rw [h1] at this; exact this
  subst e1
  refine ⟨(C35_json_partial henv hc hv h h').1 rfl, ?_⟩
  obtain ⟨-, fuel', h2⟩ := h'
  have := C41_read_only (ext := ext) (σ := τ) (henv.imp fun _ h => h.1) (hc.imp fun _ h => h.1) fuel' v1
  rw [h2] at this; exact this

/-- `exOrderly` again: a call that comes back -/
example : Returns demoExt exOrderlyEnv exOrderly sched0
    (.map false [(b! "next", .map false [(b! "n-1", fl 4), (b! "tag", .nil)]), (b! "s-a", .str [])]) .ok
    (.map false [(b! "next", .map false [(b! "n-1", fl 4), (b! "tag", .nil)]), (b! "s-a", .str [])]) :=
  ⟨by simp, 3, by rfl⟩

end Jsval
