import Verif.Lemmas.Repeat
import Verif.Props.Order
/-!
# Iteration order and repeated validation in the presence of defaults (C35, C42)
-/
namespace Jsval
variable {ext : Ext} {env : Env} {σ τ : Sched}

/-! ## C35 -/

/-- C35 (partial: decoded JSON; disjoint patterns; nothing filled in by branches of `Any`, `OneOf`, `Not` or by schema dependencies; maps
printed with sorted keys): what is accepted in one iteration order is rejected in none, and where two orders accept they leave the same
value, up to the order of keys. Defaults may be anywhere else. Missing: overlapping patterns (`C35_refuted`), filling in by what is only
tried (`C35_refuted_tried`), values that are not decoded JSON. -/
theorem C35_defaults_partial {c : Constraint} {v v' : GoVal} (hp : PrintsSorted ext)
    (henv : env.Every fun c => DisjointPatterns ext c ∧ DefaultIn IsJson c ∧ TriedInert env c)
    (hc : c.Every fun c => DisjointPatterns ext c ∧ DefaultIn IsJson c ∧ TriedInert env c) (hv : IsJson v) {fuel : Nat}
    (h : (sem ext env fuel c).val σ v = (.ok, v')) (fuel' : Nat) :
    ¬ ((sem ext env fuel' c).val τ v).1.Rejects ∧ ∀ w', (sem ext env fuel' c).val τ v = (.ok, w') → Alike v' w' := by
  have g1 := sem_mono (Nat.le_max_left fuel fuel') h (by simp)
  obtain ⟨k1, k2⟩ := (det_sem hp henv (max fuel fuel') c hc).det v v σ τ v' hv hv (.refl _) g1
  refine ⟨?_, fun w' h' => k2 w' (sem_mono (Nat.le_max_right fuel fuel') h' (by simp))⟩
  rintro ⟨e, he⟩
  have h2 : (sem ext env fuel' c).val τ v = (.err e, ((sem ext env fuel' c).val τ v).2) := Prod.ext he rfl
  have g2 := sem_mono (Nat.le_max_right fuel fuel') h2 (by simp)
  exact k1 e (by rw [g2])

/-- C35 (partial, as above) with scalar enumerations: any two calls that come back agree, on the verdict and on the value. -/
theorem C35_defaults_json_partial {c : Constraint} {v v1 v2 : GoVal} {r r' : Res} (hp : PrintsSorted ext)
    (henv : env.Every fun c => DisjointPatterns ext c ∧ DefaultIn IsJson c ∧ TriedInert env c ∧ ScalarEnum c)
    (hc : c.Every fun c => DisjointPatterns ext c ∧ DefaultIn IsJson c ∧ TriedInert env c ∧ ScalarEnum c) (hv : IsJson v)
    (h : Returns ext env c σ v r v1) (h' : Returns ext env c τ v r' v2) : (r = .ok ↔ r' = .ok) ∧ (r = .ok → Alike v1 v2) := by
  have key : ∀ {σ τ : Sched} {r r' : Res} {v1 v2 : GoVal}, Returns ext env c σ v r v1 → Returns ext env c τ v r' v2 →
      r = .ok → r' = .ok ∧ Alike v1 v2 := by
    intro σ τ r r' v1 v2 h h' hr
    have hn := C44_json (henv.imp fun c h => ⟨h.2.1, h.2.2.2⟩) (hc.imp fun c h => ⟨h.2.1, h.2.2.2⟩) hv h'
    subst hr
    obtain ⟨-, fuel, h1⟩ := h
    obtain ⟨-, fuel', h2⟩ := h'
    obtain ⟨k1, k2⟩ := C35_defaults_partial (τ := τ) hp (henv.imp fun c h => ⟨h.1, h.2.1, h.2.2.1⟩)
      (hc.imp fun c h => ⟨h.1, h.2.1, h.2.2.1⟩) hv h1 fuel'
    cases r' with
    | ok => exact ⟨rfl, k2 v2 h2⟩
    | err e => exact absurd ⟨e, by rw [h2]⟩ k1
    | abort a => exact absurd rfl (hn a)
  exact ⟨⟨fun hr => (key h h' hr).1, fun hr => (key h' h hr).1⟩, fun hr => (key h h' hr).2⟩

/-- The branch that fails fills in `a` in one iteration order and not in the other, and the next branch sees it. -/
def exTried : Constraint :=
  .any [.object ((Object'.AddProp (b! "a") (.number (Number'.Default (fl 1)))).AddProp (b! "b") .null),
    .object ((Object'.AddProp (b! "b") (.string String')).AdditionalProperties none)]

/-- Defaults in a branch of an `Any` make the verdict depend on the iteration order, even without patterns. -/
theorem C35_refuted_tried : ¬ ∀ (c : Constraint) (v : GoVal), (c.Every fun c => DisjointPatterns demoExt c ∧ DefaultIn IsJson c) →
    IsJson v → (sem0 c).DeterminedOn v := by
  intro h
  have hex : exTried.Every fun c => DisjointPatterns demoExt c ∧ DefaultIn IsJson c := by
    have hnil : ∀ c : Constraint, c.ownDefault = none → DefaultIn IsJson c := fun c h dv hd => by rw [h] at hd; cases hd
    have hpat : ∀ o : ObjC Constraint, o.Wf → o.patterns = [] → DisjointPatterns demoExt (.object o) := fun o hw h =>
      ⟨hw, fun k _ p hp => by rw [h] at hp; cases hp⟩
    refine .intro ⟨trivial, hnil _ rfl⟩ fun d hd => ?_
    simp only [exTried, Constraint.kids, List.mem_cons, List.not_mem_nil, or_false] at hd
    rcases hd with rfl | rfl
    · refine .intro ⟨hpat _ ⟨by decide⟩ rfl, hnil _ rfl⟩ fun d hd => ?_
      rw [show Constraint.kids _ = [.number (Number'.Default (fl 1)), .null] from rfl] at hd
      simp only [List.mem_cons, List.not_mem_nil, or_false] at hd
      rcases hd with rfl | rfl
      · exact .intro ⟨trivial, fun dv h => by cases h; exact .num _⟩ (fun d hd => by cases hd)
      · exact .intro ⟨trivial, hnil _ rfl⟩ (fun d hd => by cases hd)
    · refine .intro ⟨hpat _ ⟨by decide⟩ rfl, hnil _ rfl⟩ fun d hd => ?_
      rw [show Constraint.kids _ = [.string String'] from rfl] at hd
      simp only [List.mem_cons, List.not_mem_nil, or_false] at hd
      subst hd
      exact .intro ⟨trivial, hnil _ rfl⟩ (fun d hd => by cases hd)
  have := h exTried (.map false [(b! "b", .str (b! "x"))]) hex
    (.obj _ (by decide) (fun k x hx => by simp at hx; obtain ⟨-, rfl⟩ := hx; exact .str _)) sched0 (fun p => if p = [0, 0] then 1 else 0)
  revert this
  decide +kernel

/-! ## C42 -/

/-- C42 (partial: as for C35, and defaults pass their own constraint, and nothing filled in is seen by another part of a constraint):
what has been accepted, with its defaults filled in, is rejected by no later call, in whatever iteration order, and stays as it is up to
the order of keys. Missing: what `C42_refuted` and the counterexamples below show to be false, and values that are not decoded JSON. -/
theorem C42_defaults_partial {c : Constraint} {v v' : GoVal} (hp : PrintsSorted ext)
    (henv : env.Every fun c => (DisjointPatterns ext c ∧ DefaultIn IsJson c ∧ TriedInert env c) ∧ DefaultPasses ext c ∧ FillsApart env c)
    (hc : c.Every fun c => (DisjointPatterns ext c ∧ DefaultIn IsJson c ∧ TriedInert env c) ∧ DefaultPasses ext c ∧ FillsApart env c)
    (hv : IsJson v) {fuel : Nat} (h : (sem ext env fuel c).val σ v = (.ok, v')) (fuel' : Nat) :
    ¬ ((sem ext env fuel' c).val τ v').1.Rejects ∧ ∀ w', (sem ext env fuel' c).val τ v' = (.ok, w') → Alike v' w' := by
  have g1 := sem_mono (Nat.le_max_left fuel fuel') h (by simp)
  obtain ⟨k1, k2⟩ := (rep_sem hp henv (max fuel fuel') c hc).rep v σ τ v' hv g1
  refine ⟨?_, fun w' h' => k2 w' (sem_mono (Nat.le_max_right fuel fuel') h' (by simp))⟩
  rintro ⟨e, he⟩
  have h2 : (sem ext env fuel' c).val τ v' = (.err e, ((sem ext env fuel' c).val τ v').2) := Prod.ext he rfl
  have g2 := sem_mono (Nat.le_max_right fuel fuel') h2 (by simp)
  exact k1 e (by rw [g2])

/-- C42 (partial, as above) with scalar enumerations: a second call that comes back accepts. -/
theorem C42_defaults_json_partial {c : Constraint} {v v1 v2 : GoVal} {r : Res} (hp : PrintsSorted ext)
    (henv : env.Every fun c => ((DisjointPatterns ext c ∧ DefaultIn IsJson c ∧ TriedInert env c) ∧ DefaultPasses ext c ∧
      FillsApart env c) ∧ ScalarEnum c)
    (hc : c.Every fun c => ((DisjointPatterns ext c ∧ DefaultIn IsJson c ∧ TriedInert env c) ∧ DefaultPasses ext c ∧
      FillsApart env c) ∧ ScalarEnum c)
    (hv : IsJson v) (h : Returns ext env c σ v .ok v1) (h' : Returns ext env c τ v1 r v2) : r = .ok ∧ Alike v1 v2 := by
  obtain ⟨-, fuel, h1⟩ := id h
  have hv1 : IsJson v1 :=
    (det_sem hp (henv.imp fun _ h => h.1.1) fuel c (hc.imp fun _ h => h.1.1)).keep σ v v1 hv h1
  have hn := C44_json (henv.imp fun c h => ⟨h.1.1.2.1, h.2⟩) (hc.imp fun c h => ⟨h.1.1.2.1, h.2⟩) hv1 h'
  obtain ⟨-, fuel', h2⟩ := h'
  obtain ⟨k1, k2⟩ := C42_defaults_partial (τ := τ) hp (henv.imp fun _ h => h.1) (hc.imp fun _ h => h.1) hv h1 fuel'
  cases r with
  | ok => exact ⟨rfl, k2 v2 h2⟩
  | err e => exact absurd ⟨e, by rw [h2]⟩ k1
  | abort a => exact absurd rfl (hn a)

/-! ### A tree to which all four apply -/

/-- an object that is filled in -/
def exFillInner : Constraint := .object (Object'.AddProp (b! "f") (.boolean (some (.bool true))))

/-- an object with a number and a string to fill in, a link to itself, a list of objects to fill in, a conjunction, an alternative,
a pattern and a dependency -/
def exFill : Constraint :=
  .object ((((((((Object'.AddProp (b! "n") (.number (Number'.Default (fl 3)))).AddProp (b! "s") (.string (String'.Default (.str (b! "x"))))
    ).AddProp (b! "next") (.ref 0 (b! "self"))).AddProp (b! "l") (.array (Array'.Items exFillInner))
    ).AddProp (b! "c") (.all [exFillInner, .object (Object'.AdditionalProperties (some .empty))])
    ).AddProp (b! "e") (.any [.null, .string (String'.Default (.str (b! "y")))])).PatternProperties 0 (b! "p-") .null
    ).PropDependency (b! "l") [b! "c"])

/-- its link -/
def exFillEnv : Env := fun _ n => if n = b! "self" then some exFill else none

/-- the fixed environment of the examples prints all containers alike -/
theorem demoExt_sorted : PrintsSorted demoExt := by
  intro v w _ _ h
  cases h <;> rfl

theorem exFill_every : exFill.Every fun c => ((DisjointPatterns demoExt c ∧ DefaultIn IsJson c ∧ TriedInert exFillEnv c) ∧
    DefaultPasses demoExt c ∧ FillsApart exFillEnv c) ∧ ScalarEnum c := by
  have hleaf : ∀ c : Constraint, c.kids = [] → (∀ dv, c.ownDefault = some dv → IsJson dv ∧ (sem demoExt (fun _ _ => none) 0 c).Accepts dv) →
      (∀ d, ¬ c.Tried d) → DisjointPatterns demoExt c → FillsApart exFillEnv c → ScalarEnum c → c.Every fun c =>
      ((DisjointPatterns demoExt c ∧ DefaultIn IsJson c ∧ TriedInert exFillEnv c) ∧ DefaultPasses demoExt c ∧
        FillsApart exFillEnv c) ∧ ScalarEnum c :=
    fun c hk h1 h2 h3 h4 h5 => .intro ⟨⟨⟨h3, fun dv h => (h1 dv h).1, fun d hd => absurd hd (h2 d)⟩, fun dv h _ => (h1 dv h).2, h4⟩, h5⟩
      (by rw [hk]; simp)
  have hnone : ∀ c : Constraint, c.ownDefault = none → DefaultIn IsJson c ∧ DefaultPasses demoExt c := fun c h =>
    ⟨fun dv hd => (by rw [h] at hd; cases hd), fun dv hd => (by rw [h] at hd; cases hd)⟩
  have hpat : ∀ o : ObjC Constraint, o.Wf → o.patterns.length ≤ 1 → DisjointPatterns demoExt (.object o) := fun o hw h =>
    ⟨hw, fun k _ p hp q hq _ _ => by
      generalize o.patterns = l at h hp hq
      match l, h with
      | [], _ => cases hp
      | [x], _ => simp at hp hq; rw [hp, hq]⟩
  have hsc : ∀ c : Constraint, c.enumOf = [] → ScalarEnum c := fun c h x hx => by rw [h] at hx; cases hx
  have hinner : exFillInner.Every fun c => ((DisjointPatterns demoExt c ∧ DefaultIn IsJson c ∧ TriedInert exFillEnv c) ∧
      DefaultPasses demoExt c ∧ FillsApart exFillEnv c) ∧ ScalarEnum c := by
    refine .intro ⟨⟨⟨hpat _ ⟨by decide⟩ (by decide), (hnone _ rfl).1, fun d hd => by cases hd with | dependency h => cases h⟩,
      (hnone _ rfl).2, fun p c h _ => ⟨by decide, rfl, rfl⟩⟩, hsc _ rfl⟩ fun d hd => ?_
    rw [show exFillInner.kids = [.boolean (some (.bool true))] from rfl] at hd
    simp only [List.mem_cons, List.not_mem_nil, or_false] at hd
    subst hd
    exact hleaf _ rfl (fun dv h => by cases h; exact ⟨.bool _, fun σ => rfl⟩) (fun d h => by cases h) trivial trivial (hsc _ rfl)
  have hemp : Inert exFillEnv .empty := by
    intro e h
    cases h with
    | refl => intro h; cases h
    | child h => cases h
  have huse : ∀ c : Constraint, c = .null ∨ c = .string (String'.Default (.str (b! "y"))) → Inert exFillEnv c := by
    intro c hc e h
    cases h with
    | refl => rcases hc with rfl | rfl <;> (intro h; cases h)
    | child h => rcases hc with rfl | rfl <;> cases h
    | ref => rcases hc with h | h <;> cases h
  have hkids : exFill.kids = [.number (Number'.Default (fl 3)), .string (String'.Default (.str (b! "x"))), .ref 0 (b! "self"),
    .array (Array'.Items exFillInner), .all [exFillInner, .object (Object'.AdditionalProperties (some .empty))],
    .any [.null, .string (String'.Default (.str (b! "y")))], .null] := rfl
  have hstr : (Constraint.string (String'.Default (.str (b! "y")))).Every fun c => ((DisjointPatterns demoExt c ∧ DefaultIn IsJson c ∧ TriedInert exFillEnv c) ∧
      DefaultPasses demoExt c ∧ FillsApart exFillEnv c) ∧ ScalarEnum c :=
    hleaf _ rfl (fun dv h => by cases h; exact ⟨.str _, fun σ => by rfl⟩) (fun d h => by cases h) trivial trivial (hsc _ rfl)
  have hnul : Constraint.null.Every fun c => ((DisjointPatterns demoExt c ∧ DefaultIn IsJson c ∧ TriedInert exFillEnv c) ∧
      DefaultPasses demoExt c ∧ FillsApart exFillEnv c) ∧ ScalarEnum c :=
    hleaf _ rfl (fun dv h => by cases h) (fun d h => by cases h) trivial trivial (hsc _ rfl)
  have hnofill : ∀ c : Constraint, c.ownDefault = none → (∀ m n, c ≠ .ref m n) → ¬ Defaulted exFillEnv c := by
    rintro c h1 h2 ⟨d, h, h3⟩
    cases h with
    | refl => exact h3 h1
    | ref => exact h2 _ _ rfl
  refine .intro ⟨⟨⟨hpat _ ⟨by decide⟩ (by decide), (hnone _ rfl).1, fun d hd => by cases hd with | dependency h => cases h⟩,
      (hnone _ rfl).2, fun p c h hf => ?_⟩, hsc _ rfl⟩ fun d hd => ?_
  · rw [show ObjC.props _ = [(b! "n", .number (Number'.Default (fl 3))), (b! "s", .string (String'.Default (.str (b! "x")))),
      (b! "next", .ref 0 (b! "self")), (b! "l", .array (Array'.Items exFillInner)),
      (b! "c", .all [exFillInner, .object (Object'.AdditionalProperties (some .empty))]), (b! "e", .any [.null, .string (String'.Default (.str (b! "y")))])] from rfl] at h
    simp only [List.mem_cons, List.not_mem_nil, or_false, Prod.mk.injEq] at h
    rcases h with ⟨rfl, rfl⟩ | ⟨rfl, rfl⟩ | ⟨rfl, rfl⟩ | ⟨rfl, rfl⟩ | ⟨rfl, rfl⟩ | ⟨rfl, rfl⟩
    · exact ⟨by decide, rfl, rfl⟩
    · exact ⟨by decide, rfl, rfl⟩
    · exact ⟨by decide, rfl, rfl⟩
    · exact absurd hf (hnofill _ rfl (by intros; simp))
    · exact ⟨by decide, rfl, rfl⟩
    · exact ⟨by decide, rfl, rfl⟩
  · rw [hkids] at hd
    simp only [List.mem_cons, List.not_mem_nil, or_false] at hd
    rcases hd with rfl | rfl | rfl | rfl | rfl | rfl | rfl
    · exact hleaf _ rfl (fun dv h => by cases h; exact ⟨.num _, fun σ => by rfl⟩) (fun d h => by cases h) trivial trivial (hsc _ rfl)
    · exact hleaf _ rfl (fun dv h => by cases h; exact ⟨.str _, fun σ => by rfl⟩) (fun d h => by cases h) trivial trivial (hsc _ rfl)
    · exact hleaf _ rfl (fun dv h => by cases h) (fun d h => by cases h) trivial trivial (hsc _ rfl)
    · refine .intro ⟨⟨⟨trivial, (hnone _ rfl).1, fun d hd => by cases hd⟩, (hnone _ rfl).2, (fun h => (by cases h)),
          (fun d h => (by cases h; exact hemp))⟩,
        hsc _ rfl⟩ fun d hd => ?_
      rw [show Constraint.kids _ = [exFillInner, .empty] from rfl] at hd
      simp only [List.mem_cons, List.not_mem_nil, or_false] at hd
      rcases hd with rfl | rfl
      · exact hinner
      · exact hleaf _ rfl (fun dv h => by cases h) (fun d h => by cases h) trivial trivial (hsc _ rfl)
    · have hfree : Inert exFillEnv (.object (Object'.AdditionalProperties (some .empty))) := by
        intro e h
        cases h with
        | refl => intro h; cases h with | mk h => cases h
        | child h h' =>
          cases h with
          | object h =>
            cases h with
            | prop h => cases h
            | pattern h => cases h
            | additional h =>
              cases h
              exact hemp e h'
            | dependency h => cases h
      refine .intro ⟨⟨⟨trivial, (hnone _ rfl).1, fun d hd => by cases hd⟩, (hnone _ rfl).2, fun d hd => ?_⟩, hsc _ rfl⟩ fun d hd => ?_
      · simp only [List.tail_cons, List.mem_cons, List.not_mem_nil, or_false] at hd
        subst hd; exact hfree
      · rw [show Constraint.kids _ = [exFillInner, .object (Object'.AdditionalProperties (some .empty))] from rfl] at hd
        simp only [List.mem_cons, List.not_mem_nil, or_false] at hd
        rcases hd with rfl | rfl
        · exact hinner
        · refine .intro ⟨⟨⟨hpat _ ⟨by decide⟩ (by decide), (hnone _ rfl).1, fun d hd => by cases hd with | dependency h => cases h⟩,
            (hnone _ rfl).2, fun p c h => by cases h⟩, hsc _ rfl⟩ fun d hd => ?_
          rw [show Constraint.kids _ = [.empty] from rfl] at hd
          simp only [List.mem_cons, List.not_mem_nil, or_false] at hd
          subst hd
          exact hleaf _ rfl (fun dv h => by cases h) (fun d h => by cases h) trivial trivial (hsc _ rfl)
    · refine .intro ⟨⟨⟨trivial, (hnone _ rfl).1, fun d hd => ?_⟩, (hnone _ rfl).2, trivial⟩, hsc _ rfl⟩ fun d hd => ?_
      · cases hd with
        | any h =>
          simp only [List.mem_cons, List.not_mem_nil, or_false] at h
          exact huse d h
      · rw [show Constraint.kids _ = [.null, .string (String'.Default (.str (b! "y")))] from rfl] at hd
        simp only [List.mem_cons, List.not_mem_nil, or_false] at hd
        rcases hd with rfl | rfl
        · exact hnul
        · exact hstr
    · exact hnul

theorem exFillEnv_every : exFillEnv.Every fun c => ((DisjointPatterns demoExt c ∧ DefaultIn IsJson c ∧ TriedInert exFillEnv c) ∧
    DefaultPasses demoExt c ∧ FillsApart exFillEnv c) ∧ ScalarEnum c := by
  intro m n c h
  unfold exFillEnv at h
  split at h
  · cases h; exact exFill_every
  · cases h

/-- a value with a link and a list, and what the call leaves -/
example : Returns demoExt exFillEnv exFill sched0
    (.map false [(b! "next", .map false [(b! "s", .str [])]), (b! "l", .slice false [.map false []]), (b! "c", .map false []), (b! "p-1", .nil)]) .ok
    (.map false [(b! "next", .map false [(b! "s", .str []), (b! "n", fl 3)]), (b! "l", .slice false [.map false [(b! "f", .bool true)]]),
      (b! "c", .map false [(b! "f", .bool true)]), (b! "p-1", .nil), (b! "n", fl 3), (b! "s", .str (b! "x"))]) :=
  ⟨by simp, 3, by rfl⟩

/-! ### Each part of `FillsApart` is needed

Every default below passes its own constraint and there is only one pattern at most, yet the second call rejects. -/

/-- accepted, and rejected the second time -/
def OnlyOnce (c : Constraint) (v : GoVal) : Prop :=
  ((sem0 c).val sched0 v).1 = .ok ∧ ((sem0 c).val sched0 ((sem0 c).val sched0 v).2).1 ≠ .ok

/-- a maximum number of properties -/
example : OnlyOnce (.object ((Object'.AddProp (b! "a") (.number (Number'.Default (fl 1)))).MaxProperties 0)) (.map false []) := by
  unfold OnlyOnce; decide +kernel
/-- a property dependency -/
example : OnlyOnce (.object ((Object'.AddProp (b! "a") (.number (Number'.Default (fl 1)))).PropDependency (b! "a") [b! "b"]))
    (.map false []) := by
  unfold OnlyOnce; decide +kernel
/-- a schema dependency -/
example : OnlyOnce (.object ((Object'.AddProp (b! "a") (.number (Number'.Default (fl 1)))).SchemaDependency (b! "a") .null))
    (.map false []) := by
  unfold OnlyOnce; decide +kernel
/-- a later branch of an `All` -/
example : OnlyOnce (.all [.object (Object'.MaxProperties 0), .object (Object'.AddProp (b! "a") (.number (Number'.Default (fl 1))))])
    (.map false []) := by
  unfold OnlyOnce; decide +kernel

/-- additional items, which start at the last positional one -/
example : OnlyOnce (.array ((Array'.PositionalItems [.object (Object'.MaxProperties 0)]).AdditionalItems
      (some (.object (Object'.AddProp (b! "a") (.number (Number'.Default (fl 1)))))))) (.slice false [.map false [], .map false []]) := by
  unfold OnlyOnce; decide +kernel

end Jsval
