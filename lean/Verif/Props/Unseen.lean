import Verif.Lemmas.Erase
import Verif.Lemmas.Refine
import Verif.Lemmas.Pipeline
/-!
# Defaults and the verdict (C88); what fills nothing in changes nothing (C41)
-/
namespace Jsval
variable {ext : Ext} {env env' : Env} {σ : Sched}

/-- C41: a constraint that fills nothing in — no declared property of an object it uses has a default — leaves every Go value as it was,
whatever the outcome. Defaults of other constraints do no harm. -/
theorem C41_inert {c : Constraint} (hc : Inert env c) (fuel : Nat) (v : GoVal) : ((sem ext env fuel c).val σ v).2 = v :=
  inert_readOnly fuel c hc v σ

/-- a constraint with defaults to which it applies: none is that of a property -/
def exInert : Constraint :=
  .array (Array'.Items (Constraint.any [.string (String'.Default (.str (b! "x"))), .object (Object'.AddProp (b! "a")
    (.array (Array'.Items (Constraint.boolean (some (.bool true))))))]))

theorem exInert_inert (env : Env) : Inert env exInert := by
  have hempty : Inert env .empty := inert_node (fun h => by cases h) (by simp) (by simp [Constraint.kids])
  refine inert_node (fun h => by cases h) (by simp [exInert]) fun d hd => ?_
  rw [show exInert.kids = [.any [.string (String'.Default (.str (b! "x"))), .object (Object'.AddProp (b! "a")
    (.array (Array'.Items (Constraint.boolean (some (.bool true))))))], .empty] from rfl] at hd
  simp only [List.mem_cons, List.not_mem_nil, or_false] at hd
  rcases hd with rfl | rfl
  · refine inert_node (fun h => by cases h) (by simp) fun d hd => ?_
    simp only [Constraint.kids, List.mem_cons, List.not_mem_nil, or_false] at hd
    rcases hd with rfl | rfl
    · exact inert_node (fun h => by cases h) (by simp) (by simp [Constraint.kids])
    · refine inert_node (fun h => ?_) (by simp) fun d hd => ?_
      · cases h with
        | mk h1 h2 =>
          rw [show ObjC.props _ = [(b! "a", .array (Array'.Items (Constraint.boolean (some (.bool true)))))] from rfl] at h1
          simp only [List.mem_cons, List.not_mem_nil, or_false, Prod.mk.injEq] at h1
          obtain ⟨-, rfl⟩ := h1
          exact not_defaulted rfl (by simp) h2
      · rw [show Constraint.kids _ = [.array (Array'.Items (Constraint.boolean (some (.bool true))))] from rfl] at hd
        simp only [List.mem_cons, List.not_mem_nil, or_false] at hd
        subst hd
        refine inert_node (fun h => by cases h) (by simp) fun d hd => ?_
        rw [show Constraint.kids _ = [.boolean (some (.bool true)), .empty] from rfl] at hd
        simp only [List.mem_cons, List.not_mem_nil, or_false] at hd
        rcases hd with rfl | rfl
        · exact inert_node (fun h => by cases h) (by simp) (by simp [Constraint.kids])
        · exact hempty
  · exact hempty

/-- it accepts something -/
example : ((sem0 exInert).val sched0 (.slice false [.str [], .map false [(b! "a", .slice false [.bool true])]])).1 = .ok := by decide +kernel

/-! ## C88 -/

/-- C88: where nothing looks at what has been filled in, defaults do not decide the verdict: the call on decoded JSON ends as it would
with all defaults taken out — it accepts, or reports the same error, or stops alike — whatever the defaults are. -/
theorem C88_verdict {c : Constraint} {v : GoVal} (henv : env.Every (Unseen env)) (hc : c.Every (Unseen env)) (hv : IsJson v) (fuel : Nat) :
    ((sem ext env fuel c).val σ v).1 = ((sem ext env.plain fuel c.plain).val σ v).1 :=
  (erases_sem henv fuel c hc).run σ v hv

/-- C88 for calls that come back: without defaults the call returns the same and leaves its argument alone. -/
theorem C88_returns {c : Constraint} {v : GoVal} {r : Res} (henv : env.Every (Unseen env)) (hc : c.Every (Unseen env)) (hv : IsJson v) :
    (∃ v', Returns ext env c σ v r v') ↔ Returns ext env.plain c.plain σ v r v := by
  constructor
  · rintro ⟨v', hr, fuel, h⟩
    refine ⟨hr, fuel, Prod.ext ?_ ((erases_sem henv fuel c hc).ro v σ)⟩
    rw [← C88_verdict henv hc hv fuel, h]
  · rintro ⟨hr, fuel, h⟩
    refine ⟨((sem ext env fuel c).val σ v).2, hr, fuel, Prod.ext ?_ rfl⟩
    rw [C88_verdict henv hc hv fuel, h]

/-- C88: validators that differ in their defaults only — added, removed or changed — return alike. -/
theorem C88_same {c c' : Constraint} {v : GoVal} {r : Res} (henv : env.Every (Unseen env)) (hc : c.Every (Unseen env))
    (henv' : env'.Every (Unseen env')) (hc' : c'.Every (Unseen env')) (he : env.plain = env'.plain) (hcc : c.plain = c'.plain) (hv : IsJson v) :
    (∃ v', Returns ext env c σ v r v') ↔ ∃ v', Returns ext env' c' σ v r v' := by
  rw [C88_returns henv hc hv, C88_returns henv' hc' hv, he, hcc]

/-- what is meant by taking the defaults out -/
theorem plain_noDefault (c : Constraint) : c.plain.Every NoDefault := by
  induction c using Constraint.ind with
  | h c ih =>
    refine every_of_children ?_ fun d hd => ?_
    · cases c with
      | array a => rw [plain_array]; rfl
      | object o => rw [plain_object]; rfl
      | _ => simp [NoDefault, Constraint.plain, Constraint.ownDefault]
    · obtain ⟨e, h1, rfl⟩ := plain_child hd
      exact ih e h1

/-! ### A validator to which it applies -/

/-- an object that is filled in -/
def exUnseenInner : Constraint := .object (Object'.AddProp (b! "f") (.boolean (some (.str (b! "no boolean")))))

/-- an object with a number to fill in, a link to itself, a conjunction whose last branch fills in, alternatives for different kinds of
values that fill in, a negation, a tuple -/
def exUnseen : Constraint :=
  .object (((((((Object'.AddProp (b! "n") (.number (Number'.Default (fl 3)))).AddProp (b! "next") (.ref 0 (b! "self"))
    ).AddProp (b! "c") (.all [.object (Object'.MaxProperties 1), exUnseenInner])
    ).AddProp (b! "e") (.any [exUnseenInner, .array (Array'.Items exUnseenInner), .string String'])
    ).AddProp (b! "t") (.array (Array'.PositionalItems [exUnseenInner, .ref 0 (b! "self")]))
    ).AddProp (b! "x") (.not (some (.ref 0 (b! "self"))))).PropDependency (b! "n") [b! "next"])

/-- its link -/
def exUnseenEnv : Env := fun _ n => if n = b! "self" then some exUnseen else none

theorem exUnseen_every : exUnseen.Every (Unseen exUnseenEnv) := by
  have hleaf : ∀ c : Constraint, c.kids = [] → Unseen exUnseenEnv c → c.Every (Unseen exUnseenEnv) := fun c h1 h2 =>
    .intro h2 (by rw [h1]; simp)
  have hobj : ∀ o : ObjC Constraint, o.Wf → o.schemadeps = [] → Unseen exUnseenEnv (.object o) := fun o h1 h2 => ⟨h1, Or.inl h2⟩
  have hinner : exUnseenInner.Every (Unseen exUnseenEnv) := by
    refine .intro (hobj _ ⟨by decide⟩ rfl) fun d hd => ?_
    rw [show exUnseenInner.kids = [.boolean (some (.str (b! "no boolean")))] from rfl] at hd
    simp only [List.mem_cons, List.not_mem_nil, or_false] at hd
    subst hd
    exact hleaf _ rfl trivial
  have hsmall : Inert exUnseenEnv (.object (Object'.MaxProperties 1)) := by
    refine inert_node (fun h => by cases h with | mk h => cases h) (by simp) fun d hd => ?_
    rw [show Constraint.kids _ = [] from rfl] at hd
    cases hd
  refine .intro (hobj _ ⟨by decide⟩ rfl) fun d hd => ?_
  rw [show exUnseen.kids = [.number (Number'.Default (fl 3)), .ref 0 (b! "self"), .all [.object (Object'.MaxProperties 1), exUnseenInner],
    .any [exUnseenInner, .array (Array'.Items exUnseenInner), .string String'],
    .array (Array'.PositionalItems [exUnseenInner, .ref 0 (b! "self")]), .not (some (.ref 0 (b! "self")))] from rfl] at hd
  simp only [List.mem_cons, List.not_mem_nil, or_false] at hd
  rcases hd with rfl | rfl | rfl | rfl | rfl | rfl
  · exact hleaf _ rfl trivial
  · exact hleaf _ rfl trivial
  · refine .intro ?_ fun d hd => ?_
    · simp only [Unseen, List.pairwise_cons, List.mem_cons, List.not_mem_nil, or_false]
      exact ⟨fun _ _ => hsmall, (fun _ h => by cases h), .nil⟩
    · simp only [Constraint.kids, List.mem_cons, List.not_mem_nil, or_false] at hd
      rcases hd with rfl | rfl
      · refine .intro (hobj _ ⟨by decide⟩ rfl) fun d hd => ?_
        rw [show Constraint.kids _ = [] from rfl] at hd
        cases hd
      · exact hinner
  · refine .intro ?_ fun d hd => ?_
    · simp only [Unseen, List.pairwise_cons, List.mem_cons, List.not_mem_nil, or_false]
      refine ⟨?_, ?_, (fun _ h => by cases h), .nil⟩
      · rintro b (rfl | rfl)
        · exact Or.inr .objectArray
        · exact Or.inr (.objectScalar .string)
      · rintro b rfl
        exact Or.inr (.arrayScalar .string)
    · simp only [Constraint.kids, List.mem_cons, List.not_mem_nil, or_false] at hd
      rcases hd with rfl | rfl | rfl
      · exact hinner
      · refine .intro (fun d hd => by cases hd; exact Or.inl rfl) fun d hd => ?_
        rw [show Constraint.kids _ = [exUnseenInner, .empty] from rfl] at hd
        simp only [List.mem_cons, List.not_mem_nil, or_false] at hd
        rcases hd with rfl | rfl
        · exact hinner
        · exact hleaf _ rfl trivial
      · exact hleaf _ rfl trivial
  · refine .intro (fun d hd => by cases hd; exact Or.inl rfl) fun d hd => ?_
    rw [show Constraint.kids _ = [exUnseenInner, .ref 0 (b! "self"), .empty] from rfl] at hd
    simp only [List.mem_cons, List.not_mem_nil, or_false] at hd
    rcases hd with rfl | rfl | rfl
    · exact hinner
    · exact hleaf _ rfl trivial
    · exact hleaf _ rfl trivial
  · refine .intro trivial fun d hd => ?_
    rw [show Constraint.kids _ = [.ref 0 (b! "self")] from rfl] at hd
    simp only [List.mem_cons, List.not_mem_nil, or_false] at hd
    subst hd
    exact hleaf _ rfl trivial

theorem exUnseenEnv_every : exUnseenEnv.Every (Unseen exUnseenEnv) := by
  intro m n c h
  unfold exUnseenEnv at h
  split at h
  · cases h; exact exUnseen_every
  · cases h

/-- a value it fills in at several places, among them with a default that is no boolean -/
example : Returns demoExt exUnseenEnv exUnseen sched0
    (.map false [(b! "next", .map false []), (b! "c", .map false []), (b! "e", .slice false [.map false []]), (b! "x", .bool true)]) .ok
    (.map false [(b! "next", .map false [(b! "n", fl 3)]), (b! "c", .map false [(b! "f", .str (b! "no boolean"))]),
      (b! "e", .slice false [.map false [(b! "f", .str (b! "no boolean"))]]), (b! "x", .bool true), (b! "n", fl 3)]) :=
  ⟨by simp, 3, by rfl⟩
/-- and one it rejects -/
example : ((sem demoExt exUnseenEnv 3 exUnseen).val sched0 (.map false [(b! "x", .map false [])])).1 ≠ .ok := by decide +kernel

/-! ### Each part of `Unseen` is needed

In each case below the default decides: the verdict on this value is another one without it. -/

/-- the verdict differs from the one without defaults -/
def Decided (c : Constraint) (v : GoVal) : Prop := ((sem0 c).val sched0 v).1 ≠ ((sem0 c.plain).val sched0 v).1

/-- an object with a default -/
def exFilled : Constraint := .object (Object'.AddProp (b! "a") (.number (Number'.Default (fl 1))))

/-- a later branch of an `All` sees what an earlier one has filled in -/
example : Decided (.all [exFilled, .object (Object'.MaxProperties 0)]) (.map false []) := by unfold Decided; decide +kernel
/-- a later branch of an `Any` sees what an earlier one has filled in before it failed -/
example : Decided (.any [.object ((Object'.AddProp (b! "a") (.number (Number'.Default (fl 1)))).AddProp (b! "b") .null),
    .object ((Object'.AddProp (b! "b") (.string String')).AdditionalProperties none)]) (.map false [(b! "b", .str [])]) := by
  unfold Decided; decide +kernel
/-- a later branch of a `OneOf` -/
example : Decided (.oneOf [exFilled, .object (Object'.MaxProperties 0)]) (.map false []) := by unfold Decided; decide +kernel
/-- additional items, which begin at the last positional one -/
example : Decided (.array ((Array'.PositionalItems [exFilled]).AdditionalItems (some (.object (Object'.MaxProperties 0)))))
    (.slice false [.map false [], .map false []]) := by unfold Decided; decide +kernel
/-- a schema dependency -/
example : Decided (.object (((Object'.AddProp (b! "a") (.number (Number'.Default (fl 1)))).AddProp (b! "b") .null).SchemaDependency (b! "b")
    (.object ((Object'.AdditionalProperties (some .empty)).MaxProperties 1)))) (.map false [(b! "b", .nil)]) := by unfold Decided; decide +kernel

end Jsval
