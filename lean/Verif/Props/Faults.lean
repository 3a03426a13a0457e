import Verif.Lemmas.FaultsTree
import Verif.Props.Unseen
/-!
# C103: an error names a real fault

The errors `Validate` returns are statements about the value ("string longer than maxLength 3", inside "validation for property tags
failed"). `Fault` (`Spec/Faults.lean`) says when such a statement is true. Every error a validator returns is true, no value about which
one is true is accepted, and the property names in the error lead to the place it talks about.
-/
namespace Jsval

variable {ext : Ext} {env : Env} {σ : Sched}

/-- C103: whatever error a validator without defaults returns, it is true of the value: one of the rules of `Fault` applies, with exactly
this error. -/
theorem C103_cause {c : Constraint} {v v' : GoVal} {e : Err} (henv : env.Every fun c => NoDefault c ∧ c.WfNode)
    (hc : c.Every fun c => NoDefault c ∧ c.WfNode) (hv : Tidy v) (h : Returns ext env c σ v (.err e) v') : Fault ext env c v e := by
  obtain ⟨-, fuel, h⟩ := h
  exact sem_fault henv fuel c hc v hv σ e (by rw [h])

/-- C103: where a fault is, no call accepts, whatever the iteration order (no two patterns of an object matching the same undeclared
name, as in C35). -/
theorem C103_blocks {c : Constraint} {v : GoVal} {e : Err} (henv : env.Every fun c => NoDefault c ∧ DisjointPatterns ext c)
    (hc : c.Every fun c => NoDefault c ∧ DisjointPatterns ext c) (hv : Tidy v) (h : Fault ext env c v e) : ¬ Accepted ext env c v := by
  rintro ⟨σ, v', -, fuel, h'⟩
  exact h.blocks henv hc hv fuel σ (by rw [h'])

theorem wfNode_of_disjoint {c : Constraint} (h : DisjointPatterns ext c) : c.WfNode := by
  cases c <;> first | trivial | exact h.1

/-- C103: a call that returns reports an error exactly when the value has a fault. -/
theorem C103_iff {c : Constraint} {v v' : GoVal} {r : Res} (henv : env.Every fun c => NoDefault c ∧ DisjointPatterns ext c)
    (hc : c.Every fun c => NoDefault c ∧ DisjointPatterns ext c) (hv : Tidy v) (hr : r.Normal) (h : Returns ext env c σ v r v') :
    r.Rejects ↔ ∃ e, Fault ext env c v e := by
  constructor
  · rintro ⟨e, rfl⟩
    exact ⟨e, C103_cause (henv.imp fun c h => ⟨h.1, wfNode_of_disjoint h.2⟩) (hc.imp fun c h => ⟨h.1, wfNode_of_disjoint h.2⟩) hv h⟩
  · rintro ⟨e, he⟩
    refine (Res.not_ok_iff hr).1 ?_
    rintro rfl
    exact C103_blocks henv hc hv he ⟨σ, v', h⟩

/-- C103: the property names in a true error lead from the value to a part of it (through array elements where there are arrays), the
message is true of this part, and it is a message of a constraint found in the validator or behind its references. -/
theorem C103_place {c : Constraint} {v : GoVal} {e : Err} (h : Fault ext env c v e) :
    ∃ x d, At v e.names x ∧ ReachedFrom env c d ∧ Fault ext env d x e.reason ∧ d.Utters e.reason := h.place

theorem plain_wf {c : Constraint} (h : c.Every fun c => c.WfNode) : c.plain.Every fun c => c.WfNode := by
  induction c using Constraint.ind with
  | h c ih =>
    refine every_of_children ?_ fun d hd => ?_
    · cases c with
      | array a => rw [plain_array]; trivial
      | object o => rw [plain_object]; exact (ObjC.map_wf _ o).2 h.self
      | _ => simp [Constraint.plain, Constraint.WfNode]
    · obtain ⟨e, h1, rfl⟩ := plain_child hd
      exact ih e h1 (h.child h1)

/-- C103 with defaults: on decoded JSON, the error of a validator whose own default values cannot reach its later rules (`Unseen`, C88) is
true of the value as it was given, for the validator without its defaults. -/
theorem C103_decoded {c : Constraint} {v v' : GoVal} {e : Err} (henv : env.Every (Unseen env)) (hc : c.Every (Unseen env)) (hv : IsJson v)
    (h : Returns ext env c σ v (.err e) v') : Fault ext env.plain c.plain v e := by
  have hw : ∀ c, Unseen env c → c.WfNode := by
    intro c h
    cases c <;> first | trivial | exact h.1
  have hb : ∀ {c : Constraint}, c.Every (Unseen env) → c.plain.Every fun c => NoDefault c ∧ c.WfNode := fun hc d hd =>
    ⟨plain_noDefault _ d hd, plain_wf (hc.imp hw) d hd⟩
  refine C103_cause (σ := σ) (fun m n d hd => ?_) (hb hc) hv.tidy ((C88_returns henv hc hv).1 ⟨v', h⟩)
  unfold Env.plain at hd
  obtain ⟨c', hc', rfl⟩ := Option.map_eq_some_iff.1 hd
  exact hb (henv m n c' hc')

/-! ### A validator to which it applies -/

/-- people with short tags, and friends of the same kind -/
def exMember : Constraint :=
  .object ((((Object'.AddProp (b! "tags") (.array (Array'.Items (Constraint.string (String'.MaxLength 3))))).AddProp (b! "friend") (.ref 0 (b! "self"))
    ).AddProp (b! "id") (.any [.integer Number', .string (String'.MinLength 2)])).Required [b! "id"])

/-- its link -/
def exMemberEnv : Env := fun _ n => if n = b! "self" then some exMember else none

theorem exMember_every : exMember.Every fun c => NoDefault c ∧ DisjointPatterns demoExt c := by
  have hleaf : ∀ c : Constraint, c.kids = [] → (NoDefault c ∧ DisjointPatterns demoExt c) →
      c.Every fun c => NoDefault c ∧ DisjointPatterns demoExt c := fun c h1 h2 => .intro h2 (by rw [h1]; simp)
  refine .intro ⟨rfl, ⟨by decide⟩, fun k _ p hp => by cases hp⟩ fun d hd => ?_
  rw [show exMember.kids = [.array (Array'.Items (Constraint.string (String'.MaxLength 3))), .ref 0 (b! "self"),
    .any [.integer Number', .string (String'.MinLength 2)]] from rfl] at hd
  simp only [List.mem_cons, List.not_mem_nil, or_false] at hd
  rcases hd with rfl | rfl | rfl
  · refine .intro ⟨rfl, trivial⟩ fun d hd => ?_
    rw [show Constraint.kids _ = [.string (String'.MaxLength 3), .empty] from rfl] at hd
    simp only [List.mem_cons, List.not_mem_nil, or_false] at hd
    rcases hd with rfl | rfl <;> exact hleaf _ rfl ⟨rfl, trivial⟩
  · exact hleaf _ rfl ⟨rfl, trivial⟩
  · refine .intro ⟨rfl, trivial⟩ fun d hd => ?_
    simp only [Constraint.kids, List.mem_cons, List.not_mem_nil, or_false] at hd
    rcases hd with rfl | rfl <;> exact hleaf _ rfl ⟨rfl, trivial⟩

theorem exMemberEnv_every : exMemberEnv.Every fun c => NoDefault c ∧ DisjointPatterns demoExt c := by
  intro m n c h
  unfold exMemberEnv at h
  split at h
  · cases h; exact exMember_every
  · cases h

/-- someone whose friend has a long tag -/
def exBadFriend : GoVal := .map false [(b! "id", fl 7), (b! "friend", .map false [(b! "id", .str (b! "xy")),
  (b! "tags", .slice false [.str (b! "abc"), .str (b! "abcd")])])]

/-- the error it gets -/
example : Returns demoExt exMemberEnv exMember sched0 exBadFriend (.err (.prop (b! "friend") (.prop (b! "tags") (.tooLong 3)))) exBadFriend :=
  ⟨by simp, 3, by rfl⟩

theorem exBadFriend_tidy : Tidy exBadFriend := by
  refine .map _ _ (by decide) fun k x hx => ?_
  simp only [List.mem_cons, Prod.mk.injEq, List.not_mem_nil, or_false] at hx
  rcases hx with ⟨-, rfl⟩ | ⟨-, rfl⟩
  · exact .float _ _
  · refine .map _ _ (by decide) fun k x hx => ?_
    simp only [List.mem_cons, Prod.mk.injEq, List.not_mem_nil, or_false] at hx
    rcases hx with ⟨-, rfl⟩ | ⟨-, rfl⟩
    · exact .str _
    · refine .slice _ _ fun x hx => ?_
      simp only [List.mem_cons, List.not_mem_nil, or_false] at hx
      rcases hx with rfl | rfl <;> exact .str _

/-- what it says -/
example : (Err.prop (b! "friend") (.prop (b! "tags") (.tooLong 3))).names = [b! "friend", b! "tags"] := rfl

/-- the fault, put together by hand from the rules -/
example : Fault demoExt exMemberEnv exMember exBadFriend (.prop (b! "friend") (.prop (b! "tags") (.tooLong 3))) := by
  refine .prop (.obj (.map _ _ (by decide))) (c := .ref 0 (b! "self")) (by simp [exMember, ObjC.AddProp, ObjC.Required, ainsert, Object'])
    (List.mem_cons_of_mem _ (List.mem_cons_self ..)) (.ref (c := exMember) rfl ?_)
  refine .prop (.obj (.map _ _ (by decide))) (c := .array (Array'.Items (Constraint.string (String'.MaxLength 3))))
    (by simp [exMember, ObjC.AddProp, ObjC.Required, ainsert, Object'])
    (List.mem_cons_of_mem _ (List.mem_cons_self ..)) (.item rfl (List.mem_cons_of_mem _ (List.mem_cons_self ..)) ?_)
  exact .string (s := b! "abcd") (.self _ (by simp) (by simp)) (.tooLong (by decide) (by decide))

/-- an error in alternatives, and one about something missing -/
example : Returns demoExt exMemberEnv exMember sched0 (.map false [(b! "id", .str (b! "x"))]) (.err (.prop (b! "id") .anyNone))
    (.map false [(b! "id", .str (b! "x"))]) := ⟨by simp, 3, by rfl⟩
example : Returns demoExt exMemberEnv exMember sched0 (.map false []) (.err (.required (b! "id"))) (.map false []) := ⟨by simp, 3, by rfl⟩

/-- an error of the validator of C88, with defaults -/
example : Returns demoExt exUnseenEnv exUnseen sched0 (.map false [(b! "e", fl 1)]) (.err (.prop (b! "e") .anyNone))
    (.map false [(b! "e", fl 1), (b! "n", fl 3)]) := ⟨by simp, 3, by rfl⟩

/-! ### What the hypotheses are for -/

/-- With defaults, an error may be about what the validator itself filled in: here about a property the value did not have. -/
theorem C103_filled : ∃ c : Constraint, Returns demoExt env0 c sched0 (.map false []) (.err (.prop (b! "a") .notString)) (.map false [(b! "a", fl 1)]) ∧
    ¬ Fault demoExt env0 c (.map false []) (.prop (b! "a") .notString) := by
  refine ⟨.all [.object (Object'.AddProp (b! "a") (.number (Number'.Default (fl 1)))), .object (Object'.AddProp (b! "a") (.string String'))],
    ⟨by simp, 1, by rfl⟩, fun h => ?_⟩
  obtain ⟨x, d, hat, -, -⟩ := h.place
  cases hat with
  | prop hobj hx _ => cases hobj; rcases hx with hx | hx <;> cases hx

end Jsval
