import Verif.Props.OrderDefaults
import Verif.Props.Reported
/-!
# Iteration order and reported faults, with defaults that nothing sees (C35, C119)
-/
namespace Jsval

variable {ext : Ext} {env : Env} {σ τ : Sched} {c : Constraint} {v v' v1 v2 : GoVal}

theorem plain_disjoint (h : c.Every (DisjointPatterns ext)) : c.plain.Every (DisjointPatterns ext) := by
  induction c using Constraint.ind with
  | h c ih =>
    refine every_of_children ?_ fun d hd => ?_
    · cases c with
      | array a => rw [plain_array]; trivial
      | object o =>
        rw [plain_object]
        obtain ⟨h1, h2⟩ := h.self
        refine ⟨(ObjC.map_wf _ o).2 h1, fun k hk p hp q hq hpk hqk => ?_⟩
        have hk' : ¬ o.Declares k := by
          rintro ⟨c, hc⟩
          exact hk ⟨c.plain, List.mem_map.2 ⟨_, hc, rfl⟩⟩
        obtain ⟨p', hp', rfl⟩ := List.mem_map.1 hp
        obtain ⟨q', hq', rfl⟩ := List.mem_map.1 hq
        rw [h2 k hk' p' hp' q' hq' hpk hqk]
      | _ => simp [Constraint.plain, DisjointPatterns]
    · obtain ⟨e, h1, rfl⟩ := plain_child hd
      exact ih e h1 (h.child h1)

theorem plain_scalarEnum (h : c.Every ScalarEnum) : c.plain.Every ScalarEnum := by
  induction c using Constraint.ind with
  | h c ih =>
    refine every_of_children ?_ fun d hd => ?_
    · have := h.self
      cases c with
      | array a => rw [plain_array]; intro x hx; simp [Constraint.enumOf] at hx
      | object o => rw [plain_object]; intro x hx; simp [Constraint.enumOf] at hx
      | _ => simpa [ScalarEnum, Constraint.plain, Constraint.enumOf] using this
    · obtain ⟨e, h1, rfl⟩ := plain_child hd
      exact ih e h1 (h.child h1)

theorem env_plain_every {P Q : Constraint → Prop} (h : env.Every P) (hPQ : ∀ c : Constraint, c.Every P → c.plain.Every Q) : env.plain.Every Q := by
  intro m n d hd
  unfold Env.plain at hd
  obtain ⟨c', hc', rfl⟩ := Option.map_eq_some_iff.1 hd
  exact hPQ c' (h m n c' hc')

theorem plain_orderly (h : c.Every fun c => Unseen env c ∧ DisjointPatterns ext c) : c.plain.Every fun c => NoDefault c ∧ DisjointPatterns ext c :=
  fun x hx => ⟨plain_noDefault c x hx, plain_disjoint (h.imp fun _ h => h.2) x hx⟩

/-! ## C35 -/

/-- C35 (partial: decoded JSON; disjoint patterns; no default is seen by another rule): what is accepted in one iteration order is rejected in
none. Defaults may be filled in by branches of `Any` and `OneOf`, and may be any Go values. Missing: overlapping patterns (`C35_refuted`),
values that are not decoded JSON. -/
theorem C35_unseen_partial (henv : env.Every fun c => Unseen env c ∧ DisjointPatterns ext c) (hc : c.Every fun c => Unseen env c ∧ DisjointPatterns ext c)
    (hv : IsJson v) (h : Returns ext env c σ v .ok v') (τ : Sched) (e : Err) (v'' : GoVal) : ¬ Returns ext env c τ v (.err e) v'' := by
  intro h'
  obtain ⟨-, k, hk⟩ := (C88_returns (henv.imp fun _ h => h.1) (hc.imp fun _ h => h.1) hv).1 ⟨v', h⟩
  obtain ⟨-, l, hl⟩ := (C88_returns (henv.imp fun _ h => h.1) (hc.imp fun _ h => h.1) hv).1 ⟨v'', h'⟩
  exact C35_tree_partial (τ := τ) (env_plain_every henv fun _ => plain_orderly) (plain_orderly hc) hv.tidy k l (show (_ : Res × GoVal).1 = .ok by rw [hk])
    ⟨e, by rw [hl]⟩

/-- C35 (partial, as above) with scalar enumerations: any two calls that come back agree on the verdict. -/
theorem C35_unseen_json_partial {r r' : Res} (henv : env.Every fun c => (Unseen env c ∧ DisjointPatterns ext c) ∧ ScalarEnum c)
    (hc : c.Every fun c => (Unseen env c ∧ DisjointPatterns ext c) ∧ ScalarEnum c) (hv : IsJson v)
    (h : Returns ext env c σ v r v1) (h' : Returns ext env c τ v r' v2) : r = .ok ↔ r' = .ok := by
  have hp : ∀ c : Constraint, (c.Every fun c => (Unseen env c ∧ DisjointPatterns ext c) ∧ ScalarEnum c) →
      c.plain.Every fun c => NoDefault c ∧ DisjointPatterns ext c ∧ ScalarEnum c := fun c h x hx =>
    have := plain_orderly (h.imp fun _ h => h.1) x hx
    ⟨this.1, this.2, plain_scalarEnum (h.imp fun _ h => h.2) x hx⟩
  exact C35_json_partial (env_plain_every henv hp) (hp c hc) hv ((C88_returns (henv.imp fun _ h => h.1.1) (hc.imp fun _ h => h.1.1) hv).1 ⟨v1, h⟩)
    ((C88_returns (henv.imp fun _ h => h.1.1) (hc.imp fun _ h => h.1.1) hv).1 ⟨v2, h'⟩)

/-! ## C119 -/

/-- C119 with defaults that nothing sees: on decoded JSON a call reports exactly what has its turn with the defaults taken out. -/
theorem C119_decoded {e : Err} (henv : env.Every fun c => Unseen env c ∧ DisjointPatterns ext c) (hc : c.Every fun c => Unseen env c ∧ DisjointPatterns ext c)
    (hv : IsJson v) : (∃ σ v', Returns ext env c σ v (.err e) v') ↔ Reported ext env.plain c.plain v e := by
  have k := fun σ => C88_returns (ext := ext) (σ := σ) (r := .err e) (henv.imp fun _ h => h.1) (hc.imp fun _ h => h.1) hv
  constructor
  · rintro ⟨σ, h⟩
    exact C119_reported (env_plain_every henv fun _ => plain_orderly) (plain_orderly hc) hv.tidy ((k σ).1 h)
  · intro h
    obtain ⟨σ, h⟩ := C119_possible (env_plain_every henv fun _ => plain_orderly) (plain_orderly hc) hv.tidy h
    exact ⟨σ, (k σ).2 h⟩

/-! ### Cases -/

/-- a form or a list of forms; each form has a number, 3 if missing, and a remark -/
def exForms : Constraint :=
  .any [.object ((Object'.AddProp (b! "n") (.number { Number' with minimum := some F64.zero, dflt := some (fl 3) })).AddProp (b! "r") (.string String')),
    .array (Array'.Items (Constraint.object (Object'.AddProp (b! "n") (.number (Number'.Default (fl 3))))))]

theorem exForms_every : exForms.Every fun c => Unseen env0 c ∧ DisjointPatterns demoExt c := by
  have hobj : ∀ o : ObjC Constraint, o.Wf → o.schemadeps = [] → o.patterns = [] → Unseen env0 (.object o) ∧ DisjointPatterns demoExt (.object o) :=
    fun o h1 h2 h3 => ⟨⟨h1, Or.inl h2⟩, h1, fun k _ p hp => by rw [h3] at hp; cases hp⟩
  have hleaf : ∀ c : Constraint, c.kids = [] → Unseen env0 c ∧ DisjointPatterns demoExt c → c.Every fun c => Unseen env0 c ∧ DisjointPatterns demoExt c :=
    fun c h1 h2 => .intro h2 (by rw [h1]; simp)
  refine .intro ⟨?_, trivial⟩ fun d hd => ?_
  · simp only [exForms, Unseen, List.pairwise_cons, List.mem_cons, List.not_mem_nil, or_false]
    exact ⟨fun b hb => by subst hb; exact Or.inr .objectArray, (fun _ h => by cases h), .nil⟩
  · simp only [exForms, Constraint.kids, List.mem_cons, List.not_mem_nil, or_false] at hd
    rcases hd with rfl | rfl
    · refine .intro (hobj _ ⟨by decide⟩ rfl rfl) fun d hd => ?_
      rw [show Constraint.kids _ = [.number { Number' with minimum := some F64.zero, dflt := some (fl 3) }, .string String'] from rfl] at hd
      simp only [List.mem_cons, List.not_mem_nil, or_false] at hd
      rcases hd with rfl | rfl <;> exact hleaf _ rfl ⟨trivial, trivial⟩
    · refine .intro ⟨fun d hd => by cases hd; exact Or.inl rfl, trivial⟩ fun d hd => ?_
      rw [show Constraint.kids _ = [.object (Object'.AddProp (b! "n") (.number (Number'.Default (fl 3)))), .empty] from rfl] at hd
      simp only [List.mem_cons, List.not_mem_nil, or_false] at hd
      rcases hd with rfl | rfl
      · refine .intro (hobj _ ⟨by decide⟩ rfl rfl) fun d hd => ?_
        rw [show Constraint.kids _ = [.number (Number'.Default (fl 3))] from rfl] at hd
        simp only [List.mem_cons, List.not_mem_nil, or_false] at hd
        subst hd
        exact hleaf _ rfl ⟨trivial, trivial⟩
      · exact hleaf _ rfl ⟨trivial, trivial⟩

/-- it fills in, in the first branch or in the second -/
example : Returns demoExt env0 exForms sched0 (.map false [(b! "r", .str [])]) .ok (.map false [(b! "r", .str []), (b! "n", fl 3)]) := ⟨by simp, 1, by rfl⟩
example : Returns demoExt env0 exForms sched0 (.slice false [.map false []]) .ok (.slice false [.map false [(b! "n", fl 3)]]) := ⟨by simp, 1, by rfl⟩

/-- so in no order does it reject these -/
example (τ : Sched) (e : Err) (v' : GoVal) : ¬ Returns demoExt env0 exForms τ (.slice false [.map false []]) (.err e) v' := by
  refine C35_unseen_partial (σ := sched0) (v' := .slice false [.map false [(b! "n", fl 3)]]) (by intro m n c h; cases h) exForms_every ?_ ⟨by simp, 1, by rfl⟩ τ e v'
  refine .arr _ fun x hx => ?_
  simp only [List.mem_singleton] at hx
  subst hx
  exact .obj _ (by decide) fun k x hx => by cases hx

/-- in a form, the number and the remark may both be at fault: either can be reported -/
example : ∃ σ v', Returns demoExt env0
    (.object ((Object'.AddProp (b! "n") (.number { Number' with minimum := some F64.zero, dflt := some (fl 3) })).AddProp (b! "r") (.string String'))) σ
    (.map false [(b! "n", fl (-1)), (b! "r", fl 1)]) (.err (.prop (b! "n") .belowMin)) v' := by
  refine (C119_decoded (by intro m n c h; cases h) (exForms_every.child (by unfold exForms; exact .any (by simp))) ?_).2 ?_
  · refine .obj _ (by decide) fun k x hx => ?_
    simp only [List.mem_cons, Prod.mk.injEq, List.not_mem_nil, or_false] at hx
    rcases hx with ⟨-, rfl⟩ | ⟨-, rfl⟩ <;> exact .num _
  · refine .prop (.obj (.map false _ (by decide))) (c := .number { Number' with minimum := some F64.zero }) (x := fl (-1)) ⟨by decide, by decide⟩ ?_ (by simp) ?_
    · rw [show ObjC.props _ = [(b! "n", .number { Number' with minimum := some F64.zero }), (b! "r", .string String')] from rfl]
      simp
    · exact .number (.self _ (by simp) (by simp)) ⟨.belowMin rfl rfl ((F64.lt_iff _ _).1 (by decide +kernel)), fun e' _ => Nat.zero_le _⟩

end Jsval
