import Verif.Props.StructCalls
/-!
# Structs and the maps of their properties (C59)
-/
namespace Jsval
variable {ext : Ext} {env : Env} {c : Constraint} {σ : Sched}

/-- A struct, or a pointer to it. -/
def structArg (byPtr : Bool) (fs : List (Field × GoVal)) : GoVal := if byPtr = true then .ptr (some (.struct fs)) else .struct fs

theorem raw_stands {K : Role} {fs : List (Field × GoVal)} {kws : List (GoStr × GoVal)} (hs : ShownBy ext env K fs kws)
    (hk : ∀ f x k y, (f, x) ∈ unembed fs → jsonNameSpec f = some k → ¬ HoldsMaybe x → (k, y) ∈ kws → StandsFor ext env (K.prop ext env k) x y)
    : StandsFor ext env K (.map false (structProps (unembed fs))) (.map false kws) := by
  have hr : ∀ k y, (k, y) ∈ structProps (unembed fs) ↔ ∃ f x, (f, x) ∈ unembed fs ∧ jsonNameSpec f = some k ∧ fieldContent x = some y := fun k y => mem_structProps
  refine .map _ _ _ _ (structProps_keys hs.merges.flat) hs.nodup (fun k => ?_) fun k x' y hx hy => ?_
  · rw [hs.keys]
    constructor
    · intro h
      obtain ⟨⟨k, y⟩, hm, rfl⟩ := List.mem_map.1 h
      obtain ⟨f, x, h1, h2, h3⟩ := (hr k y).1 hm
      exact ⟨f, x, y, h1, h2, h3⟩
    · rintro ⟨f, x, y, h1, h2, h3⟩
      exact List.mem_map.2 ⟨(k, y), (hr k y).2 ⟨f, x, h1, h2, h3⟩, rfl⟩
  · obtain ⟨f, x, h1, h2, h3⟩ := (hr k x').1 hx
    by_cases hm : HoldsMaybe x
    · obtain ⟨z, h4, h5⟩ := (hs.maybes f x k h1 h2 hm).2 x' h3
      have := List.inj_on_of_nodup_map hs.nodup h5 hy rfl
      cases this
      exact .leaf _ _ _ h4
    · rw [fieldContent_plain hm] at h3
      cases h3
      exact hk f x' k y h1 h2 hm hy

/-- C59: a struct is validated like the map of its present properties, by any constraint: what one call may return, for some iteration
order, the other may return, and then what the two leave behind stands for the same document. -/
theorem C59_nested (henv : env.Every Constraint.Fair) (hc : c.Every Constraint.Fair) {byPtr : Bool} {fs : List (Field × GoVal)} {w : GoVal}
    (hv : StandsFor ext env (c.Alongside env) (structArg byPtr fs) w) :
    (∀ σ r v', Returns ext env c σ (structArg byPtr fs) r v' → ∃ σ' m', Returns ext env c σ' (.map false (structProps (unembed fs))) r m' ∧
      ∃ w', StandsFor ext env (c.Alongside env) v' w' ∧ StandsFor ext env (c.Alongside env) m' w') ∧
    ∀ σ r m', Returns ext env c σ (.map false (structProps (unembed fs))) r m' → ∃ σ' v', Returns ext env c σ' (structArg byPtr fs) r v' ∧
      ∃ w', StandsFor ext env (c.Alongside env) v' w' ∧ StandsFor ext env (c.Alongside env) m' w' := by
  have hm : ∃ w, StandsFor ext env (c.Alongside env) (structArg byPtr fs) w ∧ StandsFor ext env (c.Alongside env) (.map false (structProps (unembed fs))) w := by
    refine ⟨w, hv, ?_⟩
    cases byPtr with
    | false =>
      generalize hK : c.Alongside env = K at hv ⊢
      simp only [structArg, Bool.false_eq_true, if_false] at hv
      cases hv with
      | leaf _ _ _ h => cases h with | same _ h => cases h with | scalar h => cases h
      | struct _ _ _ hs hk _ => exact raw_stands hs hk
    | true =>
      generalize hK : c.Alongside env = K at hv ⊢
      simp only [structArg, if_true] at hv
      cases hv with
      | leaf _ _ _ h =>
        cases h with
        | same _ h =>
          cases h with
          | scalar h => cases h
          | ptr h => cases h
        | behind _ _ _ h => rcases h with h | h <;> cases h
      | ptr _ _ _ hs hk _ => exact raw_stands hs hk
  obtain ⟨w, h1, h2⟩ := hm
  constructor
  · intro σ r v' h
    obtain ⟨σ1, w', g, s1⟩ := (C94_same henv hc h1).1 σ r v' h
    obtain ⟨σ2, m', g2, s2⟩ := (C94_same henv hc h2).2 σ1 r w' g
    exact ⟨σ2, m', g2, w', s1, s2⟩
  · intro σ r m' h
    obtain ⟨σ1, w', g, s1⟩ := (C94_same henv hc h2).1 σ r m' h
    obtain ⟨σ2, v', g2, s2⟩ := (C94_same henv hc h1).2 σ1 r w' g
    exact ⟨σ2, v', g2, w', s2, s1⟩

/-! ## A list of jobs

`type Job struct { Name *string `json:"name"`; At time.Time `json:"at"`; Parent *Job `json:"parent"`; Tag MaybeString `json:"tag"` }` -/

/-- `{"required": ["at"]}` -/
def exJobDep : ObjC Constraint := (Object'.AdditionalProperties (some .empty)).Required [b! "at"]
/-- `{"anyOf": [{"type": "null"}, {"$ref": "job"}]}` -/
def exJobAny : Constraint := .any [.null, .ref 0 (b! "job")]
/-- A job. It has to have a time if it has a name. -/
def exJobO : ObjC Constraint := (((((Object'.AddProp (b! "name") (.string String')).AddProp (b! "at") .empty).AddProp (b! "parent") exJobAny).AddProp (b! "tag")
  (.string (String'.Default (.str (b! "new"))))).SchemaDependency (b! "name") (.object exJobDep))
/-- `job` is the schema itself. -/
def exJobEnv : Env := fun _ n => if n = b! "job" then some (.object exJobO) else none
/-- What validates a job. -/
def exJobCs : List Constraint := [exJobAny, .null, .ref 0 (b! "job"), .object exJobO, .object exJobDep, .empty]

/-- The fields of a job, what they hold and what they stand for. -/
def exJobRows (name : Option GoStr) (t : GoTime) (tag : Option GoStr) (parent doc : GoVal) : List StructRow :=
  [⟨fld (b! "Name") (b! "name"), b! "name", .ptr (name.map .str), some (match name with | some s => .str s | none => .nil)⟩,
    ⟨fld (b! "At") (b! "at"), b! "at", .time t, some (.time t)⟩,
    ⟨fld (b! "Parent") (b! "parent"), b! "parent", parent, some doc⟩,
    ⟨fld (b! "Tag") (b! "tag"), b! "tag", .maybe tag.isSome (.str (tag.getD [])), tag.map .str⟩]
/-- A job and its parents. -/
def exJobV : List (Option GoStr × GoTime × Option GoStr) → GoVal
  | [] => .ptr none
  | (name, t, tag) :: l => .ptr (some (.struct (rowFields (exJobRows name t tag (exJobV l) .nil))))
/-- What it stands for. -/
def exJobDoc : List (Option GoStr × GoTime × Option GoStr) → GoVal
  | [] => .nil
  | (name, t, tag) :: l => .map false (rowProps (exJobRows name t tag .nil (exJobDoc l)))

theorem exJob_along {e e' : Constraint} (h : e ∈ exJobCs) (ha : e.Alongside exJobEnv e') : e' ∈ exJobCs := by
  induction ha with
  | refl => exact h
  | same hs _ ih =>
    refine ih ?_
    simp only [exJobCs, List.mem_cons, List.not_mem_nil, or_false] at h ⊢
    rcases h with rfl | rfl | rfl | rfl | rfl | rfl
    · cases hs with
      | any h => simp only [List.mem_cons, List.not_mem_nil, or_false] at h; rcases h with rfl | rfl <;> simp
    · cases hs
    · cases hs
    · cases hs with
      | dependency h =>
        have : (_, _) ∈ [(b! "name", Constraint.object exJobDep)] := alookup_mem h
        simp only [List.mem_singleton, Prod.mk.injEq] at this
        rw [this.2]; simp
    · cases hs with
      | dependency h => cases h
    · cases hs
  | ref he _ ih =>
    refine ih ?_
    unfold exJobEnv at he
    split at he
    · cases he; simp [exJobCs]
    · cases he

theorem exJob_obj {K : Role} (hK : ∀ e, K e → e ∈ exJobCs) {o : ObjC Constraint} (h : K (.object o)) : o = exJobO ∨ o = exJobDep := by
  have := hK _ h
  simp only [exJobCs, List.mem_cons, List.not_mem_nil, or_false, Constraint.object.injEq] at this
  rcases this with h | h | h | h | h | h
  · cases h
  · cases h
  · cases h
  · exact Or.inl h
  · exact Or.inr h
  · cases h

theorem exJob_props {p : GoStr} {d : Constraint} (h : (p, d) ∈ exJobO.props) : (p = b! "name" ∧ d = .string String') ∨ (p = b! "at" ∧ d = .empty) ∨
    (p = b! "parent" ∧ d = exJobAny) ∨ (p = b! "tag" ∧ d = .string (String'.Default (.str (b! "new")))) := by
  replace h : (p, d) ∈ [(b! "name", .string String'), (b! "at", .empty), (b! "parent", exJobAny), (b! "tag", .string (String'.Default (.str (b! "new"))))] := h
  simpa only [List.mem_cons, List.not_mem_nil, or_false, Prod.mk.injEq] using h

theorem exJob_prop {K : Role} (hK : ∀ e, K e → e ∈ exJobCs) {k : GoStr} (hk : exJobO.Declares k) {e : Constraint} (h : K.prop ext exJobEnv k e) :
    ∃ d, ((k, d) ∈ exJobO.props ∨ d = .empty) ∧ d.Alongside exJobEnv e := by
  obtain ⟨o, d, h1, h2, h3⟩ := h
  rcases exJob_obj hK h1 with rfl | rfl
  · cases h2 with
    | declared h => exact ⟨d, Or.inl h, h3⟩
    | pattern h => exact absurd hk h
    | additional h => exact absurd hk h
  · cases h2 with
    | declared h => cases h
    | pattern _ h => cases h
    | additional _ h => cases h; exact ⟨_, Or.inr rfl, h3⟩

theorem exJob_empty {e : Constraint} (h : Constraint.empty.Alongside exJobEnv e) : e = .empty := by
  cases h with
  | refl => rfl
  | same h => cases h

theorem exJob_declares {k : GoStr} (hk : k ∈ [b! "name", b! "at", b! "parent", b! "tag"]) : exJobO.Declares k := by
  simp only [List.mem_cons, List.not_mem_nil, or_false] at hk
  rcases hk with rfl | rfl | rfl | rfl
  · exact ⟨_, List.mem_cons_self⟩
  · exact ⟨_, List.mem_cons_of_mem _ List.mem_cons_self⟩
  · exact ⟨_, List.mem_cons_of_mem _ (List.mem_cons_of_mem _ List.mem_cons_self)⟩
  · exact ⟨_, List.mem_cons_of_mem _ (List.mem_cons_of_mem _ (List.mem_cons_of_mem _ List.mem_cons_self))⟩

theorem exJob_name {K : Role} (hK : ∀ e, K e → e ∈ exJobCs) {vals : List GoVal} : ¬ K.prop ext exJobEnv (b! "name") (.enum vals) := by
  intro h
  obtain ⟨d, h1 | rfl, h2⟩ := exJob_prop hK (exJob_declares (by simp)) h
  · obtain ⟨-, rfl⟩ | ⟨h, -⟩ | ⟨h, -⟩ | ⟨h, -⟩ := exJob_props h1 <;> try exact absurd h (by decide)
    cases h2 with
    | same h => cases h
  · cases exJob_empty h2

theorem exJob_parent {K : Role} (hK : ∀ e, K e → e ∈ exJobCs) {e : Constraint} (h : K.prop ext exJobEnv (b! "parent") e) : e ∈ exJobCs := by
  obtain ⟨d, h1 | rfl, h2⟩ := exJob_prop hK (exJob_declares (by simp)) h
  · obtain ⟨h, -⟩ | ⟨h, -⟩ | ⟨-, rfl⟩ | ⟨h, -⟩ := exJob_props h1 <;> try exact absurd h (by decide)
    exact exJob_along List.mem_cons_self h2
  · rw [exJob_empty h2]; simp [exJobCs]

/-- Every list of jobs stands for its document. -/
theorem exJob_stands : ∀ (l : List (Option GoStr × GoTime × Option GoStr)) {K : Role}, (∀ e, K e → e ∈ exJobCs) →
    StandsFor ext exJobEnv K (exJobV l) (exJobDoc l)
  | [], K, hK => .leaf _ _ _ (.null fun vals h => by
      have := hK _ h
      simp [exJobCs, exJobAny] at this)
  | (name, t, tag) :: l, K, hK => by
    have hl : K.LooksInto ext (b! "tag") := fun o ho => by
      rcases exJob_obj hK ho with rfl | rfl
      · exact Or.inl (exJob_declares (by simp))
      · exact Or.inr ⟨fun _ _ _ h => (by cases h), fun d h => (by cases h; rfl)⟩
    have hp := exJob_stands l (K := K.prop ext exJobEnv (b! "parent")) fun e => exJob_parent hK
    have hname : ∀ r ∈ exJobRows name t tag (exJobV l) (exJobDoc l), r.field.anonymous = false ∧ jsonNameSpec r.field = some r.key := by
      intro r hr
      simp only [exJobRows, List.mem_cons, List.not_mem_nil, or_false] at hr
      rcases hr with rfl | rfl | rfl | rfl <;> exact ⟨rfl, by dsimp only; decide⟩
    have htag : RowOk ext exJobEnv K (b! "tag") (.maybe tag.isSome (.str (tag.getD []))) (tag.map .str) := by
      cases tag with
      | none => exact .unset _ hl
      | some x => exact .set (.str x) _ hl (.same _ (.scalar (by constructor)))
    have hok : ∀ r ∈ exJobRows name t tag (exJobV l) (exJobDoc l), RowOk ext exJobEnv K r.key r.content r.doc := by
      intro r hr
      simp only [exJobRows, List.mem_cons, List.not_mem_nil, or_false] at hr
      rcases hr with rfl | rfl | rfl | rfl
      · cases name with
        | none => exact .value _ _ (fun h => by cases h) (.leaf _ _ _ (.null fun vals h => absurd h (exJob_name hK)))
        | some s =>
          exact .value _ _ (fun h => by cases h)
            (.leaf _ _ _ (.behind _ _ (fun vals h => absurd h (exJob_name hK)) (Or.inr trivial) (.same _ (.scalar (by constructor)))))
      · exact .value _ _ (fun h => by cases h) (.leaf _ _ _ (.same _ (.time t)))
      · exact .value _ _ hp.notMaybe hp
      · exact htag
    have hrows := rows_shown hname (by simp [exJobRows]) (by simp [exJobRows]) hok
    refine .ptr K (rowFields (exJobRows name t tag (exJobV l) (exJobDoc l))) (rowProps (exJobRows name t tag (exJobV l) (exJobDoc l))) hrows.1 hrows.2 ?_
    rintro p dv ⟨o, d, ho, hd, -, fuel, hdv⟩ hpn
    rcases exJob_obj hK ho with rfl | rfl
    · obtain ⟨rfl, rfl⟩ | ⟨rfl, rfl⟩ | ⟨rfl, rfl⟩ | ⟨rfl, rfl⟩ := exJob_props hd
      · cases hdv
      · cases hdv
      · cases hdv
      · cases hdv
        cases tag with
        | none =>
          exact ⟨_, _, List.mem_cons_of_mem _ (List.mem_cons_of_mem _ (List.mem_cons_of_mem _ List.mem_cons_self)),
            (hname _ (List.mem_cons_of_mem _ (List.mem_cons_of_mem _ (List.mem_cons_of_mem _ List.mem_cons_self)))).2,
            .val _ _ _ (.conv _ _ _ (.str _)) (.same _ (.scalar (by constructor)))⟩
        | some x => exact absurd (by simp [rowProps, exJobRows]) hpn
    · cases hd

theorem exJob_fair : (Constraint.object exJobO).Every Constraint.Fair ∧ exJobEnv.Every Constraint.Fair := by
  have hleaf : ∀ c : Constraint, c.kids = [] → (∀ vals, c ≠ .enum vals) → (∀ dv, c.ownDefault = some dv → IsScalar dv ∧ dv ≠ .nil) → c.Every Constraint.Fair :=
    fun c hk he hd => .intro ⟨fun vals h => absurd h (he vals), hd⟩ (by rw [hk]; simp)
  have hempty : Constraint.empty.Every Constraint.Fair := hleaf _ rfl (fun _ h => by cases h) fun _ h => by cases h
  have hjob : (Constraint.object exJobO).Every Constraint.Fair := by
    refine .intro ⟨fun _ h => (by cases h), fun _ h => (by cases h)⟩ fun d hd => ?_
    rw [show (Constraint.object exJobO).kids = [.string String', .empty, exJobAny, .string (String'.Default (.str (b! "new"))), .object exJobDep] from rfl] at hd
    simp only [List.mem_cons, List.not_mem_nil, or_false] at hd
    rcases hd with rfl | rfl | rfl | rfl | rfl
    · exact hleaf _ rfl (fun _ h => by cases h) fun _ h => by cases h
    · exact hempty
    · refine .intro ⟨fun _ h => (by cases h), fun _ h => (by cases h)⟩ fun d hd => ?_
      rw [show exJobAny.kids = [.null, .ref 0 (b! "job")] from rfl] at hd
      simp only [List.mem_cons, List.not_mem_nil, or_false] at hd
      rcases hd with rfl | rfl <;> exact hleaf _ rfl (fun _ h => by cases h) fun _ h => by cases h
    · exact hleaf _ rfl (fun _ h => by cases h) fun dv h => by cases h; exact ⟨by constructor, by simp⟩
    · refine .intro ⟨fun _ h => (by cases h), fun _ h => (by cases h)⟩ fun d hd => ?_
      rw [show (Constraint.object exJobDep).kids = [.empty] from rfl] at hd
      simp only [List.mem_singleton] at hd
      subst hd
      exact hempty
  refine ⟨hjob, fun m n c h => ?_⟩
  unfold exJobEnv at h
  split at h
  · cases h; exact hjob
  · cases h

/-- `C59_nested` covers every list of jobs. -/
example (name : Option GoStr) (t : GoTime) (tag : Option GoStr) (l : List (Option GoStr × GoTime × Option GoStr)) (σ : Sched) (r : Res) (v' : GoVal)
    (h : Returns ext exJobEnv (.object exJobO) σ (exJobV ((name, t, tag) :: l)) r v') : ∃ σ' m', Returns ext exJobEnv (.object exJobO) σ'
      (.map false (structProps (unembed (rowFields (exJobRows name t tag (exJobV l) .nil))))) r m' := by
  obtain ⟨σ', m', h', -⟩ := (C59_nested exJob_fair.2 exJob_fair.1 (byPtr := true) (exJob_stands ((name, t, tag) :: l) fun e he => exJob_along
    (by simp [exJobCs]) he)).1 σ r v' h
  exact ⟨σ', m', h'⟩

/-- Such a job is accepted, and tagged. -/
example : (match (sem demoExt exJobEnv 3 (.object exJobO)).val sched0 (exJobV [(some (b! "build"), 0, none), (some (b! "test"), 0, some (b! "x"))]) with
    | (.ok, .ptr (some (.struct [_, _, _, (_, .maybe true (.str s))]))) => s
    | _ => []) = b! "new" := by decide +kernel

/-- `C60_nested` covers them too, schema dependency and all: an accepted job without tag is tagged afterwards. -/
example (name : Option GoStr) (t : GoTime) (l : List (Option GoStr × GoTime × Option GoStr)) {σ : Sched} {v' : GoVal}
    (h : Returns ext exJobEnv (.object exJobO) σ (exJobV ((name, t, none) :: l)) .ok v') : ∃ fs', v' = .ptr (some (.struct fs')) ∧
      ∃ f x y, (f, x) ∈ unembed fs' ∧ jsonNameSpec f = some (b! "tag") ∧ fieldContent x = some y ∧
        StandsFor ext exJobEnv (Role.prop ext exJobEnv ((Constraint.object exJobO).Alongside exJobEnv) (b! "tag")) y (.str (b! "new")) := by
  obtain ⟨fs', h1, h2, -⟩ := C60_nested (o := exJobO) ⟨by decide⟩ exJob_fair.2 exJob_fair.1 rfl
    (exJob_stands ((name, t, none) :: l) fun e he => exJob_along (by simp [exJobCs]) he) h
  refine ⟨fs', h1, h2 (b! "tag") (.string (String'.Default (.str (b! "new")))) _ ?_ ⟨by simp, 0, rfl⟩ ?_⟩
  · exact List.mem_cons_of_mem _ (List.mem_cons_of_mem _ (List.mem_cons_of_mem _ List.mem_cons_self))
  · rintro ⟨y, hy⟩
    simp [rowProps, exJobRows] at hy

/-- A pointer to a boolean stands for nothing but itself: it is not taken for a boolean. -/
example (b : Bool) (σ : Sched) : (∃ e, ((sem ext env 0 (.boolean none)).val σ (.ptr (some (.bool b)))).1 = .err e) ∧
    ((sem ext env 0 (.boolean none)).val σ (.bool b)).1 = .ok := ⟨⟨_, rfl⟩, rfl⟩

/-- Nor is a pointer to a listed string taken for it. -/
example (σ : Sched) : (∃ e, ((sem ext env 0 (.enum [.str (b! "a")])).val σ (.ptr (some (.str (b! "a"))))).1 = .err e) ∧
    ((sem ext env 0 (.enum [.str (b! "a")])).val σ (.str (b! "a"))).1 = .ok := ⟨⟨_, rfl⟩, rfl⟩

end Jsval
