import Verif.Lemmas.MapEnd
import Verif.Props.Objects
/-!
# Defaults, mutation and panics (C06, C38–C41, C43, C44)
-/
namespace Jsval
variable {ext : Ext} {env : Env} {ρ : RefSem} {σ : Sched}

theorem has_iff_alookup {kvs : List (GoStr × GoVal)} {k : GoStr} : Has kvs k ↔ alookup k kvs ≠ none := by
  rw [Ne, alookup_eq_none, not_not]
  simp [Has]

theorem not_has_iff {kvs : List (GoStr × GoVal)} {k : GoStr} : ¬ Has kvs k ↔ alookup k kvs = none := by
  rw [has_iff_alookup, not_not]

theorem mapArg_eq_wrap (b n : Bool) (kvs) : MapArg b n kvs = wrap b (.map n kvs) := by cases b <;> rfl

/-- From the per-property lemma to the statement on whole maps. -/
theorem mapFilled_of {o : ObjC Constraint} {kvs kvs' : List (GoStr × GoVal)} (hw : o.Wf)
    (h1 : ∀ p c, (p, c) ∈ (o.map (denote ext ρ)).props → Filled p c.dflt kvs kvs')
    (h2 : ∀ k, ¬ (o.map (denote ext ρ)).Declares k → (alookup k kvs' = none ↔ alookup k kvs = none)) :
    MapFilled o.Declares (fun p dv => ∃ c, (p, c) ∈ o.props ∧ (denote ext ρ c).dflt = .some dv) kvs kvs' := by
  classical
  have key : ∀ p c, (p, c) ∈ o.props → Filled p (denote ext ρ c).dflt kvs kvs' :=
    fun p c hc => h1 p _ ((ObjC.map_mem_props _ o).2 ⟨c, hc, rfl⟩)
  have hnd : ∀ k, ¬ o.Declares k → (alookup k kvs' = none ↔ alookup k kvs = none) := by
    intro k hk
    refine h2 k (fun ⟨c, hc⟩ => hk ?_)
    obtain ⟨c', hc', -⟩ := (ObjC.map_mem_props _ o).1 hc
    exact ⟨c', hc'⟩
  refine ⟨fun p hp hn dv hdv hnil => ?_, fun k hk => ?_, fun k hk hn => ?_⟩
  · obtain ⟨c, hc, hd⟩ := hdv
    exact alookup_mem ((key p c hc).filled (not_has_iff.1 hn) dv hd hnil)
  · by_cases hd : o.Declares k
    · obtain ⟨c, hc⟩ := hd
      obtain ⟨x, hx⟩ := Option.ne_none_iff_exists'.1 (has_iff_alookup.1 hk)
      obtain ⟨x', hx'⟩ := (key k c hc).kept x hx
      exact has_iff_alookup.2 (by rw [hx']; simp)
    · rw [has_iff_alookup] at hk ⊢
      exact fun h => hk ((hnd k hd).1 h)
  · rw [not_has_iff] at hn
    by_cases hd : o.Declares k
    · refine ⟨hd, ?_⟩
      obtain ⟨c, hc⟩ := hd
      by_contra hno
      refine has_iff_alookup.1 hk ((key k c hc).left hn (fun dv hdv => ?_))
      by_contra hnil
      exact hno ⟨dv, ⟨c, hc, hdv⟩, hnil⟩
    · exact absurd ((hnd k hd).2 hn) (has_iff_alookup.1 hk)

/-! ## C39 -/

/-- C39: an accepting validation of a map (or pointer to a map) by an object constraint without schema dependencies
fills exactly the absent declared properties that have a non-nil default. Nothing is assumed about the children. -/
theorem C39_fills_defaults (o : ObjC Constraint) (hw : o.Wf) (hsd : ∀ k, o.GetSchemaDependency k = none)
    {byPtr n : Bool} {kvs : List (GoStr × GoVal)} {v' : GoVal}
    (hok : (denote ext ρ (.object o)).val σ (MapArg byPtr n kvs) = (.ok, v')) :
    ∃ kvs', v' = MapArg byPtr n kvs' ∧
      MapFilled o.Declares (fun p dv => ∃ c, (p, c) ∈ o.props ∧ (denote ext ρ c).dflt = .some dv) kvs kvs' := by
  rw [denote_object, mapArg_eq_wrap] at hok
  obtain ⟨kvs', pm, ps, h1, -, h3, h4, -⟩ := objectV_map_end ((ObjC.map_wf _ o).2 hw) hok
  refine ⟨kvs', ?_, mapFilled_of hw h3 h4⟩
  rw [h1, mapArg_eq_wrap]
  unfold depPart
  exact depLoop_readOnly' _ (fun k c hc => by rw [ObjC.map_schemaDep, hsd] at hc; cases hc)

/-- C39, with schema dependencies: the object's own rules do the same, after which the dependencies may extend the
map further. -/
theorem C39_then_dependencies (o : ObjC Constraint) (hw : o.Wf) {fuel : Nat} {byPtr n : Bool} {kvs : List (GoStr × GoVal)}
    {v' : GoVal} (henv : env.Every (DefaultIn Direct)) (hc : (Constraint.object o).Every (DefaultIn Direct))
    (hv : Direct (MapArg byPtr n kvs)) (hok : (sem ext env fuel (.object o)).val σ (MapArg byPtr n kvs) = (.ok, v')) :
    ∃ kvs', Extends (MapArg byPtr n kvs) (MapArg byPtr n kvs') ∧ Extends (MapArg byPtr n kvs') v' ∧
      MapFilled o.Declares (fun p dv => ∃ c, (p, c) ∈ o.props ∧ (sem ext env fuel c).dflt = .some dv) kvs kvs' := by
  unfold sem at hok ⊢
  rw [denote_object] at hok
  simp only [mapArg_eq_wrap] at hok hv ⊢
  obtain ⟨kvs', pm, ps, h1, h2, h3, h4, h5⟩ := objectV_map_end ((ObjC.map_wf _ o).2 hw) hok
  have hgood : ∀ d, (o.map (denote ext (refSem ext env fuel))).Child d → (extendPolicy ext).Good d := by
    intro d hd
    obtain ⟨c, hc', rfl⟩ := (ObjC.map_child _ o).1 hd
    exact Policy.good_sem (extendPolicy ext) rfl trivial (henv.imp fun _ => local_of_true _ (fun _ => trivial))
      ((Constraint.Every.child hc (.object hc')).imp fun _ => local_of_true _ (fun _ => trivial)) fuel
  have hs := Policy.prePart_step (extendPolicy ext) (fun d hd => hgood d hd.child) (σ := σ) (v₀ := wrap byPtr (.map n kvs))
    (st := ⟨wrap byPtr (.map n kvs), nameSet (kvs.map (·.1)), []⟩) ⟨hv, .refl _, fun _ _ => trivial⟩
  rw [h5] at hs
  have hdep := Policy.depLoop_each (extendPolicy ext) (fun p d hd => hgood d (.dependency hd)) (σ := σ.sub 8) (l := shuffle (σ.sub 7).key ps) (i := 0)
    (st := ⟨wrap byPtr (.map n kvs'), pm, ps⟩) (st' := (depPart (o.map (denote ext (refSem ext env fuel))) σ
      (wrap byPtr (.map n kvs')) pm ps).2) hs.1.1 (by rw [← h2]; rfl)
  refine ⟨kvs', hs.1.2.1, ?_, mapFilled_of hw h3 h4⟩
  rw [h1]
  exact hdep.1.2


/-- `a` absent with default `"d"`, `b` present -/
def exDefault : ObjC Constraint := (Object'.AddProp (b! "a") (.string (String'.Default (.str (b! "d"))))).AddProp (b! "b") .empty
example : (sem0 (.object exDefault)).val sched0 (.map false [(b! "b", .nil)]) =
    (.ok, .map false [(b! "b", .nil), (b! "a", .str (b! "d"))]) := by rfl
example : (sem0 (.object (exDefault.SchemaDependency (b! "b")
      (.object ((Object'.AddProp (b! "c") (.boolean (some (.bool true)))).AdditionalProperties (some .empty)))))).val sched0 (MapArg true false [(b! "b", .nil)]) =
    (.ok, MapArg true false [(b! "b", .nil), (b! "a", .str (b! "d")), (b! "c", .bool true)]) := by rfl

/-! ## C06 -/

/-- The constraints that carry no `Default` method: everything but booleans, strings, numbers, integers and references. -/
inductive Composite : Constraint → Prop where
  | empty : Composite .empty
  | null : Composite .null
  | enum (l) : Composite (.enum l)
  | array (a) : Composite (.array a)
  | object (o) : Composite (.object o)
  | any (cs) : Composite (.any cs)
  | all (cs) : Composite (.all cs)
  | oneOf (cs) : Composite (.oneOf cs)
  | not (c) : Composite (.not c)

/-- C06: a declared property guarded by a combination, array, object, enumeration, null or empty constraint is never
filled in, whatever defaults its children carry. -/
theorem C06_never_filled (o : ObjC Constraint) (hw : o.Wf) (hsd : ∀ k, o.GetSchemaDependency k = none)
    {byPtr n : Bool} {kvs : List (GoStr × GoVal)} {v' : GoVal} {p : GoStr} {c : Constraint} (hp : (p, c) ∈ o.props)
    (hc : Composite c) (habs : ¬ Has kvs p)
    (hok : (denote ext ρ (.object o)).val σ (MapArg byPtr n kvs) = (.ok, v')) :
    ∃ kvs', v' = MapArg byPtr n kvs' ∧ ¬ Has kvs' p := by
  obtain ⟨kvs', rfl, hf⟩ := C39_fills_defaults o hw hsd hok
  refine ⟨kvs', rfl, fun hh => ?_⟩
  obtain ⟨-, dv, ⟨c', hc', hd⟩, -⟩ := hf.new p hh habs
  have e : c' = c := by
    have h1 := alookup_of_mem hw.props hc'
    rw [alookup_of_mem hw.props hp] at h1
    exact (Option.some.inj h1).symm
  rw [e] at hd
  cases hc <;> simp [denote] at hd

/-- C06, the methods themselves: `HasDefault()` is false. -/
theorem C06_has_no_default {c : Constraint} (hc : Composite c) (fuel : Nat) : (sem ext env fuel c).dflt = .none := by
  cases hc <;> simp [sem, denote]

/-- `a` is guarded by `All(String().Default("d"))` and stays absent -/
example : (sem0 (.object (Object'.AddProp (b! "a") (.all [.string (String'.Default (.str (b! "d")))])))).val sched0
    (.map false []) = (.ok, .map false []) := by rfl

/-! ## C38, children with defaults -/

/-- C38: whatever defaults children have, an object having a covered property with a schema dependency and no property
dependency is accepted only if the dependency accepted the whole object, as extended with the defaults filled in by
then; what the dependency leaves is only extended afterwards. -/
theorem C38_schema_dependency_defaults (o : ObjC Constraint) (hw : o.Wf) {fuel : Nat} {v v' : GoVal}
    {kvs raws : List (GoStr × GoVal)} (henv : env.Every (DefaultIn Direct))
    (htree : (Constraint.object o).Every (DefaultIn Direct)) (hv : IsObj v kvs raws) (hdir : Direct v)
    (hok : (sem ext env fuel (.object o)).val σ v = (.ok, v')) (k : GoStr) (hk : Has kvs k) (hc : o.Covers ext k)
    (hdeps : o.GetPropDependencies k = []) (c : Constraint) (hs : o.GetSchemaDependency k = some c) :
    ∃ τ w w', Extends v w ∧ (sem ext env fuel c).val τ w = (.ok, w') ∧ Extends w' v' := by
  unfold sem at hok ⊢
  rw [denote_object] at hok
  have hgood : ∀ d, (o.map (denote ext (refSem ext env fuel))).Child d → (extendPolicy ext).Good d := by
    intro d hd
    obtain ⟨c, hc', rfl⟩ := (ObjC.map_child _ o).1 hd
    exact Policy.good_sem (extendPolicy ext) rfl trivial (henv.imp fun _ => local_of_true _ (fun _ => trivial))
      ((Constraint.Every.child htree (.object hc')).imp fun _ => local_of_true _ (fun _ => trivial)) fuel
  obtain ⟨b, t, h⟩ := hv.acc
  obtain ⟨τ, hτ, h1, h2⟩ := objectV_core ext _ σ h ((ObjC.map_wf _ o).2 hw)
  obtain ⟨hcnt, hpre⟩ := h1 (congrArg Prod.fst hok)
  obtain ⟨t', pm, ps, a1, a2, a3, a4, a5, -, fields, a6, a7⟩ := h2 hcnt hpre
  have hst := Policy.prePart_step (extendPolicy ext) (fun d hd => hgood d hd.child) (σ := σ) (v₀ := v)
    (st := ⟨v, nameSet fields, []⟩) ⟨hdir, .refl _, fun _ _ => trivial⟩
  rw [a7] at hst
  rw [a5] at hok
  have hdep := Policy.depLoop_each (extendPolicy ext) (fun p d hd => hgood d (.dependency hd)) (σ := σ.sub 8) (l := shuffle (σ.sub 7).key ps) (i := 0)
    (st := ⟨wrap b t', pm, ps⟩) (st' := (depPart (o.map (denote ext (refSem ext env fuel))) σ
      (wrap b t') pm ps).2) hst.1.1 (Prod.ext (show _ = Res.ok from (congrArg Prod.fst hok : _)) rfl)
  obtain ⟨j, s, s', b1, b2, b3, b4⟩ := hdep.2 k (mem_shuffle.2 ((a2 k).2 ⟨hk, (ObjC.map_covers _ o).2 hc⟩))
  have e : (depPart (o.map (denote ext (refSem ext env fuel))) σ (wrap b t') pm ps).2.v = v' := congrArg Prod.snd hok
  unfold depStep at b3
  rw [if_neg (by rw [not_not]; exact hdeps), ObjC.map_schemaDep, hs] at b3
  simp only [Option.map_some] at b3
  rcases hx : (denote ext (refSem ext env fuel) c).val ((σ.sub 8).sub j) s.v with ⟨r, w'⟩
  simp only [hx] at b3
  cases b3
  exact ⟨(σ.sub 8).sub j, s.v, w', Extends.trans hst.1.2.1 b2, hx, by rw [← e]; exact b4⟩

/-- the dependency sees the default of `a`, and fills in `c` itself (two examples above) -/
example : ∃ v', (sem0 (.object (exDefault.SchemaDependency (b! "b")
      (.object ((Object'.AddProp (b! "c") (.boolean (some (.bool true)))).AddProp (b! "a")
        (.string { String' with minLength := 1 }) |>.Required [b! "a"] |>.AdditionalProperties (some .empty)))))).val sched0
      (.map false [(b! "b", .nil)]) = (.ok, v') := ⟨_, rfl⟩

/-! ## C40 -/

/-- C40 is false in general: through a pointer to an interface the presence test looks at the interface, finds no
property, and the default then overwrites the data behind it (object.go: `Validate` dereferences once, `setProp` again). -/
theorem C40_refuted : ¬ ∀ (c : Constraint) (v : GoVal), Extends v ((sem0 c).val sched0 v).2 := by
  intro h
  have h := h (.object exDefault) (.ptr (some (.iface (.map false [(b! "a", .str (b! "x"))]))))
  have e : ((sem0 (.object exDefault)).val sched0 (.ptr (some (.iface (.map false [(b! "a", .str (b! "x"))]))))).2 =
    .ptr (some (.iface (.map false [(b! "a", .str (b! "d"))]))) := by rfl
  rw [e] at h
  cases h with
  | ptr _ _ h =>
  cases h with
  | iface _ _ h =>
  cases h with
  | map n kvs kvs' g h1 h2 h3 =>
  have h4 := h1 _ _ (List.mem_singleton.2 rfl)
  have h5 := h2 _ _ (List.mem_singleton.2 rfl)
  simp only [List.mem_singleton, Prod.mk.injEq, true_and] at h4
  rw [h4] at h5
  cases h5

/-- C40 (partial: values and defaults in which no pointer leads to another pointer or to an interface, which includes
all decoded JSON): whatever the constraint, the verdict and the iteration order, validation only extends its argument.
Missing: doubly indirect values, where the claim fails (`C40_refuted`). -/
theorem C40_extension_partial {c : Constraint} {v : GoVal} (henv : env.Every (DefaultIn Direct))
    (hc : c.Every (DefaultIn Direct)) (hv : Direct v) (fuel : Nat) : Extends v ((sem ext env fuel c).val σ v).2 :=
  ((Policy.good_sem (extendPolicy ext) rfl trivial (henv.imp fun _ => local_of_true _ (fun _ => trivial))
    (hc.imp fun _ => local_of_true _ (fun _ => trivial)) fuel).val σ v hv).2.1

/-- C40 for JSON: what was decoded is still there, at any depth. -/
theorem C40_json_partial {c : Constraint} {v : GoVal} (henv : env.Every (DefaultIn IsJson))
    (hc : c.Every (DefaultIn IsJson)) (hv : IsJson v) (fuel : Nat) : Extends v ((sem ext env fuel c).val σ v).2 :=
  C40_extension_partial (henv.imp fun _ h dv hd => (h dv hd).direct) (hc.imp fun _ h dv hd => (h dv hd).direct) hv.direct fuel

/-- a rejected object (`b` fails) has nevertheless been extended with `a`'s default, in the order `a`, `b` -/
example : (sem0 (.object ((exDefault.AddProp (b! "b") .null)))).val sched0 (.map false [(b! "b", .bool true)]) =
    (.err (.prop (b! "b") .notNull), .map false [(b! "b", .bool true), (b! "a", .str (b! "d"))]) := by rfl

/-! ## C41 -/

/-- C41: without defaults in the tree or in any registered constraint, validation leaves its argument as it was,
whatever the value, the verdict and the iteration order. -/
theorem C41_read_only {c : Constraint} (henv : env.Every NoDefault) (hc : c.Every NoDefault) (fuel : Nat) (v : GoVal) :
    ((sem ext env fuel c).val σ v).2 = v := by
  have hl : ∀ c, NoDefault c → (readOnlyPolicy ext).Local c := fun c h =>
    local_of_true _ (fun _ => trivial) (fun dv hd => by rw [h] at hd; cases hd)
  exact ((Policy.good_sem (readOnlyPolicy ext) rfl trivial (henv.imp hl) (hc.imp hl) fuel).val σ v trivial).2.1

/-- with a default the argument does change, so the hypothesis matters -/
example : ((sem0 (.object exDefault)).val sched0 (.map false [])).2 ≠ .map false [] := by
  have : ((sem0 (.object exDefault)).val sched0 (.map false [])).2 = .map false [(b! "a", .str (b! "d"))] := by rfl
  rw [this]; simp

/-! ## C43 -/

/-- C43 is false: a default for an absent property of a nil map panics. -/
theorem C43_refuted : ¬ ∀ (o : ObjC Constraint) (n : Bool) (kvs : List (GoStr × GoVal)),
    ((sem0 (.object o)).val sched0 (.map n kvs)).1.Normal := fun h => h exDefault true [] .panic rfl

/-- C43 (partial: no defaults in the trees, scalar enumerations): validation never panics on scalars, slices and maps
with string keys, nil maps included. Missing: defaults, which panic on nil maps (`C43_refuted`). -/
theorem C43_nil_maps_partial {c : Constraint} {v : GoVal} (henv : env.Every fun c => NoDefault c ∧ ScalarEnum c)
    (hc : c.Every fun c => NoDefault c ∧ ScalarEnum c) (hv : Data true v) (fuel : Nat) :
    ∀ a, ((sem ext env fuel c).val σ v).1 = .abort a → a = .diverge := by
  intro a h
  have hl : ∀ c, NoDefault c ∧ ScalarEnum c → (dataPolicy ext true).Local c := fun c h =>
    local_of _ (fun dv hd => by rw [h.1] at hd; cases hd) h.2
  exact ((Policy.good_sem (dataPolicy ext true) rfl rfl (henv.imp hl) (hc.imp hl) fuel).val σ v hv).2.2 _ h

/-- a nil map nested in a slice, accepted -/
example : (sem0 (.array (Array'.Items (some (.object Object'))))).AcceptsBy sched0 (.slice false [.map true []]) := by
  unfold Sem.AcceptsBy; decide

/-! ## C44 -/

/-- C44: on decoded JSON (indeed on any scalars, slices and non-nil maps) no constraint with scalar enumerations and
plain-data defaults panics, references included. -/
theorem C44_no_panic {c : Constraint} {v : GoVal} (henv : env.Every fun c => DefaultIn (Data false) c ∧ ScalarEnum c)
    (hc : c.Every fun c => DefaultIn (Data false) c ∧ ScalarEnum c) (hv : Data false v) (fuel : Nat) :
    ∀ a, ((sem ext env fuel c).val σ v).1 = .abort a → a = .diverge := by
  intro a h
  have hl : ∀ c, DefaultIn (Data false) c ∧ ScalarEnum c → (dataPolicy ext false).Local c := fun c h =>
    local_of _ (fun dv hd => ⟨rfl, h.1 dv hd⟩) h.2
  exact ((Policy.good_sem (dataPolicy ext false) rfl rfl (henv.imp hl) (hc.imp hl) fuel).val σ v hv).2.2 _ h

/-- C44 for decoded JSON: every call that comes back returns nil or an error. -/
theorem C44_json {c : Constraint} {v v' : GoVal} {r : Res} (henv : env.Every fun c => DefaultIn IsJson c ∧ ScalarEnum c)
    (hc : c.Every fun c => DefaultIn IsJson c ∧ ScalarEnum c) (hv : IsJson v) (hr : Returns ext env c σ v r v') : r.Normal := by
  obtain ⟨hd, fuel, h⟩ := hr
  intro a ha
  subst ha
  have imp : ∀ c, DefaultIn IsJson c ∧ ScalarEnum c → DefaultIn (Data false) c ∧ ScalarEnum c :=
    fun c h => ⟨fun dv hd => (h.1 dv hd).data, h.2⟩
  have := C44_no_panic (henv.imp imp) (hc.imp imp) hv.data fuel a (by rw [h])
  exact hd (by rw [this])

/-- scalar enumerations matter: a list in an enumeration panics on a list -/
example : ((sem0 (.enum [.slice false []])).val sched0 (.slice false [])).1 = .abort .panic := by decide
/-- defaults matter: a nil map as the default of `a` panics when a second constraint fills it -/
example : ((sem0 (.all [.object ((Object'.AddProp (b! "a") (.string (String'.Default (.map true []))))),
    .object (Object'.AddProp (b! "a") (.object exDefault))])).val sched0 (.map false [])).1 = .abort .panic := by decide

end Jsval
