import Verif.Lemmas.Stays
import Verif.Props.StructFill
/-!
# Defaults of fields of arbitrary structs (C60)

Fields may be shadowed, ambiguous, or several under one JSON name: the field of a property is the one that `Designates` and `GoSelects` say.
-/
namespace Jsval

section
variable {ext : Ext} {env : Env} {σ : Sched} {fuel : Nat} {o : ObjC Constraint} {fs : List (Field × GoVal)}

theorem fieldNameOf_iff (he : EmbedsStructs fs) {p n : GoStr} : fieldNameOf fs p = some n ↔ ∃ f w, Designates fs p f w ∧ f.name = n := by
  obtain ⟨props, h1, hnd, h3⟩ := extract_designates he
  unfold fieldNameOf
  rw [h1]
  simp only [Option.bind_some, Option.map_eq_some_iff]
  constructor
  · rintro ⟨info, h, rfl⟩
    obtain ⟨f, w, hd, rfl⟩ := (h3 p info).1 (alookup_mem h)
    exact ⟨f, w, hd, rfl⟩
  · rintro ⟨f, w, hd, rfl⟩
    exact ⟨_, alookup_of_mem hnd ((h3 p _).2 ⟨f, w, hd, rfl⟩), rfl⟩

/-- A struct whose type cannot be inspected is never accepted. -/
theorem embeds_of_accepted {v : GoVal} (hv : v = .struct fs ∨ v = .ptr (some (.struct fs))) {o : ObjC Sem} (h : (objectV ext o σ v).1 = .ok) : EmbedsStructs fs := by
  by_contra hc
  have hn : getPropNames (valueOf v).indirect = .error (.abort .panic) := by
    rcases hv with rfl | rfl <;> simp [getPropNames, valueOf, RV.indirect, structPropNames, (C56_panics fs).2 hc]
  unfold objectV at h
  rw [hn] at h
  cases h

theorem child_stays {e : Sem} (h : (o.map (sem ext env fuel)).Child e) : (stayPolicy ext).Good e := by
  obtain ⟨d, -, rfl⟩ := (ObjC.map_child _ o).1 h
  exact stays_sem d fuel

/-- C60, for every struct: passed by value, it is never accepted when the field of a property with a default is an unset Maybe. -/
theorem C60_any_by_value (hw : o.Wf) {p : GoStr} {c : Constraint} {dv : GoVal} (hp : (p, c) ∈ o.props) (hd : (sem ext env fuel c).dflt = .some dv)
    {f : Field} {w : GoVal} {m : MaybeVal} (hf : Designates fs p f w) (hs : GoSelects fs f.name (.maybe false m)) :
    ¬ (sem ext env fuel (.object o)).AcceptsBy σ (.struct fs) := by
  intro h
  unfold Sem.AcceptsBy sem at h
  rw [denote_object] at h
  have he := embeds_of_accepted (Or.inl rfl) h
  exact (objectV_byValue (ext := ext) (fun c hc => child_stays (o := o) (env := env) (fuel := fuel) hc) ((fieldNameOf_iff he).2 ⟨f, w, hf, rfl⟩)
    (fieldByName_selects.2 hs) (addProp_alters ext (refSem ext env fuel) o hw .empty hp) hd σ).1 h

/-- C60, for every struct: such a call panics whenever nothing else is wrong, that is, whenever the call would have returned nil had the property carried no
constraint. -/
theorem C60_any_panics (hw : o.Wf) {p : GoStr} {c : Constraint} {dv : GoVal} (hp : (p, c) ∈ o.props) (hd : (sem ext env fuel c).dflt = .some dv)
    {f : Field} {w : GoVal} {m : MaybeVal} (hf : Designates fs p f w) (hs : GoSelects fs f.name (.maybe false m))
    (hok : (sem ext env fuel (.object (o.AddProp p .empty))).AcceptsBy σ (.struct fs)) :
    ((sem ext env fuel (.object o)).val σ (.struct fs)).1 = .abort .panic := by
  unfold Sem.AcceptsBy sem at hok
  unfold sem
  rw [denote_object] at hok ⊢
  have he := embeds_of_accepted (Or.inl rfl) hok
  exact (objectV_byValue (ext := ext) (fun c hc => child_stays (o := o) (env := env) (fuel := fuel) hc) ((fieldNameOf_iff he).2 ⟨f, w, hf, rfl⟩)
    (fieldByName_selects.2 hs) (addProp_alters ext (refSem ext env fuel) o hw .empty hp) hd σ).2 hok

/-- C60, for every struct: through a pointer, `setProp` stores a default that the field takes, and the Go selector then finds it there. -/
theorem C60_any_stored (he : EmbedsStructs fs) {p : GoStr} {dv y : GoVal} {f : Field} {w : GoVal} {m : MaybeVal} (hf : Designates fs p f w)
    (hs : GoSelects fs f.name (.maybe false m)) (hy : FillsWith ext m.kind dv y) :
    ∃ fs' m', setProp ext (.ptr (some (.struct fs))) p dv = .ok (.ptr (some (.struct fs'))) ∧ GoSelects fs' f.name (.maybe true m') ∧
      m'.toGo = y ∧ m'.kind = m.kind := by
  obtain ⟨m', hsto, hm1, hm2⟩ := stored_fills ext (w := false) hy
  have h1 := (fieldNameOf_iff he).2 ⟨f, w, hf, rfl⟩
  have h2 := fieldByName_selects.2 hs
  refine ⟨_, m', ?_, fieldByName_selects.1 (fieldByName_setField h2 (Or.inr ⟨_, _, rfl, rfl, trivial⟩)), hm1, hm2⟩
  show (setPropAt ext true (.struct fs) p dv).map (fun t => GoVal.ptr (some t)) = _
  rw [setPropAt_field ext true h1 h2, hsto]
  rfl

/-- C60, for every struct and every object constraint: after an accepted call through a pointer, the unset field of a property with a default is a valid
Maybe of the same type. What it holds is the default of a declared property with this field; of several, whichever came first. -/
theorem C60_any_filled {p : GoStr} {c : Constraint} {dv v' : GoVal} (hp : (p, c) ∈ o.props) (hd : (sem ext env fuel c).dflt = .some dv)
    {f : Field} {w : GoVal} {m : MaybeVal} (hf : Designates fs p f w) (hs : GoSelects fs f.name (.maybe false m))
    (h : (sem ext env fuel (.object o)).val σ (.ptr (some (.struct fs))) = (.ok, v')) :
    ∃ fs' m', v' = .ptr (some (.struct fs')) ∧ GoSelects fs' f.name (.maybe true m') ∧ m'.kind = m.kind ∧
      ∃ q d dq g u, (q, d) ∈ o.props ∧ (sem ext env fuel d).dflt = .some dq ∧ Designates fs q g u ∧ g.name = f.name ∧
        TakesDefault ext (.maybe false m) dq ∧ ∀ y, FillsWith ext m.kind dq y → m'.toGo = y := by
  unfold sem at h
  rw [denote_object] at h
  have he := embeds_of_accepted (Or.inr rfl) (by rw [h])
  obtain ⟨fs', m', h1, h2, q, d, dq, h3, h4, h5, h6, h7⟩ := objectV_fromDefault (ext := ext) (fun c hc => child_stays (o := o) (env := env) (fuel := fuel) hc)
    ((fieldNameOf_iff he).2 ⟨f, w, hf, rfl⟩) (fieldByName_selects.2 hs) ((ObjC.map_mem_props _ o).2 ⟨c, hp, rfl⟩) hd (σ := σ) (congrArg Prod.fst h)
  obtain ⟨d', h8, rfl⟩ := (ObjC.map_mem_props _ o).1 h3
  obtain ⟨g, u, h9, h10⟩ := (fieldNameOf_iff he).1 h5
  refine ⟨fs', m', ?_, fieldByName_selects.1 h2, h7, q, d', dq, g, u, h8, h4, h9, h10, (stored_iff ext _ _).1 ⟨_, h6⟩, fun y hy => ?_⟩
  · rw [← h1]
    exact (congrArg Prod.snd h).symm
  · obtain ⟨m'', k1, k2, -⟩ := stored_fills ext (w := false) hy
    rw [h6] at k1
    cases k1
    exact k2

/-- C60: in particular, if no other declared property has the same field, the field holds the default. -/
theorem C60_any_value (hw : o.Wf) {p : GoStr} {c : Constraint} {dv v' y : GoVal} (hp : (p, c) ∈ o.props) (hd : (sem ext env fuel c).dflt = .some dv)
    {f : Field} {w : GoVal} {m : MaybeVal} (hf : Designates fs p f w) (hs : GoSelects fs f.name (.maybe false m))
    (hone : ∀ q g u, q ∈ o.props.map (·.1) → Designates fs q g u → g.name = f.name → q = p) (hy : FillsWith ext m.kind dv y)
    (h : (sem ext env fuel (.object o)).val σ (.ptr (some (.struct fs))) = (.ok, v')) :
    ∃ fs' m', v' = .ptr (some (.struct fs')) ∧ GoSelects fs' f.name (.maybe true m') ∧ m'.kind = m.kind ∧ m'.toGo = y := by
  obtain ⟨fs', m', h1, h2, h3, q, d, dq, g, u, h4, h5, h6, h7, -, h8⟩ := C60_any_filled hp hd hf hs h
  obtain rfl := hone q g u (List.mem_map.2 ⟨_, h4, rfl⟩) h6 h7
  have : d = c := by
    have := alookup_of_mem hw.props h4
    rw [alookup_of_mem hw.props hp] at this
    cases this
    rfl
  subst this
  rw [hd] at h5
  cases h5
  exact ⟨fs', m', h1, h2, h3, h8 y hy⟩

end

/-! ## Examples -/

/-- `struct { X MaybeInt `json:"a"`; Base }` with `type Base struct { X MaybeInt `json:"b"`; Y MaybeInt `json:"y"` }`: the selector `X` finds the outer field,
so that it is read and written for `b` too. -/
def exTwoX : List (Field × GoVal) :=
  [(fld (b! "X") (b! "a"), .maybe false (.int 0)),
   (⟨b! "Base", [], true, true⟩, .struct [(fld (b! "X") (b! "b"), .maybe false (.int 0)), (fld (b! "Y") (b! "y"), .maybe false (.int 1))])]

/-- `a` defaults to 7; `b` is at most 5 -/
def exTwoO : ObjC Constraint := (Object'.AddProp (b! "a") (.integer (Number'.Default (.int .int 7)))).AddProp (b! "b") (.integer (Number'.Maximum (F64.ofInt 5)))

theorem exTwoX_a : Designates exTwoX (b! "a") (fld (b! "X") (b! "a")) (.maybe false (.int 0)) ∧ GoSelects exTwoX (b! "X") (.maybe false (.int 0)) :=
  ⟨⟨[], _, rfl, by decide, by decide⟩, fieldByName_selects.1 rfl⟩

/-- an order in which `b` is looked at first -/
def exTurned : Sched := fun l => if l.length = 1 then 1 else 0

/-- By value, the call panics in this order and is rejected otherwise, though without a rule for `a` it is accepted. -/
example (σ : Sched) : ¬ (sem0 (.object exTwoO)).AcceptsBy σ (.struct exTwoX) :=
  C60_any_by_value (ext := demoExt) (env := env0) (fuel := 0) (o := exTwoO) ⟨by decide⟩ (List.mem_cons_self) rfl exTwoX_a.1 exTwoX_a.2
example : ((sem0 (.object exTwoO)).val exTurned (.struct exTwoX)).1 = .abort .panic :=
  C60_any_panics (ext := demoExt) (env := env0) (fuel := 0) (o := exTwoO) ⟨by decide⟩ (List.mem_cons_self) rfl exTwoX_a.1 exTwoX_a.2 (by unfold Sem.AcceptsBy; decide +kernel)

/-- By pointer, it is accepted when `b` is looked at first, and `X` is then 7. -/
example : ((sem0 (.object exTwoO)).val exTurned (.ptr (some (.struct exTwoX)))).1 = .ok := by decide +kernel
example (v' : GoVal) (h : (sem0 (.object exTwoO)).val exTurned (.ptr (some (.struct exTwoX))) = (.ok, v')) :
    ∃ fs' m', v' = .ptr (some (.struct fs')) ∧ GoSelects fs' (b! "X") (.maybe true m') ∧ m'.kind = .int ∧
      ∃ q d dq g u, (q, d) ∈ exTwoO.props ∧ (sem0 d).dflt = .some dq ∧ Designates exTwoX q g u ∧ g.name = b! "X" ∧
        TakesDefault demoExt (.maybe false (.int 0)) dq ∧ ∀ y, FillsWith demoExt .int dq y → m'.toGo = y :=
  C60_any_filled (ext := demoExt) (env := env0) (fuel := 0) (o := exTwoO) (List.mem_cons_self) rfl exTwoX_a.1 exTwoX_a.2 h

/-- When `a` is looked at first, `b` is 7 by then, and too large: with shadowed fields the verdict can differ from the one without a rule for `a`
(`C60_by_pointer`). -/
example : ((sem0 (.object exTwoO)).val sched0 (.ptr (some (.struct exTwoX)))).1 = .err (.prop (b! "b") .aboveMax) ∧
    ((sem0 (.object (exTwoO.AddProp (b! "a") .empty))).val sched0 (.ptr (some (.struct exTwoX)))).1 = .ok := by decide +kernel

/-- `setProp` stores 7 for `a`, and for `b` in the same field. -/
example (p : GoStr) (hp : p = b! "a" ∨ p = b! "b") : ∃ fs', setProp demoExt (.ptr (some (.struct exTwoX))) p (.int .int 7) = .ok (.ptr (some (.struct fs'))) ∧
    fs'.head? = some (fld (b! "X") (b! "a"), .maybe true (.int 7)) := by
  rcases hp with rfl | rfl <;> exact ⟨_, rfl, rfl⟩

end Jsval
