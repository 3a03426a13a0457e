import Verif.Props.Structs
import Verif.Lemmas.StructFill
/-!
# Defaults of struct fields (C60)
-/
namespace Jsval

section
variable (ext : Ext) (ρ : RefSem) (σ : Sched) (o : ObjC Constraint)

theorem addProp_alters (hw : o.Wf) {p : GoStr} {c : Constraint} (d : Constraint) (hp : (p, c) ∈ o.props) :
    Alters p (denote ext ρ c) (denote ext ρ d) (o.map (denote ext ρ)) ((o.AddProp p d).map (denote ext ρ)) :=
  ⟨(ObjC.map_mem_props _ o).2 ⟨c, hp, rfl⟩, ((ObjC.map_wf (denote ext ρ) o).2 hw).props, addProp_props ext ρ o hw hp, rfl, rfl, rfl, rfl, rfl, rfl⟩

/-- C60: a struct passed by value with an unset Maybe field whose property has a default is never accepted. The field may
sit in an embedded struct. -/
theorem C60_by_value_not_accepted (hw : o.Wf) {fs : List (Field × GoVal)} (hfs : Merges fs) {p : GoStr}
    {c : Constraint} {dv : GoVal} (hp : (p, c) ∈ o.props) (hd : (denote ext ρ c).dflt = .some dv) {f : Field}
    {m : MaybeVal} (hf : (f, .maybe false m) ∈ unembed fs) (hn : jsonNameSpec f = some p) :
    ¬ (denote ext ρ (.object o)).AcceptsBy σ (.struct fs) := by
  unfold Sem.AcceptsBy
  rw [denote_object]
  exact (objectV_twins_stop (ext := ext) (b := false) (s := .abort .panic) hfs hf hn rfl (addProp_alters ext ρ o hw .empty hp) hd rfl
    (by cases hc : coerce m.kind dv <;> simp only [stored, hc] <;> rfl) σ).1

/-- C60: such a call panics whenever nothing else is wrong with the struct — that is, whenever the call would have
returned nil had the property carried no constraint (and hence no default). -/
theorem C60_by_value_panics (hw : o.Wf) {fs : List (Field × GoVal)} (hfs : Merges fs) {p : GoStr} {c : Constraint}
    {dv : GoVal} (hp : (p, c) ∈ o.props) (hd : (denote ext ρ c).dflt = .some dv) {f : Field} {m : MaybeVal}
    (hf : (f, .maybe false m) ∈ unembed fs) (hn : jsonNameSpec f = some p)
    (hok : (denote ext ρ (.object (o.AddProp p .empty))).AcceptsBy σ (.struct fs)) :
    ((denote ext ρ (.object o)).val σ (.struct fs)).1 = .abort .panic := by
  unfold Sem.AcceptsBy at hok
  rw [denote_object] at hok ⊢
  exact (objectV_twins_stop (ext := ext) (b := false) (s := .abort .panic) hfs hf hn rfl (addProp_alters ext ρ o hw .empty hp) hd rfl
    (by cases hc : coerce m.kind dv <;> simp only [stored, hc] <;> rfl) σ).2 hok

/-- The fields `us`, with `x` in the field `f`. -/
def withField (f : Field) (x : GoVal) (us : List (Field × GoVal)) : List (Field × GoVal) :=
  us.map fun q => if q.1.name = f.name then (q.1, x) else q

/-- C60: through a pointer the default is stored. The verdict is the one of the same constraint without a rule for the
property, and when it is nil the two structs differ in that field only: unset there, here a valid Maybe holding the default.
Any object constraint without schema dependencies (these would see the default), and structs in which every property has a field of its own; where two
properties share one, filling it changes both (see `Props/FillAny.lean`, which has what holds for every struct). -/
theorem C60_by_pointer (hw : o.Wf) {fs : List (Field × GoVal)} (hfs : Merges fs) (hsd : o.schemadeps = []) {p : GoStr}
    {c : Constraint} {dv y : GoVal} (hp : (p, c) ∈ o.props) (hd : (denote ext ρ c).dflt = .some dv) {f : Field} {m : MaybeVal}
    (hf : (f, .maybe false m) ∈ unembed fs) (hn : jsonNameSpec f = some p) (hy : FillsWith ext m.kind dv y) :
    ((denote ext ρ (.object o)).val σ (.ptr (some (.struct fs)))).1 =
      ((denote ext ρ (.object (o.AddProp p .empty))).val σ (.ptr (some (.struct fs)))).1 ∧
    ((denote ext ρ (.object o)).AcceptsBy σ (.ptr (some (.struct fs))) → ∃ fs1 fs2 m',
      ((denote ext ρ (.object o)).val σ (.ptr (some (.struct fs)))).2 = .ptr (some (.struct fs1)) ∧
      ((denote ext ρ (.object (o.AddProp p .empty))).val σ (.ptr (some (.struct fs)))).2 = .ptr (some (.struct fs2)) ∧
      (f, .maybe false m) ∈ unembed fs2 ∧ unembed fs1 = withField f (.maybe true m') (unembed fs2) ∧ m'.toGo = y ∧ m'.kind = m.kind) := by
  unfold Sem.AcceptsBy
  simp only [denote_object]
  obtain ⟨m', hsto, hm1, hm2⟩ := stored_fills ext (w := false) hy
  obtain ⟨k1, k2⟩ := objectV_twins (ext := ext) (b := true) hfs hf hn rfl (addProp_alters ext ρ o hw .empty hp)
    (by simp [ObjC.map, hsd]) (by simp [ObjC.map, ObjC.AddProp, hsd]) hd rfl hsto σ
  refine ⟨k1.symm, fun hok => ?_⟩
  obtain ⟨fs2, fs1, h1, h2, h3, h4⟩ := k2 (k1.trans hok)
  exact ⟨fs1, fs2, m', h2, h1, h4, h3.fields, hm1, hm2⟩

/-- What is stored behind a pointer to a Maybe for a default that fits. -/
theorem stored_behind {b w : Bool} {m : MaybeVal} {dv y : GoVal} (h : Converts ext m.kind dv y) :
    ∃ m', stored ext b (.ptr (some (.maybe w m))) dv = .ok (.ptr (some (.maybe true m'))) ∧ m'.toGo = y ∧ m'.kind = m.kind := by
  obtain ⟨⟨v', p'⟩, h3, h4, h5, h6⟩ := C52_round_trip ext ⟨w, m⟩ dv y h
  have : v' = true := h4
  subst this
  refine ⟨p', ?_, h5, h6⟩
  generalize hk : m.kind = k at h
  cases h <;> simp only [stored, h3]

/-- C60: a field that is a pointer to an unset Maybe takes the default whether the struct is passed by pointer or by value. -/
theorem C60_pointer_field (hw : o.Wf) {fs : List (Field × GoVal)} (hfs : Merges fs) (hsd : o.schemadeps = []) {p : GoStr}
    {c : Constraint} {dv y : GoVal} (hp : (p, c) ∈ o.props) (hd : (denote ext ρ c).dflt = .some dv) {f : Field} {m : MaybeVal}
    (hf : (f, .ptr (some (.maybe false m))) ∈ unembed fs) (hn : jsonNameSpec f = some p) (hy : Converts ext m.kind dv y)
    {v : GoVal} {arg : List (Field × GoVal) → GoVal} (harg : arg = GoVal.struct ∨ arg = fun fs => .ptr (some (.struct fs))) (hv : v = arg fs) :
    ((denote ext ρ (.object o)).val σ v).1 = ((denote ext ρ (.object (o.AddProp p .empty))).val σ v).1 ∧
    ((denote ext ρ (.object o)).AcceptsBy σ v → ∃ fs1 fs2 m',
      ((denote ext ρ (.object o)).val σ v).2 = arg fs1 ∧ ((denote ext ρ (.object (o.AddProp p .empty))).val σ v).2 = arg fs2 ∧
      unembed fs1 = withField f (.ptr (some (.maybe true m'))) (unembed fs2) ∧ m'.toGo = y ∧ m'.kind = m.kind) := by
  have key : ∀ b, arg = (fun fs => wrap b (.struct fs)) → ((denote ext ρ (.object o)).val σ v).1 = ((denote ext ρ (.object (o.AddProp p .empty))).val σ v).1 ∧
    ((denote ext ρ (.object o)).AcceptsBy σ v → ∃ fs1 fs2 m',
      ((denote ext ρ (.object o)).val σ v).2 = arg fs1 ∧ ((denote ext ρ (.object (o.AddProp p .empty))).val σ v).2 = arg fs2 ∧
      unembed fs1 = withField f (.ptr (some (.maybe true m'))) (unembed fs2) ∧ m'.toGo = y ∧ m'.kind = m.kind) := by
    rintro b rfl
    subst hv
    unfold Sem.AcceptsBy
    simp only [denote_object]
    obtain ⟨m', hsto, hm1, hm2⟩ := stored_behind ext (b := b) (w := false) hy
    obtain ⟨k1, k2⟩ := objectV_twins (ext := ext) (b := b) hfs hf hn rfl (addProp_alters ext ρ o hw .empty hp)
      (by simp [ObjC.map, hsd]) (by simp [ObjC.map, ObjC.AddProp, hsd]) hd rfl hsto σ
    refine ⟨k1.symm, fun hok => ?_⟩
    obtain ⟨fs2, fs1, h1, h2, h3, h4⟩ := k2 (k1.trans hok)
    exact ⟨fs1, fs2, m', h2, h1, h3.fields, hm1, hm2⟩
  rcases harg with rfl | rfl
  · exact key false rfl
  · exact key true rfl

/-- C60: a default that the field cannot take is never stored: the struct is not accepted, by value or by pointer. -/
theorem C60_misfit (hw : o.Wf) {fs : List (Field × GoVal)} (hfs : Merges fs) {p : GoStr} {c : Constraint} {dv : GoVal} (hp : (p, c) ∈ o.props)
    (hd : (denote ext ρ c).dflt = .some dv) {f : Field} {v : GoVal} (hf : (f, v) ∈ unembed fs) (hn : jsonNameSpec f = some p)
    (hu : fieldContent v = none) (ht : ¬ TakesDefault ext v dv) : ¬ (denote ext ρ (.object o)).AcceptsBy σ (.ptr (some (.struct fs))) := by
  unfold Sem.AcceptsBy
  rw [denote_object]
  cases hsto : stored ext true v dv with
  | ok x => exact absurd ((stored_iff ext v dv).1 ⟨x, hsto⟩) ht
  | error s => exact (objectV_twins_stop (ext := ext) (b := true) hfs hf hn (fieldContent_none.1 hu) (addProp_alters ext ρ o hw .empty hp) hd rfl hsto σ).1

end

/-- C60, schema dependencies included: after any accepted call through a pointer, the field is a valid Maybe holding the
default. -/
theorem C60_filled {ext : Ext} {env : Env} {σ : Sched} {fuel : Nat} {o : ObjC Constraint} (hw : o.Wf) {fs : List (Field × GoVal)} (hfs : Merges fs) {p : GoStr}
    {c : Constraint} {dv y v' : GoVal} (hp : (p, c) ∈ o.props) (hd : (sem ext env fuel c).dflt = .some dv) {f : Field} {m : MaybeVal}
    (hf : (f, .maybe false m) ∈ unembed fs) (hn : jsonNameSpec f = some p) (hy : FillsWith ext m.kind dv y)
    (h : (sem ext env fuel (.object o)).val σ (.ptr (some (.struct fs))) = (.ok, v')) :
    ∃ fs' m', v' = .ptr (some (.struct fs')) ∧ (f, .maybe true m') ∈ unembed fs' ∧ m'.toGo = y ∧ m'.kind = m.kind := by
  obtain ⟨m', hsto, hm1, hm2⟩ := stored_fills ext (w := false) hy
  unfold sem at h hd
  rw [denote_object] at h
  have h0 : (objectV ext (o.map (denote ext (refSem ext env fuel))) σ (wrap true (.struct fs))) = (.ok, v') := h
  obtain ⟨fs1, pm, ps, st', g1, g2, g3, g4⟩ := objectV_before_deps (ext := ext) (b := true) hfs hf hn rfl
    (addProp_alters ext (refSem ext env fuel) o hw .empty hp) hd rfl hsto (σ := σ) (by rw [h0])
  have hk := (Policy.depLoop_each (keepPolicy ext) (o := o.map (denote ext (refSem ext env fuel))) (fun q d hd => by
    obtain ⟨e, -, rfl⟩ := (ObjC.map_child _ o).1 (ObjC.Child.dependency hd)
    exact keeps_set (env := env) e fuel) trivial g3).1.2
  obtain ⟨fs', e1, -, e2⟩ := hk.2 true fs1 rfl g1
  refine ⟨fs', m', ?_, e2 _ _ g2 (.maybe m'), hm1, hm2⟩
  rw [h0] at g4
  exact g4.trans e1

/-! ## Examples -/

/-- `struct { N string `json:"n"`; Extra string `json:"extra"`; Base }` with `type Base struct { A MaybeInt `json:"a"`; C *MaybeString `json:"c"` }`. -/
def exEmbFill (a : GoVal) (c : GoVal) : List (Field × GoVal) :=
  [(fld (b! "N") (b! "n"), .str (b! "hey")), (fld (b! "Extra") (b! "extra"), .str (b! "more")),
   (⟨b! "Base", [], true, true⟩, .struct [(fld (b! "A") (b! "a"), a), (fld (b! "C") (b! "c"), c)])]

theorem exEmbFill_merges (a c : GoVal) : Merges (exEmbFill a c) where
  embeds := extract_isSome.1 ⟨_, rfl⟩
  goNames := by
    show [b! "N", b! "Extra", b! "Base", b! "A", b! "C"].Nodup
    decide
  jsonNames := by
    show [b! "n", b! "extra", b! "a", b! "c"].Nodup
    decide

/-- `a` defaults to 7 and `c` to `"d"`; `n` is a string, and undeclared properties are strings of at least two bytes. -/
def exEmbFillO : ObjC Constraint :=
  (((Object'.AddProp (b! "a") (.integer (Number'.Default (.int .int 7)))).AddProp (b! "n") (.string String')).AddProp
    (b! "c") (.string (String'.Default (.str (b! "d"))))).AdditionalProperties (some (.string (String'.MinLength 2)))

/-- the same, and `n` requires `a` to be at least 5 and gives `c` another default -/
def exEmbFillS : ObjC Constraint := exEmbFillO.SchemaDependency (b! "n")
  (.object ((((Object'.AddProp (b! "a") (.integer (Number'.Minimum (F64.ofInt 5)))).AddProp
    (b! "c") (.string (String'.Default (.str (b! "e"))))).AdditionalProperties (some .empty)).Required [b! "a"]))

theorem exEmbFillO_wf : exEmbFillO.Wf := ⟨by decide⟩

/-- By value: `a` is unset, and the call panics, in every order. -/
example (σ : Sched) (m : Int) (h : (sem0 (.object (exEmbFillO.AddProp (b! "a") .empty))).AcceptsBy σ
      (.struct (exEmbFill (.maybe false (.int m)) (.ptr (some (.maybe true (.str (b! "z")))))))) :
    ((sem0 (.object exEmbFillO)).val σ (.struct (exEmbFill (.maybe false (.int m)) (.ptr (some (.maybe true (.str (b! "z")))))))).1 = .abort .panic :=
  C60_by_value_panics demoExt _ σ exEmbFillO exEmbFillO_wf (exEmbFill_merges _ _) (c := .integer (Number'.Default (.int .int 7)))
    (List.mem_cons_self) rfl (f := fld (b! "A") (b! "a")) (m := .int m)
    (List.mem_cons_of_mem _ (List.mem_cons_of_mem _ List.mem_cons_self)) rfl h

example : (sem0 (.object (exEmbFillO.AddProp (b! "a") .empty))).AcceptsBy sched0
    (.struct (exEmbFill (.maybe false (.int 5)) (.ptr (some (.maybe true (.str (b! "z"))))))) := by
  unfold Sem.AcceptsBy; decide +kernel

/-- By pointer: accepted or not as without the rule for `a`, in every order; if accepted, `a` is 7. -/
example (σ : Sched) (m : Int) (c : GoVal) :
    ((sem0 (.object exEmbFillO)).val σ (.ptr (some (.struct (exEmbFill (.maybe false (.int m)) c))))).1 =
      ((sem0 (.object (exEmbFillO.AddProp (b! "a") .empty))).val σ (.ptr (some (.struct (exEmbFill (.maybe false (.int m)) c))))).1 :=
  (C60_by_pointer demoExt _ σ exEmbFillO exEmbFillO_wf (exEmbFill_merges _ _) rfl (c := .integer (Number'.Default (.int .int 7)))
    (List.mem_cons_self) rfl (f := fld (b! "A") (b! "a")) (m := .int m)
    (List.mem_cons_of_mem _ (List.mem_cons_of_mem _ List.mem_cons_self)) rfl (.conv _ _ _ (.int _ _))).1

example : FillsWith demoExt .int (.int .int 7) (.int .int64 7) ∧ Converts demoExt .str (.str (b! "d")) (.str (b! "d")) ∧
    (sem0 (.object exEmbFillO)).val sched0 (.ptr (some (.struct (exEmbFill (.maybe false (.int 5)) (.ptr (some (.maybe false (.str (b! "z"))))))))) =
      (.ok, .ptr (some (.struct (exEmbFill (.maybe true (.int 7)) (.ptr (some (.maybe true (.str (b! "d"))))))))) :=
  ⟨.conv _ _ _ (.int _ _), .str _, rfl⟩

/-- A field that points to a Maybe is filled by value too. -/
example : (sem0 (.object exEmbFillO)).val sched0 (.struct (exEmbFill (.maybe true (.int 5)) (.ptr (some (.maybe false (.str (b! "z"))))))) =
    (.ok, .struct (exEmbFill (.maybe true (.int 5)) (.ptr (some (.maybe true (.str (b! "d"))))))) := rfl

/-- A default that does not fit: a string for a `MaybeInt`. -/
example : ¬ TakesDefault demoExt (.maybe false (.int 5)) (.str (b! "d")) ∧ fieldContent (.maybe false (.int 5)) = none ∧
    ((sem0 (.object (exEmbFillO.AddProp (b! "a") (.string (String'.Default (.str (b! "d"))))))).val sched0
      (.ptr (some (.struct (exEmbFill (.maybe false (.int 5)) (.ptr none)))))).1 ≠ .ok := by
  refine ⟨fun h => ?_, rfl, by decide +kernel⟩
  obtain ⟨x, hx⟩ := (stored_iff demoExt _ _).2 h
  cases hx

/-- The schema dependency sees the 7; were `a` not filled, it would be missing. What it would put into `c` comes too late. -/
example : (match (sem0 (.object exEmbFillS)).val sched0 (.ptr (some (.struct (exEmbFill (.maybe false (.int 5)) (.ptr (some (.maybe false (.str (b! "z"))))))))) with
      | (.ok, .ptr (some (.struct [_, _, (_, .struct [(_, .maybe true (.int n)), (_, .ptr (some (.maybe true (.str s))))])]))) => (n, s)
      | _ => (0, [])) = (7, b! "d") ∧
    ((sem0 (.object (exEmbFillS.AddProp (b! "a") .empty))).val sched0
      (.ptr (some (.struct (exEmbFill (.maybe false (.int 5)) (.ptr (some (.maybe false (.str (b! "z")))))))))).1 = .err (.required (b! "a")) :=
  ⟨by decide +kernel, by decide +kernel⟩

/-- so in every order -/
example (σ : Sched) (fuel : Nat) (c v' : GoVal) (h : (sem demoExt env0 fuel (.object exEmbFillS)).val σ (.ptr (some (.struct (exEmbFill (.maybe false (.int 5)) c)))) = (.ok, v')) :
    ∃ fs' m', v' = .ptr (some (.struct fs')) ∧ (fld (b! "A") (b! "a"), .maybe true m') ∈ unembed fs' ∧ m'.toGo = .int .int64 7 ∧ m'.kind = .int :=
  C60_filled (o := exEmbFillS) ⟨by decide⟩ (exEmbFill_merges _ _) (c := .integer (Number'.Default (.int .int 7)))
    (List.mem_cons_self) rfl (m := .int 5) (List.mem_cons_of_mem _ (List.mem_cons_of_mem _ List.mem_cons_self)) rfl (.conv _ _ _ (.int _ _)) h

end Jsval
