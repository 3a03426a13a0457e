import Verif.Lemmas.MetaSchema
import Verif.Props.Defaults
import Verif.Props.Gentest
/-!
# The validator that is checked in decides what a draft-4 schema is (C107)
-/
namespace Jsval
open Go

/-- `Validator mem V c`: in this memory variable `V` holds a validator of that name with root constraint `c`. -/
def HoldsValidator (mem : Mem) (V : GoStr) (c : Constraint) : Prop :=
  ∃ jv, alookup V mem.vars = some (.jv jv) ∧ jv.name = V ∧ jv.root = some c

section
set_option maxRecDepth 100000
set_option exponentiation.threshold 2000

/-- the tables of references after the file has run -/
theorem file_maps : (((parseProg testValidatorBody).bind Prog.run).map (·.maps)) = some [d4Table (some (.bool false))] := by
  with_unfolding_all rfl

/-- its variable -/
theorem file_vars : (((parseProg testValidatorBody).bind Prog.run).map (fun m => alookup (b! "V0") m.vars)) =
    some (some (.jv ⟨b! "V0", some 0, some (d4Root (some (.bool false)))⟩)) := by
  with_unfolding_all rfl
end

theorem file_runs : ∃ p mem, parseProg testValidatorBody = some p ∧ p.run = some mem ∧ mem.env = d4Env (some (.bool false)) ∧
    HoldsValidator mem (b! "V0") (d4Root (some (.bool false))) := by
  cases hp : parseProg testValidatorBody with
  | none => have := file_maps; rw [hp] at this; cases this
  | some p =>
    have h1 := file_maps
    have h2 := file_vars
    rw [hp] at h1 h2
    simp only [Option.bind_some] at h1 h2
    cases hr : p.run with
    | none => rw [hr] at h1; cases h1
    | some mem =>
      rw [hr] at h1 h2
      simp only [Option.map_some, Option.some.injEq] at h1 h2
      refine ⟨p, mem, rfl, hr, ?_, _, h2, rfl, rfl⟩
      funext m n
      unfold Mem.env d4Env
      rw [h1]

/-- what the root decides, for any sort of flag defaults -/
theorem d4_decides {ext : Ext} (hpr : ∀ t, ext.sprint (.str t) = t) {d : Option GoVal} (hd : ∀ dv, d = some dv → Flat dv) {v : GoVal} (hv : Doc anyDoc v)
    (σ : Sched) : ((∃ v', Returns ext (d4Env d) (d4Root d) σ v .ok v') ↔ IsSchema ext v) ∧
      ((∃ e v', Returns ext (d4Env d) (d4Root d) σ v (.err e) v') ↔ ¬ IsSchema ext v) := by
  have hin : d4Env d 0 (b! "#") = some (d4Root d) := by with_unfolding_all rfl
  obtain ⟨N, hN⟩ := C49_guarded (ext := ext) (d4_guarded d) (d4_defaults hd) (d4_defaults hd 0 _ _ hin) v
  obtain ⟨r, v', hr, hrun⟩ := hN σ
  have hver := C88_verdict (ext := ext) (σ := σ) (d4_unseen d) (d4_unseen d 0 _ _ hin) hv.json N
  rw [d4Env_plain, d4Root_plain, hrun] at hver
  have ht := d4Root_tracks hpr (d4Refs (ext := ext) hpr N)
  rcases ht.decides hv σ with ⟨h, hP⟩ | ⟨⟨e, h⟩, hP⟩ | h
  · have : r = .ok := hver.trans (congrArg Prod.fst h)
    subst this
    simp only [returns_iff hrun (by simp), hP]
    simp
  · have : r = .err e := hver.trans (congrArg Prod.fst h)
    subst this
    simp only [returns_iff hrun (by simp), hP]
    simp
  · exact absurd (hver.trans (congrArg Prod.fst h)) hr

/-- After the program in generated_validator_test.go has run, the memory is `mem` and `V0` is a validator with root `c`. -/
def CheckedIn (mem : Mem) (c : Constraint) : Prop :=
  ∃ p, parseProg testValidatorBody = some p ∧ p.run = some mem ∧ HoldsValidator mem (b! "V0") c

theorem CheckedIn.what {mem : Mem} {c : Constraint} (h : CheckedIn mem c) : mem.env = d4Env (some (.bool false)) ∧ c = d4Root (some (.bool false)) := by
  obtain ⟨p, h1, h2, jv, h3, -, h4⟩ := h
  obtain ⟨p', mem', g1, g2, g3, jv', g4, -, g5⟩ := file_runs
  rw [h1] at g1; cases g1
  rw [h2] at g2; cases g2
  rw [h3] at g4; cases g4
  rw [h4] at g5; cases g5
  exact ⟨g3, rfl⟩

/-- C107: the file consists of the header of a test file and a program, which runs and leaves a validator in `V0`. -/
theorem C107_file : testValidatorFile = testHeader ++ testValidatorBody ∧ ∃ mem c, CheckedIn mem c := by
  obtain ⟨p, mem, h1, h2, -, h4⟩ := file_runs
  exact ⟨rfl, mem, _, p, h1, h2, h4⟩

/-- C107: on every document, in whatever iteration order, `V0` returns no error exactly if the document is a draft-4 schema, and an error
otherwise. (`fmt` is to print a string as itself.) -/
theorem C107_decides {ext : Ext} {mem : Mem} {c : Constraint} (hc : CheckedIn mem c) (hpr : ∀ t, ext.sprint (.str t) = t) {v : GoVal} (hv : Doc anyDoc v) (σ : Sched) :
    ((∃ v', Returns ext mem.env c σ v .ok v') ↔ IsSchema ext v) ∧ ((∃ e v', Returns ext mem.env c σ v (.err e) v') ↔ ¬ IsSchema ext v) := by
  obtain ⟨h3, rfl⟩ := hc.what
  rw [h3]
  exact d4_decides hpr (fun dv h => by cases h; exact .bool _) hv σ

/-- `{"type": "array", "items": {"type": t}, "minItems": 2}` -/
def pairOf (t : GoStr) : List (GoStr × GoVal) :=
  [(b! "type", .str (b! "array")), (b! "items", .map false [(b! "type", .str t)]), (b! "minItems", .float .f64 (F64.exactInt 2))]

theorem pairOf_doc (t : GoStr) : Doc anyDoc (.map false (pairOf t)) := by
  refine .obj _ (by simp +decide [pairOf]) (fun _ _ _ h => h.elim) (fun k x h => ?_)
  simp only [pairOf, List.mem_cons, Prod.mk.injEq, List.not_mem_nil, or_false] at h
  rcases h with ⟨-, rfl⟩ | ⟨-, rfl⟩ | ⟨-, rfl⟩
  · exact .str _ (fun h => h.elim) (fun h => h.elim) (fun h => h.elim)
  · refine .obj _ (by simp) (fun _ _ _ h => h.elim) (fun k x h => ?_)
    simp only [List.mem_cons, Prod.mk.injEq, List.not_mem_nil, or_false] at h
    obtain ⟨-, rfl⟩ := h
    exact .str _ (fun h => h.elim) (fun h => h.elim) (fun h => h.elim)
  · exact .num _ _ (fun h => h.elim)

/-- Pairs of strings make a schema. -/
theorem pairOf_schema {ext : Ext} : IsSchema ext (.map false (pairOf (b! "string"))) := by
  have none : ∀ (kvs : List (GoStr × GoVal)) k, k ∉ kvs.map (·.1) → ¬ Has kvs k := fun kvs k h ⟨x, hx⟩ => h (List.mem_map.2 ⟨_, hx, rfl⟩)
  refine .mk (fun k x h => ?_) (fun h => absurd h (none _ _ (by decide))) (fun h => absurd h (none _ _ (by decide)))
  simp only [pairOf, List.mem_cons, Prod.mk.injEq, List.not_mem_nil, or_false] at h
  rcases h with ⟨rfl, rfl⟩ | ⟨rfl, rfl⟩ | ⟨rfl, rfl⟩
  · exact .type (by decide)
  · refine .schema (by decide) (.mk (fun k x h => ?_) (fun h => absurd h (none _ _ (by decide))) (fun h => absurd h (none _ _ (by decide))))
    simp only [List.mem_cons, Prod.mk.injEq, List.not_mem_nil, or_false] at h
    obtain ⟨rfl, rfl⟩ := h
    exact .type (by decide)
  · exact .count (by decide) (F64.whole_exactInt 2) ⟨_, _, rfl, rfl, by decide +kernel⟩

/-- `V0` accepts it … -/
example (σ : Sched) : ∃ mem c v', CheckedIn mem c ∧ Returns demoExt mem.env c σ (.map false (pairOf (b! "string"))) .ok v' := by
  obtain ⟨-, mem, c, hc⟩ := C107_file
  obtain ⟨v', h⟩ := ((C107_decides (ext := demoExt) hc (fun t => rfl) (pairOf_doc _) σ).1).2 pairOf_schema
  exact ⟨mem, c, v', hc, h⟩

/-- … and rejects pairs of texts, there being no such type. -/
example (σ : Sched) : ∃ mem c e v', CheckedIn mem c ∧ Returns demoExt mem.env c σ (.map false (pairOf (b! "text"))) (.err e) v' := by
  obtain ⟨-, mem, c, hc⟩ := C107_file
  obtain ⟨e, v', h⟩ := ((C107_decides (ext := demoExt) hc (fun t => rfl) (pairOf_doc (b! "text")) σ).2).2 (by
    intro h
    cases h with
    | mk h =>
      have hsub : ¬ IsSchema demoExt (.map false [(b! "type", .str (b! "text"))]) := by
        intro h
        cases h with
        | mk h =>
          have := h (b! "type") (.str (b! "text")) (by simp)
          rcases (id this : Keyword demoExt (b! "type") (.str (b! "text"))) with h | h | h | h | h | h | h | h | h | h | h | h | h | h | h <;>
            revert h <;> decide
      have := h (b! "items") (.map false [(b! "type", .str (b! "text"))]) (by simp [pairOf])
      rcases (id this : Keyword demoExt (b! "items") (.map false [(b! "type", .str (b! "text"))])) with h | h | h | h | h | h | ⟨h, h'⟩ | h | ⟨h, h'⟩ | h | h | h | h | h | h <;> first
        | exact hsub h'
        | (revert h; decide))
  exact ⟨mem, c, e, v', hc, h⟩

/-- C107: `V0` is not repeatable (C42): it fills in `exclusiveMaximum` and `exclusiveMinimum`, which are not to be without `maximum` and
`minimum`. So every schema it has accepted that lacks one of these is no schema any more, and the next call, in whatever order, returns an error. -/
theorem C107_again {ext : Ext} {mem : Mem} {c : Constraint} (hc : CheckedIn mem c) {kvs : List (GoStr × GoVal)} {σ : Sched} {v' : GoVal}
    (hv : IsJson (.map false kvs)) (hm : ¬ Has kvs (b! "maximum") ∨ ¬ Has kvs (b! "minimum")) (hr : Returns ext mem.env c σ (.map false kvs) .ok v') (τ : Sched) :
    ∃ e v'', Returns ext mem.env c τ v' (.err e) v'' := by
  obtain ⟨h3, rfl⟩ := hc.what
  rw [h3] at hr ⊢
  clear h3 hc
  have hin : d4Env (some (.bool false)) 0 (b! "#") = some (d4Root (some (.bool false))) := by with_unfolding_all rfl
  have hflat : (d4Env (some (.bool false))).Every (DefaultIn Flat) := d4_defaults (fun dv h => by cases h; exact .bool _)
  have hdata : (d4Env (some (.bool false))).Every fun c => (DefaultIn (Data false) c ∧ ScalarEnum c) ∧ DefaultIn Direct c := d4_scalar
  have hw : ObjC.Wf { Object' with props := d4Props (some (.bool false)), additional := some .empty, propdeps := d4Deps } := ⟨by
    show ((d4Props (some (.bool false))).map (·.1)).Nodup
    decide +kernel⟩
  obtain ⟨-, fuel, hrun⟩ := hr
  -- what the first call leaves
  have hext := C40_extension_partial (ext := ext) (σ := σ) (hdata.imp fun _ h => h.2) ((hdata 0 _ _ hin).imp fun _ h => h.2) hv.direct fuel
  have hl : ∀ c, (DefaultIn (Data false) c ∧ ScalarEnum c) ∧ DefaultIn Direct c → (dataPolicy ext false).Local c := fun c h =>
    local_of _ (fun dv hd => ⟨rfl, h.1.1 dv hd⟩) h.1.2
  have hkeep := ((Policy.good_sem (dataPolicy ext false) rfl rfl (hdata.imp hl) ((hdata 0 _ _ hin).imp hl) fuel).val σ _ hv.data).1
  rw [hrun] at hext hkeep
  obtain ⟨kvs', hv', hfill⟩ := C39_fills_defaults (ext := ext) (ρ := refSem ext (d4Env (some (.bool false))) fuel) (σ := σ) _ hw (fun k => rfl) (byPtr := false) hrun
  have hv' : v' = .map false kvs' := hv'
  subst hv'
  have hnd : (kvs'.map (·.1)).Nodup := by
    have h0 : (kvs.map (·.1)).Nodup := by cases hv; assumption
    cases hext with
    | refl => exact h0
    | map _ _ _ _ _ _ h => exact h h0
  have hhas : ∀ k, (k, Constraint.boolean (some (.bool false))) ∈ d4Props (some (.bool false)) → Has kvs' k := by
    intro k hk
    by_cases h : Has kvs k
    · exact hfill.kept k h
    · exact ⟨_, hfill.filled k ⟨_, hk⟩ h (.bool false) ⟨_, hk, rfl⟩ (by simp)⟩
  have hnot : ∀ k, (k, Constraint.number Number') ∈ d4Props (some (.bool false)) → ¬ Has kvs k → ¬ Has kvs' k := by
    intro k hk h h'
    obtain ⟨-, dv, ⟨c, hc, hd⟩, -⟩ := hfill.new k h' h
    have : c = .number Number' := by
      have h1 := alookup_of_mem hw.props hc
      have h2 := alookup_of_mem hw.props hk
      rw [h1] at h2
      exact Option.some.inj h2
    subst this
    cases hd
  -- the second call
  obtain ⟨r, w, hret⟩ := C49_guarded_returns (ext := ext) (d4_guarded _) hflat (hflat 0 _ _ hin) τ (.map false kvs')
  obtain ⟨hr1, fuel', hrun'⟩ := id hret
  cases r with
  | err e => exact ⟨e, w, hret⟩
  | abort a => exact absurd (by rw [C44_no_panic (hdata.imp fun _ h => h.1) ((hdata 0 _ _ hin).imp fun _ h => h.1) hkeep fuel' a (by rw [hrun'])]) hr1
  | ok =>
    exfalso
    have hacc : (denote ext (refSem ext (d4Env (some (.bool false))) fuel') (d4Root (some (.bool false)))).AcceptsBy τ (.map false kvs') := by
      show (_ : Res × GoVal).1 = _
      exact congrArg Prod.fst hrun'
    have hdep := fun k d hk hd => (C36_prop_dependencies ext _ τ _ hw (.map false kvs' hnd) hacc k hk (Or.inl hd) d)
    rcases hm with hm | hm
    · exact hnot _ (by simp [d4Props]) hm (hdep (b! "exclusiveMaximum") (b! "maximum") (hhas _ (by simp [d4Props])) ⟨_, by simp [d4Props]; exact rfl⟩ (by decide +kernel)).1
    · exact hnot _ (by simp [d4Props]) hm (hdep (b! "exclusiveMinimum") (b! "minimum") (hhas _ (by simp [d4Props])) ⟨_, by simp [d4Props]; exact rfl⟩ (by decide +kernel)).1

/-- Pairs of strings again: accepted at first, then rejected. -/
example (σ τ : Sched) : ∃ mem c v' e v'', CheckedIn mem c ∧ Returns demoExt mem.env c σ (.map false (pairOf (b! "string"))) .ok v' ∧
    Returns demoExt mem.env c τ v' (.err e) v'' := by
  obtain ⟨-, mem, c, hc⟩ := C107_file
  obtain ⟨v', h⟩ := ((C107_decides (ext := demoExt) hc (fun t => rfl) (pairOf_doc _) σ).1).2 pairOf_schema
  have hno : ¬ Has (pairOf (b! "string")) (b! "maximum") := by
    rintro ⟨x, hx⟩
    exact absurd (List.mem_map.2 ⟨_, hx, rfl⟩ : b! "maximum" ∈ (pairOf (b! "string")).map (·.1)) (by decide)
  obtain ⟨e, v'', h'⟩ := C107_again hc (pairOf_doc _).json (Or.inl hno) h τ
  exact ⟨mem, c, v', e, v'', hc, h, h'⟩

theorem refSem_step {ext : Ext} {env : Env} {k m : Nat} {n : GoStr} {c : Constraint} (h : env m n = some c) :
    refSem ext env (k + 1) m n = denote ext (refSem ext env k) c := by
  simp only [refSem, h]

/-- rejected count -/
theorem pos_negative {ext : Ext} {ρ : RefSem} {τ : Sched} {k : IntKind} {n : ℤ} (hn : n < 0) : ¬ (denote ext ρ d4Pos).AcceptsBy τ (.int k n) := by
  intro h
  obtain ⟨x, f, h1, h2, h3⟩ := (C18_integer_exact ext ρ τ _ _).1 h
  have : x = .int k n := by cases h1; rfl
  subst this
  cases h2
  refine h3.min F64.zero rfl ?_
  obtain ⟨z, hz, h4, -, h6⟩ := ofInt_num n
  have hz0 : z < 0 := by
    by_cases h : n.natAbs ≤ 2 ^ 53
    · rw [h4 h]; exact hn
    · have := h6 (by omega)
      omega
  refine ⟨_, _, hz, F64.num_fin false 0, ?_⟩
  have hu : (0 : ℤ) < F64.unit := by exact_mod_cast F64.unit_pos
  have : z * F64.unit < F64.signed false 0 := by
    have h0 : F64.signed false 0 = 0 := by decide
    rw [h0]
    exact Int.mul_neg_of_neg_of_pos hz0 hu
  exact_mod_cast this

/-- C107: a count that is a negative `int` of any size is never accepted; what else is in the object, and which other values of Go's types, is
left open. generated_test.go runs `V0` on `{"minItems": -1}`, so its test passes. -/
theorem C107_test {ext : Ext} {mem : Mem} {c : Constraint} (hc : CheckedIn mem c) {kvs : List (GoStr × GoVal)} (hv : Data false (.map false kvs))
    (hnd : (kvs.map (·.1)).Nodup) {kw : GoStr} (hkw : kw ∈ [b! "maxLength", b! "minLength", b! "maxItems", b! "minItems", b! "maxProperties", b! "minProperties"])
    {k : IntKind} {n : ℤ} (hn : n < 0) (hm : (kw, .int k n) ∈ kvs) (σ : Sched) : ∃ e v', Returns ext mem.env c σ (.map false kvs) (.err e) v' := by
  obtain ⟨h3, rfl⟩ := hc.what
  rw [h3]
  have hin : d4Env (some (.bool false)) 0 (b! "#") = some (d4Root (some (.bool false))) := by with_unfolding_all rfl
  have hflat : (d4Env (some (.bool false))).Every (DefaultIn Flat) := d4_defaults (fun dv h => by cases h; exact .bool _)
  have hdata : (d4Env (some (.bool false))).Every fun c => (DefaultIn (Data false) c ∧ ScalarEnum c) ∧ DefaultIn Direct c := d4_scalar
  have hw : ObjC.Wf { Object' with props := d4Props (some (.bool false)), additional := some .empty, propdeps := d4Deps } := ⟨by
    show ((d4Props (some (.bool false))).map (·.1)).Nodup
    decide +kernel⟩
  obtain ⟨r, w, hret⟩ := C49_guarded_returns (ext := ext) (d4_guarded _) hflat (hflat 0 _ _ hin) σ (.map false kvs)
  obtain ⟨hr1, fuel, hrun⟩ := id hret
  cases r with
  | err e => exact ⟨e, w, hret⟩
  | abort a => exact absurd (by rw [C44_no_panic (hdata.imp fun _ h => h.1) ((hdata 0 _ _ hin).imp fun _ h => h.1) hv fuel a (by rw [hrun])]) hr1
  | ok =>
    exfalso
    have hpos : ∀ (f : Nat) (τ : Sched), (denote ext (refSem ext (d4Env (some (.bool false))) f) (d4Ref (b! "#/definitions/positiveInteger"))).AcceptsBy τ (.int k n) → False := by
      intro f τ h
      cases f with
      | zero => cases h
      | succ f =>
        have : refSem ext (d4Env (some (.bool false))) (f + 1) 0 (b! "#/definitions/positiveInteger") = denote ext (refSem ext (d4Env (some (.bool false))) f) d4Pos := by
          have he : d4Env (some (.bool false)) 0 (b! "#/definitions/positiveInteger") = some d4Pos := by with_unfolding_all rfl
          exact refSem_step he
        refine pos_negative (ext := ext) (ρ := refSem ext (d4Env (some (.bool false))) f) (τ := τ) (k := k) hn ?_
        rw [← this]
        exact h
    have hpos0 : ∀ (f : Nat) (τ : Sched), (denote ext (refSem ext (d4Env (some (.bool false))) f) (d4Ref (b! "#/definitions/positiveIntegerDefault0"))).AcceptsBy τ (.int k n) → False := by
      intro f τ h
      cases f with
      | zero => cases h
      | succ f =>
        have : refSem ext (d4Env (some (.bool false))) (f + 1) 0 (b! "#/definitions/positiveIntegerDefault0") = denote ext (refSem ext (d4Env (some (.bool false))) f) d4Pos0 := by
          have he : d4Env (some (.bool false)) 0 (b! "#/definitions/positiveIntegerDefault0") = some d4Pos0 := by with_unfolding_all rfl
          exact refSem_step he
        have h : (denote ext (refSem ext (d4Env (some (.bool false))) f) d4Pos0).AcceptsBy τ (.int k n) := by rw [← this]; exact h
        obtain ⟨w, hw⟩ := (C02_all_accepts_iff ext _ _ τ _).1 h 0 (by simp)
        refine hpos f (τ.sub 0) ?_
        simp only [resAt, List.map_cons, List.getElem?_cons_zero, Option.map_some, Option.some.injEq] at hw
        exact congrArg Prod.fst hw
    have hsound := (objectV_sound ext _ σ (.map _ kvs hnd) ((ObjC.map_wf _ _).2 hw) (by rw [← denote_object]; exact congrArg Prod.fst hrun)).2.1
    have hprop : ∀ c, (kw, c) ∈ d4Props (some (.bool false)) → ∃ τ, (denote ext (refSem ext (d4Env (some (.bool false))) fuel) c).AcceptsBy τ (.int k n) := by
      intro c hc
      exact hsound kw (denote ext (refSem ext (d4Env (some (.bool false))) fuel) c) _ (List.mem_map.2 ⟨(kw, c), hc, rfl⟩) hm
    simp only [List.mem_cons, List.not_mem_nil, or_false] at hkw
    rcases hkw with rfl | rfl | rfl | rfl | rfl | rfl
    · obtain ⟨τ, h⟩ := hprop (d4Ref (b! "#/definitions/positiveInteger")) (by simp [d4Props]); exact hpos fuel τ h
    · obtain ⟨τ, h⟩ := hprop (d4Ref (b! "#/definitions/positiveIntegerDefault0")) (by simp [d4Props]); exact hpos0 fuel τ h
    · obtain ⟨τ, h⟩ := hprop (d4Ref (b! "#/definitions/positiveInteger")) (by simp [d4Props]); exact hpos fuel τ h
    · obtain ⟨τ, h⟩ := hprop (d4Ref (b! "#/definitions/positiveIntegerDefault0")) (by simp [d4Props]); exact hpos0 fuel τ h
    · obtain ⟨τ, h⟩ := hprop (d4Ref (b! "#/definitions/positiveInteger")) (by simp [d4Props]); exact hpos fuel τ h
    · obtain ⟨τ, h⟩ := hprop (d4Ref (b! "#/definitions/positiveIntegerDefault0")) (by simp [d4Props]); exact hpos0 fuel τ h

/-- the case of generated_test.go -/
example : (b! "minItems", GoVal.int .int (-1)) ∈ [(b! "minItems", GoVal.int .int (-1))] ∧ Data false (.map false [(b! "minItems", .int .int (-1))]) :=
  ⟨by simp, .map _ _ (by simp) (by intro k x h; simp at h; obtain ⟨-, rfl⟩ := h; exact .int _ _)⟩

end Jsval
