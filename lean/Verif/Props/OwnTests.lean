import Verif.Spec.OwnTests
import Verif.Props.Rebuilt
import Verif.Props.Arrays
import Verif.Props.Objects
import Verif.Props.StructFill
import Verif.Props.Reproduced
/-!
# C110: the validators of the project's own tests, for all documents
-/
namespace Jsval

variable {lib : SchemaLib} {m : Nat} {resolve : Resolver} {ext : Ext}

/-- The sub-constraints that are applied to something, and what they are applied to: property values, or the object itself. -/
inductive ObjC.Applies {C : Type} (o : ObjC C) (v : GoVal) (kvs raws : List (GoStr × GoVal)) : C → GoVal → Prop where
  | prop {p c x} : (p, c) ∈ o.props → (p, x) ∈ kvs → Applies o v kvs raws c x
  | pattern {id src c k x} : (id, src, c) ∈ o.patterns → (k, x) ∈ raws → Applies o v kvs raws c x
  | additional {c k x} : o.additional = some c → (k, x) ∈ raws → Applies o v kvs raws c x
  | dependency {p c} : o.GetSchemaDependency p = some c → Applies o v kvs raws c v

theorem ObjC.Applies.child {C : Type} {o : ObjC C} {v x : GoVal} {kvs raws : List (GoStr × GoVal)} {c : C} (h : o.Applies v kvs raws c x) :
    o.Child c := by
  cases h with
  | prop h => exact .prop h
  | pattern h => exact .pattern h
  | additional h => exact .additional h
  | dependency h => exact .dependency h

theorem ObjRules.imp_on {C : Type} {o : ObjC C} {v : GoVal} {kvs raws : List (GoStr × GoVal)} {acc acc' : C → GoVal → Prop}
    (hr : ObjRules ext o acc v kvs raws) (h : ∀ c x, o.Applies v kvs raws c x → acc c x → acc' c x) : ObjRules ext o acc' v kvs raws :=
  ⟨hr.count, fun p c x hpc hx => h c x (.prop hpc hx) (hr.declared p c x hpc hx), hr.required,
    fun k x hx hd id src c hpc hm => h c x (.pattern hpc hx) (hr.pattern k x hx hd id src c hpc hm),
    fun k x hx hd hm => by
      obtain ⟨c, hc, ha⟩ := hr.additional k x hx hd hm
      exact ⟨c, hc, h c x (.additional hc hx) ha⟩,
    hr.propDeps, fun k hk hc he c hs => h c v (.dependency hs) (hr.schemaDeps k hk hc he c hs)⟩

/-- C34: the complete characterisation again, asking of the children that their verdict does not depend on orders only for the values they
are applied to: property values, and the object itself. -/
theorem C34_local {ρ : RefSem} {σ : Sched} (o : ObjC Constraint) (hw : o.Wf) {v : GoVal} {kvs raws : List (GoStr × GoVal)}
    (hv : IsObj v kvs raws) (hro : ∀ c, o.Child c → ∀ x, (denote ext ρ c).ReadOnlyOn x)
    (hdet : ∀ c x, o.Applies v kvs raws c x → (denote ext ρ c).DeterminedOn x)
    (hd : ∀ p c, (p, c) ∈ o.props → ¬ Has kvs p → (denote ext ρ c).dflt = .none)
    (hov : ∀ k, Has kvs k → ¬ o.Declares k → ∀ p ∈ o.patterns, ∀ q ∈ o.patterns,
      ext.reMatch p.2.1 k = true → ext.reMatch q.2.1 k = true → p = q) :
    (denote ext ρ (.object o)).AcceptsBy σ v ↔ ObjRules ext o (fun c x => (denote ext ρ c).Accepts x) v kvs raws := by
  have hw' := (ObjC.map_wf (denote ext ρ) o).2 hw
  have hro' : ∀ c, (o.map (denote ext ρ)).Child c → c.ReadOnly := by
    intro d h
    obtain ⟨c, h', rfl⟩ := (ObjC.map_child _ o).1 h
    exact hro c h'
  have hd' : ∀ p c, (p, c) ∈ (o.map (denote ext ρ)).props → ¬ Has kvs p → c.dflt = .none := by
    intro p d hpd hn
    obtain ⟨c, hc, rfl⟩ := (ObjC.map_mem_props _ o).1 hpd
    exact hd p c hc hn
  have hov' : NoOverlap ext (o.map (denote ext ρ)) kvs := by
    rintro k hk hdc ⟨i, s, d⟩ hp ⟨i', s', d'⟩ hq hm hm'
    obtain ⟨c, hc, rfl⟩ := (ObjC.map_mem_pats _ o).1 hp
    obtain ⟨c', hc', rfl⟩ := (ObjC.map_mem_pats _ o).1 hq
    have := hov k hk (fun h' => hdc ((ObjC.map_declares _ o).2 h')) _ hc _ hc' hm hm'
    cases this
    rfl
  unfold Sem.AcceptsBy
  rw [denote_object]
  constructor
  · intro hok
    have h := objectV_rules ext _ σ hv hw' hro' (fun p c hpc hn dv => by rw [hd' p c hpc hn]; exact fun h => by cases h) hov' hok
    exact ((map_objRules _ _).1 h).imp_on fun c x hx ⟨τ, h⟩ => (determined_iff (hdet c x hx) τ).1 h
  · intro h
    exact objectV_of_rules ext _ σ hv hw' hro' hd' ((map_objRules _ _).2 h)

/-- No default, no enumeration, no reference. -/
def PlainC (c : Constraint) : Prop := NoDefault c ∧ ScalarEnum c ∧ NotRef c

/-- From what one build does to what all builds do. -/
theorem judged_of_one {s : Schema} (hk : s.Keyed) {f0 : Nat} {root : Constraint} (h0 : BuildWithCtx lib m resolve f0 sched0 s = .ok ⟨root, []⟩)
    (hroot : root.Every PlainC) {v : GoVal} (hd : Data true v) {P : Prop}
    (hacc : ∀ k τ, (sem ext (fun _ _ => none) k root).AcceptsBy τ v ↔ P) : Judged lib m resolve ext s v P := by
  have hk' : KeyedAll lib.formats resolve s := ⟨hk, fun n _ hn _ => by
    obtain ⟨c, hc⟩ := (C108_table h0 n).2 (.inl hn)
    cases hc⟩
  have henv : ∀ L, ((Built.mk root []).env m).Every L := by
    intro L m' n c h
    simp only [Built.env] at h
    split at h <;> cases h
  have run : ∀ k τ, (P ∧ (sem ext ((Built.mk root []).env m) k root).val τ v = (.ok, v)) ∨
      (¬ P ∧ ∃ e, (sem ext ((Built.mk root []).env m) k root).val τ v = (.err e, v)) := by
    intro k τ
    have he : (Built.mk root []).env m = fun _ _ => none := by
      funext m' n
      simp [Built.env, alookup]
    have h1 := hacc k τ
    rw [← he] at h1
    have h2 := C41_read_only (ext := ext) (σ := τ) (henv NoDefault) (hroot.imp fun c h => h.1) k v
    have h3 := C43_nil_maps_partial (ext := ext) (σ := τ) (henv fun c => NoDefault c ∧ ScalarEnum c)
      (hroot.imp fun c h => ⟨h.1, h.2.1⟩) hd k
    have h4 := ((total_sem (ext := ext) (refSem ext ((Built.mk root []).env m) k) root (hroot.imp fun c h => h.2.2)).val τ v trivial).2.2
    unfold Sem.AcceptsBy at h1
    unfold sem at h1 h2 h3 ⊢
    rcases e : (denote ext (refSem ext ((Built.mk root []).env m) k) root).val τ v with ⟨r, v'⟩
    rw [e] at h1 h2 h3 h4
    simp only at h1 h2 h3 h4
    subst h2
    cases r with
    | ok => exact .inl ⟨h1.1 rfl, rfl⟩
    | err er => exact .inr ⟨fun hP => (by cases h1.2 hP), er, rfl⟩
    | abort a => exact absurd (h3 a rfl) (h4 a rfl)
  refine ⟨C108_any_order h0, fun hP fuel σ b h name k τ => ?_, fun hP fuel σ b h name k τ => ?_⟩
  · obtain ⟨τ', e⟩ := (built_covers hk' h h0 ext k).2 τ v
    rcases run k τ' with ⟨-, e'⟩ | ⟨h', -⟩
    · simp only [JSVal.validate, ← e, e']
    · exact absurd hP h'
  · obtain ⟨τ', e⟩ := (built_covers hk' h h0 ext k).2 τ v
    rcases run k τ' with ⟨h', -⟩ | ⟨-, x, e'⟩
    · exact absurd h' hP
    · rw [e'] at e
      refine ⟨if name.length = 0 then .byPointer else .byName name, x, ?_⟩
      simp only [JSVal.validate, ← e]

/-! ## The parts -/

theorem target_data {v x : GoVal} (hv : Data true v) : Target v x ↔ v = x := by
  constructor
  · intro h
    cases h with
    | ptr => cases hv
    | iface => cases hv
    | self => rfl
  · rintro rfl
    exact .self _ (fun p h => by subst h; cases hv) (fun y h => by subst h; cases hv)

theorem ofInt_nonneg (n : ℤ) : ¬ F64.Lt (F64.ofInt n) F64.zero ↔ 0 ≤ n := by
  obtain ⟨z, hz, h1, h2, h3⟩ := ofInt_num n
  have h0 : F64.zero.num = some (WithBot.some (WithTop.some 0)) := by decide
  unfold F64.Lt
  rw [hz, h0]
  have hu : (0 : ℤ) < F64.unit := by unfold F64.unit; positivity
  have hs : z < 0 ↔ n < 0 := by
    by_cases h : n.natAbs ≤ 2 ^ 53
    · rw [h1 h]
    · omega
  have : (∃ x y, some (WithBot.some (WithTop.some (z * F64.unit))) = some x ∧ some (WithBot.some (WithTop.some 0)) = some y ∧ x < y) ↔ z < 0 := by
    constructor
    · rintro ⟨x, y, hx, hy, h⟩
      cases hx; cases hy
      have : z * F64.unit < 0 := by simpa using h
      exact neg_of_mul_neg_left this hu.le
    · intro h
      refine ⟨_, _, rfl, rfl, ?_⟩
      have : z * F64.unit < 0 := mul_neg_of_neg_of_pos h hu
      simpa using this
  rw [this, hs]
  omega

theorem whole_nonneg {f : F64} (hf : f.Whole) : ¬ F64.Lt f F64.zero ↔ F64.Le F64.zero f := by
  have h0 : F64.zero.num = some (WithBot.some (WithTop.some 0)) := by decide
  obtain ⟨x, hx⟩ : ∃ x, f.num = some x := by
    cases f with
    | nan => exact absurd hf id
    | inf b => cases b <;> exact ⟨_, rfl⟩
    | fin b n => cases b <;> exact ⟨_, rfl⟩
  unfold F64.Lt F64.Le
  rw [hx, h0]
  constructor
  · intro h
    refine ⟨_, _, rfl, rfl, ?_⟩
    by_contra hn
    exact h ⟨_, _, rfl, rfl, not_le.1 hn⟩
  · rintro ⟨a, b, ha, hb, h⟩ ⟨c, d, hc, hd, h'⟩
    cases ha; cases hb; cases hc; cases hd
    exact absurd h' (not_lt.2 h)

/-- A string constraint with no rule but perhaps a limit and an expression, on data. -/
theorem accepts_string {c : StrC} {ρ : RefSem} {τ : Sched} {v : GoVal} (hv : Data true v) :
    (denote ext ρ (.string c)).AcceptsBy τ v ↔ ∃ s, v = .str s ∧ StrOk ext c s := by
  rw [C10_string_exact]
  exact exists_congr fun s => and_congr_left fun _ => target_data hv

theorem noFormat_ok (s : GoStr) : FormatOk ext [] s :=
  ⟨fun h => (by cases h), fun h => (by cases h), fun h => (by cases h), fun h => (by cases h), fun h => (by cases h), fun h => by cases h⟩

theorem strOk_any (s : GoStr) : StrOk ext String' s where
  max h := absurd h (by decide)
  min _ := Int.natCast_nonneg _
  format := noFormat_ok s
  regexp _ h := by cases h
  enums _ h := by cases h

theorem strOk_name (s : GoStr) : StrOk ext { String' with maxLength := 20, regexp := some (b! "^[a-z ]+$") } s ↔
    s.length ≤ 20 ∧ ext.reMatch (b! "^[a-z ]+$") s = true := by
  constructor
  · intro h
    have := h.max (by simp)
    simp only at this
    exact ⟨by omega, h.regexp _ rfl⟩
  · rintro ⟨h1, h2⟩
    exact {
      max := fun _ => by simp only; omega
      min := fun _ => Int.natCast_nonneg _
      format := noFormat_ok s
      regexp := fun _ h => by cases h; exact h2
      enums := fun _ h => by cases h }

theorem strOk_card (s : GoStr) : StrOk ext { String' with regexp := some (b! "^[0-9]+$") } s ↔ ext.reMatch (b! "^[0-9]+$") s = true :=
  ⟨fun h => h.regexp _ rfl, fun h => {
    max := fun h => absurd h (by decide)
    min := fun _ => Int.natCast_nonneg _
    format := noFormat_ok s
    regexp := fun _ h' => by cases h'; exact h
    enums := fun _ h => by cases h }⟩

theorem numOk_age (f : F64) : NumOk (Number'.Minimum F64.zero) f ↔ ¬ F64.Lt f F64.zero :=
  ⟨fun h => h.min _ rfl, fun h => {
    min := fun m hm => by cases hm; exact h
    exclMin := fun _ _ h => by cases h
    max := fun _ h => by cases h
    exclMax := fun _ h => by cases h
    mult := fun _ h => by cases h
    enums := fun _ h => by cases h }⟩

theorem accepts_age {ρ : RefSem} {τ : Sched} {v : GoVal} (hv : Data true v) :
    (denote ext ρ (.integer (Number'.Minimum F64.zero))).AcceptsBy τ v ↔
      (∃ k n, v = .int k n ∧ 0 ≤ n) ∨ (∃ k n, v = .uint k n) ∨ ∃ k f, v = .float k f ∧ f.Whole ∧ F64.Le F64.zero f := by
  rw [C18_integer_exact]
  constructor
  · rintro ⟨x, f, h1, h2, h3⟩
    rw [target_data hv] at h1
    rw [numOk_age] at h3
    subst h1
    cases h2 with
    | int k n => exact .inl ⟨k, n, rfl, (ofInt_nonneg n).1 h3⟩
    | uint k n => exact .inr (.inl ⟨k, n, rfl⟩)
    | float k f hf => exact .inr (.inr ⟨k, _, rfl, hf, (whole_nonneg hf).1 h3⟩)
  · rintro (⟨k, n, rfl, h⟩ | ⟨k, n, rfl⟩ | ⟨k, f, rfl, hf, h⟩)
    · exact ⟨_, _, (target_data hv).2 rfl, .int k n, (numOk_age _).2 ((ofInt_nonneg n).2 h)⟩
    · exact ⟨_, _, (target_data hv).2 rfl, .uint k n, (numOk_age _).2 ((ofInt_nonneg n).2 (by omega))⟩
    · exact ⟨_, _, (target_data hv).2 rfl, .float k f hf, (numOk_age _).2 ((whole_nonneg hf).2 h)⟩

theorem accepts_tags {ρ : RefSem} {τ : Sched} {v : GoVal} (hv : Data true v) :
    (denote ext ρ (.array (Array'.Items (some (.string String'))))).AcceptsBy τ v ↔ ∃ n xs, v = .slice n xs ∧ ∀ y ∈ xs, ∃ s, y = .str s := by
  by_cases hs : ∃ n xs, v = .slice n xs
  · obtain ⟨n, xs, rfl⟩ := hs
    cases hv with
    | slice _ _ hx =>
      rw [C23_items_exact ext ρ τ _ _ n xs rfl]
      constructor
      · rintro ⟨-, -, h⟩
        refine ⟨n, xs, rfl, fun y hy => ?_⟩
        obtain ⟨j, hj⟩ := List.getElem?_of_mem hy
        obtain ⟨s, hs, -⟩ := (accepts_string (hx y hy)).1 (h j y hj)
        exact ⟨s, hs⟩
      · rintro ⟨n', xs', e, h⟩
        cases e
        refine ⟨⟨fun h => absurd h (by decide), fun h => absurd h (by decide)⟩, fun h => absurd h (by decide), fun j y hj => ?_⟩
        have hy := List.mem_of_getElem? hj
        obtain ⟨s, hs⟩ := h y hy
        exact (accepts_string (hx y hy)).2 ⟨s, hs, strOk_any s⟩
  · constructor
    · intro h
      unfold Sem.AcceptsBy at h
      rw [C22_only_slices ext ρ τ _ v (fun n xs e => hs ⟨n, xs, e⟩)] at h
      cases h
    · rintro ⟨n, xs, e, -⟩
      exact absurd ⟨n, xs, e⟩ hs

/-! ## Objects -/

/-- The rules of an object constraint on a map of data. -/
theorem accepts_map {o : ObjC Constraint} (hw : o.Wf) (hp : (Constraint.object o).Every PlainC) (hone : o.patterns.length ≤ 1) {k : Nat} {n : Bool}
    {kvs : List (GoStr × GoVal)} (hnd : (kvs.map (·.1)).Nodup)
    (hdet : ∀ c x, o.Applies (.map n kvs) kvs kvs c x → (sem ext (fun _ _ => none) k c).DeterminedOn x) (τ : Sched) :
    (sem ext (fun _ _ => none) k (.object o)).AcceptsBy τ (.map n kvs) ↔
      ObjRules ext o (fun c x => (sem ext (fun _ _ => none) k c).AcceptsBy sched0 x) (.map n kvs) kvs kvs := by
  have hkid : ∀ c, o.Child c → c.Every PlainC := fun c hc => hp.child (.object hc)
  have hro : ∀ c, o.Child c → ∀ x, (denote ext (refSem ext (fun _ _ => none) k) c).ReadOnlyOn x := fun c hc x σ =>
    C41_read_only (env := fun _ _ => none) (fun _ _ _ h => by cases h) ((hkid c hc).imp fun c h => h.1) k x
  have hdf : ∀ c, o.Child c → (denote ext (refSem ext (fun _ _ => none) k) c).dflt = .none := by
    intro c hc
    obtain ⟨h1, -, h2⟩ := (hkid c hc).self
    cases c with
    | boolean d => simp only [denote]; rw [show d = none from h1]; rfl
    | string d => simp only [denote]; rw [show d.dflt = none from h1]; rfl
    | number d => simp only [denote]; rw [show d.dflt = none from h1]; rfl
    | integer d => simp only [denote]; rw [show d.dflt = none from h1]; rfl
    | ref m n => exact absurd rfl (h2 m n)
    | _ => rfl
  unfold sem at hdet ⊢
  rw [C34_local o hw (.map n kvs hnd) hro hdet (fun p c h _ => hdf c (.prop h)) ?_]
  · refine ⟨fun h => h.imp_on (fun c x _ ha => ha sched0), fun h => h.imp_on (fun c x hx ha τ => ?_)⟩
    exact (hdet c x hx sched0 τ).1 ha
  · intro q _ _ a ha b hb _ _
    match hl : o.patterns, hone with
    | [], _ => rw [hl] at ha; cases ha
    | [p], _ => rw [hl] at ha hb; simp only [List.mem_singleton] at ha hb; rw [ha, hb]

theorem plain_leaf {c : Constraint} (h1 : c.ownDefault = none) (h2 : c.enumOf = []) (h3 : NotRef c) : PlainC c :=
  ⟨h1, fun x h => (by rw [h2] at h; cases h), h3⟩

theorem plain_str {c : StrC} (h1 : c.dflt = none) (h2 : c.enums = none) : (Constraint.string c).Every PlainC :=
  .intro (plain_leaf h1 (by simp [Constraint.enumOf, h2]) (by rintro m n ⟨⟩)) (fun d hd => by cases hd)

theorem det_string {c : StrC} {ρ : RefSem} (x : GoVal) : (denote ext ρ (.string c)).DeterminedOn x :=
  fun τ τ' => (C10_string_exact ext ρ τ c x).trans (C10_string_exact ext ρ τ' c x).symm

/-- The validator built for `TestObject`. -/
def testObjectC : ObjC Constraint where
  props := [(b! "name", .string { String' with maxLength := 20, regexp := some (b! "^[a-z ]+$") }),
    (b! "age", .integer (Number'.Minimum F64.zero)), (b! "tags", .array (Array'.Items (some (.string String'))))]
  patterns := [(0, b! "name#[a-z]+", .string String')]
  additional := none
  minProps := -1
  maxProps := -1
  required := []
  propdeps := []
  schemadeps := []

theorem testObject_child {c : Constraint} (h : testObjectC.Child c) :
    c = .string { String' with maxLength := 20, regexp := some (b! "^[a-z ]+$") } ∨ c = .integer (Number'.Minimum F64.zero) ∨
      c = .array (Array'.Items (some (.string String'))) ∨ c = .string String' := by
  cases h with
  | prop h => simp only [testObjectC, List.mem_cons, Prod.mk.injEq, List.not_mem_nil, or_false] at h; tauto
  | pattern h => simp only [testObjectC, List.mem_cons, Prod.mk.injEq, List.not_mem_nil, or_false] at h; tauto
  | additional h => cases h
  | dependency h => cases h

theorem testObject_plain : (Constraint.object testObjectC).Every PlainC := by
  refine .intro (plain_leaf rfl rfl (by rintro m n ⟨⟩)) fun d hd => ?_
  rw [show (Constraint.object testObjectC).kids = [.string { String' with maxLength := 20, regexp := some (b! "^[a-z ]+$") },
    .integer (Number'.Minimum F64.zero), .array (Array'.Items (some (.string String'))), .string String'] from rfl] at hd
  simp only [List.mem_cons, List.not_mem_nil, or_false] at hd
  rcases hd with rfl | rfl | rfl | rfl
  · exact plain_str rfl rfl
  · exact .intro (plain_leaf rfl rfl (by rintro m n ⟨⟩)) (fun d hd => by cases hd)
  · refine .intro (plain_leaf rfl rfl (by rintro m n ⟨⟩)) fun d hd => ?_
    rw [show Constraint.kids _ = [.string String', .empty] from rfl] at hd
    simp only [List.mem_cons, List.not_mem_nil, or_false] at hd
    rcases hd with rfl | rfl
    · exact plain_str rfl rfl
    · exact .intro (plain_leaf rfl rfl (by rintro m n ⟨⟩)) (fun d hd => by cases hd)
  · exact plain_str rfl rfl

/-- C110: whatever the orders of maps in builder and validator, the validator of `TestObject` accepts exactly the maps described in
`TestObjectOk`, for all maps of data. -/
theorem C110_object {n : Bool} {kvs : List (GoStr × GoVal)} (hnd : (kvs.map (·.1)).Nodup) (hd : ∀ k x, (k, x) ∈ kvs → Data true x) :
    Judged lib m resolve ext testObjectSchema (.map n kvs) (TestObjectOk ext kvs) := by
  refine judged_of_one (f0 := 1) (root := .object testObjectC) (Schema.keyed_of_check _ (by decide)) (by with_unfolding_all rfl)
    testObject_plain (.map n kvs (fun _ => rfl) hd) fun k τ => ?_
  rw [accepts_map ⟨by decide⟩ testObject_plain (by decide) hnd ?_ τ]
  · constructor
    · intro h
      have hdecl : ∀ k, testObjectC.Declares k ↔ k = b! "name" ∨ k = b! "age" ∨ k = b! "tags" := by
        intro k
        simp only [ObjC.Declares, testObjectC, List.mem_cons, Prod.mk.injEq, List.not_mem_nil, or_false]
        aesop
      refine ⟨fun x hx => ?_, fun x hx => ?_, fun x hx => ?_, fun k x hx h1 h2 h3 => ?_⟩
      · obtain ⟨s, h1, h2⟩ := (accepts_string (hd _ _ hx)).1 (h.declared _ _ x (.head _) hx)
        exact ⟨s, h1, (strOk_name s).1 h2⟩
      · exact (accepts_age (hd _ _ hx)).1 (h.declared _ _ x (.tail _ (.head _)) hx)
      · exact (accepts_tags (hd _ _ hx)).1 (h.declared _ _ x (.tail _ (.tail _ (.head _))) hx)
      · have hnot : ¬ testObjectC.Declares k := fun hk => by
          rcases (hdecl k).1 hk with h | h | h
          · exact h1 h
          · exact h2 h
          · exact h3 h
        by_cases hp : ext.reMatch (b! "name#[a-z]+") k = true
        · obtain ⟨s, hs, -⟩ := (accepts_string (hd _ _ hx)).1 (h.pattern k x hx hnot _ _ _ (.head _) hp)
          exact ⟨hp, s, hs⟩
        · obtain ⟨c, hc, -⟩ := h.additional k x hx hnot (by
            rintro ⟨id, src, c, hm, hr⟩
            simp only [testObjectC, List.mem_cons, Prod.mk.injEq, List.not_mem_nil, or_false] at hm
            obtain ⟨rfl, rfl, rfl⟩ := hm
            exact hp hr)
          cases hc
    · intro h
      refine ⟨⟨fun h => absurd h (by decide), fun h => absurd h (by decide)⟩, fun p c x hpc hx => ?_, fun p hp => (by cases hp),
        fun k x hx hnot id src c hm hr => ?_, fun k x hx hnot hpat => ?_, fun k _ _ d hdp => ?_, fun k _ _ _ c hc => ?_⟩
      · simp only [testObjectC, List.mem_cons, Prod.mk.injEq, List.not_mem_nil, or_false] at hpc
        rcases hpc with ⟨rfl, rfl⟩ | ⟨rfl, rfl⟩ | ⟨rfl, rfl⟩
        · obtain ⟨s, h1, h2⟩ := h.name x hx
          exact (accepts_string (hd _ _ hx)).2 ⟨s, h1, (strOk_name s).2 h2⟩
        · exact (accepts_age (hd _ _ hx)).2 (h.age x hx)
        · exact (accepts_tags (hd _ _ hx)).2 (h.tags x hx)
      · simp only [testObjectC, List.mem_cons, Prod.mk.injEq, List.not_mem_nil, or_false] at hm
        obtain ⟨rfl, rfl, rfl⟩ := hm
        obtain ⟨-, s, hs⟩ := h.others k x hx (fun e => hnot ⟨_, by subst e; exact .head _⟩)
          (fun e => hnot ⟨_, by subst e; exact .tail _ (.head _)⟩) (fun e => hnot ⟨_, by subst e; exact .tail _ (.tail _ (.head _))⟩)
        exact (accepts_string (hd _ _ hx)).2 ⟨s, hs, strOk_any s⟩
      · obtain ⟨hr, -⟩ := h.others k x hx (fun e => hnot ⟨_, by subst e; exact .head _⟩)
          (fun e => hnot ⟨_, by subst e; exact .tail _ (.head _)⟩) (fun e => hnot ⟨_, by subst e; exact .tail _ (.tail _ (.head _))⟩)
        exact absurd ⟨_, _, _, .head _, hr⟩ hpat
      · cases hdp
      · cases hc
  · intro c x hx τ τ'
    rcases testObject_child hx.child with rfl | rfl | rfl | rfl
    · exact det_string x τ τ'
    · exact (C18_integer_exact ext _ τ _ x).trans (C18_integer_exact ext _ τ' _ x).symm
    · have hdx : Data true x := by
        cases hx with
        | prop _ h => exact hd _ _ h
        | pattern _ h => exact hd _ _ h
        | additional _ h => exact hd _ _ h
        | dependency => exact .map n kvs (fun _ => rfl) hd
      exact (accepts_tags hdx).trans (accepts_tags hdx).symm
    · exact det_string x τ τ'

/-- The validator built for `TestObjectDependency`. -/
def testDependencyC : ObjC Constraint where
  props := [(b! "foo", .string String'), (b! "bar", .string String')]
  patterns := []
  additional := none
  minProps := -1
  maxProps := -1
  required := []
  propdeps := [(b! "foo", [b! "bar"])]
  schemadeps := []

theorem testDependency_child {c : Constraint} (h : testDependencyC.Child c) : c = .string String' := by
  cases h with
  | prop h => simp only [testDependencyC, List.mem_cons, Prod.mk.injEq, List.not_mem_nil, or_false] at h; tauto
  | pattern h => cases h
  | additional h => cases h
  | dependency h => cases h

theorem testDependency_plain : (Constraint.object testDependencyC).Every PlainC := by
  refine .intro (plain_leaf rfl rfl (by rintro m n ⟨⟩)) fun d hd => ?_
  rw [show (Constraint.object testDependencyC).kids = [.string String', .string String'] from rfl] at hd
  simp only [List.mem_cons, List.not_mem_nil, or_false] at hd
  rcases hd with rfl | rfl <;> exact plain_str rfl rfl

theorem testDependency_deps (k : GoStr) : testDependencyC.GetPropDependencies k = if b! "foo" = k then [b! "bar"] else [] := by
  simp only [ObjC.GetPropDependencies, testDependencyC, alookup]
  split <;> rfl

/-- C110: the validator of `TestObjectDependency` accepts exactly the maps described in `TestDependencyOk`. -/
theorem C110_dependency {n : Bool} {kvs : List (GoStr × GoVal)} (hnd : (kvs.map (·.1)).Nodup) (hd : ∀ k x, (k, x) ∈ kvs → Data true x) :
    Judged lib m resolve ext testDependencySchema (.map n kvs) (TestDependencyOk kvs) := by
  refine judged_of_one (f0 := 1) (root := .object testDependencyC) (Schema.keyed_of_check _ (by decide)) (by with_unfolding_all rfl)
    testDependency_plain (.map n kvs (fun _ => rfl) hd) fun k τ => ?_
  have hdecl : ∀ k, testDependencyC.Declares k ↔ k = b! "foo" ∨ k = b! "bar" := by
    intro k
    simp only [ObjC.Declares, testDependencyC, List.mem_cons, Prod.mk.injEq, List.not_mem_nil, or_false]
    aesop
  have hpat : ∀ k, ¬ testDependencyC.PatternFor ext k := by
    rintro k ⟨_, _, _, h, -⟩
    cases h
  rw [accepts_map ⟨by decide⟩ testDependency_plain (by decide) hnd ?_ τ]
  · constructor
    · intro h
      refine ⟨fun k x hx => ?_, fun hf => ?_⟩
      · by_cases hk : testDependencyC.Declares k
        · refine ⟨(hdecl k).1 hk, ?_⟩
          obtain ⟨c, hc⟩ := hk
          have ha := h.declared k c x hc hx
          rw [testDependency_child (.prop hc)] at ha
          obtain ⟨s, hs, -⟩ := (accepts_string (hd _ _ hx)).1 ha
          exact ⟨s, hs⟩
        · obtain ⟨c, hc, -⟩ := h.additional k x hx hk (hpat k)
          cases hc
      · exact (h.propDeps _ hf (.inl ((hdecl _).2 (.inl rfl))) (b! "bar") (by rw [testDependency_deps]; exact .head _)).1
    · intro h
      refine ⟨⟨fun h => absurd h (by decide), fun h => absurd h (by decide)⟩, fun p c x hpc hx => ?_, fun p hp => (by cases hp),
        fun k x hx hnot id src c hm hr => (by cases hm), fun k x hx hnot _ => absurd ((hdecl k).2 (h.only k x hx).1) hnot,
        fun k hk _ d hdp => ?_, fun k _ _ _ c hc => (by cases hc)⟩
      · obtain ⟨s, hs⟩ := (h.only p x hx).2
        rw [testDependency_child (.prop hpc)]
        exact (accepts_string (hd _ _ hx)).2 ⟨s, hs, strOk_any s⟩
      · rw [testDependency_deps] at hdp
        split at hdp
        · rename_i e
          simp only [List.mem_singleton] at hdp
          subst e hdp
          exact ⟨h.dep hk, .inl ((hdecl _).2 (.inr rfl))⟩
        · cases hdp
  · intro c x hx τ τ'
    rw [testDependency_child hx.child]
    exact det_string x τ τ'

/-- What a card asks for. -/
def testAddressC : ObjC Constraint where
  props := [(b! "billing_address", .string String')]
  patterns := []
  additional := some .empty
  minProps := -1
  maxProps := -1
  required := [b! "billing_address"]
  propdeps := []
  schemadeps := []

/-- The validator built for `TestObjectSchemaDependency`. -/
def testCardC : ObjC Constraint where
  props := [(b! "name", .string String'), (b! "credit_card", .string { String' with regexp := some (b! "^[0-9]+$") })]
  patterns := []
  additional := some .empty
  minProps := -1
  maxProps := -1
  required := [b! "name"]
  propdeps := []
  schemadeps := [(b! "credit_card", .object testAddressC)]

/-- No schema of the tree has a format. -/
def Schema.noFormatB : Schema → Bool := Schema.fold true fun s => decide (s.format = []) && s.childList.all id

theorem build_noFormat (hf : [] ∉ lib.formats) : ∀ s : Schema, s.noFormatB = true → build lib m s = build { lib with formats := [] } m s := by
  refine Schema.ind (fun _ => rfl) fun s ih h => ?_
  rw [Schema.noFormatB, Schema.fold_mk] at h
  simp only [Bool.and_eq_true, decide_eq_true_eq, List.all_eq_true, id] at h
  obtain ⟨h1, h2⟩ := h
  have hm : s.map (build lib m) = s.map (build { lib with formats := [] } m) :=
    SchemaF.map_congr fun c hc => ih c hc (h2 _ (by rw [SchemaF.childList_map]; exact List.mem_map_of_mem hc.mem_childList))
  have h3 : ∀ t : SchemaF Act, t.format = [] → schemaTypes lib t = schemaTypes { lib with formats := [] } t := by
    intro t ht
    simp only [schemaTypes, guessSchemaType, schemaLooksLikeString, sortTypes, ht, hf, List.not_mem_nil]
  unfold build at hm ⊢
  rw [Schema.fold_mk, Schema.fold_mk, hm]
  funext σ
  simp only [buildNode]
  rw [h3 _ h1]
theorem testCard_built (hf : [] ∉ lib.formats) : BuildWithCtx lib m resolve 1 sched0 testSchemaDependencySchema = .ok ⟨.object testCardC, []⟩ := by
  have h := build_noFormat (m := m) hf testSchemaDependencySchema (by decide)
  unfold testSchemaDependencySchema at h ⊢
  simp only [BuildWithCtx, h]
  with_unfolding_all rfl

theorem testAddress_child {c : Constraint} (h : testAddressC.Child c) : c = .string String' ∨ c = .empty := by
  cases h with
  | prop h => simp only [testAddressC, List.mem_cons, Prod.mk.injEq, List.not_mem_nil, or_false] at h; tauto
  | pattern h => cases h
  | additional h => cases h; tauto
  | dependency h => cases h

theorem testAddress_plain : (Constraint.object testAddressC).Every PlainC := by
  refine .intro (plain_leaf rfl rfl (by rintro m n ⟨⟩)) fun d hd => ?_
  rw [show (Constraint.object testAddressC).kids = [.string String', .empty] from rfl] at hd
  simp only [List.mem_cons, List.not_mem_nil, or_false] at hd
  rcases hd with rfl | rfl
  · exact plain_str rfl rfl
  · exact .intro (plain_leaf rfl rfl (by rintro m n ⟨⟩)) (fun d hd => by cases hd)

theorem accepts_address {k : Nat} {n : Bool} {kvs : List (GoStr × GoVal)} (hnd : (kvs.map (·.1)).Nodup)
    (hd : ∀ k x, (k, x) ∈ kvs → Data true x) (τ : Sched) :
    (sem ext (fun _ _ => none) k (.object testAddressC)).AcceptsBy τ (.map n kvs) ↔
      Has kvs (b! "billing_address") ∧ ∀ x, (b! "billing_address", x) ∈ kvs → ∃ s, x = .str s := by
  rw [accepts_map ⟨by decide⟩ testAddress_plain (by decide) hnd ?_ τ]
  · constructor
    · intro h
      refine ⟨h.required _ (.head _) ⟨_, .head _⟩, fun x hx => ?_⟩
      obtain ⟨s, hs, -⟩ := (accepts_string (hd _ _ hx)).1 (h.declared _ _ x (.head _) hx)
      exact ⟨s, hs⟩
    · rintro ⟨h1, h2⟩
      refine ⟨⟨fun h => absurd h (by decide), fun h => absurd h (by decide)⟩, fun p c x hpc hx => ?_, fun p hp _ => ?_,
        fun k x hx hnot id src c hm hr => (by cases hm), fun k x hx hnot _ => ⟨.empty, rfl, rfl⟩,
        fun k hk _ d hdp => (by cases hdp), fun k _ _ _ c hc => (by cases hc)⟩
      · simp only [testAddressC, List.mem_cons, Prod.mk.injEq, List.not_mem_nil, or_false] at hpc
        obtain ⟨rfl, rfl⟩ := hpc
        obtain ⟨s, hs⟩ := h2 x hx
        exact (accepts_string (hd _ _ hx)).2 ⟨s, hs, strOk_any s⟩
      · simp only [testAddressC, List.mem_cons, List.not_mem_nil, or_false] at hp
        subst hp
        exact h1
  · intro c x hx τ τ'
    rcases testAddress_child hx.child with rfl | rfl
    · exact det_string x τ τ'
    · exact Iff.rfl

theorem testCard_plain : (Constraint.object testCardC).Every PlainC := by
  refine .intro (plain_leaf rfl rfl (by rintro m n ⟨⟩)) fun d hd => ?_
  rw [show (Constraint.object testCardC).kids = [.string String', .string { String' with regexp := some (b! "^[0-9]+$") }, .empty,
    .object testAddressC] from rfl] at hd
  simp only [List.mem_cons, List.not_mem_nil, or_false] at hd
  rcases hd with rfl | rfl | rfl | rfl
  · exact plain_str rfl rfl
  · exact plain_str rfl rfl
  · exact .intro (plain_leaf rfl rfl (by rintro m n ⟨⟩)) (fun d hd => by cases hd)
  · exact testAddress_plain

/-- C110: the validator of `TestObjectSchemaDependency` accepts exactly the maps described in `TestSchemaDependencyOk`. No format may be
the empty string, or the dependency would be taken for a string schema as well. -/
theorem C110_schema_dependency (hf : [] ∉ lib.formats) {n : Bool} {kvs : List (GoStr × GoVal)} (hnd : (kvs.map (·.1)).Nodup)
    (hd : ∀ k x, (k, x) ∈ kvs → Data true x) :
    Judged lib m resolve ext testSchemaDependencySchema (.map n kvs) (TestSchemaDependencyOk ext kvs) := by
  refine judged_of_one (f0 := 1) (root := .object testCardC) (Schema.keyed_of_check _ (by decide)) (testCard_built hf)
    testCard_plain (.map n kvs (fun _ => rfl) hd) fun k τ => ?_
  rw [accepts_map ⟨by decide⟩ testCard_plain (by decide) hnd ?_ τ]
  · constructor
    · intro h
      refine ⟨⟨h.required _ (.head _) ⟨_, .head _⟩, fun x hx => ?_⟩, fun x hx => ?_, fun hc => ?_⟩
      · obtain ⟨s, hs, -⟩ := (accepts_string (hd _ _ hx)).1 (h.declared _ _ x (.head _) hx)
        exact ⟨s, hs⟩
      · obtain ⟨s, h1, h2⟩ := (accepts_string (hd _ _ hx)).1 (h.declared _ _ x (.tail _ (.head _)) hx)
        exact ⟨s, h1, (strOk_card s).1 h2⟩
      · exact (accepts_address hnd hd sched0).1 (h.schemaDeps _ hc (.inl ⟨_, .tail _ (.head _)⟩) rfl _ rfl)
    · intro h
      refine ⟨⟨fun h => absurd h (by decide), fun h => absurd h (by decide)⟩, fun p c x hpc hx => ?_, fun p hp _ => ?_,
        fun k x hx hnot id src c hm hr => (by cases hm), fun k x hx hnot _ => ⟨.empty, rfl, rfl⟩,
        fun k hk _ d hdp => (by cases hdp), fun k hk _ _ c hc => ?_⟩
      · simp only [testCardC, List.mem_cons, Prod.mk.injEq, List.not_mem_nil, or_false] at hpc
        rcases hpc with ⟨rfl, rfl⟩ | ⟨rfl, rfl⟩
        · obtain ⟨s, hs⟩ := h.name.2 x hx
          exact (accepts_string (hd _ _ hx)).2 ⟨s, hs, strOk_any s⟩
        · obtain ⟨s, h1, h2⟩ := h.card x hx
          exact (accepts_string (hd _ _ hx)).2 ⟨s, h1, (strOk_card s).2 h2⟩
      · simp only [testCardC, List.mem_cons, List.not_mem_nil, or_false] at hp
        subst hp
        exact h.name.1
      · simp only [ObjC.GetSchemaDependency, testCardC, alookup] at hc
        split at hc
        · rename_i e
          cases hc
          subst e
          exact (accepts_address hnd hd sched0).2 (h.address hk)
        · cases hc
  · intro c x hx τ τ'
    cases hx with
    | prop h _ =>
      simp only [testCardC, List.mem_cons, Prod.mk.injEq, List.not_mem_nil, or_false] at h
      rcases h with ⟨rfl, rfl⟩ | ⟨rfl, rfl⟩ <;> exact det_string x τ τ'
    | pattern h => cases h
    | additional h => cases h; exact Iff.rfl
    | dependency h =>
      simp only [ObjC.GetSchemaDependency, testCardC, alookup] at h
      split at h
      · cases h; exact (accepts_address hnd hd τ).trans (accepts_address hnd hd τ').symm
      · cases h

/-! ## Inputs of the tests -/

/-- `TestObject`: the six inputs that should fail and the three that should pass. -/
example (h1 : ext.reMatch (b! "^[a-z ]+$") (b! "World") = false) (h2 : ext.reMatch (b! "^[a-z ]+$") (b! "world") = true)
    (h3 : ext.reMatch (b! "name#[a-z]+") (b! "Name") = false) (h4 : ext.reMatch (b! "name#[a-z]+") (b! "foo#ja") = false)
    (h5 : ext.reMatch (b! "name#[a-z]+") (b! "name#ja") = true) :
    ¬ TestObjectOk ext [(b! "Name", .str (b! "World"))] ∧ ¬ TestObjectOk ext [(b! "name", .str (b! "World"))] ∧
    ¬ TestObjectOk ext [(b! "name", .str (b! "wooooooooooooooooooooooooooooooorld"))] ∧
    ¬ TestObjectOk ext [(b! "tags", .slice false [.int .int 1, .str (b! "foo"), .bool false])] ∧
    ¬ TestObjectOk ext [(b! "name", .str (b! "ハロー、ワールド"))] ∧ ¬ TestObjectOk ext [(b! "foo#ja", .str (b! "フー！"))] ∧
    TestObjectOk ext [(b! "name", .str (b! "world"))] ∧
    TestObjectOk ext [(b! "tags", .slice false [.str (b! "foo"), .str (b! "bar"), .str (b! "baz")])] ∧
    TestObjectOk ext [(b! "name#ja", .str (b! "ハロー、ワールド"))] := by
  refine ⟨fun h => ?_, fun h => ?_, fun h => ?_, fun h => ?_, fun h => ?_, fun h => ?_, ?_, ?_, ?_⟩
  · have := (h.others _ _ (.head _) (by decide) (by decide) (by decide)).1
    rw [h3] at this; cases this
  · obtain ⟨s, hs, -, hm⟩ := h.name _ (.head _)
    cases hs; rw [h1] at hm; cases hm
  · obtain ⟨s, hs, hl, -⟩ := h.name _ (.head _)
    cases hs; exact absurd hl (by decide)
  · obtain ⟨n, xs, hx, hs⟩ := h.tags _ (.head _)
    cases hx
    obtain ⟨s, hs⟩ := hs _ (.head _)
    cases hs
  · obtain ⟨s, hs, hl, -⟩ := h.name _ (.head _)
    cases hs; exact absurd hl (by decide)
  · have := (h.others _ _ (.head _) (by decide) (by decide) (by decide)).1
    rw [h4] at this; cases this
  · constructor <;> simp [h2]
  · constructor <;> simp
  · constructor <;> simp [h5]

/-- They are judged so. -/
example (h1 : ext.reMatch (b! "^[a-z ]+$") (b! "World") = false) {fuel : Nat} {σ : Sched} {b : Built}
    (h : BuildWithCtx lib m resolve fuel σ testObjectSchema = .ok b) (name : GoStr) (k : Nat) (τ : Sched) :
    ∃ w e, JSVal.validate ext (b.env m) k ⟨name, some b.root⟩ τ (.map false [(b! "name", .str (b! "World"))]) =
      (.err w e, .map false [(b! "name", .str (b! "World"))]) := by
  refine (C110_object (by decide) (by simp [Data.str])).rejects (fun h => ?_) fuel σ b h name k τ
  obtain ⟨s, hs, -, hm⟩ := h.name _ (.head _)
  cases hs; rw [h1] at hm; cases hm

/-- `TestObjectDependency`: one input that should fail, one that should pass. -/
example : ¬ TestDependencyOk [(b! "foo", .str (b! "foo"))] ∧ TestDependencyOk [(b! "foo", .str (b! "foo")), (b! "bar", .str (b! "bar"))] := by
  constructor
  · intro h
    obtain ⟨x, hx⟩ := h.dep ⟨_, .head _⟩
    simp at hx
  · constructor
    · intro k x h
      simp only [List.mem_cons, Prod.mk.injEq, List.not_mem_nil, or_false] at h
      rcases h with ⟨rfl, rfl⟩ | ⟨rfl, rfl⟩ <;> simp
    · simp [Has]

/-- `TestObjectSchemaDependency`: one input that should fail, two that should pass. -/
example (h1 : ext.reMatch (b! "^[0-9]+$") (b! "5555555555555555") = true) :
    ¬ TestSchemaDependencyOk ext [(b! "name", .str (b! "John Doe")), (b! "credit_card", .str (b! "5555555555555555"))] ∧
    TestSchemaDependencyOk ext [(b! "name", .str (b! "John Doe")), (b! "credit_card", .str (b! "5555555555555555")),
      (b! "billing_address", .str (b! "555 Debtor's Lane"))] ∧
    TestSchemaDependencyOk ext [(b! "name", .str (b! "John Doe")), (b! "billing_address", .str (b! "555 Debtor's Lane"))] := by
  refine ⟨fun h => ?_, ?_, ?_⟩
  · obtain ⟨⟨x, hx⟩, -⟩ := h.address ⟨_, .tail _ (.head _)⟩
    simp at hx
  · constructor <;> simp [Has, h1]
  · constructor <;> simp [Has]

/-! ## Constraints built from schemas -/

/-- C110: `TestNumberFromSchema` (number_test.go:13-37) for all bounds and defaults: the root that is built is the one the calls make. -/
theorem C110_number (lo hi : F64) (d : GoVal) (hd : d ≠ .nil) (fuel : Nat) (σ : Sched) :
    BuildWithCtx lib m resolve fuel σ (.mk { type := [.number], minimum := some lo, maximum := some hi, dflt := d }) =
      .ok ⟨.number (((Number'.Default d).Maximum hi).Minimum lo), []⟩ := by
  cases d with
  | nil => exact absurd rfl hd
  | _ => cases fuel <;> rfl

/-- C110: `TestStringFromSchema` (string_test.go:13-37) for all limits and defaults. -/
theorem C110_string (lo hi : Int) (d : GoVal) (hd : d ≠ .nil) (fuel : Nat) (σ : Sched) :
    BuildWithCtx lib m resolve fuel σ (.mk { type := [.string], minLength := some lo, maxLength := some hi, dflt := d }) =
      .ok ⟨.string (((String'.Default d).MaxLength hi).MinLength lo), []⟩ := by
  cases d with
  | nil => exact absurd rfl hd
  | _ => cases fuel <;> rfl

example : ∃ b, BuildWithCtx lib m resolve 1 sched0
    (.mk { type := [.string], minLength := some 5, maxLength := some 15, dflt := .str (b! "Hello, World!") }) = .ok b :=
  ⟨_, C110_string 5 15 _ (by simp) 1 sched0⟩

/-! ## Generated code -/

/-- Contains this text. -/
def hasText (sub : GoStr) : GoStr → Bool
  | [] => sub.isEmpty
  | c :: s => sub.isPrefixOf (c :: s) || hasText sub s

theorem hasText_split {sub : GoStr} : ∀ {s : GoStr}, hasText sub s = true → ∃ pre post, s = pre ++ sub ++ post
  | [], h => ⟨[], [], by simp only [hasText, List.isEmpty_iff] at h; simp [h]⟩
  | c :: s, h => by
    simp only [hasText, Bool.or_eq_true, List.isPrefixOf_iff_prefix] at h
    rcases h with ⟨post, h⟩ | h
    · exact ⟨[], post, h.symm⟩
    · obtain ⟨pre, post, rfl⟩ := hasText_split h
      exact ⟨c :: pre, post, rfl⟩

/-- Builder and generator on the schema, in one order. -/
def testArrayText (lib : SchemaLib) (isPrint : Nat → Bool) (m : Nat) (name : GoStr) : Option GoStr :=
  match BuildWithCtx lib m testArrayResolve 8 sched0 testArraySchema with
  | .error _ => none
  | .ok b =>
    match process isPrint [⟨name, b.table, some b.root, fun _ => false⟩] sched0 with
    | .error _ => none
    | .ok t => some t

set_option maxRecDepth 10000 in
theorem testArrayText_check (lib : SchemaLib) (isPrint : Nat → Bool) (m : Nat) :
    (testArrayText { lib with formats := knownFormats } (plainOr isPrint) m []).any
      (fun t => hasText (b! ".\nItems(") t && hasText (b! ".\nPositionalItems(") t) = true := by
  run_tac do (← Lean.Elab.Tactic.getMainGoal).assign (← Lean.Meta.mkEqRefl (Lean.mkConst ``true))

theorem testArray_keyed (formats : List GoStr) : KeyedAll formats testArrayResolve testArraySchema :=
  ⟨Schema.keyed_of_check _ (by decide), fun n s1 _ h => by
    unfold testArrayResolve at h
    split at h
    · cases h; exact Schema.keyed_of_check _ (by decide)
    · cases h⟩

/-- C110: `TestArrayItemsReference` (array_test.go:15-58): whatever the orders, there is code, and it has both calls. (The test looks for them
after `format.Source`, which puts a tab in front; here they stand at the beginning of a line.) -/
theorem C110_array (hfmt : lib.formats = knownFormats) {isPrint : Nat → Bool} (hpr : ∀ c, 0x20 ≤ c → c < 0x7f → isPrint c = true) :
    ∃ t, (∃ N, ∀ fuel, N ≤ fuel → ∀ σ, ∃ b, BuildWithCtx lib m testArrayResolve fuel σ testArraySchema = .ok b) ∧
      (∀ fuel σ b, BuildWithCtx lib m testArrayResolve fuel σ testArraySchema = .ok b → ∀ τ,
        process isPrint [⟨[], b.table, some b.root, fun _ => false⟩] τ = .ok t) ∧
      (∃ pre post, t = pre ++ b! ".\nItems(" ++ post) ∧ ∃ pre post, t = pre ++ b! ".\nPositionalItems(" ++ post := by
  have hlib : lib = { lib with formats := knownFormats } := by rw [← hfmt]
  have hprint : isPrint = plainOr isPrint := by
    funext c
    unfold plainOr
    split_ifs with h
    · simp only [Bool.and_eq_true, Nat.ble_eq, Nat.blt_eq] at h
      exact hpr c h.1 h.2
    · rfl
  have hcheck := testArrayText_check lib isPrint m
  rw [← hlib, ← hprint] at hcheck
  unfold testArrayText at hcheck
  rcases e1 : BuildWithCtx lib m testArrayResolve 8 sched0 testArraySchema with e | b
  · rw [e1] at hcheck; cases hcheck
  rw [e1] at hcheck
  simp only at hcheck
  rcases e2 : process isPrint [⟨[], b.table, some b.root, fun _ => false⟩] sched0 with e | t
  · rw [e2] at hcheck; cases hcheck
  rw [e2] at hcheck
  simp only [Option.any_some, Bool.and_eq_true] at hcheck
  exact ⟨t, C108_any_order e1, fun fuel σ b' h τ => by
    rw [← e2]
    exact C108_text (testArray_keyed _) h e1 (fun n n' h _ => by cases h) _ _ _ _, hasText_split hcheck.1, hasText_split hcheck.2⟩

example : ∃ t, (∃ pre post, t = pre ++ b! ".\nItems(" ++ post) ∧ ∃ fuel b, BuildWithCtx { lib0 with formats := knownFormats } m testArrayResolve fuel (turnAt 1)
    testArraySchema = .ok b ∧ process (fun c => decide (0x20 ≤ c ∧ c < 0x7f)) [⟨[], b.table, some b.root, fun _ => false⟩] (turnAt 2) = .ok t := by
  obtain ⟨t, ⟨N, hN⟩, h, h1, -⟩ := C110_array (lib := { lib0 with formats := knownFormats }) (m := m) rfl
    (isPrint := fun c => decide (0x20 ≤ c ∧ c < 0x7f)) (fun c h h' => decide_eq_true ⟨h, h'⟩)
  obtain ⟨b, hb⟩ := hN N (Nat.le_refl _) (turnAt 1)
  exact ⟨t, h1, N, b, hb, h _ _ _ hb _⟩

/-! ## Structs with a Maybe field -/

/-- The validator of the tests in maybe_test.go:28-68: the name is a string, with or without a default. -/
def testMaybeC (c : StrC) : ObjC Constraint := (Object'.AddProp (b! "name") (.string c)).AddProp (b! "age") (.integer Number')

/-- `TestMaybeStruct` (maybe_test.go:15-18). -/
def testMaybeStruct (valid : Bool) (s : GoStr) (age : Int) : List (Field × GoVal) :=
  [(fld (b! "Name") (b! "name"), .maybe valid (.str s)), (fld (b! "Age") (b! "age"), .int .int age)]

theorem testMaybe_flat (valid : Bool) (s : GoStr) (age : Int) : FlatStruct (testMaybeStruct valid s age) where
  noEmb p hp := by
    simp only [testMaybeStruct, List.mem_cons, List.not_mem_nil, or_false] at hp
    rcases hp with rfl | rfl <;> rfl
  goNames := by
    show [b! "Name", b! "Age"].Nodup
    decide
  jsonNames := by
    show [b! "name", b! "age"].Nodup
    decide

theorem testMaybe_merges (valid : Bool) (s : GoStr) (age : Int) : Merges (testMaybeStruct valid s age) where
  embeds := extract_isSome.1 ⟨_, rfl⟩
  goNames := by
    show [b! "Name", b! "Age"].Nodup
    decide
  jsonNames := by
    show [b! "name", b! "age"].Nodup
    decide

theorem testMaybe_child {d : Constraint} {c0 : Constraint} (h : ((Object'.AddProp (b! "name") c0).AddProp (b! "age") (.integer Number')).Child d) :
    d = c0 ∨ d = .integer Number' := by
  cases h with
  | prop h =>
    rw [show ((Object'.AddProp (b! "name") c0).AddProp (b! "age") (.integer Number')).props = [(b! "name", c0), (b! "age", .integer Number')] from rfl] at h
    simp only [List.mem_cons, Prod.mk.injEq, List.not_mem_nil, or_false] at h
    tauto
  | pattern h => cases h
  | additional h => cases h
  | dependency h => cases h

/-- Both fields are judged by their rules: the age is an integer, the name, if set, is a string. -/
theorem testMaybe_accepts {ρ : RefSem} (c0 : Constraint) (h0 : c0 = .string String' ∨ c0 = .empty) (valid : Bool) (s : GoStr) (age : Int) (τ : Sched) :
    (denote ext ρ (.object ((Object'.AddProp (b! "name") c0).AddProp (b! "age") (.integer Number')))).AcceptsBy τ
      (.ptr (some (.struct (testMaybeStruct valid s age)))) := by
  have hp : ((Object'.AddProp (b! "name") c0).AddProp (b! "age") (.integer Number')).props =
    [(b! "name", c0), (b! "age", .integer Number')] := rfl
  have hk : ∀ k x, (k, x) ∈ structProps (testMaybeStruct valid s age) → (k = b! "name" ∧ x = .str s) ∨ (k = b! "age" ∧ x = .int .int age) := by
    intro k x hx
    cases valid
    · rw [show structProps (testMaybeStruct false s age) = [(b! "age", .int .int age)] from rfl] at hx
      simp only [List.mem_cons, Prod.mk.injEq, List.not_mem_nil, or_false] at hx
      exact .inr hx
    · rw [show structProps (testMaybeStruct true s age) = [(b! "name", .str s), (b! "age", .int .int age)] from rfl] at hx
      simp only [List.mem_cons, Prod.mk.injEq, List.not_mem_nil, or_false] at hx
      exact hx
  have hr : ∀ k x, (k, x) ∈ structRaw (testMaybeStruct valid s age) → k = b! "name" ∨ k = b! "age" := by
    intro k x hx
    cases valid
    · rw [show structRaw (testMaybeStruct false s age) = [(b! "age", .int .int age)] from rfl] at hx
      simp only [List.mem_cons, Prod.mk.injEq, List.not_mem_nil, or_false] at hx
      exact .inr hx.1
    · rw [show structRaw (testMaybeStruct true s age) = [(b! "name", .maybe true (.str s)), (b! "age", .int .int age)] from rfl] at hx
      simp only [List.mem_cons, Prod.mk.injEq, List.not_mem_nil, or_false] at hx
      tauto
  have hdecl : ∀ k, k = b! "name" ∨ k = b! "age" → ((Object'.AddProp (b! "name") c0).AddProp (b! "age") (.integer Number')).Declares k := by
    rintro k (rfl | rfl)
    · exact ⟨_, by rw [hp]; exact .head _⟩
    · exact ⟨_, by rw [hp]; exact .tail _ (.head _)⟩
  refine (C34_exact ext ρ τ _ ⟨by rw [hp]; show [b! "name", b! "age"].Nodup; decide⟩ (.ptrStruct _ (testMaybe_flat valid s age)) (fun c hc x σ => ?_)
    (fun c hc x => ?_) (fun p c hpc _ => ?_) (fun _ _ _ p h => by cases h)).2 ?_
  · rcases testMaybe_child hc with rfl | rfl
    · rcases h0 with rfl | rfl <;> rfl
    · rfl
  · rcases testMaybe_child hc with rfl | rfl
    · rcases h0 with rfl | rfl
      · exact det_string x
      · exact fun _ _ => Iff.rfl
    · exact fun τ τ' => (C18_integer_exact ext _ τ _ x).trans (C18_integer_exact ext _ τ' _ x).symm
  · rcases testMaybe_child (.prop hpc) with rfl | rfl
    · rcases h0 with rfl | rfl <;> rfl
    · rfl
  · refine ⟨⟨fun (h : (0 : Int) ≤ -1) => absurd h (by decide), fun (h : (0 : Int) ≤ -1) => absurd h (by decide)⟩, fun p c x hpc hx τ' => ?_, fun p hp => (by cases hp),
      fun k x hx hnot => absurd (hdecl k (hr k x hx)) hnot, fun k x hx hnot => absurd (hdecl k (hr k x hx)) hnot,
      fun k hk _ d hdp => (by cases hdp), fun k _ _ _ c hc => (by cases hc)⟩
    rw [hp] at hpc
    simp only [List.mem_cons, Prod.mk.injEq, List.not_mem_nil, or_false] at hpc
    rcases hpc with ⟨rfl, rfl⟩ | ⟨rfl, rfl⟩
    · rcases hk _ x hx with ⟨-, rfl⟩ | ⟨h, -⟩
      · rcases h0 with rfl | rfl
        · exact (C10_string_exact ext ρ τ' _ _).2 ⟨s, .self _ (fun p h => by cases h) (fun y h => by cases h), strOk_any s⟩
        · rfl
      · exact absurd h (by decide)
    · rcases hk _ x hx with ⟨h, -⟩ | ⟨-, rfl⟩
      · exact absurd h (by decide)
      · exact (C18_integer_exact ext ρ τ' _ _).2 ⟨_, _, .self _ (fun p h => by cases h) (fun y h => by cases h), .int .int age,
          fun _ h => (by cases h), fun _ h => (by cases h), fun _ h => (by cases h), fun _ h => (by cases h), fun _ h => (by cases h),
          fun _ h => by cases h⟩

theorem testMaybe_same {ρ : RefSem} (c0 : Constraint) (h0 : c0 = .string String' ∨ c0 = .empty) (τ : Sched) (v : GoVal) :
    ((denote ext ρ (.object ((Object'.AddProp (b! "name") c0).AddProp (b! "age") (.integer Number')))).val τ v).2 = v := by
  rw [denote_object]
  refine objectV_same (fun d hd x σ => ?_) (fun p d hpd => ?_) τ v
  · obtain ⟨c, hc, rfl⟩ := (ObjC.map_child _ _).1 hd
    rcases testMaybe_child hc with rfl | rfl
    · rcases h0 with rfl | rfl <;> rfl
    · rfl
  · obtain ⟨c, hc, rfl⟩ := (ObjC.map_mem_props _ _).1 hpd
    rcases testMaybe_child (.prop hc) with rfl | rfl
    · rcases h0 with rfl | rfl <;> exact fun dv h => by cases h
    · exact fun dv h => by cases h

/-- C110: `TestMaybeString_Empty` and `TestMaybeString_Populated` (maybe_test.go:20-54): for all names, set or not, and all ages the struct is
accepted and left as it is, whatever the orders. -/
theorem C110_maybe {env : Env} (valid : Bool) (s : GoStr) (age : Int) (name : GoStr) (k : Nat) (τ : Sched) :
    JSVal.validate ext env k ⟨name, some (.object (testMaybeC String'))⟩ τ (.ptr (some (.struct (testMaybeStruct valid s age)))) =
      (.ok, .ptr (some (.struct (testMaybeStruct valid s age)))) := by
  have h := testMaybe_accepts (ext := ext) (ρ := refSem ext env k) (.string String') (.inl rfl) valid s age τ
  have hro := testMaybe_same (ext := ext) (ρ := refSem ext env k) (.string String') (.inl rfl) τ (.ptr (some (.struct (testMaybeStruct valid s age))))
  unfold Sem.AcceptsBy at h
  rcases e : (denote ext (refSem ext env k) (.object ((Object'.AddProp (b! "name") (.string String')).AddProp (b! "age") (.integer Number')))).val τ
    (.ptr (some (.struct (testMaybeStruct valid s age)))) with ⟨r, v⟩
  rw [e] at h hro
  simp only at h hro
  subst h hro
  simp only [JSVal.validate, sem, testMaybeC, e]

/-- C110: `TestMaybeString_EmptyDefault` (maybe_test.go:56-76): for all defaults and ages the struct is accepted, and afterwards the name is
set to the default and the age is what it was. -/
theorem C110_maybe_default {env : Env} (d s : GoStr) (age : Int) (name : GoStr) (k : Nat) (τ : Sched) :
    ∃ fs, JSVal.validate ext env k ⟨name, some (.object (testMaybeC (String'.Default (.str d))))⟩ τ
        (.ptr (some (.struct (testMaybeStruct false s age)))) = (.ok, .ptr (some (.struct fs))) ∧
      unembed fs = testMaybeStruct true d age := by
  have hd : (sem ext env k (.string (String'.Default (.str d)))).dflt = .some (.str d) := rfl
  have ha := testMaybe_accepts (ext := ext) (ρ := refSem ext env k) .empty (.inr rfl) false s age τ
  have hp : (testMaybeC (String'.Default (.str d))).props = [(b! "name", .string (String'.Default (.str d))), (b! "age", .integer Number')] := rfl
  obtain ⟨h1, h2⟩ := C60_by_pointer ext (refSem ext env k) τ (o := testMaybeC (String'.Default (.str d)))
    ⟨by rw [hp]; show [b! "name", b! "age"].Nodup; decide⟩ (testMaybe_merges false s age) rfl
    (p := b! "name") (c := .string (String'.Default (.str d))) (.head _) hd (f := fld (b! "Name") (b! "name")) (m := .str s) (.head _) rfl
    (y := .str d) (.conv _ _ _ (by constructor))
  have hsame := testMaybe_same (ext := ext) (ρ := refSem ext env k) .empty (.inr rfl) τ (.ptr (some (.struct (testMaybeStruct false s age))))
  have hadd : (testMaybeC (String'.Default (.str d))).AddProp (b! "name") .empty =
    (Object'.AddProp (b! "name") .empty).AddProp (b! "age") (.integer Number') := rfl
  rw [hadd] at h1 h2
  unfold Sem.AcceptsBy at ha h2
  rw [ha] at h1
  obtain ⟨fs1, fs2, m', e1, e2, -, e3, e4, e5⟩ := h2 h1
  rw [hsame] at e2
  cases e2
  refine ⟨fs1, ?_, ?_⟩
  · simp only [JSVal.validate, sem]
    rw [show (denote ext (refSem ext env k) (.object (testMaybeC (String'.Default (.str d))))).val τ
      (.ptr (some (.struct (testMaybeStruct false s age)))) = (.ok, .ptr (some (.struct fs1))) from Prod.ext h1 e1]
  · rw [e3]
    cases m' with
    | str d' =>
      cases e4
      rfl
    | _ => cases e5

end Jsval
