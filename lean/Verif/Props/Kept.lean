import Verif.Lemmas.KeepTwice
import Verif.Props.Decimals
/-!
# What generated code keeps (C113)

C70 says that generated code loses parts of constraints. Here: exactly which. The generated code behaves like `c.keep`.
-/
namespace Jsval
open Go
variable {isPrint : Nat → Bool}

theorem writable_noRefs {c : Constraint} (h : c.Every (Constraint.Spellable false)) (m : Nat) (S : GoStr → Prop) : c.Every (Constraint.RefsTo m S) := by
  intro d hd m' n he
  have := h d hd
  rw [he] at this
  simp [Constraint.Spellable] at this

/-- C113, for single constraints: the text written for a constraint without references is an expression, whose value
behaves like what is kept of the constraint. -/
theorem C113_kept (ext : Ext) {c : Constraint} (h : c.Every (Constraint.Spellable false)) (σ : Sched) (env : Env) :
    ∃ c', Generates isPrint c σ c' ∧ SameOutcomes ext env c.keep env c' := by
  obtain ⟨t, ht, hb⟩ := gen_keep (ρ := fun _ => none) (isPrint := isPrint) (cm := []) (refs := false) (m := 0) (by simp) c h σ
  obtain ⟨e, he, hv⟩ := hb.parseExpr
  exact ⟨rebuild 0 c.keep, ⟨t, e, ht, he, hv⟩,
    rebuild_returns (m0 := 0) (S := fun _ => False) (fun n hn => hn.elim) (fun n c hn => hn.elim) (keep_stays h) (keep_refsTo (writable_noRefs h _ _))⟩

/-- So code generation loses nothing of a constraint exactly if what is kept behaves like the whole. -/
theorem C113_survives_iff (ext : Ext) {c : Constraint} (h : c.Every (Constraint.Spellable false)) :
    Survives ext isPrint c ↔ ∀ env, SameOutcomes ext env c env c.keep := by
  constructor
  · intro hs env v r v'
    obtain ⟨c', hg, ho⟩ := hs sched0 env
    obtain ⟨c'', hg', ho'⟩ := C113_kept (isPrint := isPrint) ext h sched0 env
    obtain rfl := hg.unique hg'
    exact (ho' v r v').symm.trans (ho v r v')
  · intro hk σ env
    obtain ⟨c', hg, ho⟩ := C113_kept (isPrint := isPrint) ext h σ env
    exact ⟨c', hg, fun v r v' => (ho v r v').trans (hk env v r v')⟩

/-- C113, for `Process`: the text written for the validators is a program. It declares a variable for every validator and sets
it to a validator with this name, whose root does with every value what is kept of the root does, when what is kept of the
registered constraints is followed for references. -/
theorem C113_program {vals : List GenVal} (h : GenTogether (fun c => c.Every (Constraint.Spellable (hasRefs vals))) vals) (σ : Sched) :
    ∃ t p mem, process isPrint vals σ = .ok t ∧ parseProg t = some p ∧ p.run = some mem ∧
      ∀ (i : Nat) (v : GenVal) (x : GoStr), vals[i]? = some v → (valNames vals)[i]? = some x →
      ∃ c jv c', v.root = some c ∧ alookup x mem.vars = some (.jv jv) ∧ jv.name = x ∧ jv.root = some c' ∧
        ∀ (ext : Ext) (m : Nat) (env : Env), (∀ n, env m n = alookup n v.refs) →
          (∀ d, v.Has d → d.Every (Constraint.RefsTo m (fun n => firstRef n vals = alookup n v.refs))) →
          SameOutcomes ext env.keep c.keep mem.env c' := by
  obtain ⟨t, p, mem, h1, h2, _, h3, hs⟩ := process_setUpBy (isPrint := isPrint) carries_keep h σ
  refine ⟨t, p, mem, h1, h2, h3, ?_⟩
  intro i v x hv hx
  have hm := List.mem_of_getElem? hv
  obtain ⟨c, hc, hg⟩ := h.roots v hm
  refine ⟨c, _, _, hc, hs.roots i v c hv hc x hx, rfl, rfl, ?_⟩
  intro ext m env he hr
  refine rebuild_returns (m0 := m) (S := fun n => firstRef n vals = alookup n v.refs) ?_ ?_ (keep_stays hg) (keep_refsTo (hr c (.inl hc)))
  · intro n hn
    rw [hs.env, Env.keep, he, hn, Option.map_map]
    rfl
  · intro n d _ hd
    rw [Env.keep, he] at hd
    obtain ⟨e, h1, rfl⟩ := Option.map_eq_some_iff.1 hd
    exact ⟨keep_stays (h.refs v hm n e h1), keep_refsTo (hr e (.inr ⟨n, h1⟩))⟩

/-! ## Generating a second time -/

theorem keep_writable {refs : Bool} {c : Constraint} (h : c.Every (Constraint.Spellable refs)) (hi : c.Every (fun d => ∀ n, d = .integer n → n.dflt = none)) :
    c.keep.Every (Constraint.Spellable refs) := by
  refine every_keep (L := fun d => d.Spellable refs ∧ ∀ n, d = .integer n → n.dflt = none) trivial (fun c h => ?_) (fun d hd => ⟨h d hd, hi d hd⟩)
  obtain ⟨h, hi⟩ := h
  cases c with
  | string c =>
    obtain ⟨h1, h2, h3, h4⟩ := h
    refine ⟨h1, h2, fun l hl => ?_, h4⟩
    obtain ⟨l', hl', rfl⟩ := Option.map_eq_some_iff.1 hl
    refine ⟨by simpa using (h3 l' hl').1, fun v hv => ?_⟩
    obtain ⟨w, hw, rfl⟩ := List.mem_map.1 hv
    have := (h3 l' hl').2 w hw
    cases w <;> try exact absurd this id
    case str s => exact this
    case int k n => trivial
    case float k f => exact reread_finite this
  | number c =>
    obtain ⟨h1, h2, h3⟩ := h
    refine ⟨fun f hf => ?_, fun f hf => ?_, fun v hv => ?_⟩
    · obtain ⟨g, hg, rfl⟩ := Option.map_eq_some_iff.1 hf
      exact reread_finite (h1 g hg)
    · obtain ⟨g, hg, rfl⟩ := Option.map_eq_some_iff.1 hf
      exact reread_finite (h2 g hg)
    · obtain ⟨w, hw, rfl⟩ := Option.map_eq_some_iff.1 hv
      obtain ⟨k, f, rfl, hf⟩ := h3 w hw
      exact ⟨_, _, rfl, reread_finite hf⟩
  | integer c =>
    obtain ⟨h1, h2, h3⟩ := h
    refine ⟨fun f hf => ?_, fun f hf => ?_, fun v hv => ?_⟩
    · obtain ⟨g, hg, rfl⟩ := Option.map_eq_some_iff.1 hf
      exact trunc_finite (h1 g hg)
    · obtain ⟨g, hg, rfl⟩ := Option.map_eq_some_iff.1 hf
      exact trunc_finite (h2 g hg)
    · obtain ⟨w, hw, rfl⟩ := Option.map_eq_some_iff.1 hv
      rw [hi c rfl] at hw
      cases hw
  | array a => rw [keep_array]; exact True.intro
  | object o =>
    rw [keep_object]
    obtain ⟨h1, h3, h2, h4, h5, h6, h7⟩ := h
    refine ⟨by simpa [ObjC.keep, ObjC.map, Function.comp_def] using h1, h3, by simpa [ObjC.keep, ObjC.map, Function.comp_def] using h2,
      fun p hp => ?_, fun p hp => ?_, h6, h7⟩
    · obtain ⟨q, hq, rfl⟩ := List.mem_map.1 hp
      exact h4 q hq
    · obtain ⟨q, hq, rfl⟩ := List.mem_map.1 hp
      exact h5 q hq
  | any l =>
    by_cases hl : l = []
    · subst hl; exact True.intro
    · rw [keep_any hl]; exact True.intro
  | all l => rw [keep_all]; exact True.intro
  | oneOf l =>
    by_cases hl : l = []
    · subst hl; exact True.intro
    · rw [keep_oneOf hl]; exact True.intro
  | not c => exact h.elim
  | enum l => exact h.elim
  | empty => exact True.intro
  | null => exact True.intro
  | boolean => exact h
  | ref m n => exact h

/-- Code generated from what was generated loses nothing more, -/
theorem C113_stable (ext : Ext) {c : Constraint} (h : c.Every (Constraint.Spellable false))
    (hi : c.Every (fun d => ∀ n, d = .integer n → n.dflt = none)) : c.keep.keep = c.keep ∧ Survives ext isPrint c.keep := by
  have hk := keep_twice h
  refine ⟨hk, (C113_survives_iff ext (keep_writable h hi)).2 fun env v r v' => ?_⟩
  rw [hk]

/-- but there is none if an integer had a default: it has become an `int`, where the generator expects a `float64`. -/
theorem C113_again_panics {c : NumC} {f : F64} (hd : c.dflt = some (.float .f64 f)) (σ τ : Sched) :
    ∃ c', Generates isPrint (.integer c) σ c' ∧ gen isPrint [] c' τ = .error .panic := by
  obtain ⟨t, h1, hb⟩ := genInteger_keep (ρ := fun _ => none) (c := c) (fun v hv => ⟨f, by rw [hd] at hv; cases hv; rfl⟩)
  obtain ⟨t, h1, hb⟩ := emit_builds ⟨t, h1, hb⟩
  obtain ⟨e, he, hv⟩ := hb.parseExpr
  refine ⟨_, ⟨t, e, by rw [gen]; exact h1, he, hv⟩, ?_⟩
  rw [gen]
  have : genInteger c.keepInt = .error .panic := by
    unfold genInteger NumC.keepInt
    simp only [hd, Option.map_some]
  rw [this]
  rfl

/-! ## An example -/

/-- An object with at least two properties: a count, which must be positive and even, and a ratio above 0.00000125. Given a
ratio there must be a count as well. Nothing is accepted under names starting with `x`. -/
def keepEx : Constraint :=
  .object { Object' with
    props := [(b! "count", .integer { Number' with minimum := some (exF 5 1), multipleOf := some (F64.ofInt 2) }),
              (b! "ratio", .number { Number' with minimum := some (exF 125 8), exclMin := true })]
    patterns := [(0, b! "^x", .any [])]
    schemadeps := [(b! "ratio", .object { Object' with required := [b! "count"] })]
    minProps := 2 }

/-- Of this, the generated code keeps: the count is not negative, and the ratio is above 0.000001. -/
def keptEx : Constraint :=
  .object { Object' with
    props := [(b! "count", .integer { Number' with minimum := some (F64.ofInt 0) }),
              (b! "ratio", .number { Number' with minimum := some (exF 1 6), exclMin := true })]
    patterns := [(0, b! "^x", .empty)] }

theorem exF_finite {n k : Nat} (h : F64.nearest (n * F64.unit) (10 ^ k) < 2 ^ 1024 * F64.unit) : (exF n k).IsFinite :=
  ⟨_, _, rfl, nearest_mag (by positivity), h⟩

theorem keepEx_writable : keepEx.Every (Constraint.Spellable false) := by
  refine .intro ⟨by decide, by decide, by decide, by simp [Plain], by simp [Plain], by simp [Object'], by simp [Object']⟩ ?_
  intro d hd
  simp [keepEx, Constraint.kids, Object'] at hd
  rcases hd with rfl | rfl | rfl | rfl
  · refine .intro ⟨fun f hf => ?_, fun f hf => (by cases hf), fun v hv => (by cases hv)⟩ (by simp [Constraint.kids])
    cases hf
    exact exF_finite (by decide +kernel)
  · refine .intro ⟨fun f hf => ?_, fun f hf => (by cases hf), fun v hv => (by cases hv)⟩ (by simp [Constraint.kids])
    cases hf
    exact exF_finite (by decide +kernel)
  · exact .intro trivial (by simp [Constraint.kids])
  · refine .intro ⟨by decide, by decide, by decide, by simp [Plain], by simp [Plain], by simp [Plain], by simp [Plain]⟩ (by simp [Constraint.kids])

theorem keepEx_keep : keepEx.keep = keptEx := by
  have h1 : F64.ofInt (exF 5 1).truncInt = F64.ofInt 0 := by decide +kernel
  have h2 : (exF 125 8).reread = exF 1 6 := by decide +kernel
  simp [keepEx, keptEx, Constraint.keep, keepProps, keepPats, keepOpt, ObjC.keep, NumC.keepInt, NumC.keepNum, Number', Object', h1, h2]

example (ext : Ext) (σ : Sched) (env : Env) : ∃ c', Generates isPrint keepEx σ c' ∧ SameOutcomes ext env keptEx env c' := by
  have := C113_kept (isPrint := isPrint) ext keepEx_writable σ env
  rwa [keepEx_keep] at this

/-- So code generation does lose something of this constraint: an empty object is accepted. -/
example (ext : Ext) : ¬ Survives ext isPrint keepEx := fun h => by
  have h1 := (C113_survives_iff ext keepEx_writable).1 h noMaps (.map false []) .ok (.map false [])
  rw [keepEx_keep] at h1
  obtain ⟨σ, _, fuel, h⟩ := h1.1 ⟨sched0, by simp, 0, by with_unfolding_all rfl⟩
  have := congrArg Prod.fst h
  cases this

/-- What is kept survives. -/
example (ext : Ext) : Survives ext isPrint keptEx := by
  have h := (C113_stable (isPrint := isPrint) ext keepEx_writable (.intro (by rintro n ⟨⟩) fun d hd => ?_)).2
  · rwa [keepEx_keep] at h
  · simp [keepEx, Constraint.kids, Object'] at hd
    rcases hd with rfl | rfl | rfl | rfl <;> exact .intro (by rintro n ⟨⟩; try rfl) (by simp [Constraint.kids])

/-- A validator for arrays of such objects, which are registered under a name. -/
def keepVals : List GenVal :=
  [{ name := b! "All", refs := [(b! "#/e", keepEx)], same := fun _ => false
     root := some (.array { Array' with items := some (.ref 0 (b! "#/e")), positional := [.oneOf []] }) }]

theorem keepVals_together : GenTogether (fun c => c.Every (Constraint.Spellable (hasRefs keepVals))) keepVals := by
  have hw : ∀ c : Constraint, c.Spellable false → c.Spellable true := fun c h => by
    cases c <;> first | exact h | (exfalso; simp [Constraint.Spellable] at h)
  refine ⟨by decide, ?_, by decide, by decide, ?_, ?_, ?_⟩
  · intro x hx
    simp only [keepVals, valNames, List.mapIdx_cons, List.mapIdx_nil, List.mem_cons, List.not_mem_nil, or_false] at hx
    subst hx
    exact ⟨⟨_, _, rfl, by decide⟩, by decide, by decide⟩
  · intro v hv
    simp only [keepVals, List.mem_cons, List.not_mem_nil, or_false] at hv
    subst hv
    refine ⟨_, rfl, .intro trivial ?_⟩
    intro d hd
    simp [Constraint.kids, Array'] at hd
    rcases hd with rfl | rfl | rfl
    · exact .intro ⟨rfl, by simp [Plain]⟩ (by simp [Constraint.kids])
    · exact .intro trivial (by simp [Constraint.kids])
    · exact .intro trivial (by simp [Constraint.kids])
  · intro v hv n c hc
    simp only [keepVals, List.mem_cons, List.not_mem_nil, or_false] at hv
    subst hv
    simp only [alookup] at hc
    split_ifs at hc
    cases hc
    exact keepEx_writable.imp fun c h => hw c h
  · intro v hv n c _ h
    simp only [keepVals, List.mem_cons, List.not_mem_nil, or_false] at hv
    subst hv
    cases h

example (σ : Sched) : ∃ t p mem jv c', process isPrint keepVals σ = .ok t ∧ parseProg t = some p ∧ p.run = some mem ∧
    alookup (b! "All") mem.vars = some (.jv jv) ∧ jv.root = some c' ∧
    ∀ ext, SameOutcomes ext (fun _ n => if n = b! "#/e" then some keptEx else none)
      (.array { Array' with items := some (.ref 0 (b! "#/e")), positional := [.empty], additional := some .empty }) mem.env c' := by
  obtain ⟨t, p, mem, h1, h2, h3, h⟩ := C113_program (isPrint := isPrint) keepVals_together σ
  obtain ⟨c, jv, c', e1, e2, e3, e4, e5⟩ := h 0 _ (b! "All") rfl rfl
  cases e1
  refine ⟨t, p, mem, jv, c', h1, h2, h3, e2, e4, fun ext => ?_⟩
  have hR : ∀ d : Constraint, d.Every (Constraint.RefsTo 0 (fun n => firstRef n keepVals = alookup n [(b! "#/e", keepEx)])) ↔
      d.Every (fun d => ∀ m n, d = .ref m n → m = 0) := by
    intro d
    refine ⟨fun h => h.imp fun _ h m n e => (h m n e).1, fun h => h.imp fun _ h m n e => ⟨h m n e, ?_⟩⟩
    simp [firstRef, keepVals]
  have := e5 ext 0 (fun _ n => if n = b! "#/e" then some keepEx else none) (fun n => by simp [alookup, eq_comm]) ?_
  · have he : Env.keep (fun _ n => if n = b! "#/e" then some keepEx else none) = fun _ n => if n = b! "#/e" then some keptEx else none := by
      funext m n
      unfold Env.keep
      by_cases h : n = b! "#/e"
      · simp only [if_pos h, Option.map_some, keepEx_keep]
      · simp [h]
    rw [he] at this
    exact this
  · intro d hd
    refine (hR d).2 ?_
    rcases hd with hd | ⟨n, hn⟩
    · cases hd
      refine .intro (by rintro _ _ ⟨⟩) fun d hd => ?_
      simp [Constraint.kids, Array'] at hd
      rcases hd with rfl | rfl | rfl
      · exact .intro (by rintro _ _ ⟨⟩; rfl) (by simp [Constraint.kids])
      · exact .intro (by rintro _ _ ⟨⟩) (by simp [Constraint.kids])
      · exact .intro (by rintro _ _ ⟨⟩) (by simp [Constraint.kids])
    · simp only [alookup] at hn
      split_ifs at hn
      cases hn
      exact (writable_noRefs keepEx_writable 0 (fun _ => False)).imp fun _ h m n e => (h m n e).1

/-- An integer with the default 1.5, which is 1 in the generated code. No code is generated from that. -/
example : ∃ c', Generates isPrint (.integer { Number' with dflt := some (.float .f64 (exF 15 1)) }) sched0 c' ∧ gen isPrint [] c' sched0 = .error .panic :=
  C113_again_panics rfl sched0 sched0

/-! ## Bounds -/

theorem number_outcomes {ext : Ext} {env : Env} {c c' : NumC} :
    SameOutcomes ext env (.number c) env (.number c') ↔ ∀ v, numCheck c' v = numCheck c v := by
  constructor
  · intro h v
    by_cases hr : numCheck c' v = .abort .diverge
    · by_contra hne
      obtain ⟨σ, _, fuel, h⟩ := (h v (numCheck c v) v).2 ⟨sched0, fun h => hne (hr.trans h.symm), 0, rfl⟩
      exact hne (congrArg Prod.fst h)
    · obtain ⟨σ, _, fuel, h⟩ := (h v (numCheck c' v) v).1 ⟨sched0, hr, 0, rfl⟩
      exact (congrArg Prod.fst h).symm
  · intro h v r v'
    constructor
    · rintro ⟨σ, h0, fuel, hr⟩
      exact ⟨σ, h0, fuel, by rw [← hr]; show (numCheck c v, v) = (numCheck c' v, v); rw [h]⟩
    · rintro ⟨σ, h0, fuel, hr⟩
      exact ⟨σ, h0, fuel, by rw [← hr]; show (numCheck c' v, v) = (numCheck c v, v); rw [h]⟩

theorem integer_outcomes {ext : Ext} {env : Env} {c c' : NumC} :
    SameOutcomes ext env (.integer c) env (.integer c') ↔ ∀ v, intCheck c' v = intCheck c v := by
  constructor
  · intro h v
    by_cases hr : intCheck c' v = .abort .diverge
    · by_contra hne
      obtain ⟨σ, _, fuel, h⟩ := (h v (intCheck c v) v).2 ⟨sched0, fun h => hne (hr.trans h.symm), 0, rfl⟩
      exact hne (congrArg Prod.fst h)
    · obtain ⟨σ, _, fuel, h⟩ := (h v (intCheck c' v) v).1 ⟨sched0, hr, 0, rfl⟩
      exact (congrArg Prod.fst h).symm
  · intro h v r v'
    constructor
    · rintro ⟨σ, h0, fuel, hr⟩
      exact ⟨σ, h0, fuel, by rw [← hr]; show (intCheck c v, v) = (intCheck c' v, v); rw [h]⟩
    · rintro ⟨σ, h0, fuel, hr⟩
      exact ⟨σ, h0, fuel, by rw [← hr]; show (intCheck c' v, v) = (intCheck c v, v); rw [h]⟩

theorem numCheck_minimum (f x : F64) : numCheckF { Number' with minimum := some f } x = if F64.lt x f then .err .belowMin else .ok := by
  unfold numCheckF minCheck maxCheck multCheck enumOptCheck
  simp only [Number', Bool.false_eq_true, if_false]
  split <;> rfl

theorem numCheck_maximum (f x : F64) : numCheckF { Number' with maximum := some f } x = if F64.lt f x then .err .aboveMax else .ok := by
  unfold numCheckF minCheck maxCheck multCheck enumOptCheck
  simp only [Number', Bool.false_eq_true, if_false]
  split <;> rfl

theorem lt_self (g : F64) : F64.lt g g = false := by
  cases g with
  | nan => rfl
  | inf n => cases n <;> rfl
  | fin n m => simp [F64.lt]

/-- A lower bound of a number survives exactly if rounding it to six decimals does not move it. -/
theorem C113_number_minimum_iff (ext : Ext) {f : F64} (hf : f.IsFinite) :
    Survives ext isPrint (.number { Number' with minimum := some f }) ↔ F64.eq f.reread f = true := by
  have hw : (Constraint.number { Number' with minimum := some f }).Every (Constraint.Spellable false) :=
    every_leaf ⟨fun g hg => (by cases hg; exact hf), fun g hg => (by cases hg), fun v hv => (by cases hv)⟩ (by rintro d ⟨⟩)
  have hk : (Constraint.number { Number' with minimum := some f }).keep = .number { Number' with minimum := some f.reread } := by
    simp [Constraint.keep, NumC.keepNum, Number']
  rw [C113_survives_iff ext hw, hk]
  simp only [number_outcomes]
  obtain ⟨neg, m, rfl, hm, hlt⟩ := hf
  obtain ⟨neg', x, hx⟩ : ∃ neg' x, (F64.fin neg m).reread = .fin neg' x := ⟨_, _, rfl⟩
  rw [hx]
  simp only [F64.eq, decide_eq_true_eq]
  constructor
  · intro h
    have h1 := h noMaps (.float .f64 (.fin neg m))
    have h2 := h noMaps (.float .f64 (.fin neg' x))
    change numCheckF _ _ = numCheckF _ _ at h1 h2
    rw [numCheck_minimum, numCheck_minimum, lt_self] at h1 h2
    simp only [F64.lt, decide_eq_true_eq, Bool.false_eq_true, if_false] at h1 h2
    split_ifs at h1 h2
    omega
  · intro h env v
    unfold numCheck
    split
    · rw [numCheck_minimum, numCheck_minimum]
      have : ∀ y, F64.lt y (.fin neg' x) = F64.lt y (.fin neg m) := by
        intro y
        cases y with
        | nan => rfl
        | inf n => cases n <;> rfl
        | fin n k => simp only [F64.lt, h]
      rw [this]
    · rfl

/-- What an integer constraint compares with its bounds is whole, or infinite. -/
theorem intCheck_congr {c c' : NumC} (h : ∀ x : F64, x.Whole → numCheckF c' x = numCheckF c x) (v : GoVal) : intCheck c' v = intCheck c v := by
  have hi : ∀ n : Int, (F64.ofInt n).Whole := fun n => ⟨_, rfl⟩
  unfold intCheck
  split
  · exact h _ (hi _)
  · exact h _ (hi _)
  · next f _ =>
    by_cases hf : F64.eq (F64.floor f) f = true
    · simp only [hf, Bool.not_true, Bool.false_eq_true, if_false]
      exact h _ ((F64.floor_eq_iff f).1 hf)
    · simp [hf]
  · rfl

/-- A single bound of an integer survives exactly if cutting off its fraction does not change how it compares with whole numbers. -/
theorem integer_bound_iff (ext : Ext) (c : F64 → NumC) (R : F64 → F64 → Bool) (e : Err) (hc : ∀ f x, numCheckF (c f) x = if R x f then .err e else .ok)
    (hk : ∀ f, (c f).keepInt = c (F64.ofInt f.truncInt)) (hw : ∀ f, f.IsFinite → (Constraint.integer (c f)).Spellable false) {f : F64} (hf : f.IsFinite) :
    Survives ext isPrint (.integer (c f)) ↔ ∀ x : F64, x.Whole → R x (F64.ofInt f.truncInt) = R x f := by
  rw [C113_survives_iff ext (every_leaf (hw f hf) (by rintro d ⟨⟩)), Constraint.keep, hk]
  simp only [integer_outcomes]
  constructor
  · intro h x hx
    have h1 := h noMaps (.float .f64 x)
    have he : ∀ c, intCheck c (.float .f64 x) = numCheckF c x := by
      intro c
      show (if !F64.eq (F64.floor x) x then _ else _) = _
      rw [(F64.floor_eq_iff x).2 hx]
      rfl
    rw [he, he, hc, hc] at h1
    revert h1
    cases R x (F64.ofInt f.truncInt) <;> cases R x f <;> simp
  · intro h env v
    exact intCheck_congr (fun x hx => by rw [hc, hc, h x hx]) v

/-- Comparing a whole number with a number, and with its whole part. -/
theorem whole_compare {neg : Bool} {m u : Nat} (hu : 0 < u) (k : Int) :
    ((neg = true ∨ u ∣ m) → (k * u < F64.signed neg (m / u * u) ↔ k * u < F64.signed neg m)) ∧
    ((neg = false ∨ u ∣ m) → (F64.signed neg (m / u * u) < k * u ↔ F64.signed neg m < k * u)) := by
  have hd : u ∣ m → m / u * u = m := Nat.div_mul_cancel
  have h1 := Nat.div_mul_le_self m u
  have h2 : m < (m / u + 1) * u := by
    have := Nat.lt_mul_div_succ m hu
    rwa [Nat.mul_comm] at this
  generalize m / u = q at *
  have h1' : (q : Int) * u ≤ m := by exact_mod_cast h1
  have h2' : (m : Int) < (q + 1) * u := by exact_mod_cast h2
  have hu' : (0 : Int) < u := by exact_mod_cast hu
  constructor
  · rintro (rfl | h)
    · simp only [F64.signed, if_true]
      push_cast
      constructor
      · intro h
        have : k < -q := by
          by_contra hn
          have : -(q : Int) * u ≤ k * u := Int.mul_le_mul_of_nonneg_right (by omega) hu'.le
          rw [Int.neg_mul] at this
          omega
        have h3 : k * u ≤ -(q + 1 : Int) * u := Int.mul_le_mul_of_nonneg_right (by omega) hu'.le
        rw [Int.neg_mul] at h3
        omega
      · intro h; omega
    · rw [hd h]
  · rintro (rfl | h)
    · simp only [F64.signed, Bool.false_eq_true, if_false]
      push_cast
      constructor
      · intro h
        have : (q : Int) < k := by
          by_contra hn
          have : k * u ≤ (q : Int) * u := Int.mul_le_mul_of_nonneg_right (by omega) hu'.le
          omega
        have h3 : (q + 1 : Int) * u ≤ k * u := Int.mul_le_mul_of_nonneg_right (by omega) hu'.le
        omega
      · intro h; omega
    · rw [hd h]

theorem signed_mul (n : Bool) (j u : Nat) : F64.signed n (j * u) = F64.signed n j * u := by
  unfold F64.signed
  cases n <;> simp

theorem le_fin (n n' : Bool) (m m' : Nat) : F64.le (.fin n m) (.fin n' m') = !F64.lt (.fin n' m') (.fin n m) := by
  unfold F64.le F64.lt F64.eq
  rw [Bool.eq_iff_iff]
  simp
  omega

/-- The whole part compares like the number exactly in these cases. -/
theorem trunc_compare {neg : Bool} {m : Nat} (hm : F64.Mag m) (hlt : m < 2 ^ 63 * F64.unit) :
    ((∀ x : F64, x.Whole → F64.lt x (F64.ofInt (F64.truncInt (.fin neg m))) = F64.lt x (.fin neg m)) ↔ neg = true ∨ F64.unit ∣ m) ∧
    ((∀ x : F64, x.Whole → F64.lt (F64.ofInt (F64.truncInt (.fin neg m))) x = F64.lt (.fin neg m) x) ↔ neg = false ∨ F64.unit ∣ m) ∧
    ((∀ x : F64, x.Whole → F64.le x (F64.ofInt (F64.truncInt (.fin neg m))) = F64.le x (.fin neg m)) ↔ neg = false ∨ F64.unit ∣ m) ∧
    ((∀ x : F64, x.Whole → F64.le (F64.ofInt (F64.truncInt (.fin neg m))) x = F64.le (.fin neg m) x) ↔ neg = true ∨ F64.unit ∣ m) := by
  rw [truncInt_fin hlt, ofInt_signed hm]
  have hs : F64.signed (neg && decide (m / F64.unit ≠ 0)) (m / F64.unit * F64.unit) = F64.signed neg (m / F64.unit * F64.unit) := by
    unfold F64.signed
    by_cases h0 : m / F64.unit = 0
    · simp [h0]
    · cases neg <;> simp [h0]
  have hfrac : ¬ F64.unit ∣ m → m / F64.unit * F64.unit < m := fun h => by
    refine lt_of_le_of_ne (Nat.div_mul_le_self _ _) fun he => h ⟨_, by rw [mul_comm]; exact he.symm⟩
  generalize (neg && decide (m / F64.unit ≠ 0)) = n' at *
  have hA : (∀ x : F64, x.Whole → F64.lt x (.fin n' (m / F64.unit * F64.unit)) = F64.lt x (.fin neg m)) ↔ neg = true ∨ F64.unit ∣ m := by
    constructor
    · intro h
      by_contra hn
      simp only [not_or, Bool.not_eq_true] at hn
      obtain ⟨rfl, hd⟩ := hn
      have := h (.fin n' (m / F64.unit * F64.unit)) ⟨_, rfl⟩
      rw [lt_self] at this
      simp only [F64.lt, hs] at this
      simp only [F64.signed, Bool.false_eq_true, if_false] at this
      have h3 := hfrac hd
      refine absurd this.symm ?_
      rw [decide_eq_false_iff_not, not_not]
      exact_mod_cast h3
    · intro h x hx
      cases x with
      | nan => rfl
      | inf n => cases n <;> rfl
      | fin n k =>
        obtain ⟨j, rfl⟩ := hx
        simp only [F64.lt, hs, decide_eq_decide, signed_mul n j]
        exact (whole_compare unit_pos _).1 h
  have hB : (∀ x : F64, x.Whole → F64.lt (.fin n' (m / F64.unit * F64.unit)) x = F64.lt (.fin neg m) x) ↔ neg = false ∨ F64.unit ∣ m := by
    constructor
    · intro h
      by_contra hn
      simp only [not_or, Bool.not_eq_false] at hn
      obtain ⟨rfl, hd⟩ := hn
      have := h (.fin n' (m / F64.unit * F64.unit)) ⟨_, rfl⟩
      rw [lt_self] at this
      simp only [F64.lt, hs] at this
      simp only [F64.signed, if_true] at this
      have h3 := hfrac hd
      refine absurd this.symm ?_
      rw [decide_eq_false_iff_not, not_not]
      rw [neg_lt_neg_iff]
      exact_mod_cast h3
    · intro h x hx
      cases x with
      | nan => rfl
      | inf n => cases n <;> rfl
      | fin n k =>
        obtain ⟨j, rfl⟩ := hx
        simp only [F64.lt, hs, decide_eq_decide, signed_mul n j]
        exact (whole_compare unit_pos _).2 h
  refine ⟨hA, hB, Iff.trans (forall_congr' fun x => imp_congr_right fun hx => ?_) hB, Iff.trans (forall_congr' fun x => imp_congr_right fun hx => ?_) hA⟩
  · cases x with
    | nan => simp [F64.le, F64.lt, F64.eq]
    | inf n => cases n <;> simp [F64.le, F64.lt, F64.eq]
    | fin n k => rw [le_fin, le_fin]; cases F64.lt (.fin n' _) (.fin n k) <;> cases F64.lt (.fin neg m) (.fin n k) <;> simp
  · cases x with
    | nan => simp [F64.le, F64.lt, F64.eq]
    | inf n => cases n <;> simp [F64.le, F64.lt, F64.eq]
    | fin n k => rw [le_fin, le_fin]; cases F64.lt (.fin n k) (.fin n' _) <;> cases F64.lt (.fin n k) (.fin neg m) <;> simp

/-- A lower bound of an integer (within 64 bits) survives exactly if it is whole or, provided it is not exclusive, negative, or,
provided it is exclusive, not negative: the fraction is cut off. -/
theorem C113_integer_minimum_iff (ext : Ext) {neg : Bool} {m : Nat} (hm : F64.Mag m) (hlt : m < 2 ^ 63 * F64.unit) (excl : Bool) :
    Survives ext isPrint (.integer { Number' with minimum := some (.fin neg m), exclMin := excl }) ↔ neg = !excl ∨ F64.unit ∣ m := by
  have hf : (F64.fin neg m).IsFinite := ⟨_, _, rfl, hm, lt_of_lt_of_le hlt (Nat.mul_le_mul_right _ (Nat.pow_le_pow_right (by norm_num) (by norm_num)))⟩
  obtain ⟨h1, h2, h3, h4⟩ := trunc_compare (neg := neg) hm hlt
  cases excl
  · refine (integer_bound_iff ext (fun f => { Number' with minimum := some f }) F64.lt .belowMin numCheck_minimum (fun f => rfl)
      (fun f hf => ⟨fun g hg => (by cases hg; exact hf), fun g hg => (by cases hg), fun v hv => (by cases hv)⟩) hf).trans h1
  · refine (integer_bound_iff ext (fun f => { Number' with minimum := some f, exclMin := true }) F64.le .belowMinExcl (fun f x => ?_) (fun f => rfl)
      (fun f hf => ⟨fun g hg => (by cases hg; exact hf), fun g hg => (by cases hg), fun v hv => (by cases hv)⟩) hf).trans h3
    unfold numCheckF minCheck maxCheck multCheck enumOptCheck
    simp only [Number', if_true]
    split <;> rfl

/-- An upper bound survives exactly if it is whole or, provided it is not exclusive, not negative, or, provided it is exclusive, negative. -/
theorem C113_integer_maximum_iff (ext : Ext) {neg : Bool} {m : Nat} (hm : F64.Mag m) (hlt : m < 2 ^ 63 * F64.unit) (excl : Bool) :
    Survives ext isPrint (.integer { Number' with maximum := some (.fin neg m), exclMax := excl }) ↔ neg = excl ∨ F64.unit ∣ m := by
  have hf : (F64.fin neg m).IsFinite := ⟨_, _, rfl, hm, lt_of_lt_of_le hlt (Nat.mul_le_mul_right _ (Nat.pow_le_pow_right (by norm_num) (by norm_num)))⟩
  obtain ⟨h1, h2, h3, h4⟩ := trunc_compare (neg := neg) hm hlt
  cases excl
  · refine (integer_bound_iff ext (fun f => { Number' with maximum := some f }) (fun x f => F64.lt f x) .aboveMax numCheck_maximum (fun f => rfl)
      (fun f hf => ⟨fun g hg => (by cases hg), fun g hg => (by cases hg; exact hf), fun v hv => (by cases hv)⟩) hf).trans h2
  · refine (integer_bound_iff ext (fun f => { Number' with maximum := some f, exclMax := true }) (fun x f => F64.le f x) .aboveMaxExcl (fun f x => ?_) (fun f => rfl)
      (fun f hf => ⟨fun g hg => (by cases hg), fun g hg => (by cases hg; exact hf), fun v hv => (by cases hv)⟩) hf).trans h4
    unfold numCheckF minCheck maxCheck multCheck enumOptCheck
    simp only [Number', if_true]
    split <;> rfl

/-- 1.5 as lower bound of integers becomes 1, which accepts more. As exclusive lower bound it means the same as 1. -/
example (ext : Ext) : ¬ Survives ext isPrint (.integer { Number' with minimum := some (exF 15 1) }) ∧
    Survives ext isPrint (.integer { Number' with minimum := some (exF 15 1), exclMin := true }) := by
  have hm : F64.Mag (F64.nearest (15 * F64.unit) (10 ^ 1)) := nearest_mag (by norm_num)
  have hl : F64.nearest (15 * F64.unit) (10 ^ 1) < 2 ^ 63 * F64.unit := by decide +kernel
  refine ⟨fun h => ?_, (C113_integer_minimum_iff ext hm hl true).2 (.inl rfl)⟩
  rcases (C113_integer_minimum_iff ext hm hl false).1 h with h | h
  · cases h
  · revert h; decide +kernel

/-- The bound -0.0000001 of numbers becomes 0; 10^10 + 2^-19 is kept, though it has more than six decimals. -/
example (ext : Ext) : ¬ Survives ext isPrint (.number { Number' with minimum := some (.fin true (F64.nearest F64.unit (10 ^ 7))) }) ∧
    Survives ext isPrint (.number { Number' with minimum := some (.fin false (10 ^ 10 * F64.unit + 2 ^ 1055)) }) := by
  have e : (10 : Nat) ^ 10 * F64.unit + 2 ^ 1055 = 5242880000000001 * 2 ^ 1055 := by decide +kernel
  constructor
  · intro h
    have := (C113_number_minimum_iff ext ⟨_, _, rfl, nearest_mag (by norm_num), by decide +kernel⟩).1 h
    revert this; decide +kernel
  · refine (C113_number_minimum_iff ext ⟨_, _, rfl, ⟨5242880000000001, 1055, by norm_num, e⟩, by decide +kernel⟩).2 (by decide +kernel)

end Jsval
