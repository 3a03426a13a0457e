import Verif.Lemmas.GenMain
import Verif.Lemmas.GenNames
import Verif.Lemmas.Percent
import Verif.Props.Objects
import Verif.Props.Defaults
/-!
# The code generator (C68-C72)
-/
namespace Jsval
open Go
variable {isPrint : Nat → Bool}

/-! ## Examples used below -/

/-- A list node: an object with an integer `id` and a `next` node, found by reference. -/
def genNode : Constraint :=
  .object { Object' with
    props := [(b! "next", .ref 0 (b! "#/node")), (b! "id", .integer { Number' with minimum := some (F64.ofInt 0) })]
    patterns := [(0, b! "^x-", .string String'), (1, b! "^y-", .number Number')]
    required := [b! "id"], additional := some (.boolean (some (.bool true)))
    propdeps := [(b! "next", [b! "id"])] }

/-- Two validators: one named, whose root refers to nodes, and one without name whose root is the registered node. -/
def exVals : List GenVal :=
  [{ name := b! "List", refs := [(b! "#/node", genNode)], same := fun _ => false
     root := some (.all [.array { Array' with items := some (.ref 0 (b! "#/node")), minItems := 1 }, .any [.empty, .null]]) },
   { name := [], refs := [(b! "#/node", genNode), (b! "#/text", .string { String' with maxLength := 8, enums := some [.str (b! "a")] })]
     same := fun n => decide (n = b! "#/node"), root := some genNode }]

/-! ## C68 -/

/-- The constraints `Process` writes out: roots and registered constraints. -/
def GenVal.Has (v : GenVal) (c : Constraint) : Prop := v.root = some c ∨ ∃ n, alookup n v.refs = some c

theorem firstRef_mem {vals : List GenVal} {n : GoStr} {c : Constraint} (h : firstRef n vals = some c) :
    ∃ v ∈ vals, alookup n v.refs = some c := by
  unfold firstRef at h
  exact List.exists_of_findSome?_eq_some h

/-- C68: `Process` writes the same text under every iteration order of the maps, if different patterns of an object have
different source texts and no root is registered under two names. -/
theorem C68_deterministic {vals : List GenVal} (ht : ∀ v ∈ vals, (v.refs.map (·.1)).Nodup)
    (hp : ∀ v ∈ vals, ∀ c, v.Has c → c.Every Constraint.DistinctPats)
    (hs : ∀ v ∈ vals, ∀ n n', v.same n = true → v.same n' = true → (firstRef n vals).isSome → (firstRef n' vals).isSome → n = n')
    (σ σ' : Sched) : process isPrint vals σ = process isPrint vals σ' := by
  have hperm := merged_perm ht (σ.sub 0) (σ'.sub 0)
  have hlk := fun k => (merged_lookup ht (σ.sub 0) k).trans (merged_lookup ht (σ'.sub 0) k).symm
  have hl := hperm.length_eq
  have hnames : sortStrings ((mergeAll (σ.sub 0) 0 vals []).map (·.1)) = sortStrings ((mergeAll (σ'.sub 0) 0 vals []).map (·.1)) :=
    sortStrings_congr (hperm.map _)
  unfold process
  simp only [hl, hnames]
  have hR : ∀ cm vars, genRefAssign isPrint cm (mergeAll (σ.sub 0) 0 vals []) (σ.sub 1) 0 vars =
      genRefAssign isPrint cm (mergeAll (σ'.sub 0) 0 vals []) (σ'.sub 1) 0 vars := fun cm vars =>
    genRefAssign_indep hlk (fun k c hc => by
      rw [merged_lookup ht] at hc
      obtain ⟨v, hv, hvc⟩ := firstRef_mem hc
      exact hp v hv c (.inr ⟨k, hvc⟩)) _ _ vars 0
  have hV : ∀ cm vars, genValAssign isPrint cm (mergeAll (σ.sub 0) 0 vals []) vars (σ.sub 2) 0 (sortVals (nameVals 0 vals)) =
      genValAssign isPrint cm (mergeAll (σ'.sub 0) 0 vals []) vars (σ'.sub 2) 0 (sortVals (nameVals 0 vals)) := fun cm vars =>
    genValAssign_indep hperm _ _ _ 0 (fun v hv => by
      rw [mem_sortVals] at hv
      obtain ⟨w, hw, _, e2, e3⟩ := mem_nameVals hv
      refine ⟨fun c hc => hp w hw c (.inl (e2 ▸ hc)), ?_⟩
      have hnd := mergeAll_nodup (σ.sub 0) vals 0 [] (by simp)
      intro r hr r' hr' h1 h2
      have a1 := alookup_of_mem hnd hr
      have a2 := alookup_of_mem hnd hr'
      have hn := hs w hw r.1 r'.1 (e3 ▸ h1) (e3 ▸ h2) (by rw [← merged_lookup ht (σ.sub 0), a1]; rfl)
        (by rw [← merged_lookup ht (σ.sub 0), a2]; rfl)
      rw [← hn, a1, Option.some.injEq] at a2
      exact Prod.ext hn a2)
  simp only [hR, hV]

theorem genNode_pats : genNode.Every Constraint.DistinctPats := by
  refine .intro (by show List.Nodup _; decide) ?_
  intro d hd
  simp [genNode, Constraint.kids, Object'] at hd
  rcases hd with rfl | rfl | rfl | rfl | rfl <;> exact .intro trivial (by simp [Constraint.kids])

example (σ σ' : Sched) : process isPrint exVals σ = process isPrint exVals σ' := by
  refine C68_deterministic (by decide) ?_ ?_ σ σ'
  · have hl : ∀ c : Constraint, c.kids = [] → c.DistinctPats → c.Every Constraint.DistinctPats :=
      fun c h1 h2 => .intro h2 (by simp [h1])
    intro v hv c hc
    simp only [exVals, List.mem_cons, List.not_mem_nil, or_false] at hv
    rcases hv with rfl | rfl
    · rcases hc with hc | ⟨n, hn⟩
      · cases hc
        refine .intro trivial ?_
        intro d hd
        simp only [Constraint.kids, List.mem_cons, List.not_mem_nil, or_false] at hd
        rcases hd with rfl | rfl
        · refine .intro trivial ?_
          intro d hd
          simp [Constraint.kids, Array'] at hd
          exact hl d (by rcases hd with rfl | rfl <;> rfl) (by rcases hd with rfl | rfl <;> trivial)
        · refine .intro trivial ?_
          intro d hd
          simp only [Constraint.kids, List.mem_cons, List.not_mem_nil, or_false] at hd
          exact hl d (by rcases hd with rfl | rfl <;> rfl) (by rcases hd with rfl | rfl <;> trivial)
      · simp only [alookup] at hn
        split_ifs at hn
        cases hn
        exact genNode_pats
    · rcases hc with hc | ⟨n, hn⟩
      · cases hc
        exact genNode_pats
      · simp only [alookup] at hn
        split_ifs at hn
        · cases hn; exact genNode_pats
        · cases hn
          exact hl _ rfl trivial
  · intro v hv n n' h1 h2 _ _
    simp only [exVals, List.mem_cons, List.not_mem_nil, or_false] at hv
    rcases hv with rfl | rfl
    · simp at h1
    · simp at h1 h2
      rw [h1, h2]

/-- The text contains this text. -/
def G.contains (g : G) (s : GoStr) : Bool :=
  match g with
  | .ok t => decide (s <:+: t)
  | .error _ => false

/-- An iteration order that turns the maps visited at depth `n` around. -/
def turnAt (n : Nat) : Sched := fun l => if l.length = n then 1 else 0

/-- A validator for anything whose root, `EmptyConstraint`, is also registered under two names. -/
def exAlias : List GenVal := [⟨b! "V", [(b! "a", .empty), (b! "b", .empty)], some .empty, fun _ => true⟩]

set_option maxRecDepth 100000 in
/-- The condition on aliases cannot be dropped: `EmptyConstraint` registered under two names, and used as root, is written
as one or the other variable. -/
theorem C68_alias_needed : (∀ v ∈ exAlias, (v.refs.map (·.1)).Nodup) ∧
    (∀ v ∈ exAlias, ∀ c, v.Has c → c.Every Constraint.DistinctPats) ∧
    ∃ σ σ', process isPrint exAlias σ ≠ process isPrint exAlias σ' := by
  refine ⟨by decide, ?_, sched0, turnAt 3, ?_⟩
  · intro v hv c hc
    simp only [exAlias, List.mem_singleton] at hv
    subst hv
    have : c = .empty := by
      rcases hc with hc | ⟨n, hn⟩
      · exact (Option.some.inj hc).symm
      · simp only [alookup] at hn
        split_ifs at hn
        · exact (Option.some.inj hn).symm
        · exact (Option.some.inj hn).symm
    subst this
    exact .intro trivial (by simp [Constraint.kids])
  · intro h
    have h1 : G.contains (process isPrint exAlias sched0) (b! "SetRoot(R0)") = true := by rfl
    have h2 : G.contains (process isPrint exAlias (turnAt 3)) (b! "SetRoot(R0)") = false := by rfl
    rw [h, h2] at h1
    cases h1

/-- Two patterns with the same source text. -/
def exTwice : Constraint := .object { Object' with patterns := [(0, b! "^a", .empty), (1, b! "^a", .null)] }

set_option maxRecDepth 100000 in
/-- The condition on patterns cannot be dropped: of two patterns with the same source text only the one visited last is
written (twice). -/
theorem C68_patterns_needed : ∃ σ σ', gen isPrint [] exTwice σ ≠ gen isPrint [] exTwice σ' := by
  refine ⟨sched0, turnAt 1, ?_⟩
  intro h
  have h1 : G.contains (gen isPrint [] exTwice sched0) (b! "Null") = true := by with_unfolding_all rfl
  have h2 : G.contains (gen isPrint [] exTwice (turnAt 1)) (b! "Null") = false := by with_unfolding_all rfl
  rw [h, h2] at h1
  cases h1

/-! ## C69 -/

/-- An expression of a generated text reads as an expression of its own. -/
theorem Builds.parseExpr {ρ : GoStr → Option Val} {t : GoStr} {v : Val} (h : Builds ρ t v) :
    ∃ e, Go.parseExpr t = some e ∧ eval ρ e = some v := by
  obtain ⟨ks, e, hl, ho, _, he⟩ := h.reads
  refine ⟨e, ?_, he⟩
  obtain ⟨h1, h2⟩ := hl [] false
  have hx : lex t = some (ks ++ [Tok.op 0x3B]) := by
    unfold lex
    rw [lexStep_settleE h1 (by decide), h2]
    simp [lexStep, lexNormal]
  unfold Go.parseExpr
  rw [hx]
  have hp : parseRun ⟨[], [], .want none []⟩ (ks ++ [Tok.op 0x3B]) = ⟨[], [.expr e], .body⟩ := by
    rw [parseRun_append, ho]
    rfl
  simp only [hp]

/-- A tree of the fragment without references has no references. -/
theorem noRefs {c : Constraint} (h : c.Every (Constraint.Gen false)) (m : Nat) (S : GoStr → Prop) : c.Every (Constraint.RefsTo m S) := by
  intro d hd m' n he
  have := h d hd
  rw [he] at this
  simp [Constraint.GenD] at this

/-- C69, for single constraints: the text written for a supported constraint without references is an expression, whose
value behaves like the constraint itself. -/
theorem C69_constraint (ext : Ext) {c : Constraint} (h : c.Every (Constraint.Gen false)) : Survives ext isPrint c := by
  intro σ env
  obtain ⟨t, ht, hb⟩ := gen_builds (ρ := fun _ => none) (isPrint := isPrint) (cm := []) (refs := false) (m := 0) (by simp) c h σ
  obtain ⟨e, he, hv⟩ := hb.parseExpr
  exact ⟨rebuild 0 c, ⟨t, e, ht, he, hv⟩,
    rebuild_returns (m0 := 0) (S := fun _ => False) (fun n hn => hn.elim) (fun n c hn => hn.elim) (h.imp fun _ => Constraint.Gen.stays) (noRefs h _ _)⟩

/-- C69, for `Process`: the text written for supported validators is a program. It declares a variable for every
validator and sets it to a validator with this name, whose root does with every value what the root of the original
does. References of a validator are followed in its own constraint map; what is registered under their names must not
differ from what the first validator having the name registered. -/
theorem C69_program {vals : List GenVal} (h : Supported vals) (σ : Sched) :
    ∃ t p mem, process isPrint vals σ = .ok t ∧ parseProg t = some p ∧ p.run = some mem ∧
      ∀ (i : Nat) (v : GenVal) (x : GoStr), vals[i]? = some v → (valNames vals)[i]? = some x →
      ∃ c jv c', v.root = some c ∧ alookup x mem.vars = some (.jv jv) ∧ jv.name = x ∧ jv.root = some c' ∧
        ∀ (ext : Ext) (m : Nat) (env : Env), (∀ n, env m n = alookup n v.refs) →
          (∀ d, v.Has d → d.Every (Constraint.RefsTo m (fun n => firstRef n vals = alookup n v.refs))) →
          SameOutcomes ext env c mem.env c' := by
  obtain ⟨t, p, mem, h1, h2, _, h3, hs⟩ := process_setUp (isPrint := isPrint) h σ
  refine ⟨t, p, mem, h1, h2, h3, ?_⟩
  intro i v x hv hx
  have hm := List.mem_of_getElem? hv
  obtain ⟨c, hc, hg⟩ := h.roots v hm
  refine ⟨c, _, _, hc, hs.roots i v c hv hc x hx, rfl, rfl, ?_⟩
  intro ext m env he hr
  refine rebuild_returns (m0 := m) (S := fun n => firstRef n vals = alookup n v.refs) ?_ ?_ (hg.imp fun _ => Constraint.Gen.stays) (hr c (.inl hc))
  · intro n hn
    rw [hs.env, he, hn]
  · intro n d _ hd
    rw [he] at hd
    exact ⟨(h.refs v hm n d hd).imp fun _ => Constraint.Gen.stays, hr d (.inr ⟨n, hd⟩)⟩

theorem genNode_gen : genNode.Every (Constraint.Gen true) := by
  refine .intro ⟨by decide, by decide, by decide, ?_, ?_, ?_, ?_, rfl, by decide, by decide⟩ ?_
  · simp [Plain]
  · simp [Plain]
  · simp [Plain]
  · simp [Plain]
  intro d hd
  simp [genNode, Constraint.kids, Object'] at hd
  rcases hd with rfl | rfl | rfl | rfl | rfl
  · exact .intro ⟨rfl, by simp [Plain]⟩ (by simp [Constraint.kids])
  · refine .intro ⟨?_, by simp [Number'], rfl, rfl, by simp [Number']⟩ (by simp [Constraint.kids])
    intro f hf
    cases hf
    show F64.ofInt _ = _
    decide +kernel
  · exact .intro ⟨by simp [Plain, String'], by simp [String'], by simp [String'], by simp [String']⟩ (by simp [Constraint.kids])
  · exact .intro ⟨by simp [Number'], by simp [Number'], rfl, rfl, by simp [Number']⟩ (by simp [Constraint.kids])
  · exact .intro (by intro v hv; cases hv; exact ⟨true, rfl⟩) (by simp [Constraint.kids])

theorem exVals_has {v : GenVal} (hv : v ∈ exVals) {d : Constraint} (hd : v.Has d) :
    d = genNode ∨ d = .all [.array { Array' with items := some (.ref 0 (b! "#/node")), minItems := 1 }, .any [.empty, .null]] ∨
    d = .string { String' with maxLength := 8, enums := some [.str (b! "a")] } := by
  simp only [exVals, List.mem_cons, List.not_mem_nil, or_false] at hv
  rcases hv with rfl | rfl
  · rcases hd with hd | ⟨n, hn⟩
    · cases hd; exact .inr (.inl rfl)
    · simp only [alookup] at hn
      split_ifs at hn
      cases hn; exact .inl rfl
  · rcases hd with hd | ⟨n, hn⟩
    · cases hd; exact .inl rfl
    · simp only [alookup] at hn
      split_ifs at hn
      · cases hn; exact .inl rfl
      · cases hn; exact .inr (.inr rfl)

theorem exVals_gen {v : GenVal} (hv : v ∈ exVals) {d : Constraint} (hd : v.Has d) : d.Every (Constraint.Gen true) := by
  rcases exVals_has hv hd with rfl | rfl | rfl
  · exact genNode_gen
  · refine .intro trivial ?_
    intro d hd
    simp only [Constraint.kids, List.mem_cons, List.not_mem_nil, or_false] at hd
    rcases hd with rfl | rfl
    · refine .intro (by simp [Constraint.GenD]) ?_
      intro d hd
      simp [Constraint.kids, Array'] at hd
      rcases hd with rfl | rfl
      · exact .intro ⟨rfl, by simp [Plain]⟩ (by simp [Constraint.kids])
      · exact .intro trivial (by simp [Constraint.kids])
    · refine .intro (by simp [Constraint.GenD]) ?_
      intro d hd
      simp only [Constraint.kids, List.mem_cons, List.not_mem_nil, or_false] at hd
      rcases hd with rfl | rfl <;> exact .intro trivial (by simp [Constraint.kids])
  · refine .intro ⟨by simp [Plain, String'], by simp [String'], ?_, by simp [String']⟩ (by simp [Constraint.kids])
    intro l hl
    cases hl
    exact ⟨by simp, by simp [EnumLit, Plain]⟩

theorem exVals_supported : Supported exVals := by
  have hnames : valNames exVals = [b! "List", b! "V1"] := by rfl
  refine ⟨by decide, ?_, ?_, ?_, ?_, ?_, ?_⟩
  · rw [hnames]
    intro x hx
    simp only [List.mem_cons, List.not_mem_nil, or_false] at hx
    rcases hx with rfl | rfl
    · exact ⟨⟨_, _, rfl, by decide⟩, by decide, by decide⟩
    · exact ⟨⟨_, _, rfl, by decide⟩, by decide, by decide⟩
  · rw [hnames]; decide
  · rw [hnames]
    intro x hx
    simp only [List.mem_cons, List.not_mem_nil, or_false] at hx
    rcases hx with rfl | rfl <;> exact ⟨by decide, not_own (by decide) (fun k => by simp)⟩
  · intro v hv
    have : ∃ c, v.root = some c := by
      simp only [exVals, List.mem_cons, List.not_mem_nil, or_false] at hv
      rcases hv with rfl | rfl <;> exact ⟨_, rfl⟩
    obtain ⟨c, hc⟩ := this
    exact ⟨c, hc, exVals_gen hv (.inl hc)⟩
  · intro v hv n c hc
    exact exVals_gen hv (.inr ⟨n, hc⟩)
  · intro v hv n c hf hs
    simp only [exVals, List.mem_cons, List.not_mem_nil, or_false] at hv
    rcases hv with rfl | rfl
    · simp at hs
    · simp at hs
      subst hs
      have : firstRef (b! "#/node") exVals = some genNode := by rfl
      rw [this] at hf
      exact hf

theorem exVals_refs : ∀ v ∈ exVals, ∀ d, v.Has d → d.Every (Constraint.RefsTo 0 (fun n => n = b! "#/node")) := by
  intro v hv d hd
  have hr : (Constraint.ref 0 (b! "#/node")).Every (Constraint.RefsTo 0 (fun n => n = b! "#/node")) :=
    .intro (by rintro m n ⟨⟩; exact ⟨rfl, rfl⟩) (by simp [Constraint.kids])
  have hl : ∀ c : Constraint, c.kids = [] → (∀ m n, c ≠ .ref m n) → c.Every (Constraint.RefsTo 0 (fun n => n = b! "#/node")) :=
    fun c h1 h2 => .intro (fun m n he => absurd he (h2 m n)) (by simp [h1])
  rcases exVals_has hv hd with rfl | rfl | rfl
  · refine .intro (by rintro m n ⟨⟩) ?_
    intro d hd
    simp [genNode, Constraint.kids, Object'] at hd
    rcases hd with rfl | rfl | rfl | rfl | rfl
    · exact hr
    all_goals exact hl _ rfl (by intro m n; simp)
  · refine .intro (by rintro m n ⟨⟩) ?_
    intro d hd
    simp only [Constraint.kids, List.mem_cons, List.not_mem_nil, or_false] at hd
    rcases hd with rfl | rfl
    · refine .intro (by rintro m n ⟨⟩) ?_
      intro d hd
      simp [Constraint.kids, Array'] at hd
      rcases hd with rfl | rfl
      · exact hr
      · exact hl _ rfl (by intro m n; simp)
    · refine .intro (by rintro m n ⟨⟩) ?_
      intro d hd
      simp only [Constraint.kids, List.mem_cons, List.not_mem_nil, or_false] at hd
      rcases hd with rfl | rfl <;> exact hl _ rfl (by intro m n; simp)
  · exact hl _ rfl (by intro m n; simp)

/-- The example meets the hypotheses of `C69_program`, for both validators. -/
example (ext : Ext) (σ : Sched) : ∃ t p mem, process isPrint exVals σ = .ok t ∧ parseProg t = some p ∧ p.run = some mem ∧
    (∃ jv c', alookup (b! "List") mem.vars = some (.jv jv) ∧ jv.root = some c' ∧
      SameOutcomes ext (fun _ n => alookup n [(b! "#/node", genNode)])
        (.all [.array { Array' with items := some (.ref 0 (b! "#/node")), minItems := 1 }, .any [.empty, .null]]) mem.env c') ∧
    ∃ jv c', alookup (b! "V1") mem.vars = some (.jv jv) ∧ jv.root = some c' ∧
      SameOutcomes ext (fun _ n => alookup n [(b! "#/node", genNode), (b! "#/text", .string { String' with maxLength := 8, enums := some [.str (b! "a")] })])
        genNode mem.env c' := by
  obtain ⟨t, p, mem, h1, h2, h3, h⟩ := C69_program (isPrint := isPrint) exVals_supported σ
  have hR' : ∀ v ∈ exVals, ∀ d, v.Has d → d.Every (Constraint.RefsTo 0 (fun n => firstRef n exVals = alookup n v.refs)) := by
    intro v hv d hd e he m n hm
    obtain ⟨a, b⟩ := exVals_refs v hv d hd e he m n hm
    refine ⟨a, ?_⟩
    subst b
    simp only [exVals, List.mem_cons, List.not_mem_nil, or_false] at hv
    rcases hv with rfl | rfl <;> rfl
  refine ⟨t, p, mem, h1, h2, h3, ?_, ?_⟩
  · obtain ⟨c, jv, c', e1, e2, e3, e4, e5⟩ := h 0 _ _ rfl rfl
    cases e1
    exact ⟨jv, c', e2, e4, e5 ext 0 _ (fun n => rfl) (hR' _ (by simp [exVals]))⟩
  · obtain ⟨c, jv, c', e1, e2, e3, e4, e5⟩ := h 1 _ (b! "V1") rfl rfl
    cases e1
    exact ⟨jv, c', e2, e4, e5 ext 0 _ (fun n => rfl) (hR' _ (by simp [exVals]))⟩

/-! ## C70

What gets lost, first in general, then as refutations of `Survives`. -/

/-- `multipleOf` and `enum` of numbers are not written. -/
theorem C70_number_partial (c : NumC) (σ : Sched) :
    gen isPrint [] (.number c) σ = gen isPrint [] (.number { c with multipleOf := none, enums := none }) σ ∧
    gen isPrint [] (.integer c) σ = gen isPrint [] (.integer { c with multipleOf := none, enums := none }) σ := ⟨rfl, rfl⟩

/-- `minProperties`, `maxProperties` and schema dependencies of objects are not written. -/
theorem C70_object_partial (o : ObjC Constraint) (σ : Sched) :
    gen isPrint [] (.object o) σ = gen isPrint [] (.object { o with schemadeps := [], minProps := -1, maxProps := -1 }) σ := by
  cases o
  simp [gen, genObj, genObject]

/-- An enumeration on its own writes nothing, which is not an expression. -/
theorem C70_enum_partial (l : List GoVal) (σ : Sched) :
    gen isPrint [] (.enum l) σ = .ok [] ∧ Go.parseExpr [] = none := ⟨rfl, rfl⟩

/-- `Any()` and `OneOf()`, which accept nothing, are written as `EmptyConstraint`, which accepts everything. -/
theorem C70_combinators_partial (σ : Sched) :
    gen isPrint [] (.any []) σ = gen isPrint [] .empty σ ∧ gen isPrint [] (.oneOf []) σ = gen isPrint [] .empty σ :=
  ⟨by simp [gen, genList, genCombo], by simp [gen, genList, genCombo]⟩

/-- The line break before the closing parenthesis of `Not` makes the text a syntax error, whatever the (supported)
child. -/
theorem C70_not_partial {c : Constraint} (h : c.Every (Constraint.Gen false)) (σ : Sched) :
    ∃ t, gen isPrint [] (.not (some c)) σ = .ok t ∧ Go.parseExpr t = none := by
  obtain ⟨t, ht, hb⟩ := gen_builds (ρ := fun _ => none) (isPrint := isPrint) (cm := []) (refs := false) (m := 0) (by simp) c h (σ.sub 0)
  refine ⟨b! "jsval.Not(\n" ++ t ++ b! "\n)", ?_, ?_⟩
  · have h1 : genNot (genOpt isPrint [] (some c)) σ = .ok (b! "jsval.Not(\n" ++ t ++ b! "\n)") := by
      simp only [genNot, genOpt]
      have := catG_cons (b! "jsval.Not(\n") (catG_append (a := [gen isPrint [] c (σ.sub 0)]) (by rw [ht]; exact catG_one t) (catG_one (b! "\n)")))
      simpa using this
    have h2 : gen isPrint [] (.not (some c)) σ = emitCode (genNot (genOpt isPrint [] (some c)) σ) := by rw [gen]
    rw [h2, h1]
    refine emitCode_plain ?_ ?_
    · have := hb.noPct
      simp only [List.mem_append, not_or]
      exact ⟨⟨by decide, this⟩, by decide⟩
    · rintro ⟨u, hu⟩
      have := congrArg (fun l => l.reverse.head?) hu
      simp at this
  · obtain ⟨ks, e, hl, ho, _, _⟩ := hb.reads
    have hN : LexN (b! "jsval.Not(\n") [.ident (b! "jsval"), .op 0x2E, .ident (b! "Not"), .op 0x28] false := fun _ _ => rfl
    have hx : lex (b! "jsval.Not(\n" ++ t ++ b! "\n)") =
        some ([.ident (b! "jsval"), .op 0x2E, .ident (b! "Not"), .op 0x28] ++ (ks ++ [.op 0x3B, .op 0x29, .op 0x3B])) := by
      unfold lex
      rw [lexRun_append, lexRun_append, hN]
      obtain ⟨h1, h2⟩ := hl ([.ident (b! "jsval"), .op 0x2E, .ident (b! "Not"), .op 0x28] : List Tok).reverse false
      rw [List.append_nil, lexRun_cons, lexStep_settleE h1 (by decide), h2]
      simp [lexStep, lexNormal, lexRun, isLetter, isDigit, isOp, isClosing]
    unfold Go.parseExpr
    rw [hx]
    have hp : parseRun ⟨[], [], .want none []⟩ ([.ident (b! "jsval"), .op 0x2E, .ident (b! "Not"), .op 0x28] ++ (ks ++ [.op 0x3B, .op 0x29, .op 0x3B])) =
        ⟨[], [], .bad⟩ := by
      rw [parseRun_append]
      have : parseRun ⟨[], [], .want none []⟩ [.ident (b! "jsval"), .op 0x2E, .ident (b! "Not"), .op 0x28] =
        ⟨[], [], .want none [.call (.sel (.ident (b! "jsval")) (b! "Not")) []]⟩ := rfl
      rw [this, parseRun_append, ho]
      rfl
    simp only [hp]

theorem Generates.unique {c : Constraint} {σ : Sched} {d d' : Constraint} (h : Generates isPrint c σ d) (h' : Generates isPrint c σ d') :
    d = d' := by
  obtain ⟨t, e, h1, h2, h3⟩ := h
  obtain ⟨t', e', h1', h2', h3'⟩ := h'
  rw [h1] at h1'
  cases h1'
  rw [h2] at h2'
  cases h2'
  rw [h3] at h3'
  cases h3'
  rfl

/-- No map has any entry. -/
def noMaps : Env := fun _ _ => none

theorem not_survives {ext : Ext} {c d : Constraint} {v : GoVal} {r : Res} {v' : GoVal} (hg : Generates isPrint c sched0 d)
    (hr : r ≠ .abort .diverge) (h1 : (sem ext noMaps 0 d).val sched0 v = (r, v'))
    (h2 : ∀ σ fuel, (sem ext noMaps fuel c).val σ v ≠ (r, v')) : ¬ Survives ext isPrint c := by
  intro hs
  obtain ⟨c', hg', ho⟩ := hs sched0 noMaps
  obtain rfl := hg.unique hg'
  obtain ⟨σ, _, fuel, h⟩ := (ho v r v').1 ⟨sched0, hr, 0, h1⟩
  exact h2 σ fuel h

/-- The number constraint is written as the other one, which accepts the value, while it does not itself. -/
theorem not_survives_number {ext : Ext} {c d : NumC} {v : GoVal} (hg : Generates isPrint (.number c) sched0 (.number d))
    (h1 : numCheck d v = .ok) (h2 : numCheck c v ≠ .ok) : ¬ Survives ext isPrint (.number c) :=
  not_survives (r := .ok) (v := v) (v' := v) hg (by simp) (by show (numCheck d v, v) = _; rw [h1])
    (fun _ _ h => h2 (congrArg Prod.fst h))

theorem not_survives_integer {ext : Ext} {c d : NumC} {v : GoVal} (hg : Generates isPrint (.integer c) sched0 (.integer d))
    (h1 : intCheck d v = .ok) (h2 : intCheck c v ≠ .ok) : ¬ Survives ext isPrint (.integer c) :=
  not_survives (r := .ok) (v := v) (v' := v) hg (by simp) (by show (intCheck d v, v) = _; rw [h1])
    (fun _ _ h => h2 (congrArg Prod.fst h))

/-- The float closest to `n / 10^k`, for examples. -/
def exF (n k : Nat) : F64 := .fin false (F64.nearest (n * F64.unit) (10 ^ k))

theorem generates_number : Generates isPrint (.number Number') sched0 (.number Number') := ⟨_, _, rfl, rfl, rfl⟩
theorem generates_integer : Generates isPrint (.integer Number') sched0 (.integer Number') := ⟨_, _, rfl, rfl, rfl⟩
theorem generates_object : Generates isPrint (.object Object') sched0 (.object Object') := ⟨_, _, rfl, rfl, rfl⟩
theorem generates_empty : Generates isPrint .empty sched0 .empty := ⟨_, _, rfl, rfl, rfl⟩

theorem Generates.of_eq {c c' d : Constraint} {σ : Sched} (h : Generates isPrint c' σ d)
    (he : gen isPrint [] c σ = gen isPrint [] c' σ) : Generates isPrint c σ d := by
  obtain ⟨t, e, h1, h2⟩ := h
  exact ⟨t, e, he.trans h1, h2⟩

/-- C70 fails: multiples (of numbers and of integers). -/
theorem C70_multipleOf_refuted (ext : Ext) :
    ¬ Survives ext isPrint (.number { Number' with multipleOf := some (exF 2 0) }) ∧
    ¬ Survives ext isPrint (.integer { Number' with multipleOf := some (exF 2 0) }) :=
  ⟨not_survives_number (v := .float .f64 (exF 3 0)) (generates_number.of_eq (C70_number_partial _ _).1) (by decide +kernel) (by decide +kernel),
   not_survives_integer (v := .int .int 3) (generates_integer.of_eq (C70_number_partial _ _).2) (by decide +kernel) (by decide +kernel)⟩

/-- C70 fails: numbers from a list. -/
theorem C70_numberEnum_refuted (ext : Ext) :
    ¬ Survives ext isPrint (.number { Number' with enums := some [.float .f64 (exF 2 0)] }) ∧
    ¬ Survives ext isPrint (.integer { Number' with enums := some [.float .f64 (exF 2 0)] }) :=
  ⟨not_survives_number (v := .float .f64 (exF 3 0)) (generates_number.of_eq (C70_number_partial _ _).1) (by decide +kernel) (by decide +kernel),
   not_survives_integer (v := .int .int 3) (generates_integer.of_eq (C70_number_partial _ _).2) (by decide +kernel) (by decide +kernel)⟩

/-- C70 fails: a fractional bound of an integer is cut off, here 1.5 to 1. -/
theorem C70_fraction_refuted (ext : Ext) : ¬ Survives ext isPrint (.integer { Number' with minimum := some (exF 15 1) }) :=
  not_survives_integer (d := { Number' with minimum := some (F64.ofInt 1) }) (v := .int .int 1)
    ⟨b! "jsval.Integer().Minimum(1)", .call (.sel (.call (.sel (.ident (b! "jsval")) (b! "Integer")) []) (b! "Minimum")) [.int 1],
      by show emitCode (genInteger _) = _; decide +kernel, rfl, rfl⟩ (by decide +kernel) (by decide +kernel)

/-- C70 fails: a bound of a number keeps six decimals only, here 0.0000001 becomes 0. -/
theorem C70_decimals_refuted (ext : Ext) : ¬ Survives ext isPrint (.number { Number' with minimum := some (exF 1 7) }) :=
  not_survives_number (d := { Number' with minimum := some (.fin false 0) }) (v := .float .f64 (exF 0 0))
    ⟨b! "jsval.Number().Minimum(0.000000)", .call (.sel (.call (.sel (.ident (b! "jsval")) (b! "Number")) []) (b! "Minimum")) [.flt 0 6],
      by show emitCode (genNumber _) = _; decide +kernel, rfl, by
        have h : decF64 false 0 6 = some (.fin false 0) := by decide +kernel
        show (((decF64 false 0 6).map Number'.Minimum).map Constraint.number).map Val.con = _
        rw [h]
        rfl⟩ (by decide +kernel) (by decide +kernel)

/-- C70 fails: bounds on the number of properties. -/
theorem C70_properties_refuted (ext : Ext) : ¬ Survives ext isPrint (.object { Object' with minProps := 1 }) ∧
    ¬ Survives ext isPrint (.object { Object' with maxProps := 0, additional := some .empty }) := by
  refine ⟨not_survives (r := .ok) (v := .map false []) (v' := .map false []) (generates_object.of_eq (C70_object_partial _ _)) (by simp) rfl ?_, ?_⟩
  · intro σ fuel h
    have := congrArg Prod.fst h
    cases this
  · refine not_survives (r := .ok) (v := .map false [(b! "a", .nil)]) (v' := .map false [(b! "a", .nil)])
      (d := .object { Object' with additional := some .empty }) ⟨_, _, rfl, rfl, rfl⟩ (by simp) rfl ?_
    intro σ fuel h
    have := congrArg Prod.fst h
    cases this

/-- The constraint is written like a supported one, which has an outcome it does not have itself. -/
theorem not_survives_like {ext : Ext} {c d : Constraint} {v : GoVal} {r : Res} {v' : GoVal} (hd : d.Every (Constraint.Gen false))
    (he : gen isPrint [] c sched0 = gen isPrint [] d sched0)
    (hr : r ≠ .abort .diverge) (h1 : (sem ext noMaps 0 d).val sched0 v = (r, v'))
    (h2 : ∀ σ fuel, (sem ext noMaps fuel c).val σ v ≠ (r, v')) : ¬ Survives ext isPrint c := by
  intro hs
  obtain ⟨c', hg', ho⟩ := hs sched0 noMaps
  obtain ⟨d', hg, hd'⟩ := C69_constraint (isPrint := isPrint) ext hd sched0 noMaps
  obtain rfl := (hg.of_eq he).unique hg'
  obtain ⟨σ, _, fuel, h⟩ := (ho v r v').1 ((hd' v r v').2 ⟨sched0, hr, 0, h1⟩)
  exact h2 σ fuel h

/-- C70 fails: schema dependencies. -/
theorem C70_dependency_refuted (ext : Ext) :
    ¬ Survives ext isPrint (.object { Object' with props := [(b! "a", .empty)], schemadeps := [(b! "a", .null)] }) := by
  refine not_survives_like (r := .ok) (v := .map false [(b! "a", .nil)]) (v' := .map false [(b! "a", .nil)])
    (d := .object { Object' with props := [(b! "a", .empty)] }) ?_ (C70_object_partial _ _) (by simp) rfl ?_
  · refine .intro ?_ ?_
    · constructor <;> simp [Object', Plain]
    · intro d hd
      simp [Constraint.kids, Object'] at hd
      rcases hd with rfl | rfl <;> exact .intro trivial (by simp [Constraint.kids])
  · intro σ fuel h
    obtain ⟨τ, h⟩ := C38_schema_dependency (ext := ext) (ρ := refSem ext noMaps fuel) (σ := σ)
      { Object' with props := [(b! "a", .empty)], schemadeps := [(b! "a", .null)] } ⟨by simp⟩ (.map false [(b! "a", .nil)] (by simp)) (by
        intro c hc x σ
        have : c = .empty ∨ c = .null := by
          cases hc with
          | dependency h => simp only [ObjC.GetSchemaDependency, alookup] at h; split_ifs at h; cases h; exact .inr rfl
          | _ => simp_all [Object']
        rcases this with rfl | rfl <;> rfl) (by
        intro p c hc hp
        simp at hc
        rw [hc.2]; rfl) (congrArg Prod.fst h) (b! "a")
      (by simp [Has]) (.inl (by simp [ObjC.Declares])) rfl .null rfl
    cases h

/-- C70 fails: items beyond the listed ones become allowed. -/
theorem C70_items_refuted (ext : Ext) :
    ¬ Survives ext isPrint (.array { Array' with positional := [.empty], additional := none }) := by
  obtain ⟨t, ht, hb⟩ : ∃ t, gen isPrint [] (.array { Array' with positional := [.empty], additional := none }) sched0 = .ok t ∧
      Builds (fun _ => none) t (.con (rebuild 0 (.array { Array' with positional := [.empty], additional := none }))) := by
    rw [gen]
    refine emit_builds (genArray_builds sched0 ?_)
    intro d hd σ
    have : d = .empty := by cases hd <;> simp_all [Array']
    subst this
    rw [gen, rebuild]
    exact emit_builds ⟨_, rfl, builds_empty⟩
  obtain ⟨e, h1, h2⟩ := hb.parseExpr
  refine not_survives (r := .ok) (v := .slice false [.nil, .nil]) (v' := .slice false [.nil, .nil]) ⟨t, e, ht, h1, h2⟩ (by simp) rfl ?_
  intro σ fuel h
  have := congrArg Prod.fst h
  cases this

/-- C70 fails: combinators without branches. -/
theorem C70_combinators_refuted (ext : Ext) : ¬ Survives ext isPrint (.any []) ∧ ¬ Survives ext isPrint (.oneOf []) := by
  refine ⟨not_survives (r := .ok) (v := .nil) (v' := .nil) (generates_empty.of_eq (C70_combinators_partial _).1) (by simp) (by with_unfolding_all rfl) ?_,
    not_survives (r := .ok) (v := .nil) (v' := .nil) (generates_empty.of_eq (C70_combinators_partial _).2) (by simp) rfl ?_⟩ <;>
  · intro σ fuel h
    have := congrArg Prod.fst h
    cases this

/-- The text written is not an expression. -/
theorem not_survives_syntax {ext : Ext} {c : Constraint} {t : GoStr} (h1 : gen isPrint [] c sched0 = .ok t) (h2 : Go.parseExpr t = none) :
    ¬ Survives ext isPrint c := by
  intro hs
  obtain ⟨c', ⟨t', e, h3, h4, _⟩, _⟩ := hs sched0 noMaps
  rw [h1] at h3
  cases h3
  rw [h2] at h4
  cases h4

/-- Nothing is written. -/
theorem not_survives_stop {ext : Ext} {c : Constraint} {e : GenStop} (h1 : gen isPrint [] c sched0 = .error e) : ¬ Survives ext isPrint c := by
  intro hs
  obtain ⟨c', ⟨t', e, h3, _, _⟩, _⟩ := hs sched0 noMaps
  rw [h1] at h3
  cases h3

/-- C70 fails: enumerations of their own. -/
theorem C70_enum_refuted (ext : Ext) (l : List GoVal) : ¬ Survives ext isPrint (.enum l) :=
  not_survives_syntax (C70_enum_partial l sched0).1 (C70_enum_partial (isPrint := isPrint) l sched0).2

/-- C70 fails: negations, all those of supported constraints. -/
theorem C70_not_refuted (ext : Ext) {c : Constraint} (h : c.Every (Constraint.Gen false)) : ¬ Survives ext isPrint (.not (some c)) := by
  obtain ⟨t, h1, h2⟩ := C70_not_partial (isPrint := isPrint) h sched0
  exact not_survives_syntax h1 h2

example (ext : Ext) : ¬ Survives ext isPrint (.not (some (.any [.null, .boolean none]))) := by
  refine C70_not_refuted ext (.intro (by simp [Constraint.GenD]) ?_)
  intro d hd
  simp only [Constraint.kids, List.mem_cons, List.not_mem_nil, or_false] at hd
  rcases hd with rfl | rfl
  · exact .intro trivial (by simp [Constraint.kids])
  · exact .intro (by simp [Constraint.GenD]) (by simp [Constraint.kids])

/-- C70 fails: an empty list of strings leaves a lone comma behind. -/
theorem C70_noStrings_refuted (ext : Ext) : ¬ Survives ext isPrint (.string { String' with enums := some [] }) :=
  not_survives_syntax (t := b! "jsval.String().Enum(,)") rfl rfl

/-- C70 fails: unsigned numbers in a list of strings make the generator panic, booleans make it return an error. -/
theorem C70_listed_refuted (ext : Ext) :
    ¬ Survives ext isPrint (.string { String' with enums := some [.str (b! "a"), .uint .uint8 1] }) ∧
    ¬ Survives ext isPrint (.string { String' with enums := some [.str (b! "a"), .bool true] }) :=
  ⟨not_survives_stop (e := .panic) rfl, not_survives_stop (e := .err) rfl⟩

/-- The default of an integer property. -/
def exIntDefault : Constraint := .object { Object' with props := [(b! "n", .integer { Number' with dflt := some (.float .f64 (exF 3 0)) })] }

/-- C70 fails: an integer default is a `float64` before and an `int` afterwards, which shows in what gets filled in. -/
theorem C70_default_refuted (ext : Ext) : ¬ Survives ext isPrint exIntDefault := by
  have hi : ∀ σ, gen isPrint [] (.integer { Number' with dflt := some (.float .f64 (exF 3 0)) }) σ = .ok (b! "jsval.Integer().Default(3)") := by
    intro σ
    show emitCode (genInteger _) = _
    decide +kernel
  have hg : gen isPrint [] exIntDefault sched0 = .ok (b! "jsval.Object()" ++ ((b! ".\nAddProp(\n") ++
      (([] ++ (goQuote isPrint (b! "n") ++ b! ",\n")) ++ (b! "jsval.Integer().Default(3)" ++ b! ",\n") ++ [0x29]))) := by
    have h1 : gen isPrint [] exIntDefault sched0 = emitCode (catG [.ok (b! "jsval.Object()"), .ok [], .ok (b! ".\nAddProp(\n" ++ goQuote isPrint (b! "n") ++ b! ",\n"),
        gen isPrint [] (.integer { Number' with dflt := some (.float .f64 (exF 3 0)) }) ((sched0.sub 3).sub 0), .ok (b! ",\n)"), .ok []]) := by
      with_unfolding_all rfl
    rw [h1, hi]
    with_unfolding_all rfl
  have hb : Builds (fun _ => none) (b! "jsval.Integer().Default(3)") (.con (.integer { Number' with dflt := some (.int .int 3) })) := by
    have := builds_integer.step (ρ := fun _ => none) (Step.one (n := b! "Default") (t := b! ".Default(") ⟨by decide, ⟨_, rfl⟩, fun _ _ => rfl⟩ (ArgText.int 3)
      (v' := .con (.integer { Number' with dflt := some (.int .int 3) })) rfl)
    exact this
  have hB := builds_object.step (ρ := fun _ => none) (Step.ofComma (n := b! "AddProp") (t := b! ".\nAddProp(\n") ⟨by decide, ⟨_, rfl⟩, fun _ _ => rfl⟩
    ((ArgsText.nil.snoc (ArgText.quote (isPrint := isPrint) (s := b! "n") (by simp [Plain])) (.inr rfl)).snoc hb.toArg (.inr rfl))
      (v' := .con (.object { Object' with props := [(b! "n", .integer { Number' with dflt := some (.int .int 3) })] })) rfl)
  obtain ⟨e, h1, h2⟩ := hB.parseExpr
  refine not_survives (r := .ok) (v := .map false []) (v' := .map false [(b! "n", .int .int 3)])
    ⟨_, e, hg, h1, h2⟩ (by simp) rfl ?_
  intro σ fuel h
  obtain ⟨kvs', h1, h2⟩ := C39_fills_defaults (byPtr := false) (n := false) (kvs := []) { Object' with props := [(b! "n", .integer { Number' with dflt := some (.float .f64 (exF 3 0)) })] } ⟨by simp⟩ (fun _ => rfl) h
  cases h1
  have := h2.filled (b! "n") (by simp [ObjC.Declares]) (by simp [Has]) (.float .f64 (exF 3 0)) ⟨_, List.mem_singleton.2 rfl, rfl⟩ (by simp)
  simp at this

/-! ## C71 -/

/-- C71, for strings without `%`: as format, pattern, listed value and default of a string constraint they come back from
the generated text as they were. -/
theorem C71_literals_partial {f r e d : GoStr} (hf : Plain f) (hr : Plain r) (he : Plain e) (hd : Plain d) (σ : Sched) :
    Generates isPrint (.string { String' with format := f, regexp := some r, enums := some [.str e], dflt := some (.str d) }) σ
      (.string { String' with format := f, regexp := some r, enums := some [.str e], dflt := some (.str d) }) := by
  have hc : (Constraint.string { String' with format := f, regexp := some r, enums := some [.str e], dflt := some (.str d) }).Every
      (Constraint.Gen false) := by
    refine .intro ⟨hf, ?_, ?_, ?_⟩ (by simp [Constraint.kids])
    · rintro _ ⟨⟩; exact hr
    · rintro _ ⟨⟩
      refine ⟨by simp, ?_⟩
      intro v hv
      rw [List.mem_singleton] at hv
      subst hv
      exact he
    · rintro _ ⟨⟩; exact ⟨d, rfl, hd⟩
  obtain ⟨t, ht, hb⟩ := gen_builds (ρ := fun _ => none) (isPrint := isPrint) (cm := []) (refs := false) (m := 0) (by simp) _ hc σ
  obtain ⟨e', h1, h2⟩ := hb.parseExpr
  exact ⟨t, e', ht, h1, h2⟩

/-- Not vacuous: quotes, backslashes, control characters and broken UTF-8 are fine. -/
example : Plain (b! "a\"b\\c\n\t\u0001é") ∧ Plain [0xC3, 0x28, 0xFF] := by simp [Plain]

/-- What is written for a one-element list of strings. -/
theorem gen_listed (s : GoStr) (σ : Sched) : gen isPrint [] (.string { String' with enums := some [.str s] }) σ =
    .ok (fmtText (trimDotNl (b! "jsval.String().Enum(" ++ goQuote isPrint s ++ b! ",)"))) := by
  have h : genString isPrint { String' with enums := some [.str s] } = .ok (b! "jsval.String().Enum(" ++ goQuote isPrint s ++ b! ",)") := by
    simp [genString, String', optCall, genEnumList, genEnumVal, catG]
  rw [gen]
  show emitCode (genString isPrint _) = _
  rw [h]
  rfl

/-- C71 fails for strings with directives: as a listed value, a string turns into what `fmt` makes of it, `%-5.2d` into
`%!d(MISSING)` and `%%` into `%`. -/
theorem C71_directives_partial {s t : GoStr} (h : Formatted s t) (σ : Sched) :
    Generates isPrint (.string { String' with enums := some [.str s] }) σ (.string { String' with enums := some [.str t] }) := by
  have e : fmtText (trimDotNl (b! "jsval.String().Enum(" ++ goQuote isPrint s ++ b! ",)")) =
      b! "jsval.String().Enum(" ++ goQuote isPrint t ++ b! ",)" := by
    rw [trimDotNl_plain, goQuote_body, goQuote_body]
    · have := fmtLoop_formatted isPrint h (pre := b! "jsval.String().Enum(" ++ [0x22]) (post := [0x22] ++ b! ",)") (by decide) (by decide) le_rfl
      unfold fmtText
      simp only [List.append_assoc, List.cons_append, List.nil_append] at this ⊢
      exact this
    · rintro ⟨x, hx⟩
      have := congrArg (fun l => l.reverse.head?) hx
      simp at this
  have hl : ∀ s : GoStr, lex (b! "jsval.String().Enum(" ++ goQuote isPrint s ++ b! ",)") =
      some [.ident (b! "jsval"), .op 0x2E, .ident (b! "String"), .op 0x28, .op 0x29, .op 0x2E, .ident (b! "Enum"), .op 0x28,
        .str s, .op 0x2C, .op 0x29, .op 0x3B] := by
    intro s
    unfold lex
    have hN : LexN (b! "jsval.String().Enum(") [.ident (b! "jsval"), .op 0x2E, .ident (b! "String"), .op 0x28, .op 0x29, .op 0x2E,
      .ident (b! "Enum"), .op 0x28] false := fun _ _ => rfl
    rw [lexRun_append, lexRun_append, hN, lexRun_quote]
    rfl
  refine ⟨_, .call (.sel (.call (.sel (.ident (b! "jsval")) (b! "String")) []) (b! "Enum")) [.str t],
    (gen_listed _ σ).trans (congrArg Except.ok e), ?_, ?_⟩
  · unfold Go.parseExpr
    rw [hl]
    rfl
  · rfl

/-- `100%% of %-5.2d apples and %s` -/
example : Formatted (b! "100%% of %-5.2d apples and %s") (b! "100% of %!d(MISSING) apples and %!s(MISSING)") := by
  have hm : Modifiers (b! "-5.2") := ⟨b! "-", b! "5", b! ".2", rfl, by simp, ⟨by simp, by simp⟩, .inr ⟨b! "2", rfl, ⟨by simp, by simp⟩⟩⟩
  have h0 : Modifiers [] := ⟨[], [], [], rfl, by simp, ⟨by simp, by simp⟩, .inl rfl⟩
  exact .percent (b! "100") [] _ _ (by simp [Plain]) h0
    (.missing (b! " of ") (b! "-5.2") 0x64 _ _ (by simp [Plain]) hm (by unfold AsciiLetter; decide)
      (.missing (b! " apples and ") [] 0x73 _ _ (by simp [Plain]) h0 (by unfold AsciiLetter; decide) (.plain [] (by simp [Plain]))))

theorem strCheck_listed (ext : Ext) (a b : GoStr) :
    strCheck ext { String' with enums := some [.str a] } (.str b) = if a = b then .ok else .err .notInEnum := by
  show enumCheck [.str a] (.str b) = _
  by_cases h : a = b
  · simp [enumCheck, goEq, h]
  · have : (a == b) = false := by simpa using h
    simp only [enumCheck, goEq, this, if_neg h]

/-- C71 fails: a string that turns into another does not survive. -/
theorem not_survives_changed (ext : Ext) {s t : GoStr} (h : Formatted s t) (hne : s ≠ t) :
    ¬ Survives ext isPrint (.string { String' with enums := some [.str s] }) := by
  refine not_survives (r := .ok) (v := .str t) (C71_directives_partial h sched0) (by simp) (v' := .str t) ?_ ?_
  · show (strCheck ext { String' with enums := some [.str _] } (.str _), _) = _
    rw [strCheck_listed, if_pos rfl]
  · intro σ fuel h
    have h : strCheck ext { String' with enums := some [.str _] } (.str _) = _ := congrArg Prod.fst h
    rw [strCheck_listed, if_neg hne] at h
    cases h

/-- C71 fails: no string survives whose only `%`s make up one directive, with any flags, width and precision. -/
theorem C71_percent_refuted (ext : Ext) {u m w : GoStr} {c : UInt8} (hu : Plain u) (hw : Plain w) (hm : Modifiers m) (hc : AsciiLetter c ∨ c = 0x25) :
    ¬ Survives ext isPrint (.string { String' with enums := some [.str (u ++ 0x25 :: (m ++ c :: w))] }) := by
  by_cases hp : c = 0x25
  · subst hp
    refine not_survives_changed ext (.percent u m w w hu hm (.plain w hw)) fun e => ?_
    have := congrArg List.length e
    simp at this
    omega
  · have hl : AsciiLetter c := hc.resolve_right hp
    refine not_survives_changed ext (.missing u m c w w hu hm hl (.plain w hw)) fun e => ?_
    simp only [List.append_cancel_left_eq, List.cons_append, List.nil_append, List.append_assoc, List.cons.injEq, true_and] at e
    cases m with
    | nil =>
      simp only [List.nil_append, List.cons.injEq] at e
      have hc' := e.1
      subst hc'
      revert hl; unfold AsciiLetter; decide
    | cons d m =>
      simp only [List.cons_append, List.cons.injEq] at e
      have hd := e.1
      subst hd
      obtain ⟨fl, wd, pr, h1, h2, h3, h4⟩ := hm
      have hmem : (0x21 : UInt8) ∈ fl ++ wd ++ pr := by rw [← h1]; simp
      simp only [List.mem_append] at hmem
      rcases hmem with (h | h) | h
      · have := h2 _ h; simp at this
      · have := h3.2 _ h; revert this; decide
      · rcases h4 with rfl | ⟨n, rfl, hn⟩
        · cases h
        · rcases List.mem_cons.1 h with h | h
          · cases h
          · have := hn.2 _ h; revert this; decide

example (ext : Ext) : ¬ Survives ext isPrint (.string { String' with enums := some [.str (b! "50%off")] }) :=
  C71_percent_refuted ext (u := b! "50") (m := []) (w := b! "ff") (c := 0x6F) (by simp [Plain]) (by simp [Plain])
    ⟨[], [], [], rfl, by simp, ⟨by simp, by simp⟩, .inl rfl⟩ (.inl (by unfold AsciiLetter; decide))

example (ext : Ext) : ¬ Survives ext isPrint (.string { String' with enums := some [.str (b! "50 %+ of it")] }) :=
  C71_percent_refuted ext (u := b! "50 ") (m := b! "+ ") (w := b! "f it") (c := 0x6F) (by simp [Plain]) (by simp [Plain])
    ⟨b! "+ ", [], [], rfl, by simp, ⟨by simp, by simp⟩, .inl rfl⟩ (.inl (by unfold AsciiLetter; decide))

/-! ## C72 -/

/-- The names: validator number `i` keeps its own name, or gets `V` followed by `i`. -/
theorem valNames_get (vals : List GenVal) (i : Nat) : (valNames vals)[i]? =
    (vals[i]?).map (fun v => if v.name = [] then b! "V" ++ natDec i else v.name) := by
  simp [valNames]

theorem catG_infix : ∀ {l : List G} {t x : GoStr}, catG l = .ok t → .ok x ∈ l → x <:+: t
  | [], _, _, _, hx => by simp at hx
  | y :: l, t, x, h, hx => by
    cases y with
    | error e => cases h
    | ok y =>
      rw [catG] at h
      cases hc : catG l with
      | error e => rw [hc] at h; cases h
      | ok z =>
        rw [hc] at h
        cases h
        rcases List.mem_cons.1 hx with hx | hx
        · cases hx
          exact (List.prefix_append x z).isInfix
        · exact (catG_infix hc hx).trans (List.suffix_append y z).isInfix

/-- C72: whenever `Process` writes something, it starts with one declaration for every validator, in sorted order of the
names: their own names, or `V<i>` for those without. -/
theorem C72_declarations {vals : List GenVal} {σ : Sched} {t : GoStr} (h : process isPrint vals σ = .ok t) :
    ∃ (ns : List GoStr) (rest : GoStr), t = ns.flatMap (fun n => b! "\nvar " ++ n ++ b! " *jsval.JSVal") ++ rest ∧
      ns.Pairwise (fun a b => strLe a b = true) ∧ ns.Perm (valNames vals) ∧ ns.length = vals.length ∧
      b! "\nfunc init() {" <:+: rest := by
  unfold process at h
  simp only [List.append_assoc] at h
  rw [show (fun n => (.ok (b! "\nvar " ++ (n ++ b! " *jsval.JSVal")) : G)) = Except.ok ∘ (fun n => b! "\nvar " ++ n ++ b! " *jsval.JSVal") by
    funext n; simp]  at h
  rw [← List.map_map] at h
  obtain ⟨u, rfl, hu⟩ := catG_oks _ _ t h
  refine ⟨sortStrings (valNames vals), u, ?_, sortStrings_sorted _, sortStrings_perm _, ?_, ?_⟩
  · rw [nameVals_valNames, List.flatMap_def]
  · rw [(sortStrings_perm _).length_eq]; simp [valNames]
  · exact catG_infix hu (by simp)

/-- C72: if the validators are supported, these are the first declarations of the program, and after it has run every
variable holds a validator with the name of the variable. -/
theorem C72_program {vals : List GenVal} (h : Supported vals) (σ : Sched) :
    ∃ (t : GoStr) (p : Prog) (mem : Mem) (ns : List GoStr) (more : List VarDecl),
      process isPrint vals σ = .ok t ∧ parseProg t = some p ∧ p.run = some mem ∧
      p.decls = ns.map (fun n => ⟨n, true, b! "jsval", b! "JSVal"⟩) ++ more ∧
      ns.Pairwise (fun a b => strLe a b = true) ∧ ns.Perm (valNames vals) ∧
      ∀ n ∈ ns, ∃ jv, alookup n mem.vars = some (.jv jv) ∧ jv.name = n := by
  obtain ⟨t, p, mem, h1, h2, h3, h4, h5⟩ := process_setUp (isPrint := isPrint) h σ
  refine ⟨t, p, mem, _, _, h1, h2, h4, h3, sortStrings_sorted _, sortStrings_perm _, ?_⟩
  intro n hn
  rw [mem_sortStrings] at hn
  obtain ⟨i, hi⟩ := List.mem_iff_getElem?.1 hn
  have hi' := hi
  rw [valNames_get] at hi'
  cases hv : vals[i]? with
  | none => rw [hv] at hi'; cases hi'
  | some v =>
    obtain ⟨c, hc, _⟩ := h.roots v (List.mem_of_getElem? hv)
    exact ⟨_, h5.roots i v c hv hc n hi, rfl⟩

/-- Not vacuous: of the two validators, the second has no name. -/
example (σ : Sched) : ∃ t, process isPrint exVals σ = .ok t ∧ ∃ rest,
    t = b! "\nvar List *jsval.JSVal\nvar V1 *jsval.JSVal" ++ rest := by
  obtain ⟨t, p, mem, h, _⟩ := C69_program (isPrint := isPrint) exVals_supported σ
  obtain ⟨ns, rest, ht, hs, hp, _⟩ := C72_declarations h
  have hn : valNames exVals = [b! "List", b! "V1"] := by rfl
  have : ns = [b! "List", b! "V1"] := by
    rw [hn] at hp
    exact hp.eq_of_pairwise (fun a b _ _ => strLe_antisymm a b) hs (by simp [strLe])
  refine ⟨t, h, rest, ?_⟩
  rw [ht, this]
  rfl

/-- C72: exactly when the names allow the code to be run. The names have to be different from each other, from the package and
from the function, and from the variables that the generator makes for the references, `M` and `R0` to `R<n-1>` if there are
`n` of them. (`true`, `false` and `_` are left out because the reader of programs does.) -/
theorem C72_runs_iff {vals : List GenVal} (tables : ∀ v ∈ vals, (v.refs.map (·.1)).Nodup) (idents : ∀ x ∈ valNames vals, GoIdent x)
    (roots : ∀ v ∈ vals, ∃ c, v.root = some c ∧ c.Every (Constraint.Gen (hasRefs vals)))
    (refs : ∀ v ∈ vals, ∀ n c, alookup n v.refs = some c → c.Every (Constraint.Gen (hasRefs vals)))
    (same : ∀ v ∈ vals, ∀ n c, firstRef n vals = some c → v.same n = true → v.root = some c) {σ : Sched} {t : GoStr}
    (h : process isPrint vals σ = .ok t) :
    (∃ p mem, parseProg t = some p ∧ p.run = some mem) ↔
      (valNames vals).Nodup ∧ ∀ x ∈ valNames vals, x ∉ takenNames ∧ x ∉ ownNames vals := by
  constructor
  · rintro ⟨p, mem, hp, hr⟩
    exact process_clash tables idents h hp hr
  · rintro ⟨hd, hf⟩
    obtain ⟨t', p, mem, h1, h2, -, h3, -⟩ := process_setUp (isPrint := isPrint) (ints := False) ⟨tables, idents, hd, hf, roots, refs, same⟩ σ
    rw [h] at h1
    cases h1
    exact ⟨p, mem, h2, h3⟩

/-- Without references a validator may be called `M` or `R0`; with references these names are taken. -/
example : ownNames [⟨b! "M", [], some .empty, fun _ => false⟩, ⟨b! "R0", [], some .null, fun _ => false⟩] = [] ∧
    ((process (fun _ => true) [⟨b! "M", [], some .empty, fun _ => false⟩, ⟨b! "R0", [], some .null, fun _ => false⟩] sched0).toOption.bind
      parseProg).any (fun p => p.run.isSome) = true ∧
    ownNames [⟨b! "M", [(b! "#", .null)], some .empty, fun _ => false⟩] = [b! "M", b! "R0"] ∧
    ((process (fun _ => true) [⟨b! "M", [(b! "#", .null)], some .empty, fun _ => false⟩] sched0).toOption.bind parseProg).any
      (fun p => p.run.isNone) = true := by decide +kernel

/-- A name given by position can clash with a name given by the user: then the same variable is declared twice. -/
theorem C72_clash : valNames [⟨b! "V1", [], some .empty, fun _ => false⟩, ⟨[], [], some .null, fun _ => false⟩] = [b! "V1", b! "V1"] := rfl

end Jsval
