import Verif.Lemmas.TypedFail
import Verif.Props.Hooks
/-!
# Values with Go's types (C105)

`Model/Typed.lean` runs the validators on values that carry their types. The claim is that a value is judged by what it contains.
-/
namespace Jsval
variable {ext : Ext} {text : TVal → GoStr} {env : Env} {c : Constraint} {u : Uses}

theorem judged_of_follows {v : TVal} (h : Ordinary u v) (hf : ∀ fuel, Follows u (semT ext text env fuel c) (sem ext env fuel c)) :
    JudgedByContent ext text env c v := by
  refine fun σ r => ⟨?_, ?_⟩
  · rintro v' ⟨hr, fuel, e⟩
    obtain ⟨h1, h2, -⟩ := (hf fuel).run σ v h
    rw [e] at h1 h2
    exact ⟨hr, fuel, Prod.ext h1.symm h2.symm⟩
  · rintro w' ⟨hr, fuel, e⟩
    obtain ⟨h1, h2, -⟩ := (hf fuel).run σ v h
    rw [e] at h1 h2
    exact ⟨((semT ext text env fuel c).val σ v).2, ⟨hr, fuel, Prod.ext h1 rfl⟩, h2⟩

/-- C105: values whose types do not matter to the constraint are judged by what they contain: scalars and structs of defined types,
slices of any element type, maps from `string`. (Missing: the types that do matter, for which the claim fails, `C105_refuted`.) -/
theorem C105_same_partial (ht : PrintsLikePlain ext text) (he : env.Every (Constraint.Within u)) (hc : c.Every (Constraint.Within u)) {v : TVal}
    (h : Ordinary u v) : JudgedByContent ext text env c v :=
  judged_of_follows h fun fuel => follows_sem ht he hc fuel

/-- C105: for values of plain types this is the validation of `Model/Validate`, whatever the constraint. -/
theorem C105_conservative (ht : PrintsLikePlain ext text) (env : Env) (c : Constraint) (v : GoVal) : JudgedByContent ext text env c (.ofPlain v) := by
  have hw : ∀ c : Constraint, c.Within ⟨True, True⟩ := fun c => by cases c <;> simp [Constraint.Within]
  exact judged_of_follows (u := ⟨True, True⟩) (ordinary_ofPlain v) fun fuel => follows_sem ht (fun _ _ _ _ _ _ => hw _) (fun _ _ => hw _) fuel

/-- C105: so the validator built from a conforming schema accepts such a value exactly if what it contains is valid. -/
theorem C105_valid {cls : DocClass} {lib : SchemaLib} {m : Nat} {resolve : Resolver} {s : Schema} (ht : PrintsLikePlain ext text)
    (hroot : Reaches resolve s (b! "#") → ∀ s1, (resolve (b! "#")).target = .ok s1 → s1 = s) {bfuel : Nat} {σ : Sched} {b : Built}
    (h : Build lib m resolve bfuel σ s = .ok b) (hs : s.Conforms ext lib.formats cls)
    (hto : ∀ n s1, Reaches resolve s n → RefersTo resolve s n s1 → s1.Conforms ext lib.formats cls)
    (hg : Grounded resolve s) (hb : b.root.Every (Constraint.Within u)) (hbe : (b.env m).Every (Constraint.Within u))
    {R : GoStr → GoVal → Prop} (hR : Meaning ext resolve s R) {v : TVal} (hv : Ordinary u v) (hw : Doc cls v.content) (τ : Sched) :
    (s.Valid ext R v.content ↔ ∃ v', ReturnsT ext text (b.env m) b.root τ v .ok v') ∧
    (¬ s.Valid ext R v.content ↔ ∃ e v', ReturnsT ext text (b.env m) b.root τ v (.err e) v') := by
  obtain ⟨h1, h2⟩ := (C63_exact hroot h hs hto hg).2 R hR v.content hw τ
  have hj := C105_same_partial ht hbe hb hv τ
  have same : ∀ {r w'}, Returns ext (b.env m) b.root τ v.content r w' →
      (r = .ok ∧ s.Valid ext R v.content) ∨ ((∃ e, r = .err e) ∧ ¬ s.Valid ext R v.content) := by
    rintro r w' ⟨hne, k, hk⟩
    rcases C63_sound hroot h hs hto hR hw k τ with ⟨h1, h2⟩ | ⟨⟨e, h1⟩, h2⟩ | h1 <;> rw [hk] at h1 <;> cases h1
    · exact Or.inl ⟨rfl, h2⟩
    · exact Or.inr ⟨⟨e, rfl⟩, h2⟩
    · exact absurd rfl hne
  refine ⟨⟨fun hv => ?_, fun ⟨v', hr⟩ => ?_⟩, ⟨fun hv => ?_, fun ⟨e, v', hr⟩ => ?_⟩⟩
  · obtain ⟨v', hr, -⟩ := (hj .ok).2 _ (h1.1 hv)
    exact ⟨v', hr⟩
  · rcases same ((hj .ok).1 v' hr) with ⟨-, h⟩ | ⟨⟨e, h⟩, -⟩
    · exact h
    · cases h
  · obtain ⟨e, he⟩ := h2.1 hv
    obtain ⟨v', hr, -⟩ := (hj (.err e)).2 _ he
    exact ⟨e, v', hr⟩
  · rcases same ((hj (.err e)).1 v' hr) with ⟨h, -⟩ | ⟨-, h⟩
    · cases h
    · exact h

/-! ## Types that matter -/

/-- C105: `Enum` rejects every scalar of a defined type, and every slice and map of another type than `[]interface{}` and
`map[string]interface{}`, whatever it contains. -/
theorem C105_enum (ext : Ext) (text : TVal → GoStr) (env : Env) (fuel : Nat) (vals : List GoVal) (σ : Sched) {v : TVal} (h : OwnType v) :
    (semT ext text env fuel (.enum vals)).val σ v = (.err .notInEnum, v) := by
  have key : ∀ vals, enumCheckT vals v = .err .notInEnum := by
    intro vals
    induction vals with
    | nil => rfl
    | cons e es ih => simp [enumCheckT, goEqT, ownType_iff.1 h, ih]
  simp only [semT, denoteT, pureVT, key]

/-- C105: and it judges every other value by what it contains. -/
theorem C105_enum_plain (ext : Ext) (text : TVal → GoStr) (env : Env) (fuel : Nat) (vals : List GoVal) (σ : Sched) {v : TVal} (h : ¬ OwnType v) :
    (semT ext text env fuel (.enum vals)).val σ v = (((sem ext env fuel (.enum vals)).val σ v.content).1, v) := by
  have hp : v.isPlain = true := by
    rcases e : v.isPlain with _ | _
    · exact absurd (ownType_iff.2 e) h
    · rfl
  simp only [semT, denoteT, pureVT, sem, denote, pureV, enumCheck_plain hp]

/-- C105: a map whose keys are of a type defined from `string` cannot be looked up in: validation panics as soon as a property is declared, a key
matches a pattern, or there is a key and a constraint for additional properties; without any of these, keys are additional properties that are
not allowed. -/
theorem C105_keys (ext : Ext) (text : TVal → GoStr) (env : Env) (fuel : Nat) (o : ObjC Constraint) (σ : Sched) {v : TVal} {n k e z kvs}
    (hv : MapIn v n k e z kvs) (hk : k.under = .str) (hne : k ≠ .str) (hmin : (kvs.length : Int) ≥ o.minProps)
    (hmax : o.maxProps > -1 → (kvs.length : Int) ≤ o.maxProps) :
    (semT ext text env fuel (.object o)).val σ v =
      (if o.props ≠ [] ∨ (∃ p ∈ o.patterns, ∃ q ∈ kvs, ext.reMatch p.2.1 q.1 = true) ∨ (kvs ≠ [] ∧ o.additional ≠ none) then .abort .panic
       else if kvs = [] then .ok else .err .addlNotAllowed, v) := by
  have ha := assignable_key hk hne
  simp only [semT, denoteT_object, objectVT]
  generalize denoteT ext text (refSemT ext text env fuel) = f
  have hn : getPropNamesT v.indirect = .ok (kvs.map (·.1)) := by
    rw [hv.indirect]
    simp [getPropNamesT, TVal.indirect, hk]
  have hl : ¬ ((o.map f).minProps > -1 ∧ ((kvs.map (·.1)).length : Int) < (o.map f).minProps) := by
    rintro ⟨-, h⟩
    rw [List.length_map] at h
    exact absurd h (not_lt.2 hmin)
  have hu : ¬ ((o.map f).maxProps > -1 ∧ ((kvs.map (·.1)).length : Int) > (o.map f).maxProps) := by
    rintro ⟨h1, h⟩
    rw [List.length_map] at h
    exact absurd h (not_lt.2 (hmax h1))
  simp only [hn, if_neg hl, if_neg hu]
  obtain ⟨h1, h2⟩ := objLoops_keys (ext := ext) hv ha (o.map f) σ ⟨v, nameSet (kvs.map (·.1)), []⟩ rfl rfl
  have hempty : nameSet (kvs.map (·.1)) = [] ↔ kvs = [] := by
    constructor
    · intro h
      cases kvs with
      | nil => rfl
      | cons q kvs =>
        have : q.1 ∈ nameSet ((q :: kvs).map (·.1)) := mem_nameSet.2 (by simp)
        rw [h] at this
        cases this
    · rintro rfl; rfl
  have hiff : LooksUp ext (o.map f) (nameSet (kvs.map (·.1))) ↔
      (o.props ≠ [] ∨ (∃ p ∈ o.patterns, ∃ q ∈ kvs, ext.reMatch p.2.1 q.1 = true) ∨ (kvs ≠ [] ∧ o.additional ≠ none)) := by
    unfold LooksUp
    refine or_congr ?_ (or_congr ?_ (and_congr (not_congr hempty) ?_))
    · simp [ObjC.map]
    · constructor
      · rintro ⟨p, hp, x, hx, e⟩
        obtain ⟨q, hq, rfl⟩ := List.mem_map.1 (show p ∈ o.patterns.map fun p => (p.1, p.2.1, f p.2.2) from hp)
        obtain ⟨r, hr, rfl⟩ := List.mem_map.1 (mem_nameSet.1 hx)
        exact ⟨q, hq, r, hr, e⟩
      · rintro ⟨q, hq, r, hr, e⟩
        exact ⟨(q.1, q.2.1, f q.2.2), List.mem_map.2 ⟨q, hq, rfl⟩, r.1, mem_nameSet.2 (List.mem_map.2 ⟨r, hr, rfl⟩), e⟩
    · simp [ObjC.map]
  by_cases hL : LooksUp ext (o.map f) (nameSet (kvs.map (·.1)))
  · rw [h1 hL, if_pos (hiff.1 hL)]
  · rw [h2 hL, if_neg (fun h => hL (hiff.2 h))]
    simp only [hempty]

/-- C105: a struct with a nil pointer to a Maybe in one of its Maybe fields makes every object constraint panic. -/
theorem C105_nil_maybe (ext : Ext) (text : TVal → GoStr) (env : Env) (fuel : Nat) (o : ObjC Constraint) (σ : Sched) {v : TVal} {id : GoStr} {fs : TFields}
    (hv : v.indirect = some (.struct id fs)) {l : List (GoStr × PropInfo)} (hl : extractT fs = some l) {p : GoStr} {info : PropInfo} (hp : (p, info) ∈ l)
    (hm : info.isMaybe = true) {t e : GoType} (hf : fieldByNameT info.fieldName fs = some (t, .ptr e none)) :
    (semT ext text env fuel (.object o)).val σ v = (.abort .panic, v) := by
  have key : ∀ l : List (GoStr × PropInfo), (p, info) ∈ l → propNamesLoopT fs l = .error .panic := by
    intro l
    induction l with
    | nil => intro h; cases h
    | cons q l ih =>
      obtain ⟨q, i⟩ := q
      intro h
      rw [propNamesLoopT]
      rcases List.mem_cons.1 h with h | h
      · cases h
        simp [hm, hf, maybeValidT]
      · rw [ih h]
        split
        · split <;> rfl
        · rfl
  have hn : getPropNamesT v.indirect = .error (.abort .panic) := by
    rw [hv]
    simp [getPropNamesT, TVal.indirect, structPropNamesT, hl, key l hp]
  simp only [semT, denoteT_object, objectVT, hn, Stop.toRes]

/-- C105: nor is a map accepted that lacks a property whose default is not of the map's element type. -/
theorem C105_default {fuel : Nat} {o : ObjC Constraint} {p : GoStr} {d : Constraint} (hp : (p, d) ∈ o.props) (hnd : (o.props.map (·.1)).Nodup) {dv : GoVal}
    (hn : dv ≠ .nil) (hd : (semT ext text env fuel d).dflt = .some dv) (σ : Sched) {v : TVal} {n e z kvs} (hv : MapIn v n .str e z kvs)
    (habs : alookup p kvs = none) (ha : ¬ e.Takes (TVal.ofPlain dv).typeOf) :
    ((semT ext text env fuel (.object o)).val σ v).1 ≠ .ok := by
  simp only [semT, denoteT_object]
  refine default_refused hv (p := p) (c := denoteT ext text (refSemT ext text env fuel) d) (List.mem_map.2 ⟨(p, d), hp, rfl⟩) ?_ hd hn habs (by rw [← takes_iff] at ha; simpa using ha)
  have : (o.map (denoteT ext text (refSemT ext text env fuel))).props.map (·.1) = o.props.map (·.1) := by simp [ObjC.map]
  rw [this]
  exact hnd

/-- C105: whereas a default that the element type takes is filled in. -/
theorem C105_default_taken {fuel : Nat} {p : GoStr} {d : Constraint} {dv : GoVal} (hn : dv ≠ .nil) (hd : (semT ext text env fuel d).dflt = .some dv) (σ : Sched)
    {n : Option GoStr} {e : GoType} (ha : e.Takes (TVal.ofPlain dv).typeOf) :
    (semT ext text env fuel (.object { Object' with props := [(p, d)] })).val σ (.map n .str e false []) = (.ok, .map n .str e false [(p, .ofPlain dv)]) := by
  have hset : setPropT ext (.map n .str e false []) p dv = .ok (.map n .str e false [(p, .ofPlain dv)]) := by
    have hstr : GoType.str.assignable .str = true := by decide
    have h2 := (takes_iff _ _).2 ha
    simp only [setPropT, setPropAtT, hstr, if_true, h2]
    cases dv <;> first | exact absurd rfl hn | rfl
  simp only [semT] at hd
  simp only [semT, denoteT_object, objectVT]
  generalize denoteT ext text (refSemT ext text env fuel) = f at hd ⊢
  have hsh : ∀ k, shuffle k [(p, f d)] = [(p, f d)] := fun k => by
    have := shuffle_perm [(p, f d)] k
    exact List.perm_singleton.1 this
  have hnil : ∀ {α : Type} (k : Nat), shuffle k ([] : List α) = [] := fun k => List.perm_nil.1 (shuffle_perm [] k)
  simp [hnil, addlPhaseT, ObjC.map, Object', getPropNamesT, TVal.indirect, GoType.under, objLoopsT, hsh, forLoop, propStepT, viewPropT, getPropT, hd, hset,
    show GoType.str.assignable .str = true by decide, seqStT, alookup, nameSet]

/-- C105: a map that has keys of an interface type, strings or not, is not an object to the validator. -/
theorem C105_interface_keys (ext : Ext) (text : TVal → GoStr) (env : Env) (fuel : Nat) (o : ObjC Constraint) (σ : Sched) {v : TVal} {n k e z kvs}
    (hv : MapIn v n k e z kvs) (hk : k.under = .any) (hne : kvs ≠ []) : (semT ext text env fuel (.object o)).val σ v = (.err .mapKeys, v) := by
  have hn : getPropNamesT v.indirect = .error (.err .mapKeys) := by
    rw [hv.indirect]
    cases kvs with
    | nil => exact absurd rfl hne
    | cons => simp [getPropNamesT, TVal.indirect, hk]
  simp only [semT, denoteT_object, objectVT, hn, Stop.toRes]

/-- C105: nor is a map accepted that has a nil pointer to a Maybe for a declared property. -/
theorem C105_nil_element {fuel : Nat} {o : ObjC Constraint} {p : GoStr} {d : Constraint} (hp : (p, d) ∈ o.props) (hnd : (o.props.map (·.1)).Nodup) (σ : Sched)
    {v : TVal} {n e z kvs} (hv : MapIn v n .str e z kvs) (he : e.IsMaybeType) {t : GoType} (hx : alookup p kvs = some (.ptr t none)) :
    ((semT ext text env fuel (.object o)).val σ v).1 ≠ .ok := by
  simp only [semT, denoteT_object]
  refine nil_element_panics hv (p := p) (c := denoteT ext text (refSemT ext text env fuel) d) (List.mem_map.2 ⟨(p, d), hp, rfl⟩) ?_ ((isMaybe_iff _).2 he) hx
  have : (o.map (denoteT ext text (refSemT ext text env fuel))).props.map (·.1) = o.props.map (·.1) := by simp [ObjC.map]
  rw [this]
  exact hnd

/-! ## Examples -/

/-- A `%s` that does not depend on types. -/
def plainText (v : TVal) : GoStr := demoExt.sprint v.content

theorem plainText_prints : PrintsLikePlain demoExt plainText := fun _ _ => Iff.rfl

/-- `type Color string` -/
def color (s : GoStr) : TVal := .str (some (b! "Color")) s

/-- `type Car struct { Color Color "color"; Tags []string "tags"; Seats map[string]int "seats"; Doors *MaybeInt "doors" }` -/
def car (c : GoStr) (tags : List GoStr) (seats : List (GoStr × Int)) (doors : TVal) : TVal :=
  .struct (b! "Car") [
    ({ name := b! "Color", tag := b! "color", type := .named (b! "Color") .str }, color c),
    ({ name := b! "Tags", tag := b! "tags", type := .slice .str }, .slice none .str false (tags.map (.str none))),
    ({ name := b! "Seats", tag := b! "seats", type := .map .str (.int .int) },
      .map none .str (.int .int) false (seats.map fun p => (p.1, .int none .int p.2))),
    ({ name := b! "Doors", tag := b! "doors", type := .ptr (.maybe .int) }, doors)]

/-- A constraint for cars, without defaults. -/
def exCar : Constraint := .object { Object' with
  props := [(b! "color", .string { String' with enums := some [.str (b! "red"), .str (b! "blue")] }),
    (b! "tags", .array { Array' with items := some (.string String'), unique := true }),
    (b! "seats", .object { Object' with additional := some (.integer Number') }),
    (b! "doors", .integer Number')],
  required := [b! "color"], additional := none }

theorem exCar_within : exCar.Every (Constraint.Within ⟨False, False⟩) := by
  have leaf : ∀ c : Constraint, c.kids = [] → c.Within ⟨False, False⟩ → c.Every (Constraint.Within ⟨False, False⟩) :=
    fun c h hw => .intro hw fun d hd => by rw [h] at hd; cases hd
  refine .intro (by simp [Constraint.Within, exCar, Constraint.ownDefault]) fun d hd => ?_
  simp only [exCar, Constraint.kids, Object', List.map_cons, List.map_nil, Option.toList, List.append_nil, List.mem_cons, List.not_mem_nil, or_false] at hd
  rcases hd with rfl | rfl | rfl | rfl
  · exact leaf _ rfl (by simp [Constraint.Within, Constraint.ownDefault, String'])
  · refine .intro (by simp [Constraint.Within, Constraint.ownDefault]) fun d hd => ?_
    simp only [Constraint.kids, Array', Option.toList, List.append_nil, List.cons_append, List.nil_append, List.mem_cons, List.not_mem_nil, or_false] at hd
    rcases hd with rfl | rfl
    · exact leaf _ rfl (by simp [Constraint.Within, Constraint.ownDefault, String'])
    · exact leaf _ rfl (by simp [Constraint.Within, Constraint.ownDefault])
  · refine .intro (by simp [Constraint.Within, Constraint.ownDefault]) fun d hd => ?_
    simp only [Constraint.kids, List.map_nil, Option.toList, List.append_nil, List.nil_append, List.mem_cons, List.not_mem_nil, or_false] at hd
    subst hd
    exact leaf _ rfl (by simp [Constraint.Within, Constraint.ownDefault, Number'])
  · exact leaf _ rfl (by simp [Constraint.Within, Constraint.ownDefault, Number'])

theorem car_ordinary (c : GoStr) (tags : List GoStr) (seats : List (GoStr × Int)) (b : Bool) (i : Int) :
    Ordinary ⟨False, False⟩ (car c tags seats (.ptr (.maybe .int) (some (.maybe b (.int i))))) := by
  have hl : ∀ v : TVal, v.isLeaf = true → Ordinary ⟨False, False⟩ v := fun v h => .leaf h fun h => h.elim
  refine .struct (fun p hp => ?_) (fun p hp => ?_) <;>
    simp only [List.mem_cons, List.not_mem_nil, or_false] at hp <;> rcases hp with rfl | rfl | rfl | rfl
  · exact fieldOk_iff.2 ⟨rfl, fun h => (by cases h), fun h => (by cases h)⟩
  · exact fieldOk_iff.2 ⟨rfl, fun h => (by cases h), fun h => (by cases h)⟩
  · exact fieldOk_iff.2 ⟨rfl, fun h => (by cases h), fun h => (by cases h)⟩
  · exact fieldOk_iff.2 ⟨rfl, fun _ => rfl, fun h => (by cases h)⟩
  · exact hl _ rfl
  · refine .slice (fun h => h.elim) fun x hx => ?_
    obtain ⟨t, -, rfl⟩ := List.mem_map.1 hx
    exact hl _ rfl
  · refine .map (fun h => h.elim) (fun h => h.elim) (by rw [← isMaybe_iff]; simp [GoType.isMaybe]) fun x hx => ?_
    obtain ⟨t, -, rfl⟩ := List.mem_map.1 hx
    exact hl _ rfl
  · exact .ptr (hl _ rfl)

/-- `C105_same_partial` applies to every car whose `Doors` is not nil; -/
example (c : GoStr) (tags : List GoStr) (seats : List (GoStr × Int)) (b : Bool) (i : Int) :
    JudgedByContent demoExt plainText env0 exCar (car c tags seats (.ptr (.maybe .int) (some (.maybe b (.int i))))) :=
  C105_same_partial plainText_prints (fun _ _ _ h => by cases h) exCar_within (car_ordinary c tags seats b i)

/-- a red one is accepted, a green one and one with a tag twice are not. -/
example : (fun v => (match ((semT demoExt plainText env0 0 exCar).val sched0 v).1 with | .ok => true | _ => false)) <$>
    [car (b! "red") [b! "fast", b! "old"] [(b! "rear", 3)] (.ptr (.maybe .int) (some (.maybe true (.int 4)))),
     car (b! "green") [b! "fast", b! "old"] [(b! "rear", 3)] (.ptr (.maybe .int) (some (.maybe true (.int 4)))),
     car (b! "red") [b! "fast", b! "fast"] [(b! "rear", 3)] (.ptr (.maybe .int) (some (.maybe true (.int 4))))] = [true, false, false] := by
  decide +kernel

theorem exListBuilt_within : exListBuilt.root.Every (Constraint.Within ⟨False, False⟩) ∧ (exListBuilt.env 7).Every (Constraint.Within ⟨False, False⟩) := by
  have hw : ∀ c : Constraint, c.ownDefault = none → (∀ l, c ≠ .enum l) → c.Within ⟨False, False⟩ := by
    intro c h1 h2
    cases c <;> first | exact fun h => h h1 | exact absurd rfl (h2 _)
  have hleaf : ∀ m n, (Constraint.ref m n).Every (Constraint.Within ⟨False, False⟩) := fun m n =>
    every_of_children (hw _ rfl fun _ h => by cases h) fun d hd => by cases hd
  have hempty : Constraint.empty.Every (Constraint.Within ⟨False, False⟩) :=
    every_of_children (hw _ rfl fun _ h => by cases h) fun d hd => by cases hd
  have hroot : exListBuilt.root.Every (Constraint.Within ⟨False, False⟩) := by
    refine every_of_children (hw _ rfl fun _ h => by cases h) fun d hd => ?_
    cases hd with
    | object h =>
      cases h with
      | prop h =>
        simp only [Object', ObjC.AddProp, ObjC.AdditionalProperties, ainsert] at h
        rw [if_neg (by decide)] at h
        simp only [List.mem_cons, Prod.mk.injEq, List.not_mem_nil, or_false] at h
        rcases h with ⟨-, rfl⟩ | ⟨-, rfl⟩ <;> exact hleaf _ _
      | pattern h => simp [Object', ObjC.AddProp, ObjC.AdditionalProperties] at h
      | additional h =>
        simp only [Object', ObjC.AddProp, ObjC.AdditionalProperties, Option.some.injEq] at h
        subst h
        exact hempty
      | dependency h => simp [Object', ObjC.AddProp, ObjC.AdditionalProperties, ObjC.GetSchemaDependency, alookup] at h
  refine ⟨hroot, fun m n c h => ?_⟩
  simp only [Built.env] at h
  split at h
  · have hm := alookup_mem h
    simp only [exListBuilt, List.mem_cons, Prod.mk.injEq, List.not_mem_nil, or_false] at hm
    rcases hm with ⟨-, rfl⟩ | ⟨-, rfl⟩ | ⟨-, rfl⟩
    · exact hroot
    · refine every_of_children (hw _ rfl fun _ h => by cases h) fun d hd => ?_
      cases hd with
      | array h =>
        cases h with
        | items h =>
          simp only [ArrC.Items, Option.some.injEq] at h
          subst h
          exact hleaf _ _
        | positional h => simp [Array', ArrC.Items] at h
        | additional h =>
          simp only [Array', ArrC.Items] at h
          cases h
          exact hempty
    · refine every_of_children (hw _ rfl fun _ h => by cases h) fun d hd => ?_
      cases hd with
      | any h =>
        simp only [List.mem_cons, List.not_mem_nil, or_false] at h
        rcases h with rfl | rfl
        · exact every_of_children (hw _ rfl fun _ h => by cases h) fun d hd => by cases hd
        · exact hleaf _ _
  · cases h

/-- `C105_valid` applies to the recursive list schema of C63: for instance to a `map[string][]float64`. -/
example (R : GoStr → GoVal → Prop) (hR : Meaning demoExt exListResolve exListSchema R) (fs : List F64) (τ : Sched)
    (hw : Doc anyDoc (TVal.map none .str (.slice (.float .f64)) false [(b! "val", .slice none (.float .f64) false (fs.map (.float none .f64)))]).content) :
    exListSchema.Valid demoExt R (TVal.map none .str (.slice (.float .f64)) false [(b! "val", .slice none (.float .f64) false (fs.map (.float none .f64)))]).content ↔
    ∃ v', ReturnsT demoExt plainText (exListBuilt.env 7) exListBuilt.root τ
      (.map none .str (.slice (.float .f64)) false [(b! "val", .slice none (.float .f64) false (fs.map (.float none .f64)))]) .ok v' := by
  refine (C105_valid (u := ⟨False, False⟩) (lib := lib0) (m := 7) (σ := sched0) (bfuel := 10) plainText_prints (fun _ s1 h => by cases h) rfl
    (exListSchema_conforms demoExt _ _) (fun _ _ _ h => exListResolve_conforms demoExt _ _ (by decide) h) exList_grounded
    exListBuilt_within.1 exListBuilt_within.2 hR ?_ hw τ).1
  refine .map (fun h => h.elim) (fun h => h.elim) (by rw [← isMaybe_iff]; simp [GoType.isMaybe]) fun x hx => ?_
  simp only [List.mem_singleton] at hx
  subst hx
  refine .slice (fun h => h.elim) fun x hx => ?_
  obtain ⟨t, -, rfl⟩ := List.mem_map.1 hx
  exact .leaf rfl fun h => h.elim

/-! Types that matter. -/

/-- `Enum("red")` accepts the string, -/
example : ((sem demoExt env0 0 (.enum [.str (b! "red")])).val sched0 (color (b! "red")).content).1 = .ok := by decide +kernel
/-- and by `C105_enum` not the `Color`. -/
example (σ : Sched) : ((semT demoExt plainText env0 0 (.enum [.str (b! "red")])).val σ (color (b! "red"))).1 = .err .notInEnum := by
  have h : OwnType (color (b! "red")) := .str ..
  rw [C105_enum _ _ _ _ _ _ h]
/-- Nor does `Enum([]interface{}{"red"})` accept a `[]string`, -/
example (σ : Sched) : ((semT demoExt plainText env0 0 (.enum [.slice false [.str (b! "red")]])).val σ
    (.slice none .str false [.str none (b! "red")])).1 = .err .notInEnum := by
  have h : OwnType (.slice none .str false [.str none (b! "red")]) := .slice (Or.inr nofun)
  rw [C105_enum _ _ _ _ _ _ h]
/-- but of plain type it accepts the string. -/
example (σ : Sched) : ((semT demoExt plainText env0 0 (.enum [.str (b! "red")])).val σ (.str none (b! "red"))).1 = .ok := by
  have h : ¬ OwnType (.str none (b! "red")) := nofun
  rw [C105_enum_plain _ _ _ _ _ _ h]
  rfl

/-- `map[Color]interface{}{"red": "x"}` -/
def byColor : TVal := .map none (.named (b! "Color") .str) .any false [(b! "red", .str none (b! "x"))]
/-- A constraint that declares the property `red`. -/
def exRed : ObjC Constraint := { Object' with props := [(b! "red", .string String')] }
/-- A constraint with only a number of properties. -/
def exTwo : ObjC Constraint := { Object' with maxProps := 2, additional := none }

/-- By `C105_keys` this map from colors makes the one panic and is rejected by the other as having additional properties; a map from strings is accepted. -/
example (σ : Sched) : ((semT demoExt plainText env0 0 (.object exRed)).val σ byColor).1 = .abort .panic ∧
    ((semT demoExt plainText env0 0 (.object exTwo)).val σ byColor).1 = .err .addlNotAllowed ∧
    ((sem demoExt env0 0 (.object exRed)).val sched0 byColor.content).1 = .ok := by
  refine ⟨?_, ?_, by decide +kernel⟩
  · rw [C105_keys _ _ _ _ exRed _ (v := byColor) (Or.inl rfl) rfl (by decide) (by decide) (by decide)]
    have : exRed.props ≠ [] := by simp [exRed]
    rw [if_pos (Or.inl this)]
  · rw [C105_keys _ _ _ _ exTwo _ (v := byColor) (Or.inl rfl) rfl (by decide) (by decide) (by decide)]
    have : ¬ (exTwo.props ≠ [] ∨ (∃ p ∈ exTwo.patterns, ∃ q ∈ [(b! "red", TVal.str none (b! "x"))], demoExt.reMatch p.2.1 q.1 = true) ∨
        ([(b! "red", TVal.str none (b! "x"))] ≠ [] ∧ exTwo.additional ≠ none)) := by simp [exTwo, Object']
    rw [if_neg this]
    rfl

/-- A car whose `Doors` is nil, which is what Go gives to a field not set: `C105_nil_maybe` applies. -/
example (σ : Sched) (o : ObjC Constraint) (c : GoStr) (tags : List GoStr) (seats : List (GoStr × Int)) :
    (semT demoExt plainText env0 0 (.object o)).val σ (car c tags seats (.ptr (.maybe .int) none)) =
      (.abort .panic, car c tags seats (.ptr (.maybe .int) none)) :=
  C105_nil_maybe (id := b! "Car") (l := [(b! "color", ⟨b! "Color", false⟩), (b! "tags", ⟨b! "Tags", false⟩), (b! "seats", ⟨b! "Seats", false⟩), (b! "doors", ⟨b! "Doors", true⟩)])
    (p := b! "doors") (info := ⟨b! "Doors", true⟩) (t := .ptr (.maybe .int)) (e := .maybe .int) _ _ _ _ _ _ rfl rfl (by simp) rfl rfl

/-- An integer with the default `7.0`, as a schema gives it (encoding/json knows only `float64`). -/
def exSeven : ObjC Constraint := { Object' with props := [(b! "rear", .integer { Number' with dflt := some (fl 7) })] }

/-- `C105_default` applies to a `map[string]int` without the property; -/
example (σ : Sched) : ((semT demoExt plainText env0 0 (.object exSeven)).val σ (.ptr (.map .str (.int .int)) (some (.map none .str (.int .int) false [])))).1 ≠ .ok :=
  C105_default (p := b! "rear") (d := .integer { Number' with dflt := some (fl 7) }) (dv := fl 7) (by simp [exSeven]) (by simp [exSeven]) (by simp) rfl σ
    (Or.inr ⟨_, rfl⟩) rfl (by rw [← takes_iff]; decide)

/-- validation panics, where the `map[string]interface{}` gets the default. -/
example : (semT demoExt plainText env0 0 (.object exSeven)).val sched0 (.map none .str (.int .int) false []) = (.abort .panic, .map none .str (.int .int) false []) ∧
    (sem demoExt env0 0 (.object exSeven)).val sched0 (.map false []) = (.ok, .map false [(b! "rear", fl 7)]) := ⟨rfl, rfl⟩

/-- `C105_default_taken`: with `type List []interface{}` a `map[string]List` takes the default `[]`, as does a `map[string][]interface{}`. -/
example (σ : Sched) : (semT demoExt plainText env0 0 (.object { Object' with props := [(b! "l", .string { String' with dflt := some (.slice false []) })] })).val σ
    (.map none .str (.named (b! "List") (.slice .any)) false []) =
      (.ok, .map none .str (.named (b! "List") (.slice .any)) false [(b! "l", .slice none .any false [])]) :=
  C105_default_taken (dv := .slice false []) (by simp) rfl σ (.unnamed rfl (Or.inr (Or.inl ⟨_, rfl⟩)))

/-- `C105_interface_keys`: a `map[interface{}]interface{}`, as YAML packages make them. -/
example (σ : Sched) : ((semT demoExt plainText env0 0 (.object exRed)).val σ (.map none .any .any false [(b! "red", .str none (b! "x"))])).1 = .err .mapKeys := by
  rw [C105_interface_keys _ _ _ _ _ _ (Or.inl rfl) rfl (by simp)]

/-- `C105_nil_element`: a `map[string]*MaybeString`; set to the empty string it is accepted. -/
example (σ : Sched) : ((semT demoExt plainText env0 0 (.object exRed)).val σ (.map none .str (.ptr (.maybe .str)) false [(b! "red", .ptr (.maybe .str) none)])).1 ≠ .ok ∧
    ((semT demoExt plainText env0 0 (.object exRed)).val sched0 (.map none .str (.ptr (.maybe .str)) false [(b! "red", .ptr (.maybe .str) (some (.maybe true (.str []))))])).1 = .ok :=
  ⟨C105_nil_element (p := b! "red") (d := .string String') (by simp [exRed]) (by simp [exRed]) σ (Or.inl rfl) ⟨_, Or.inr rfl⟩ rfl, by decide +kernel⟩

/-- C105: the claim in full fails: a `Color` is not judged by the string it contains, nor a map from colors, a car without doors, or a `map[string]int` by
its entries, even if printing does not depend on types. -/
theorem C105_refuted : ¬ JudgedByContent demoExt plainText env0 (.enum [.str (b! "red")]) (color (b! "red")) ∧
    ¬ JudgedByContent demoExt plainText env0 (.object exRed) byColor ∧
    ¬ JudgedByContent demoExt plainText env0 (.object { Object' with additional := some .empty }) (car (b! "red") [] [] (.ptr (.maybe .int) none)) ∧
    ¬ JudgedByContent demoExt plainText env0 (.object exSeven) (.map none .str (.int .int) false []) := by
  have no : ∀ {c : Constraint} {v v' : TVal} {r : Res} {r' : Res}, r ≠ .abort .diverge → (semT demoExt plainText env0 0 c).val sched0 v = (r, v') →
      (∀ fuel, ((sem demoExt env0 fuel c).val sched0 v.content).1 = r') → r ≠ r' → ¬ JudgedByContent demoExt plainText env0 c v := by
    intro c v v' r r' hr h1 h2 hne h
    obtain ⟨-, fuel, h3⟩ := (h sched0 r).1 v' ⟨hr, 0, h1⟩
    have := h2 fuel
    rw [h3] at this
    exact hne this
  refine ⟨?_, ?_, ?_, ?_⟩
  · exact no (r := .err .notInEnum) (r' := .ok) (by simp) rfl (fun _ => rfl) (by simp)
  · exact no (r := .abort .panic) (r' := .ok) (by simp) rfl (fun _ => rfl) (by simp)
  · exact no (r := .abort .panic) (r' := .ok) (by simp) rfl (fun _ => rfl) (by simp)
  · exact no (r := .abort .panic) (r' := .ok) (by simp) rfl (fun _ => rfl) (by simp)

end Jsval
