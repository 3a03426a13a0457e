import Verif.Lemmas.Stricter
import Verif.Props.Defaults
import Verif.Props.Faults
import Verif.Props.UnseenOrder
/-!
# C122: a stricter constraint accepts less
-/
namespace Jsval

variable {ext : Ext} {env : Env} {S : Constraint → Constraint → Prop} {c d : Constraint} {v v' : GoVal} {σ : Sched}

/-- C122: if `c` asks at least as much as `d`, keyword by keyword, and some call of `c` accepts a value, no call of `d` returns an error for it. -/
theorem C122_stricter (henv : env.Every fun c => NoDefault c ∧ DisjointPatterns ext c) (hS : ∀ c d, S c d → Tightens ext env S c d) (h : S c d)
    (hc : c.Every fun c => NoDefault c ∧ DisjointPatterns ext c) (hd : d.Every fun c => NoDefault c ∧ DisjointPatterns ext c) (hv : Tidy v)
    (ha : Accepted ext env c v) (σ : Sched) (e : Err) (v' : GoVal) : ¬ Returns ext env d σ v (.err e) v' := by
  obtain ⟨τ, w, -, k, h1⟩ := ha
  rintro ⟨-, l, h2⟩
  exact stricter_run henv hS _ _ c d k l rfl rfl h hc hd v hv τ σ e (by rw [h1]) (by rw [h2])

/-- C122: so what `d` has an error for, no call of `c` accepts. -/
theorem C122_rejects (henv : env.Every fun c => NoDefault c ∧ DisjointPatterns ext c) (hS : ∀ c d, S c d → Tightens ext env S c d) (h : S c d)
    (hc : c.Every fun c => NoDefault c ∧ DisjointPatterns ext c) (hd : d.Every fun c => NoDefault c ∧ DisjointPatterns ext c) (hv : Tidy v)
    {e : Err} (hr : Returns ext env d σ v (.err e) v') : ¬ Accepted ext env c v := fun ha =>
  C122_stricter henv hS h hc hd hv ha σ e v' hr

/-- C122: on decoded JSON, what some call of `c` accepts, every call of `d` that comes back accepts. -/
theorem C122_json (henv : env.Every fun c => (NoDefault c ∧ DisjointPatterns ext c) ∧ ScalarEnum c) (hS : ∀ c d, S c d → Tightens ext env S c d) (h : S c d)
    (hc : c.Every fun c => NoDefault c ∧ DisjointPatterns ext c) (hd : d.Every fun c => (NoDefault c ∧ DisjointPatterns ext c) ∧ ScalarEnum c)
    (hv : IsJson v) (ha : Accepted ext env c v) {r : Res} (hr : Returns ext env d σ v r v') : r = .ok := by
  have hn : ∀ c, (NoDefault c ∧ DisjointPatterns ext c) ∧ ScalarEnum c → DefaultIn IsJson c ∧ ScalarEnum c := fun c h =>
    ⟨fun dv hdv => (by rw [h.1.1] at hdv; cases hdv), h.2⟩
  have := C44_json (henv.imp hn) (hd.imp hn) hv hr
  cases r with
  | ok => rfl
  | err e => exact absurd hr (C122_stricter (henv.imp fun _ h => h.1) hS h hc (hd.imp fun _ h => h.1) hv.tidy ha σ e v')
  | abort a => exact absurd rfl (this a)

/-- C122 with defaults that nothing sees, on decoded JSON: the comparison is that of the constraints without their defaults. -/
theorem C122_decoded (henv : env.Every fun c => Unseen env c ∧ DisjointPatterns ext c) (hS : ∀ c d, S c d → Tightens ext env.plain S c d)
    (h : S c.plain d.plain) (hc : c.Every fun c => Unseen env c ∧ DisjointPatterns ext c) (hd : d.Every fun c => Unseen env c ∧ DisjointPatterns ext c)
    (hv : IsJson v) (ha : Accepted ext env c v) (σ : Sched) (e : Err) (v' : GoVal) : ¬ Returns ext env d σ v (.err e) v' := by
  intro hr
  obtain ⟨τ, w, hw⟩ := ha
  have hu : env.Every (Unseen env) := henv.imp fun _ h => h.1
  exact C122_stricter (env_plain_every henv fun _ => plain_orderly) hS h (plain_orderly hc) (plain_orderly hd) hv.tidy
    ⟨τ, v, (C88_returns hu (hc.imp fun _ h => h.1) hv).1 ⟨w, hw⟩⟩ σ e v ((C88_returns hu (hd.imp fun _ h => h.1) hv).1 ⟨v', hr⟩)

/-! ## Examples -/

/-- the tags of a strict member -/
def exStrictTags : Constraint := .array { Array' with items := some (.string (String'.MaxLength 2)), minItems := 1, unique := true }

/-- the numbers of strict members -/
def exStrictId : Constraint := .integer { Number' with minimum := some F64.zero, exclMin := true }

/-- members in the sense of `Props/Faults.lean` held to more: shorter tags, no two of them alike and at least one, numbers as identifiers, tags
required, and friends of the same kind -/
def exStrictMember : Constraint :=
  .object ((((Object'.AddProp (b! "tags") exStrictTags).AddProp (b! "friend") (.ref 0 (b! "strict"))).AddProp (b! "id") exStrictId).Required
    [b! "id", b! "tags"])

/-- its link, and that of the others -/
def exStrictEnv : Env := fun _ n => if n = b! "self" then some exMember else if n = b! "strict" then some exStrictMember else none

/-- what is stricter than what -/
inductive exStricter : Constraint → Constraint → Prop where
  | same {x} : exStricter x x
  | member : exStricter exStrictMember exMember
  | memberRef : exStricter exStrictMember (.ref 0 (b! "self"))
  | ref : exStricter (.ref 0 (b! "strict")) (.ref 0 (b! "self"))
  | tags : exStricter exStrictTags (.array (Array'.Items (Constraint.string (String'.MaxLength 3))))
  | tag : exStricter (.string (String'.MaxLength 2)) (.string (String'.MaxLength 3))
  | id : exStricter exStrictId (.any [.integer Number', .string (String'.MinLength 2)])
  | int : exStricter exStrictId (.integer Number')

theorem exStricter_tightens : ∀ c d, exStricter c d → Tightens demoExt exStrictEnv exStricter c d := by
  intro c d h
  cases h with
  | same => exact .same
  | member =>
    refine .object ⟨by decide, by decide, ?_, ?_, ?_, ?_, ?_, ?_, ?_, ?_⟩
    · intro k d hd
      replace hd : (k, d) ∈ [(b! "tags", Constraint.array (Array'.Items (Constraint.string (String'.MaxLength 3)))), (b! "friend", .ref 0 (b! "self")),
        (b! "id", .any [.integer Number', .string (String'.MinLength 2)])] := hd
      have hm : ∀ {x L}, L = [(b! "tags", exStrictTags), (b! "friend", Constraint.ref 0 (b! "strict")), (b! "id", exStrictId)] → x ∈ [(b! "tags", exStrictTags), (b! "friend", Constraint.ref 0 (b! "strict")), (b! "id", exStrictId)] → x ∈ L := fun h h' => h ▸ h'
      simp only [List.mem_cons, Prod.mk.injEq, List.not_mem_nil, or_false] at hd
      rcases hd with ⟨rfl, rfl⟩ | ⟨rfl, rfl⟩ | ⟨rfl, rfl⟩
      · exact ⟨exStrictTags, hm rfl (by simp), .tags⟩
      · exact ⟨.ref 0 (b! "strict"), hm rfl (by simp), .ref⟩
      · exact ⟨exStrictId, hm rfl (by simp), .id⟩
    · rintro k ⟨c, hc⟩ hn
      replace hc : (k, c) ∈ [(b! "tags", exStrictTags), (b! "friend", .ref 0 (b! "strict")), (b! "id", exStrictId)] := hc
      simp only [List.mem_cons, Prod.mk.injEq, List.not_mem_nil, or_false] at hc
      have hm : ∀ {x L}, L = [(b! "tags", Constraint.array (Array'.Items (Constraint.string (String'.MaxLength 3)))), (b! "friend", Constraint.ref 0 (b! "self")),
        (b! "id", Constraint.any [.integer Number', .string (String'.MinLength 2)])] → x ∈ [(b! "tags", Constraint.array (Array'.Items (Constraint.string (String'.MaxLength 3)))), (b! "friend", Constraint.ref 0 (b! "self")),
        (b! "id", Constraint.any [.integer Number', .string (String'.MinLength 2)])] → x ∈ L :=
        fun h h' => h ▸ h'
      rcases hc with ⟨rfl, -⟩ | ⟨rfl, -⟩ | ⟨rfl, -⟩
      · exact absurd ⟨_, hm rfl (List.mem_cons_self ..)⟩ hn
      · exact absurd ⟨_, hm rfl (List.mem_cons_of_mem _ (List.mem_cons_self ..))⟩ hn
      · exact absurd ⟨_, hm rfl (List.mem_cons_of_mem _ (List.mem_cons_of_mem _ (List.mem_cons_self ..)))⟩ hn
    · intro k hk _
      replace hk : k ∈ [b! "id"] := hk
      simp only [List.mem_singleton] at hk
      subst hk
      decide
    · exact fun _ _ _ h => by cases h
    · exact fun _ _ _ h => by cases h
    · exact ⟨fun _ => rfl, fun d h => by cases h⟩
    · exact fun k d hd => by cases hd
    · exact fun k d _ hd => by cases hd
  | memberRef => exact .refRight (d := exMember) rfl .member
  | ref => exact .refLeft (c := exStrictMember) rfl .memberRef
  | tags =>
    refine .array ⟨by decide, by decide, by decide, ?_, ?_⟩
    · intro d h
      cases h
      exact ⟨_, rfl, .tag⟩
    · exact fun h => by cases h
  | tag => exact .string ⟨by decide, by decide, .inl rfl, (fun _ h => by cases h), fun _ h => by cases h⟩
  | id => exact .anyRight (List.mem_cons_self ..) .int
  | int => exact .integer ⟨(fun _ h => by cases h), (fun _ h => by cases h), (fun _ h => by cases h), fun _ h => by cases h⟩

theorem exStrict_every : exStrictMember.Every fun c => NoDefault c ∧ DisjointPatterns demoExt c := by
  have hleaf : ∀ c : Constraint, c.kids = [] → (NoDefault c ∧ DisjointPatterns demoExt c) →
      c.Every fun c => NoDefault c ∧ DisjointPatterns demoExt c := fun c h1 h2 => .intro h2 (by rw [h1]; simp)
  refine .intro ⟨rfl, ⟨by decide⟩, fun k _ p hp => by cases hp⟩ fun d hd => ?_
  rw [show exStrictMember.kids = [exStrictTags, .ref 0 (b! "strict"), exStrictId] from rfl] at hd
  simp only [List.mem_cons, List.not_mem_nil, or_false] at hd
  rcases hd with rfl | rfl | rfl
  · refine .intro ⟨rfl, trivial⟩ fun d hd => ?_
    rw [show Constraint.kids _ = [.string (String'.MaxLength 2), .empty] from rfl] at hd
    simp only [List.mem_cons, List.not_mem_nil, or_false] at hd
    rcases hd with rfl | rfl <;> exact hleaf _ rfl ⟨rfl, trivial⟩
  all_goals exact hleaf _ rfl ⟨rfl, trivial⟩

theorem exStrictEnv_every : exStrictEnv.Every fun c => NoDefault c ∧ DisjointPatterns demoExt c := by
  intro m n c h
  unfold exStrictEnv at h
  split at h
  · cases h; exact exMember_every
  · split at h
    · cases h; exact exStrict_every
    · cases h

/-- someone strict with a strict friend -/
def exStrictValue : GoVal := .map false [(b! "id", fl 7), (b! "tags", .slice false [.str (b! "ab"), .str (b! "c")]),
  (b! "friend", .map false [(b! "id", fl 8), (b! "tags", .slice false [.str (b! "x")])])]

theorem exStrict_accepted : Accepted demoExt exStrictEnv exStrictMember exStrictValue :=
  ⟨sched0, _, by simp, 3, Prod.ext (by decide +kernel) rfl⟩

theorem exStrictValue_json : IsJson exStrictValue := by
  have hstr : ∀ l : List GoStr, IsJson (.slice false (l.map .str)) := fun l => .arr _ fun x hx => by
    obtain ⟨y, -, rfl⟩ := List.mem_map.1 hx
    exact .str y
  refine .obj _ (by decide) fun k x hx => ?_
  simp only [List.mem_cons, Prod.mk.injEq, List.not_mem_nil, or_false] at hx
  rcases hx with ⟨-, rfl⟩ | ⟨-, rfl⟩ | ⟨-, rfl⟩
  · exact .num _
  · exact hstr [b! "ab", b! "c"]
  · refine .obj _ (by decide) fun k x hx => ?_
    simp only [List.mem_cons, Prod.mk.injEq, List.not_mem_nil, or_false] at hx
    rcases hx with ⟨-, rfl⟩ | ⟨-, rfl⟩
    · exact .num _
    · exact hstr [b! "x"]

/-- no call of the others has anything to say against it -/
example (σ : Sched) (e : Err) (v' : GoVal) : ¬ Returns demoExt exStrictEnv exMember σ exStrictValue (.err e) v' :=
  C122_stricter exStrictEnv_every exStricter_tightens exStricter.member exStrict_every exMember_every exStrictValue_json.tidy exStrict_accepted σ e v'

/-- and the friend with the long tag is no strict member either -/
example : ¬ Accepted demoExt exStrictEnv exStrictMember exBadFriend :=
  C122_rejects (σ := sched0) exStrictEnv_every exStricter_tightens exStricter.member exStrict_every exMember_every exBadFriend_tidy
    (show Returns demoExt exStrictEnv exMember sched0 exBadFriend (.err (.prop (b! "friend") (.prop (b! "tags") (.tooLong 3)))) exBadFriend from
      ⟨by simp, 3, by rfl⟩)

/-- the converse fails: a member with a tag of three letters is not strict -/
example : Accepted demoExt exStrictEnv exMember (.map false [(b! "id", fl 7), (b! "tags", .slice false [.str (b! "abc")])]) ∧
    ¬ Accepted demoExt exStrictEnv exStrictMember (.map false [(b! "id", fl 7), (b! "tags", .slice false [.str (b! "abc")])]) := by
  refine ⟨⟨sched0, _, by simp, 3, Prod.ext (by decide +kernel) rfl⟩, ?_⟩
  refine C122_rejects (σ := sched0) (v' := .map false [(b! "id", fl 7), (b! "tags", .slice false [.str (b! "abc")])]) (d := exStrictMember)
    (S := Eq) (e := .prop (b! "tags") (.tooLong 2)) exStrictEnv_every ?_ rfl exStrict_every exStrict_every ?_ ⟨by simp, 3, by rfl⟩
  · rintro c _ rfl; exact .same
  · refine .map _ _ (by decide) fun k x hx => ?_
    simp only [List.mem_cons, Prod.mk.injEq, List.not_mem_nil, or_false] at hx
    rcases hx with ⟨-, rfl⟩ | ⟨-, rfl⟩
    · exact .float _ _
    · refine .slice _ _ fun x hx => ?_
      simp only [List.mem_singleton] at hx
      subst hx
      exact .str _

/-- a name more, where the rest is left alone -/
example : Tightens demoExt env0 Eq (.object ((Object'.AdditionalProperties (some .empty)).AddProp (b! "age") (.number Number')))
    (.object (Object'.AdditionalProperties (some .empty))) := by
  refine .object ⟨by decide, by decide, (fun _ _ h => by cases h), fun k _ _ => ⟨rfl, by rintro ⟨_, _, _, h, -⟩; cases h⟩, (fun _ h => by cases h),
    (fun _ _ _ h => by cases h), (fun _ _ _ h => by cases h), ⟨(fun h => by cases h), fun d h => .inr ⟨.empty, rfl, by cases h; rfl⟩⟩,
    (fun _ _ h => by cases h), fun _ _ _ h => by cases h⟩

/-- defaults may differ: what a positive number, 3 if missing, lets pass, a number, 5 if missing, does -/
example (v : GoVal) (hv : IsJson v)
    (ha : Accepted demoExt env0 (.object (Object'.AddProp (b! "n") (.integer { Number' with minimum := some F64.zero, dflt := some (fl 3) }))) v)
    (σ : Sched) (e : Err) (v' : GoVal) : ¬ Returns demoExt env0 (.object (Object'.AddProp (b! "n") (.integer (Number'.Default (fl 5))))) σ v (.err e) v' := by
  have hobj : ∀ c : NumC, (Constraint.object (Object'.AddProp (b! "n") (.integer c))).Every fun c => Unseen env0 c ∧ DisjointPatterns demoExt c :=
    fun c => .intro ⟨⟨⟨by simp [Object', ObjC.AddProp, ainsert]⟩, .inl rfl⟩, ⟨by simp [Object', ObjC.AddProp, ainsert]⟩, fun k _ p hp => by cases hp⟩
      fun d hd => by
        rw [show Constraint.kids _ = [.integer c] from rfl] at hd
        simp only [List.mem_singleton] at hd
        subst hd
        exact .intro ⟨trivial, trivial⟩ fun d hd => by cases hd
  have tight : NumC.Tighter { Number' with minimum := some F64.zero } Number' :=
    ⟨(fun _ h => by cases h), (fun _ h => by cases h), (fun _ h => by cases h), fun _ h => by cases h⟩
  refine C122_decoded (S := fun c d => (∃ a b : NumC, c = .integer a ∧ d = .integer b ∧ a.Tighter b) ∨ ∃ a b : NumC, a.Tighter b ∧
      c = .object (Object'.AddProp (b! "n") (.integer a)) ∧ d = .object (Object'.AddProp (b! "n") (.integer b)))
    (by intro m n c h; cases h) ?_ (.inr ⟨_, _, tight, rfl, rfl⟩) (hobj _) (hobj _) hv ha σ e v'
  rintro c d (⟨a, b, rfl, rfl, h⟩ | ⟨a, b, h, rfl, rfl⟩)
  · exact .integer h
  · refine .object ⟨fun _ => Int.le_refl _, fun h => ⟨h, Int.le_refl _⟩, ?_, ?_, (fun _ h => by cases h), (fun _ _ _ h => by cases h), (fun _ _ _ h => by cases h),
      ⟨fun _ => rfl, fun d h => by cases h⟩, (fun _ _ h => by cases h), fun _ _ _ h => by cases h⟩
    · intro k d hd
      simp only [Object', ObjC.AddProp, ainsert, List.mem_singleton, Prod.mk.injEq] at hd
      obtain ⟨rfl, rfl⟩ := hd
      exact ⟨_, by simp [Object', ObjC.AddProp, ainsert], .inl ⟨a, b, rfl, rfl, h⟩⟩
    · rintro k ⟨c, hc⟩ hn
      simp only [Object', ObjC.AddProp, ainsert, List.mem_singleton, Prod.mk.injEq] at hc
      exact absurd ⟨_, by simp [Object', ObjC.AddProp, ainsert, hc.1]; rfl⟩ hn

/-- combinations compare too: a short string is exactly one of a string and a number, and what is no string is no short one -/
example : let S := fun c d : Constraint => (c = .string (String'.MaxLength 2) ∧ d = .oneOf [.number Number', .string String']) ∨
      (c = .not (some (.string String')) ∧ d = .not (some (.string (String'.MaxLength 2)))) ∨
      (c = .string (String'.MaxLength 2) ∧ d = .string String') ∨ (c = .string (String'.MaxLength 2) ∧ d = .not (some (.number Number')))
    ∀ c d, S c d → Tightens demoExt env0 S c d := by
  rintro S c d (⟨rfl, rfl⟩ | ⟨rfl, rfl⟩ | ⟨rfl, rfl⟩ | ⟨rfl, rfl⟩)
  · refine .oneOfRight (i := 1) rfl (.inr (.inr (.inl ⟨rfl, rfl⟩))) fun j x hj hx => ?_
    match j, hx with
    | 0, hx => cases hx; exact .inr (.inr (.inr ⟨rfl, rfl⟩))
    | 1, _ => exact absurd rfl hj
    | j + 2, hx => simp at hx
  · exact .not (.inr (.inr (.inl ⟨rfl, rfl⟩)))
  · exact .string ⟨by decide, by decide, .inl rfl, (fun _ h => by cases h), fun _ h => by cases h⟩
  · exact .apart rfl rfl (by decide)

end Jsval
