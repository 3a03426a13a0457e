import Verif.Lemmas.Accuses
import Verif.Lemmas.BuildTable
import Verif.Props.Builder
import Verif.Props.Faults
/-!
# C118: where messages come from

`Blames` (`Spec/Blames.lean`) tells which messages a validator has to offer, reading its rules only; `Accuses` (`Spec/Accuses.lean`) tells which
messages a schema can lead to, reading its keywords only. C103 is about the value ("what the error says is true"), needs values that stand for
documents and validators without defaults; here the value may be anything at all, and defaults may be filled in on the way.
-/
namespace Jsval

variable {ext : Ext} {env : Env} {σ : Sched}

/-- C118: every error any validator returns, for any value and any iteration order, is one that its rules provide for: the limit, format,
pattern or name it speaks of has been set. -/
theorem C118_messages {c : Constraint} {v v' : GoVal} {e : Err} (h : Returns ext env c σ v (.err e) v') : ∃ k, Blames ext env k c e := by
  obtain ⟨-, fuel, h⟩ := h
  exact ⟨fuel, (sem_speaks fuel c).val σ v e (by rw [h])⟩

theorem StrBlames.utters {c : StrC} {e : Err} (h : StrBlames c e) : (Constraint.string c).Utters e.reason := by
  cases h with
  | notString => trivial
  | tooLong => exact rfl
  | tooShort => exact rfl
  | regexp h => exact h
  | _ => simp only [Err.reason, Constraint.Utters, reduceCtorEq, or_false, false_or, or_true, true_or]
theorem NumBlames.utters {c d : NumC} {e : Err} (h : NumBlames c e) : (Constraint.number d).Utters e.reason ∧ (Constraint.integer d).Utters e.reason := by
  cases h <;> exact ⟨by simp only [Err.reason, Constraint.Utters, reduceCtorEq, or_false, false_or, or_true, true_or],
    by simp only [Err.reason, Constraint.Utters, reduceCtorEq, or_false, false_or, or_true, true_or]⟩
theorem ArrBlames.utters {a : ArrC Constraint} {e : Err} (h : ArrBlames a e) : (Constraint.array a).Utters e.reason := by
  cases h <;> simp only [Err.reason, Constraint.Utters, reduceCtorEq, or_false, false_or, or_true, true_or]
theorem ObjBlames.utters {o : ObjC Constraint} {e : Err} (h : ObjBlames o e) : (Constraint.object o).Utters e.reason ∨ e.reason = .mapKeys := by
  cases h with
  | mapKeys => exact .inr rfl
  | required h => exact .inl h
  | depMissing h => exact .inl ⟨_, h⟩
  | _ => exact .inl (by simp only [Err.reason, Constraint.Utters, reduceCtorEq, or_false, false_or, or_true, true_or])

theorem Blames.place {k : Nat} {c : Constraint} {e : Err} (h : Blames ext env k c e) : ∃ d, ReachedFrom env c d ∧
    (d.Utters e.reason ∨ ∃ o, d = .object o ∧ (e.reason = .mapKeys ∨ ∃ p ∈ e.names, SetBlames p e.reason)) := by
  have up : ∀ {c d : Constraint} {e e' : Err}, c.Child d →
      (∃ x, ReachedFrom env d x ∧ (x.Utters e.reason ∨ ∃ o, x = .object o ∧ (e.reason = .mapKeys ∨ ∃ p ∈ e.names, SetBlames p e.reason))) →
      e'.reason = e.reason → (∀ p, p ∈ e.names → p ∈ e'.names) →
      ∃ x, ReachedFrom env c x ∧ (x.Utters e'.reason ∨ ∃ o, x = .object o ∧ (e'.reason = .mapKeys ∨ ∃ p ∈ e'.names, SetBlames p e'.reason)) := by
    rintro c d e e' hc ⟨x, h1, h2⟩ he hp
    rw [he]
    exact ⟨x, .child hc h1, h2.imp_right fun ⟨o, h3, h4⟩ => ⟨o, h3, h4.imp_right fun ⟨p, h5, h6⟩ => ⟨p, hp p h5, h6⟩⟩⟩
  induction h with
  | null => exact ⟨_, .refl, .inl trivial⟩
  | boolean => exact ⟨_, .refl, .inl trivial⟩
  | enum => exact ⟨_, .refl, .inl trivial⟩
  | string h => exact ⟨_, .refl, .inl (h.utters)⟩
  | notFloat => exact ⟨_, .refl, .inl (by simp only [Err.reason, Constraint.Utters, reduceCtorEq, or_false, false_or, or_true, true_or])⟩
  | number h => exact ⟨_, .refl, .inl h.utters.1⟩
  | notNumeric => exact ⟨_, .refl, .inl (by simp only [Err.reason, Constraint.Utters, reduceCtorEq, or_false, false_or, or_true, true_or])⟩
  | notIntegral => exact ⟨_, .refl, .inl (by simp only [Err.reason, Constraint.Utters, reduceCtorEq, or_false, false_or, or_true, true_or])⟩
  | integer h => exact ⟨_, .refl, .inl h.utters.2⟩
  | array h => exact ⟨_, .refl, .inl h.utters⟩
  | item h _ ih => exact up (.array (.items h)) ih rfl (fun _ h => h)
  | positional _ h _ ih => exact up (.array (.positional h)) ih rfl (fun _ h => h)
  | extra _ h _ _ ih => exact up (.array (.additional h)) ih rfl (fun _ h => h)
  | object h => exact ⟨_, .refl, h.utters.imp_right fun h => ⟨_, rfl, .inl h⟩⟩
  | prop h _ ih => exact up (.object (.prop h)) ih rfl (fun _ h => List.mem_cons_of_mem _ h)
  | setDefault _ _ _ h =>
    refine ⟨_, .refl, .inr ⟨_, rfl, .inr ⟨_, List.mem_cons_self .., ?_⟩⟩⟩
    cases h with
    | noField => exact .noField
    | kind => exact .kind
    | maybe => exact .maybe
    | time => exact .time
  | pattern h _ _ ih => exact up (.object (.pattern h)) ih rfl (fun _ h => List.mem_cons_of_mem _ h)
  | addlProp h _ ih => exact up (.object (.additional h)) ih rfl (fun _ h => List.mem_cons_of_mem _ h)
  | dependency _ h _ ih => exact up (.object (.dependency h)) ih rfl (fun _ h => h)
  | any => exact ⟨_, .refl, .inl trivial⟩
  | all h _ ih => exact up (.all h) ih rfl (fun _ h => h)
  | oneOfNone => exact ⟨_, .refl, .inl (by simp only [Err.reason, Constraint.Utters, reduceCtorEq, or_false, false_or, or_true, true_or])⟩
  | oneOfMany => exact ⟨_, .refl, .inl (by simp only [Err.reason, Constraint.Utters, reduceCtorEq, or_false, false_or, or_true, true_or])⟩
  | notFailed => exact ⟨_, .refl, .inl (by simp only [Err.reason, Constraint.Utters, reduceCtorEq, or_false, false_or, or_true, true_or])⟩
  | notNoChild => exact ⟨_, .refl, .inl (by simp only [Err.reason, Constraint.Utters, reduceCtorEq, or_false, false_or, or_true, true_or])⟩
  | ref h _ ih => obtain ⟨x, h1, h2⟩ := ih; exact ⟨x, .ref h h1, h2⟩
  | refNotFound => exact ⟨_, .refl, .inl rfl⟩

/-- C118: behind the property names, the error is one that a constraint in the tree, or in a tree it refers to, utters itself. The rest is about
objects: map keys that are not strings, and a default that could not be set for one of the named properties. -/
theorem C118_place {c : Constraint} {v v' : GoVal} {e : Err} (h : Returns ext env c σ v (.err e) v') : ∃ d, ReachedFrom env c d ∧
    (d.Utters e.reason ∨ ∃ o, d = .object o ∧ (e.reason = .mapKeys ∨ ∃ p ∈ e.names, SetBlames p e.reason)) := by
  obtain ⟨k, hk⟩ := C118_messages h
  exact hk.place

/-- Neither a reference to nothing nor a `not` of nothing. -/
def Whole (env : Env) (c : Constraint) : Prop := (∀ m n, c = .ref m n → ∃ d, env m n = some d) ∧ c ≠ .not none

theorem Blames.whole {k : Nat} {c : Constraint} {e : Err} (henv : env.Every (Whole env)) (h : Blames ext env k c e) (hc : c.Every (Whole env)) :
    (∀ n, e.reason ≠ .refNotFound n) ∧ e.reason ≠ .notNoChild := by
  have sub : ∀ {c d : Constraint}, c.Child d → c.Every (Whole env) → d.Every (Whole env) := fun h hc x hx => hc x (.child h hx)
  induction h with
  | null => exact ⟨nofun, nofun⟩
  | boolean => exact ⟨nofun, nofun⟩
  | enum => exact ⟨nofun, nofun⟩
  | string h => cases h <;> exact ⟨nofun, nofun⟩
  | notFloat => exact ⟨nofun, nofun⟩
  | number h => cases h <;> exact ⟨nofun, nofun⟩
  | notNumeric => exact ⟨nofun, nofun⟩
  | notIntegral => exact ⟨nofun, nofun⟩
  | integer h => cases h <;> exact ⟨nofun, nofun⟩
  | array h => cases h <;> exact ⟨nofun, nofun⟩
  | item h _ ih => exact ih (sub (.array (.items h)) hc)
  | positional _ h _ ih => exact ih (sub (.array (.positional h)) hc)
  | extra _ h _ _ ih => exact ih (sub (.array (.additional h)) hc)
  | object h => cases h <;> exact ⟨nofun, nofun⟩
  | prop h _ ih => exact ih (sub (.object (.prop h)) hc)
  | setDefault _ _ _ h => cases h <;> exact ⟨nofun, nofun⟩
  | pattern h _ _ ih => exact ih (sub (.object (.pattern h)) hc)
  | addlProp h _ ih => exact ih (sub (.object (.additional h)) hc)
  | dependency _ h _ ih => exact ih (sub (.object (.dependency h)) hc)
  | any => exact ⟨nofun, nofun⟩
  | all h _ ih => exact ih (sub (.all h) hc)
  | oneOfNone => exact ⟨nofun, nofun⟩
  | oneOfMany => exact ⟨nofun, nofun⟩
  | notFailed => exact ⟨nofun, nofun⟩
  | notNoChild => exact absurd rfl (hc _ (.refl _)).2
  | ref h _ ih => exact ih (henv _ _ _ h)
  | refNotFound h => obtain ⟨d, hd⟩ := (hc _ (.refl _)).1 _ _ rfl; rw [hd] at h; cases h

section
variable {lib : SchemaLib} {m : Nat} {resolve : Resolver} {s : Schema}

/-- What is built has a child for every `not`. -/
theorem built_not_none : ∀ s : Schema, ∀ c, BuiltFrom lib m s c → c.Every (· ≠ .not none) := by
  refine Schema.ind ?_ ?_
  · intro c hb
    obtain ⟨σ, R, R', hb⟩ := hb
    rw [build_nil] at hb; cases hb
  · intro s ih c hb
    obtain ⟨R, hb⟩ := node_of_build hb
    refine every_node (R := R) ?_ (fun a c ha ht => ?_) hb
    · constructor <;> intros <;> first | (intro h; cases h; done) | (rename_i h; cases h <;> (intro h; cases h))
    · obtain ⟨x, hx, rfl⟩ := SchemaF.child_map ha
      exact ih x hx c ht

theorem built_whole {bfuel : Nat} {τ : Sched} {b : Built} (h : Build lib m resolve bfuel τ s = .ok b) :
    (b.env m).Every (Whole (b.env m)) ∧ b.root.Every (Whole (b.env m)) := by
  have h' : BuildWithCtx lib m resolve bfuel τ s = .ok b := by cases s <;> exact h
  have p := builtParts h'
  have look : ∀ {m' n d}, b.env m m' n = some d → alookup n b.table = some d := by
    intro m' n d hd
    unfold Built.env at hd
    split at hd
    · exact hd
    · cases hd
  have hreg : ∀ {m' n c}, alookup n b.table = some c ∧ m' = m → ∃ d, b.env m m' n = some d := by
    rintro m' n c ⟨h1, rfl⟩
    exact ⟨c, by unfold Built.env; rw [if_pos rfl, h1]⟩
  have hroot := built_not_none s _ p.root
  refine ⟨fun m' n c hc d hd => ⟨?_, ?_⟩, fun d hd => ⟨?_, hroot d hd⟩⟩
  · rintro m1 n1 rfl
    obtain ⟨h1, c1, h2⟩ := C61_no_dangling h (.inr ⟨n, c, look hc, hd⟩)
    exact hreg ⟨h2, h1⟩
  · by_cases hr : IsRoot lib.formats s n
    · rw [p.self n c (look hc) hr] at hd
      exact hroot d hd
    · obtain ⟨s1, -, h2⟩ := p.others n c (look hc) hr
      exact built_not_none s1 c h2 d hd
  · rintro m1 n1 rfl
    obtain ⟨h1, c1, h2⟩ := C61_no_dangling h (.inl hd)
    exact hreg ⟨h2, h1⟩

/-- C118: a validator that `Build` made never complains of its own construction: no "reference not found" and no "not constraint does not have a
child constraint", on any value. -/
theorem C118_built {bfuel : Nat} {τ : Sched} {b : Built} (h : Build lib m resolve bfuel τ s = .ok b) {v v' : GoVal} {e : Err}
    (hv : Returns ext (b.env m) b.root σ v (.err e) v') : (∀ n, e.reason ≠ .refNotFound n) ∧ e.reason ≠ .notNoChild := by
  obtain ⟨k, hk⟩ := C118_messages hv
  exact hk.whole (built_whole h).1 (built_whole h).2

/-- C118: every error of a built validator, on any value, goes back to keywords of the document: to the limit, format, pattern, property, dependency
or combination it speaks of, found by entering the document the way the property names in the error say. (`#` stands for the document itself.) -/
theorem C118_schema (hroot : Reaches resolve s (b! "#") → ∀ s1, (resolve (b! "#")).target = .ok s1 → s1 = s) {bfuel : Nat} {τ : Sched} {b : Built}
    (h : Build lib m resolve bfuel τ s = .ok b) {v v' : GoVal} {e : Err} (hv : Returns ext (b.env m) b.root σ v (.err e) v') :
    Accuses ext lib.formats resolve s s e := by
  have h' : BuildWithCtx lib m resolve bfuel τ s = .ok b := by cases s <;> exact h
  obtain ⟨h1, h2⟩ := built_from hroot h'
  have htab : TableFrom lib resolve s (b.env m) := fun m' n d hd => by
    unfold Built.env at hd
    split at hd
    · obtain ⟨-, s1, h3, h4⟩ := h2 _ (alookup_mem hd)
      exact ⟨s1, m, h3, h4⟩
    · cases hd
  obtain ⟨k, hk⟩ := C118_messages hv
  exact accuses_of_blames htab k m s _ h1 e hk (C118_built h hv).1
end

/-! ### Examples -/

/-- A property `age` with a default that is a string, -/
def exTextAge : Constraint := .object ((Object'.AddProp (b! "age") (.string (String'.Default (.str (b! "old"))))).AddProp (b! "tag")
  (.string (String'.MaxLength 3)))
/-- for a struct that keeps a number there: the default cannot be set. -/
def exAged : GoVal := .ptr (some (.struct
  [({ name := b! "Age", tag := b! "age" }, .maybe false (.int 0)), ({ name := b! "Tag", tag := b! "tag" }, .str (b! "x"))]))
/-- Neither a default nor a struct is in the way of `C118_messages`. -/
example : Returns demoExt env0 exTextAge sched0 exAged (.err (.setDefault (b! "age") .badMaybe)) exAged := ⟨by simp, 1, by rfl⟩
/-- What the message is traced to: -/
example : Blames demoExt env0 0 exTextAge (.setDefault (b! "age") .badMaybe) :=
  .setDefault (c := .string (String'.Default (.str (b! "old")))) (by simp [ObjC.AddProp, ainsert, Object']) (by simp [ObjC.AddProp, Object'])
    ⟨_, .refl _, by simp [Constraint.ownDefault, StrC.Default]⟩ .maybe

/-- No value makes it say that `tag` is too short: no minimum is set. -/
example (σ : Sched) (v v' : GoVal) (n : Int) : ¬ Returns demoExt env0 exTextAge σ v (.err (.prop (b! "tag") (.tooShort n))) v' := by
  intro h
  obtain ⟨k, h⟩ := C118_messages h
  cases h with
  | object h => cases h
  | prop h1 h =>
    simp only [ObjC.AddProp, ainsert, Object'] at h1
    rw [if_neg (by decide)] at h1
    simp only [List.mem_cons, Prod.mk.injEq, List.not_mem_nil, or_false] at h1
    rcases h1 with ⟨h1, -⟩ | ⟨-, rfl⟩
    · exact absurd h1 (by decide)
    · cases h with | string h => cases h with | tooShort h9 => exact absurd h9 (by decide)
  | pattern h1 => cases h1
  | dependency _ h1 => cases h1

/-- The linked list of C61, with a number where `v` is to be. -/
example : Build lib0 7 exListResolve 10 sched0 exListSchema = .ok exListBuilt ∧
    Returns demoExt (exListBuilt.env 7) exListBuilt.root sched0 (.map false [(b! "next", .map false [(b! "val", fl 3)])])
      (.err (.prop (b! "next") (.prop (b! "val") .notSlice))) (.map false [(b! "next", .map false [(b! "val", fl 3)])]) :=
  ⟨by rfl, by simp, 4, by rfl⟩
/-- `#` is not resolved, so `C118_schema` applies; -/
example : ∀ s1, (exListResolve (b! "#")).target = .ok s1 → s1 = exListSchema := by
  intro s1 h
  have : exListResolve (b! "#") = .fail := by rfl
  rw [this] at h
  cases h
/-- the keywords behind the message, put together by hand: -/
example : Accuses demoExt lib0.formats exListResolve exListSchema exListSchema (.prop (b! "next") (.prop (b! "val") .notSlice)) :=
  .property (c := .mk { reference := b! "#" }) rfl (.inl rfl) (by simp) (.ref (by simp) .root
    (.property (c := .mk { reference := b! "v" }) rfl (.inl rfl) (by simp) (.ref (by simp) (.resolved (by decide) (by rfl))
      (.array rfl (.inl rfl) .type))))
/-- The document has no `required`: no value is ever told that something is. -/
example (p : GoStr) : ¬ Accuses demoExt lib0.formats exListResolve exListSchema exListSchema (.required p) := by
  intro h
  have sole : ∀ t, SchemaF.Sole lib0.formats ({ type := [.object], properties := [(b! "next", .mk { reference := b! "#" }),
      (b! "val", .mk { reference := b! "v" })] } : SchemaF Schema) t → t = .object := by
    rintro t (h | ⟨h, -⟩)
    · cases h; rfl
    · cases h
  cases h with
  | ref h => exact h rfl
  | allOf _ _ h => cases h
  | oneAnyOf _ _ _ h => cases h
  | oneOneOf _ _ _ _ h => cases h
  | string _ h => cases sole _ h
  | number _ h => cases sole _ h
  | integer _ h => cases sole _ h
  | array _ h => cases sole _ h
  | items _ h => cases sole _ h
  | tuple _ h => cases sole _ h
  | additionalItems _ h => cases sole _ h
  | object _ _ h => cases h with | required h => cases h
  | dependency _ _ h => cases h

/-- Put together by hand, a validator can be short of a reference or of the child of a `not`, and says so. -/
example : Returns demoExt env0 (.ref 0 (b! "x")) sched0 .nil (.err (.refNotFound (b! "x"))) .nil ∧
    Returns demoExt env0 (.not none) sched0 .nil (.err .notNoChild) .nil := ⟨⟨by simp, 1, by rfl⟩, by simp, 1, by rfl⟩

end Jsval
