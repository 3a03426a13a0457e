import Verif.Lemmas.RewrittenBuild
import Verif.Props.Matches
/-!
# C121: definitions can be written out, and parts made definitions
-/
namespace Jsval

section
variable {lib : SchemaLib} {m m' : Nat} {resolve resolve' : Resolver} {N : GoStr → GoStr → Prop} {s s' : Schema} {fuel fuel' : Nat} {σ σ' : Sched} {b b' : Built}

/-- C121: two documents that say the same, written in two ways: built with the loops of both builders in one fixed order, the validators return the same,
error included, and leave the same in the argument, order by order; a call that comes back on one side comes back on the other. -/
theorem C121_fixed (hd : SameDocument resolve resolve' N s s') (h : BuildWithCtx lib m resolve fuel zeroSched s = .ok b)
    (h' : BuildWithCtx lib m' resolve' fuel' zeroSched s' = .ok b') (ext : Ext) (τ : Sched) (v : GoVal) (r : Res) (v' : GoVal) :
    Returns ext (b.env m) b.root τ v r v' ↔ Returns ext (b'.env m') b'.root τ v r v' :=
  have p := same_corresponds hd h h'
  C120_same p.1 p.2 τ v r v'

/-- C121: built in any orders: what one validator returns with some order of its loops, the other does with some order. -/
theorem C121_schema (hd : SameDocument resolve resolve' N s s') (hk : KeyedAll lib.formats resolve s) (hk' : KeyedAll lib.formats resolve' s')
    (h : BuildWithCtx lib m resolve fuel σ s = .ok b) (h' : BuildWithCtx lib m' resolve' fuel' σ' s' = .ok b') (ext : Ext) (v v' : GoVal) (r : Res) :
    (∃ τ, Returns ext (b.env m) b.root τ v r v') ↔ ∃ τ, Returns ext (b'.env m') b'.root τ v r v' := by
  obtain ⟨K, hK⟩ := built_any_order h
  obtain ⟨K', hK'⟩ := built_any_order h'
  obtain ⟨b0, h0⟩ := hK K (Nat.le_refl K) zeroSched
  obtain ⟨b0', h0'⟩ := hK' K' (Nat.le_refl K') zeroSched
  rw [C109_outcomes hk h h0 ext v v' r, C109_outcomes hk' h' h0' ext v v' r]
  exact exists_congr fun τ => C121_fixed hd h0 h0' ext τ v r v'

/-- C121: so one of them can accept a value exactly if the other can. -/
theorem C121_accepts (hd : SameDocument resolve resolve' N s s') (hk : KeyedAll lib.formats resolve s) (hk' : KeyedAll lib.formats resolve' s')
    (h : BuildWithCtx lib m resolve fuel σ s = .ok b) (h' : BuildWithCtx lib m' resolve' fuel' σ' s' = .ok b') (ext : Ext) (v : GoVal) :
    (∃ τ v', Returns ext (b.env m) b.root τ v .ok v') ↔ ∃ τ v', Returns ext (b'.env m') b'.root τ v .ok v' := by
  constructor
  · rintro ⟨τ, v', hr⟩
    obtain ⟨τ', hr'⟩ := (C121_schema hd hk hk' h h' ext v v' .ok).1 ⟨τ, hr⟩
    exact ⟨τ', v', hr'⟩
  · rintro ⟨τ, v', hr⟩
    obtain ⟨τ', hr'⟩ := (C121_schema hd hk hk' h h' ext v v' .ok).2 ⟨τ, hr⟩
    exact ⟨τ', v', hr'⟩

/-- C121: and if one of them can be built, so can the other, provided the names taken for its names are there: all that can fail about its own ones is seen
from the first. (`#` has to resolve only where the document itself does not use it.) -/
theorem C121_buildable (hd : SameDocument resolve resolve' N s s') (hN : ∀ n n', N n n' → (∃ t, Leads resolve s n t) → ∃ t', Leads resolve' s' n' t')
    (hr' : s'.UsesRef lib.formats (b! "#") ∨ (resolve' (b! "#")).target = .ok s') (h : BuildWithCtx lib m resolve fuel σ s = .ok b) (fuel' : Nat) (σ' : Sched) :
    (∃ b', BuildWithCtx lib m' resolve' fuel' σ' s' = .ok b') ∨ BuildWithCtx lib m' resolve' fuel' σ' s' = .error .diverge := by
  by_cases hdv : BuildWithCtx lib m' resolve' fuel' σ' s' = .error .diverge
  · exact .inr hdv
  · exact .inl (built_of_canBuild (canBuild_same hd hN hr' (canBuild_of_built h)) fuel' σ' hdv)
end

/-! ## Examples -/

/-- The linked list of `Props/Builder.lean` with its definition `v` written out in both places, and the other one under another name: `val` is an array of
entries, and an entry a non-negative integer or such an array. -/
def exInlineSchema : Schema := .mk
  { type := [.object], properties := [(b! "next", .mk { reference := b! "#" }),
      (b! "val", .mk { type := [.array], items := .list [.mk { reference := b! "entry" }] })] }
def exInlineResolve : Resolver := fun n =>
  if n = b! "entry" then .schema (.mk { anyOf := [.mk { type := [.integer], minimum := some F64.zero },
    .mk { type := [.array], items := .list [.mk { reference := b! "entry" }] }] })
  else .fail

def exSameName (n n' : GoStr) : Prop := n = b! "#" ∧ n' = b! "#" ∨ n = b! "w" ∧ n' = b! "entry"

theorem exInline_array {L L' : GoStr → Schema → Prop} : Rewritten L L' exSameName
    (.mk { type := [.array], items := .list [.mk { reference := b! "w" }] }) (.mk { type := [.array], items := .list [.mk { reference := b! "entry" }] }) := by
  refine .same (s := { type := [.array], items := .list [(.mk { reference := b! "w" }, .mk { reference := b! "entry" })] }) rfl fun p hp => ?_
  cases hp with
  | list h hm =>
    cases h
    simp only [List.mem_singleton] at hm
    subst hm
    exact .names (by decide) (by decide) (.inr ⟨rfl, rfl⟩)
  | not h => cases h
  | allOf h => cases h
  | anyOf h => cases h
  | oneOf h => cases h
  | tuple h _ => cases h
  | additionalItems h => cases h
  | property h => cases h
  | patternProp h => cases h
  | additionalProps h => cases h
  | dependency h => cases h

theorem exInline_v {L' : GoStr → Schema → Prop} : Rewritten (Leads exListResolve exListSchema) L' exSameName
    (.mk { reference := b! "v" }) (.mk { type := [.array], items := .list [.mk { reference := b! "entry" }] }) :=
  .left (by decide) (.inr ⟨by decide, rfl⟩) exInline_array

theorem exInline_whole : Rewritten (Leads exListResolve exListSchema) (Leads exInlineResolve exInlineSchema) exSameName exListSchema exInlineSchema := by
  refine .same (s := { type := [.object], properties := [(b! "next", (.mk { reference := b! "#" }, .mk { reference := b! "#" })),
    (b! "val", (.mk { reference := b! "v" }, .mk { type := [.array], items := .list [.mk { reference := b! "entry" }] }))] }) rfl fun p hp => ?_
  cases hp with
  | property h =>
    simp only [List.mem_cons, List.not_mem_nil, or_false, Prod.mk.injEq] at h
    rcases h with ⟨-, rfl⟩ | ⟨-, rfl⟩
    · exact .names (by decide) (by decide) (.inl ⟨rfl, rfl⟩)
    · exact exInline_v
  | not h => cases h
  | allOf h => cases h
  | anyOf h => cases h
  | oneOf h => cases h
  | list h _ => cases h
  | tuple h _ => cases h
  | additionalItems h => cases h
  | patternProp h => cases h
  | additionalProps h => cases h
  | dependency h => cases h

theorem exInline_same : SameDocument exListResolve exInlineResolve exSameName exListSchema exInlineSchema where
  whole := exInline_whole
  parts := by
    intro n n' t t' hN h h'
    rcases hN with ⟨rfl, rfl⟩ | ⟨rfl, rfl⟩
    · rcases h with ⟨-, rfl⟩ | ⟨h, -⟩
      · rcases h' with ⟨-, rfl⟩ | ⟨h, -⟩
        · exact exInline_whole
        · exact absurd rfl h
      · exact absurd rfl h
    · rcases h with ⟨h, -⟩ | ⟨-, h⟩
      · exact absurd h (by decide)
      · rcases h' with ⟨h', -⟩ | ⟨-, h'⟩
        · exact absurd h' (by decide)
        · have e : (exListResolve (b! "w")).target = .ok (.mk { anyOf := [.mk { type := [.integer], minimum := some F64.zero }, .mk { reference := b! "v" }] }) := rfl
          have e' : (exInlineResolve (b! "entry")).target = .ok (.mk { anyOf := [.mk { type := [.integer], minimum := some F64.zero },
            .mk { type := [.array], items := .list [.mk { reference := b! "entry" }] }] }) := rfl
          rw [e] at h
          rw [e'] at h'
          cases h
          cases h'
          refine .same (s := { anyOf := [(.mk { type := [.integer], minimum := some F64.zero }, .mk { type := [.integer], minimum := some F64.zero }),
            (.mk { reference := b! "v" }, .mk { type := [.array], items := .list [.mk { reference := b! "entry" }] })] }) rfl fun p hp => ?_
          cases hp with
          | anyOf h =>
            simp only [List.mem_cons, List.not_mem_nil, or_false] at h
            rcases h with rfl | rfl
            · refine .same (s := { type := [.integer], minimum := some F64.zero }) rfl fun p hp => ?_
              cases hp with
              | property h => cases h
              | not h => cases h
              | allOf h => cases h
              | anyOf h => cases h
              | oneOf h => cases h
              | list h _ => cases h
              | tuple h _ => cases h
              | additionalItems h => cases h
              | patternProp h => cases h
              | additionalProps h => cases h
              | dependency h => cases h
            · exact exInline_v
          | property h => cases h
          | not h => cases h
          | allOf h => cases h
          | oneOf h => cases h
          | list h _ => cases h
          | tuple h _ => cases h
          | additionalItems h => cases h
          | patternProp h => cases h
          | additionalProps h => cases h
          | dependency h => cases h
  root t h := by cases h
  root' t h := by cases h

theorem exInline_targets {n : GoStr} {t : Schema} (h : (exInlineResolve n).target = .ok t) : t.Keyed := by
  unfold exInlineResolve at h
  split at h
  · cases h
    exact Schema.keyed_of_check _ (by decide)
  · cases h

/-- The list with the definition and the list without, however both are built. -/
example (ext : Ext) {fuel fuel' : Nat} {σ σ' : Sched} {b b' : Built} (h : BuildWithCtx lib0 7 exListResolve fuel σ exListSchema = .ok b)
    (h' : BuildWithCtx lib0 2 exInlineResolve fuel' σ' exInlineSchema = .ok b') (v v' : GoVal) (r : Res) :
    (∃ τ, Returns ext (b.env 7) b.root τ v r v') ↔ ∃ τ, Returns ext (b'.env 2) b'.root τ v r v' :=
  C121_schema exInline_same exList_keyed ⟨Schema.keyed_of_check _ (by decide), fun _ _ _ h => exInline_targets h⟩ h h' ext v v' r

/-- If the list with the definition can be built, the one without is never refused. -/
example {fuel fuel' : Nat} {σ σ' : Sched} {b : Built} (h : BuildWithCtx lib0 7 exListResolve fuel σ exListSchema = .ok b) :
    (∃ b', BuildWithCtx lib0 2 exInlineResolve fuel' σ' exInlineSchema = .ok b') ∨ BuildWithCtx lib0 2 exInlineResolve fuel' σ' exInlineSchema = .error .diverge := by
  refine C121_buildable exInline_same ?_ (.inl ?_) h fuel' σ'
  · rintro n n' (⟨rfl, rfl⟩ | ⟨rfl, rfl⟩) _
    · exact ⟨_, .inl ⟨rfl, rfl⟩⟩
    · exact ⟨_, .inr ⟨by decide, rfl⟩⟩
  · exact .child rfl (.property (n := b! "next") (.inl (List.mem_cons_self ..)) (List.mem_cons_self ..)) (.here (by decide) rfl)

/-- Both can be built. -/
example : (∃ b, BuildWithCtx lib0 7 exListResolve 10 sched0 exListSchema = .ok b) ∧ ∃ b', BuildWithCtx lib0 2 exInlineResolve 10 sched0 exInlineSchema = .ok b' ∧
    b'.table.map (·.1) = [b! "#", b! "entry"] := ⟨⟨_, rfl⟩, _, rfl, rfl⟩

/-- They are different validators: of the first, the table has three entries. -/
example : exListBuilt.table.map (·.1) = [b! "#", b! "v", b! "w"] := rfl

end Jsval
