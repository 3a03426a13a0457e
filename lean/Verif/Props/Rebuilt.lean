import Verif.Lemmas.Covers
import Verif.Props.Deterministic
import Verif.Props.Order
/-!
# C109: validators built from one schema do the same
-/
namespace Jsval

variable {lib : SchemaLib} {m : Nat} {resolve : Resolver} {s : Schema} {fuel fuel' : Nat} {σ σ' : Sched} {b b' : Built}

theorem rebuilt_returns (hk : KeyedAll lib.formats resolve s) (h : BuildWithCtx lib m resolve fuel σ s = .ok b)
    (h' : BuildWithCtx lib m resolve fuel' σ' s = .ok b') {ext : Ext} {v v' : GoVal} {r : Res} {τ : Sched}
    (hr : Returns ext (b.env m) b.root τ v r v') : ∃ τ', Returns ext (b'.env m) b'.root τ' v r v' := by
  obtain ⟨hn, k, e⟩ := hr
  obtain ⟨τ', e'⟩ := (built_covers hk h h' ext k).2 τ v
  exact ⟨τ', hn, k, e'.trans e⟩

/-- C109: two validators built from one schema, whatever the orders of the builder: what one returns, error included, and leaves in the
argument with some order of the loops, the other does with some order. -/
theorem C109_outcomes (hk : KeyedAll lib.formats resolve s) (h : BuildWithCtx lib m resolve fuel σ s = .ok b)
    (h' : BuildWithCtx lib m resolve fuel' σ' s = .ok b') (ext : Ext) (v v' : GoVal) (r : Res) :
    (∃ τ, Returns ext (b.env m) b.root τ v r v') ↔ ∃ τ, Returns ext (b'.env m) b'.root τ v r v' :=
  ⟨fun ⟨_, e⟩ => rebuilt_returns hk h h' e, fun ⟨_, e⟩ => rebuilt_returns hk h' h e⟩

/-- C109: the same for `JSVal.Validate`, however far references are followed: still running after that many included. -/
theorem C109_validate (hk : KeyedAll lib.formats resolve s) (h : BuildWithCtx lib m resolve fuel σ s = .ok b)
    (h' : BuildWithCtx lib m resolve fuel' σ' s = .ok b') (ext : Ext) (name : GoStr) (k : Nat) (v : GoVal) (out : JRes × GoVal) :
    (∃ τ, JSVal.validate ext (b.env m) k ⟨name, some b.root⟩ τ v = out) ↔ ∃ τ, JSVal.validate ext (b'.env m) k ⟨name, some b'.root⟩ τ v = out := by
  constructor
  · rintro ⟨τ, rfl⟩
    obtain ⟨τ', e⟩ := (built_covers hk h h' ext k).2 τ v
    exact ⟨τ', by simp only [JSVal.validate, e]⟩
  · rintro ⟨τ, rfl⟩
    obtain ⟨τ', e⟩ := (built_covers hk h' h ext k).2 τ v
    exact ⟨τ', by simp only [JSVal.validate, e]⟩

/-- C109: the default a built validator gives to a property that refers to it does not depend on the order either. -/
theorem C109_default (hk : KeyedAll lib.formats resolve s) (h : BuildWithCtx lib m resolve fuel σ s = .ok b)
    (h' : BuildWithCtx lib m resolve fuel' σ' s = .ok b') (ext : Ext) (k : Nat) :
    (sem ext (b.env m) k b.root).dflt = (sem ext (b'.env m) k b'.root).dflt := (built_covers hk h h' ext k).1

/-- C109: one verdict for all builds and all validations, where the verdict of one build does not depend on orders (C35): no defaults,
patterns that do not overlap, scalar enumerations. -/
theorem C109_verdict (hk : KeyedAll lib.formats resolve s) (h : BuildWithCtx lib m resolve fuel σ s = .ok b)
    (h' : BuildWithCtx lib m resolve fuel' σ' s = .ok b') {ext : Ext}
    (henv : (b.env m).Every fun c => NoDefault c ∧ DisjointPatterns ext c ∧ ScalarEnum c)
    (hc : b.root.Every fun c => NoDefault c ∧ DisjointPatterns ext c ∧ ScalarEnum c) {v v1 v2 : GoVal} (hv : IsJson v) {τ τ' : Sched} {r r' : Res}
    (hr : Returns ext (b.env m) b.root τ v r v1) (hr' : Returns ext (b'.env m) b'.root τ' v r' v2) : r = .ok ↔ r' = .ok := by
  obtain ⟨_, e⟩ := rebuilt_returns hk h' h hr'
  exact C35_json_partial henv hc hv hr e

/-- The linked list built with the other order of its properties: neither the root nor the table is the same list. -/
def exListAgain : Built where
  root := .object (((Object'.AddProp (b! "val") (.ref 7 (b! "v"))).AddProp (b! "next") (.ref 7 (b! "#"))).AdditionalProperties (some .empty))
  table := [(b! "#", .object (((Object'.AddProp (b! "val") (.ref 7 (b! "v"))).AddProp (b! "next") (.ref 7 (b! "#"))).AdditionalProperties
    (some .empty))), (b! "v", .array (Array'.Items (some (.ref 7 (b! "w"))))), (b! "w", .any [.integer (Number'.Minimum F64.zero), .ref 7 (b! "v")])]

/-- The names of the properties of an object constraint as listed. -/
def propNames : Constraint → List GoStr
  | .object o => o.props.map (·.1)
  | _ => []

example : BuildWithCtx lib0 7 exListResolve 10 (turnAt 4) exListSchema = .ok exListAgain ∧ exListAgain.root ≠ exListBuilt.root :=
  ⟨rfl, fun h => absurd (congrArg propNames h) (by decide)⟩

/-- Both reject the same faulty list, with the same errors. -/
example (e : Err) (v' : GoVal) : (∃ τ, Returns demoExt (exListBuilt.env 7) exListBuilt.root τ
      (.map false [(b! "next", .bool true), (b! "val", .bool true)]) (.err e) v') ↔
    ∃ τ, Returns demoExt (exListAgain.env 7) exListAgain.root τ (.map false [(b! "next", .bool true), (b! "val", .bool true)]) (.err e) v' :=
  C109_outcomes exList_keyed (show BuildWithCtx lib0 7 exListResolve 10 sched0 exListSchema = .ok exListBuilt from rfl)
    (show BuildWithCtx lib0 7 exListResolve 10 (turnAt 4) exListSchema = .ok exListAgain from rfl) _ _ _ _

/-- These errors are more than one, so `C109_outcomes` cannot be had order by order. -/
example : (sem demoExt (exListBuilt.env 7) 5 exListBuilt.root).val sched0 (.map false [(b! "next", .bool true), (b! "val", .bool true)]) ≠
    (sem demoExt (exListAgain.env 7) 5 exListAgain.root).val sched0 (.map false [(b! "next", .bool true), (b! "val", .bool true)]) := by
  intro h
  have := congrArg Prod.fst h
  exact absurd this (by decide +kernel)

end Jsval
