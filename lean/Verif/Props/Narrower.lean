import Verif.Lemmas.Narrower
import Verif.Props.Builder
import Verif.Props.ConformingDefaults
import Verif.Props.Rebuilt
import Verif.Props.Rewritten
import Verif.Props.Stricter
/-!
# C123: a narrower schema builds a stricter validator
-/
namespace Jsval

section
variable {ext : Ext} {lib : SchemaLib} {m m' : Nat} {resolve resolve' : Resolver} {N : Bool → Schema → Schema → Prop} {s s' : Schema} {fuel fuel' : Nat}
  {σ σ' : Sched} {b b' : Built} {v : GoVal}

/-- C123, for builders whose loops all run in one fixed order: what the validator of the narrower document accepts, that of the wider one has no error
for. -/
theorem C123_fixed (hm : m ≠ m') (hN : ∀ side a b, N side a b → Narrows ext lib.formats (TwoDocuments resolve resolve' s s') N side a b) (h : N true s s')
    (hb : BareDocument ext resolve s) (hb' : BareDocument ext resolve' s') (hroot : ∀ t, (resolve (b! "#")).target = .ok t → t = s)
    (hroot' : ∀ t, (resolve' (b! "#")).target = .ok t → t = s') (h0 : BuildWithCtx lib m resolve fuel zeroSched s = .ok b)
    (h0' : BuildWithCtx lib m' resolve' fuel' zeroSched s' = .ok b') (hv : Tidy v) (ha : Accepted ext (b.env m) b.root v) (τ : Sched) (e : Err) (w : GoVal) :
    ¬ Returns ext (b'.env m') b'.root τ v (.err e) w := by
  have hpair : ∀ side n t, TwoDocuments resolve resolve' s s' side n t →
      pairEnv lib m m' resolve resolve' s s' (if side then m else m') n = some (buildC lib (if side then m else m') t) := by
    intro side n t ht
    cases side with
    | true =>
      simp only [pairEnv, if_true]
      exact docEnv_leads ht
    | false =>
      simp only [pairEnv, Bool.false_eq_true, if_false, if_true]
      rw [if_neg (Ne.symm hm)]
      exact docEnv_leads ht
  have hbare : ∀ side n t, TwoDocuments resolve resolve' s s' side n t → t.Bare ext := by
    intro side n t ht
    cases side with
    | true => exact hb.2 n t ht
    | false => exact hb'.2 n t ht
  have hB : ∀ c d, BuiltPairs ext lib (fun side => if side then m else m') N c d → Tightens ext (pairEnv lib m m' resolve resolve' s s')
      (Tight ext (pairEnv lib m m' resolve resolve' s s') (BuiltPairs ext lib (fun side => if side then m else m') N)) c d := by
    rintro c d ⟨side, x, y, hxy, hx, hy, rfl, rfl⟩
    exact narrower_tight (M := fun side => if side then m else m') hpair hbare hN _ side x y rfl hxy hx hy
  have henv : (pairEnv lib m m' resolve resolve' s s').Every (Orderly ext) := by
    intro a n c hc
    unfold pairEnv at hc
    split at hc
    · obtain ⟨t, ht, rfl⟩ := leads_docEnv hc
      exact bare_orderly (hb.2 n t ht)
    · split at hc
      · obtain ⟨t, ht, rfl⟩ := leads_docEnv hc
        exact bare_orderly (hb'.2 n t ht)
      · cases hc
  have same : ∀ σ v r w, Returns ext (b.env m) b.root σ v r w ↔ Returns ext (pairEnv lib m m' resolve resolve' s s') b.root σ v r w := by
    refine C120_unmentioned b.root fun a n hmen => ?_
    obtain ⟨rfl, d, hd⟩ := built_mentioned h0 hmen
    rw [hd, pairEnv, if_pos rfl]
    exact built_docEnv hroot h0 hd
  have same' : ∀ σ v r w, Returns ext (b'.env m') b'.root σ v r w ↔ Returns ext (pairEnv lib m m' resolve resolve' s s') b'.root σ v r w := by
    refine C120_unmentioned b'.root fun a n hmen => ?_
    obtain ⟨rfl, d, hd⟩ := built_mentioned h0' hmen
    rw [hd, pairEnv, if_neg (Ne.symm hm), if_pos rfl]
    exact built_docEnv hroot' h0' hd
  obtain ⟨σ, w0, hw0⟩ := ha
  intro hr
  have hw1 := (same _ _ _ _).1 hw0
  have hr1 := (same' _ _ _ _).1 hr
  rw [(built_zero h0).1] at hw1
  rw [(built_zero h0').1] at hr1
  exact C122_stricter henv (fun c d => Tight.unfold hB) (.base ⟨true, s, s', h, hb.1, hb'.1, rfl, rfl⟩) (bare_orderly hb.1) (bare_orderly hb'.1) hv
    ⟨σ, w0, hw1⟩ τ e w hr1

/-- C123: two documents compared keyword by keyword, references followed on both sides. However both are built: what some call of the validator of the
narrower one accepts, no call of the validator of the wider one returns an error for. -/
theorem C123_narrower (hm : m ≠ m') (hN : ∀ side a b, N side a b → Narrows ext lib.formats (TwoDocuments resolve resolve' s s') N side a b) (h : N true s s')
    (hb : BareDocument ext resolve s) (hb' : BareDocument ext resolve' s') (hroot : ∀ t, (resolve (b! "#")).target = .ok t → t = s)
    (hroot' : ∀ t, (resolve' (b! "#")).target = .ok t → t = s') (h1 : BuildWithCtx lib m resolve fuel σ s = .ok b)
    (h1' : BuildWithCtx lib m' resolve' fuel' σ' s' = .ok b') (hv : Tidy v) (ha : Accepted ext (b.env m) b.root v) (τ : Sched) (e : Err) (w : GoVal) :
    ¬ Returns ext (b'.env m') b'.root τ v (.err e) w := by
  obtain ⟨K, hK⟩ := built_any_order h1
  obtain ⟨K', hK'⟩ := built_any_order h1'
  obtain ⟨b0, h0⟩ := hK K (Nat.le_refl K) zeroSched
  obtain ⟨b0', h0'⟩ := hK' K' (Nat.le_refl K') zeroSched
  obtain ⟨ρ, w0, hw0⟩ := ha
  obtain ⟨ρ1, hw1⟩ := (C109_outcomes (hb.keyedAll hroot) h1 h0 ext v w0 .ok).1 ⟨ρ, hw0⟩
  intro hr
  obtain ⟨τ1, hr1⟩ := (C109_outcomes (hb'.keyedAll hroot') h1' h0' ext v w (.err e)).1 ⟨τ, hr⟩
  exact C123_fixed hm hN h hb hb' hroot hroot' h0 h0' hv ⟨ρ1, w0, hw1⟩ τ1 e w hr1

theorem root_plain {resolve : Resolver} {s : Schema} (hroot : ∀ t, (resolve (b! "#")).target = .ok t → t = s) (t : Schema)
    (h : (resolve.plain (b! "#")).target = .ok t) : t = s.plain := by
  rw [show resolve.plain (b! "#") = (resolve (b! "#")).plain from rfl, target_plain] at h
  cases ht : (resolve (b! "#")).target with
  | error e => rw [ht] at h; cases h
  | ok s1 =>
    rw [ht] at h
    cases h
    rw [hroot s1 ht]

/-- C123 with defaults, on decoded JSON: if neither document looks at what its defaults fill in, they are compared without them. -/
theorem C123_decoded (hm : m ≠ m')
    (hN : ∀ side a b, N side a b → Narrows ext lib.formats (TwoDocuments resolve.plain resolve'.plain s.plain s'.plain) N side a b) (h : N true s.plain s'.plain)
    (hb : BareDocument ext resolve.plain s.plain) (hb' : BareDocument ext resolve'.plain s'.plain)
    (hroot : ∀ t, (resolve (b! "#")).target = .ok t → t = s) (hroot' : ∀ t, (resolve' (b! "#")).target = .ok t → t = s')
    (hd : s.Discreet lib.formats resolve) (hd' : s'.Discreet lib.formats resolve') (h1 : Build lib m resolve fuel σ s = .ok b)
    (h1' : Build lib m' resolve' fuel' σ' s' = .ok b') (hv : IsJson v) (ha : Accepted ext (b.env m) b.root v) (τ : Sched) (e : Err) (w : GoVal) :
    ¬ Returns ext (b'.env m') b'.root τ v (.err e) w := by
  obtain ⟨hu1, hu2⟩ := built_unseen (fun _ => hroot) h1 hd
  obtain ⟨hu1', hu2'⟩ := built_unseen (fun _ => hroot') h1' hd'
  have h2 : BuildWithCtx lib m resolve fuel σ s = .ok b := by cases s <;> exact h1
  have h2' : BuildWithCtx lib m' resolve' fuel' σ' s' = .ok b' := by cases s' <;> exact h1'
  have h0 : BuildWithCtx lib m resolve.plain fuel σ s.plain = .ok b.plain := by rw [buildWithCtx_plain, h2]; rfl
  have h0' : BuildWithCtx lib m' resolve'.plain fuel' σ' s'.plain = .ok b'.plain := by rw [buildWithCtx_plain, h2']; rfl
  obtain ⟨ρ, w0, hw0⟩ := ha
  have hw1 := (C88_returns hu1 hu2 hv).1 ⟨w0, hw0⟩
  intro hr
  have hr1 := (C88_returns hu1' hu2' hv).1 ⟨w, hr⟩
  refine C123_narrower hm hN h hb hb' (root_plain hroot) (root_plain hroot') h0 h0' hv.tidy ⟨ρ, v, ?_⟩ τ e v ?_
  · rw [built_env_plain]; exact hw1
  · rw [built_env_plain]; exact hr1
end

/-! ## Examples -/

/-- The linked list of `Props/Builder.lean` held to more: every node has a value, values are arrays of at least one entry, and the integers among them
stay below 100. The definitions have other names. -/
def exNarrowSchema : Schema := .mk
  { type := [.object], properties := [(b! "next", .mk { reference := b! "#" }), (b! "val", .mk { reference := b! "vals" })], required := [b! "val"] }
def exNarrowVals : SchemaF Schema := { type := [.array], minItems := some 1, items := .list [.mk { reference := b! "entry" }] }
def exNarrowInt : SchemaF Schema := { type := [.integer], minimum := some F64.zero, maximum := some (F64.exactInt 100), exclMax := some true }
def exNarrowEntry : SchemaF Schema := { anyOf := [.mk exNarrowInt, .mk { reference := b! "vals" }] }
def exNarrowResolve : Resolver := fun n =>
  if n = b! "vals" then .object (some exNarrowVals) else if n = b! "entry" then .schema (.mk exNarrowEntry) else .fail

def exWideInt : SchemaF Schema := { type := [.integer], minimum := some F64.zero }
def exWideVals : SchemaF Schema := { type := [.array], items := .list [.mk { reference := b! "w" }] }
def exWideEntry : SchemaF Schema := { anyOf := [.mk exWideInt, .mk { reference := b! "v" }] }

/-- what is compared with what -/
inductive exNarrower : Bool → Schema → Schema → Prop where
  | doc : exNarrower true exNarrowSchema exListSchema
  | next : exNarrower true (.mk { reference := b! "#" }) (.mk { reference := b! "#" })
  | docRef : exNarrower true exNarrowSchema (.mk { reference := b! "#" })
  | val : exNarrower true (.mk { reference := b! "vals" }) (.mk { reference := b! "v" })
  | valsRef : exNarrower true (.mk exNarrowVals) (.mk { reference := b! "v" })
  | vals : exNarrower true (.mk exNarrowVals) (.mk exWideVals)
  | item : exNarrower true (.mk { reference := b! "entry" }) (.mk { reference := b! "w" })
  | entryRef : exNarrower true (.mk exNarrowEntry) (.mk { reference := b! "w" })
  | entry : exNarrower true (.mk exNarrowEntry) (.mk exWideEntry)
  | int : exNarrower true (.mk exNarrowInt) (.mk exWideInt)

theorem noCombos {N : Bool → Schema → Schema → Prop} {side : Bool} {a : Schema} {t : SchemaF Schema} (h1 : t.not = none) (h2 : t.allOf = [])
    (h3 : t.anyOf = []) (h4 : t.oneOf = []) : CombosNarrower N side a t where
  not y h := by rw [h1] at h; cases h
  allOf _ y h := by rw [h2] at h; cases h
  anyOf _ _ h := absurd h3 h
  oneOf _ _ _ h := absurd h4 h

theorem narrower_listed {ext : Ext} {formats : List GoStr} {N : Bool → Schema → Schema → Prop} {side : Bool} {s t : SchemaF Schema} {p : PrimType}
    (hr : s.reference = []) (hs : s.type = [p]) (ht : t.type = [p]) (h : TypeNarrower ext (N side) s t p) : TypesNarrower ext formats N side s t where
  noRef := hr
  types _ := by
    refine ⟨⟨p, .inl ?_⟩, fun q hq => ?_⟩
    · rw [hs]; exact List.mem_singleton.2 rfl
    · rcases hq with hq | ⟨hq, -⟩
      · rw [hs, List.mem_singleton] at hq
        subst hq
        exact ⟨.inl (by rw [ht]; exact List.mem_singleton.2 rfl), h⟩
      · rw [hs] at hq; cases hq
  enum h := absurd (.inl (by rw [ht]; exact List.mem_singleton.2 rfl)) (h p)

theorem exNarrower_narrows : ∀ side a b, exNarrower side a b →
    Narrows demoExt lib0.formats (TwoDocuments exNarrowResolve exListResolve exNarrowSchema exListSchema) exNarrower side a b := by
  intro side a b h
  cases h with
  | doc =>
    refine .keywords rfl (noCombos rfl rfl rfl rfl) (narrower_listed (p := .object) rfl rfl rfl ?_)
    refine ⟨?_, ?_, ?_, ?_, ?_, ?_, ?_, ⟨?_, ?_⟩, ?_, ?_⟩
    · exact fun n h => by cases h
    · exact fun n h => by cases h
    · intro k y hy
      simp only [List.mem_cons, List.not_mem_nil, or_false, Prod.mk.injEq] at hy
      rcases hy with ⟨rfl, rfl⟩ | ⟨rfl, rfl⟩
      · exact ⟨_, List.mem_cons_self .., .next⟩
      · exact ⟨_, List.mem_cons_of_mem _ (List.mem_cons_self ..), .val⟩
    · intro k x hx
      simp only [List.mem_cons, List.not_mem_nil, or_false, Prod.mk.injEq] at hx
      rcases hx with ⟨rfl, rfl⟩ | ⟨rfl, rfl⟩
      · exact .inl ⟨_, List.mem_cons_self ..⟩
      · exact .inl ⟨_, List.mem_cons_of_mem _ (List.mem_cons_self ..)⟩
    · exact fun k h => by cases h
    · exact fun _ _ _ h => by cases h
    · exact fun _ _ _ h => by cases h
    · exact fun h => by cases h
    · exact fun _ h => by cases h
    · exact fun _ _ h => by cases h
    · exact fun _ _ h => by cases h
  | next => exact .follow (a := exNarrowSchema) (by decide) (.inl ⟨rfl, rfl⟩) .docRef
  | docRef => exact .into (b := exListSchema) (by decide) (.inl ⟨rfl, rfl⟩) .doc
  | val => exact .follow (a := .mk exNarrowVals) (by decide) (.inr ⟨by decide, rfl⟩) .valsRef
  | valsRef => exact .into (b := .mk exWideVals) (by decide) (.inr ⟨by decide, rfl⟩) .vals
  | vals =>
    refine .keywords rfl (noCombos rfl rfl rfl rfl) (narrower_listed (p := .array) rfl rfl rfl ⟨?_, ?_, ?_, ?_, ?_⟩)
    · exact fun n h => by cases h
    · exact fun n h => by cases h
    · exact fun h => by cases h
    · intro y l h
      cases h
      exact ⟨_, _, rfl, .item⟩
    · exact fun _ h => by cases h
  | item => exact .follow (a := .mk exNarrowEntry) (by decide) (.inr ⟨by decide, rfl⟩) .entryRef
  | entryRef => exact .into (b := .mk exWideEntry) (by decide) (.inr ⟨by decide, rfl⟩) .entry
  | entry =>
    refine .combos rfl ⟨?_, ?_, ?_, ?_⟩ ?_ rfl
    · exact fun _ h => by cases h
    · exact fun _ _ h => by cases h
    · refine fun _ _ _ => .inr ⟨exNarrowEntry, rfl, rfl, rfl, rfl, by decide, ?_⟩
      intro x hx
      simp only [exNarrowEntry, List.mem_cons, List.not_mem_nil, or_false] at hx
      rcases hx with rfl | rfl
      · exact ⟨_, List.mem_cons_self .., .int⟩
      · exact ⟨_, List.mem_cons_of_mem _ (List.mem_cons_self ..), .val⟩
    · exact fun _ _ h => by cases h
    · intro p hp
      exact List.not_mem_nil (show p ∈ ([] : List PrimType) from mem_schemaTypes_treats (lib := lib0).2 hp)
  | int =>
    refine .keywords rfl (noCombos rfl rfl rfl rfl) (narrower_listed (p := .integer) rfl rfl rfl ⟨⟨?_, ?_, ?_⟩, ?_⟩)
    · intro m hm
      cases hm
      exact ⟨_, rfl, .inr ⟨⟨_, rfl, rfl⟩, fun h => by cases h⟩⟩
    · exact fun _ h => by cases h
    · exact fun _ h => by cases h
    · exact fun h => absurd rfl h

theorem exNarrow_bare : BareDocument demoExt exNarrowResolve exNarrowSchema := by
  refine ⟨Schema.bare_of_check _ (by decide), fun n t h => ?_⟩
  rcases h with ⟨-, rfl⟩ | ⟨-, h⟩
  · exact Schema.bare_of_check _ (by decide)
  · unfold exNarrowResolve at h
    split at h
    · cases h
      exact Schema.bare_of_check _ (by decide)
    · split at h
      · cases h
        exact Schema.bare_of_check _ (by decide)
      · cases h

theorem exWide_bare : BareDocument demoExt exListResolve exListSchema := by
  refine ⟨Schema.bare_of_check _ (by decide), fun n t h => ?_⟩
  rcases h with ⟨-, rfl⟩ | ⟨-, h⟩
  · exact Schema.bare_of_check _ (by decide)
  · unfold exListResolve at h
    split at h
    · cases h
      exact Schema.bare_of_check _ (by decide)
    · split at h
      · cases h
        exact Schema.bare_of_check _ (by decide)
      · cases h

/-- However the two are built: what passes for a narrow list, passes for a list. -/
example {fuel fuel' : Nat} {σ σ' : Sched} {b b' : Built} (h : BuildWithCtx lib0 2 exNarrowResolve fuel σ exNarrowSchema = .ok b)
    (h' : BuildWithCtx lib0 7 exListResolve fuel' σ' exListSchema = .ok b') (v : GoVal) (hv : Tidy v) (ha : Accepted demoExt (b.env 2) b.root v)
    (τ : Sched) (e : Err) (w : GoVal) : ¬ Returns demoExt (b'.env 7) b'.root τ v (.err e) w :=
  C123_narrower (by decide) exNarrower_narrows .doc exNarrow_bare exWide_bare (fun t h => by cases h) (fun t h => by cases h) h h' hv ha τ e w

/-- `{"properties": {"n": {"type": "integer", "minimum": 0, "default": 5}}, "required": ["n"]}`; `exPort` has only `{"type": "integer", "default": 0}` -/
def exNarrowPort : Schema := .mk { type := [.object], required := [b! "n"], properties := [(b! "n", .mk { exWideInt with dflt := fl 5 })] }

/-- what is compared with what, defaults apart -/
inductive exNarrowerPort : Bool → Schema → Schema → Prop where
  | port : exNarrowerPort true exNarrowPort.plain exPort.plain
  | int : exNarrowerPort true (.mk exWideInt) (.mk { type := [.integer] })

theorem exNarrowerPort_narrows {L : Bool → GoStr → Schema → Prop} : ∀ side a b, exNarrowerPort side a b → Narrows demoExt lib0.formats L exNarrowerPort side a b := by
  intro side a b h
  cases h with
  | port =>
    rw [show exNarrowPort.plain = .mk { type := [.object], required := [b! "n"], properties := [(b! "n", .mk exWideInt)] } from rfl,
      show exPort.plain = .mk { type := [.object], properties := [(b! "n", .mk { type := [.integer] })] } from rfl]
    refine .keywords rfl (noCombos rfl rfl rfl rfl) (narrower_listed (p := .object) rfl rfl rfl ?_)
    refine ⟨(fun n h => by cases h), (fun n h => by cases h), ?_, ?_, (fun k h => by cases h), (fun _ _ _ h => by cases h), (fun _ _ _ h => by cases h),
      ⟨(fun h => by cases h), fun _ h => by cases h⟩, (fun _ _ h => by cases h), fun _ _ h => by cases h⟩
    · intro k y hy
      simp only [List.mem_singleton, Prod.mk.injEq] at hy
      obtain ⟨rfl, rfl⟩ := hy
      exact ⟨_, List.mem_singleton.2 rfl, .int⟩
    · intro k x hx
      simp only [List.mem_singleton, Prod.mk.injEq] at hx
      obtain ⟨rfl, rfl⟩ := hx
      exact .inl ⟨_, List.mem_singleton.2 rfl⟩
  | int =>
    refine .keywords rfl (noCombos rfl rfl rfl rfl) (narrower_listed (p := .integer) rfl rfl rfl ⟨⟨?_, ?_, ?_⟩, ?_⟩)
    · exact fun _ h => by cases h
    · exact fun _ h => by cases h
    · exact fun _ h => by cases h
    · exact fun h => absurd rfl h

theorem exPort_discreet {formats : List GoStr} {t : SchemaF Schema} {req : List GoStr} (ht : t.NoCombos) (h1 : t.type.Nodup) (h2 : t.items = .nil)
    (h3 : t.depSchemas = []) (h4 : ∀ c, ¬ t.Child c) (hr : t.reference = []) : Schema.Discreet formats (fun _ => .fail)
      (.mk { type := [.object], required := req, properties := [(b! "n", .mk t)] }) := by
  have easy : ∀ (f : SchemaF Schema) (root : Schema), f.NoCombos → f.type.Nodup → f.items = .nil → f.depSchemas = [] → f.Discreet formats (fun _ => .fail) root := by
    rintro f root ⟨h1, h2, h3, h4⟩ h5 h6 h7
    refine ⟨by simp [h2], by simp [h3], by simp [h4], fun _ c hc => ?_, h5, fun l _ h => (by rw [h6] at h; cases h), Or.inl h7⟩
    simp [h1, h2, h3, h4] at hc
  intro f hf _
  cases hf with
  | refl => exact easy _ _ ⟨rfl, rfl, rfl, rfl⟩ (List.nodup_singleton _) rfl rfl
  | ref h => exact absurd rfl h
  | child _ hc hu =>
    cases hc with
    | property hp =>
      simp only [List.mem_singleton, Prod.mk.injEq] at hp
      obtain ⟨-, rfl⟩ := hp
      cases hu with
      | refl => exact easy _ _ ht h1 h2 h3
      | ref h => exact absurd hr h
      | child _ hc _ => exact absurd hc (h4 _)
    | not h => cases h
    | allOf h => cases h
    | anyOf h => cases h
    | oneOf h => cases h
    | list h _ => cases h
    | tuple h _ => cases h
    | additionalItems h => cases h
    | patternProp h => cases h
    | additionalProps h => cases h
    | dependency h => cases h

theorem int_leaf {t : SchemaF Schema} (h : t = exWideInt ∨ t = { exWideInt with dflt := fl 5 } ∨ t = { type := [.integer], dflt := .float .f64 F64.zero }) (c : Schema) :
    ¬ t.Child c := by
  intro hc
  rcases h with rfl | rfl | rfl <;> cases hc <;> first | (rename_i h; cases h; done) | (rename_i h _; cases h; done)

/-- Ports with a number of at least 0, 5 if missing, and required, and ports with a number, 0 if missing. -/
example {fuel fuel' : Nat} {σ σ' : Sched} {b b' : Built} (h : Build lib0 2 (fun _ => .fail) fuel σ exNarrowPort = .ok b)
    (h' : Build lib0 7 (fun _ => .fail) fuel' σ' exPort = .ok b') (v : GoVal) (hv : IsJson v) (ha : Accepted demoExt (b.env 2) b.root v)
    (τ : Sched) (e : Err) (w : GoVal) : ¬ Returns demoExt (b'.env 7) b'.root τ v (.err e) w := by
  have bare : ∀ s : Schema, s.plain.bareB = true → BareDocument demoExt (Resolver.plain fun _ => .fail) s.plain := by
    intro s hs
    refine ⟨Schema.bare_of_check _ hs, fun n t ht => ?_⟩
    rcases ht with ⟨-, rfl⟩ | ⟨-, ht⟩
    · exact Schema.bare_of_check _ hs
    · cases ht
  exact C123_decoded (by decide) exNarrowerPort_narrows .port (bare _ (by decide)) (bare _ (by decide)) (fun t h => by cases h) (fun t h => by cases h)
    (exPort_discreet ⟨rfl, rfl, rfl, rfl⟩ (by decide) rfl rfl (int_leaf (.inr (.inl rfl))) rfl)
    (exPort_discreet ⟨rfl, rfl, rfl, rfl⟩ (by decide) rfl rfl (int_leaf (.inr (.inr rfl))) rfl) h h' hv ha τ e w

/-- the validator of the narrow list -/
def exNarrowBuilt : Built where
  root := .object (((Object'.AdditionalProperties (some .empty)).AddProp (b! "next") (.ref 2 (b! "#"))).AddProp (b! "val") (.ref 2 (b! "vals")) |>.Required
    [b! "val"])
  table := [(b! "#", .object (((Object'.AdditionalProperties (some .empty)).AddProp (b! "next") (.ref 2 (b! "#"))).AddProp (b! "val") (.ref 2 (b! "vals")) |>.Required
      [b! "val"])),
    (b! "vals", .array { Array'.Items (Constraint.ref 2 (b! "entry")) with minItems := 1 }),
    (b! "entry", .any [.integer { Number' with minimum := some F64.zero, maximum := some (F64.exactInt 100), exclMax := true }, .ref 2 (b! "vals")])]

/-- Both can be built. -/
example : BuildWithCtx lib0 2 exNarrowResolve 10 sched0 exNarrowSchema = .ok exNarrowBuilt ∧
    BuildWithCtx lib0 7 exListResolve 10 sched0 exListSchema = .ok exListBuilt := ⟨rfl, rfl⟩

/-- The narrow one accepts a list of two nodes; one whose second node has no value only the wide one accepts. -/
example : Accepted demoExt (exNarrowBuilt.env 2) exNarrowBuilt.root
      (.map false [(b! "val", .slice false [fl 3]), (b! "next", .map false [(b! "val", .slice false [.slice false [fl 99]])])]) ∧
    Accepted demoExt (exListBuilt.env 7) exListBuilt.root (.map false [(b! "val", .slice false [fl 3]), (b! "next", .map false [])]) ∧
    Returns demoExt (exNarrowBuilt.env 2) exNarrowBuilt.root sched0 (.map false [(b! "val", .slice false [fl 3]), (b! "next", .map false [])])
      (.err (.prop (b! "next") (.required (b! "val")))) (.map false [(b! "val", .slice false [fl 3]), (b! "next", .map false [])]) :=
  ⟨⟨sched0, _, by simp, 6, Prod.ext (by decide +kernel) rfl⟩, ⟨sched0, _, by simp, 6, Prod.ext (by decide +kernel) rfl⟩, by simp, 6, Prod.ext (by decide +kernel) rfl⟩

/-- Adding a keyword does not narrow a schema whose types are guessed: with `minLength` next to `minItems` strings pass too. -/
example : ∃ b b', BuildWithCtx lib0 2 exListResolve 10 sched0 (.mk { minItems := some 1, minLength := some 1 }) = .ok b ∧
    BuildWithCtx lib0 7 exListResolve 10 sched0 (.mk { minItems := some 1 }) = .ok b' ∧ Accepted demoExt (b.env 2) b.root (.str (b! "x")) ∧
    Returns demoExt (b'.env 7) b'.root sched0 (.str (b! "x")) (.err .notSlice) (.str (b! "x")) :=
  ⟨⟨.any [.string (String'.MinLength 1), .array { Array' with minItems := 1 }], []⟩, ⟨.array { Array' with minItems := 1 }, []⟩, rfl, rfl,
    ⟨sched0, .str (b! "x"), by simp, 3, by rfl⟩, by simp, 3, by rfl⟩

end Jsval
