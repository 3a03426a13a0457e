import Verif.Lemmas.TolerantSchema
import Verif.Props.Narrower
import Verif.Props.Revised
/-!
# C127 for schemas: optional and unmentioned properties
-/
namespace Jsval

section
variable {ext : Ext} {lib : SchemaLib} {m : Nat} {resolve : Resolver} {L D : GoStr → Prop} {s : Schema} {fuel : Nat} {σ : Sched} {b : Built} {v w : GoVal}

/-- C127, for builders whose loops all run in one fixed order. -/
theorem C127_fixed (ht : TolerantDocument ext L D resolve s) (hb : BareDocument ext resolve s)
    (hroot : ∀ t, (resolve (b! "#")).target = .ok t → t = s) (h0 : BuildWithCtx lib m resolve fuel zeroSched s = .ok b) (hv : IsJson v) (hw : IsJson w)
    (hr : Revised L D v w) (ha : Accepted ext (b.env m) b.root v) (τ : Sched) (e : Err) (w' : GoVal) :
    ¬ Returns ext (b.env m) b.root τ w (.err e) w' := by
  have every : ∀ {P : Constraint → Prop}, (∀ t, t.Tolerant ext L D → t.Bare ext → (buildC lib m t).Every P) →
      (ownEnv lib m resolve s).Every P := by
    intro P hP a n c hc
    unfold ownEnv at hc
    split at hc
    · obtain ⟨t, h1, rfl⟩ := leads_docEnv hc
      exact hP t (ht.2 n t h1) (hb.2 n t h1)
    · cases hc
  have same : ∀ σ v r w, Returns ext (b.env m) b.root σ v r w ↔
      Returns ext (ownEnv lib m resolve s) b.root σ v r w := by
    refine C120_unmentioned b.root fun a n hmen => ?_
    obtain ⟨rfl, d, hd⟩ := built_mentioned h0 hmen
    rw [hd, ownEnv, if_pos rfl]
    exact built_docEnv hroot h0 hd
  obtain ⟨σ, v', h1⟩ := ha
  intro h2
  have h1 := (same _ _ _ _).1 h1
  have h2 := (same _ _ _ _).1 h2
  rw [(built_zero h0).1] at h1 h2
  exact C127_stays (every fun _ _ h => bare_orderly h) (bare_orderly hb.1) (every fun _ h h' => tolerant_built h h') (tolerant_built ht.1 hb.1) hv hw hr
    ⟨σ, v', h1⟩ τ e w' h2

/-- C127 for a schema document: however it is built, if properties in `L` are left out of an accepted document and properties in `D` are added, left
out or changed, anywhere in it, no call returns an error for what results. -/
theorem C127_schema (ht : TolerantDocument ext L D resolve s) (hb : BareDocument ext resolve s)
    (hroot : ∀ t, (resolve (b! "#")).target = .ok t → t = s) (h1 : BuildWithCtx lib m resolve fuel σ s = .ok b) (hv : IsJson v) (hw : IsJson w)
    (hr : Revised L D v w) (ha : Accepted ext (b.env m) b.root v) (τ : Sched) (e : Err) (w' : GoVal) :
    ¬ Returns ext (b.env m) b.root τ w (.err e) w' := by
  obtain ⟨K, hK⟩ := built_any_order h1
  obtain ⟨b0, h0⟩ := hK K (Nat.le_refl K) zeroSched
  obtain ⟨ρ, v', hv'⟩ := ha
  obtain ⟨ρ1, hv1⟩ := (C109_outcomes (hb.keyedAll hroot) h1 h0 ext v v' .ok).1 ⟨ρ, hv'⟩
  intro h2
  obtain ⟨τ1, h3⟩ := (C109_outcomes (hb.keyedAll hroot) h1 h0 ext w w' (.err e)).1 ⟨τ, h2⟩
  exact C127_fixed ht hb hroot h0 hv hw hr ⟨ρ1, v', hv1⟩ τ1 e w' h3

/-- C127 for a schema document whose defaults nothing looks at. -/
theorem C127_schema_defaults (ht : TolerantDocument ext L D resolve.plain s.plain) (hb : BareDocument ext resolve.plain s.plain)
    (hroot : ∀ t, (resolve (b! "#")).target = .ok t → t = s) (hd : s.Discreet lib.formats resolve) (h1 : Build lib m resolve fuel σ s = .ok b)
    (hv : IsJson v) (hw : IsJson w) (hr : Revised L D v w) (ha : Accepted ext (b.env m) b.root v) (τ : Sched) (e : Err) (w' : GoVal) :
    ¬ Returns ext (b.env m) b.root τ w (.err e) w' := by
  obtain ⟨hu1, hu2⟩ := built_unseen (fun _ => hroot) h1 hd
  have h2 : BuildWithCtx lib m resolve fuel σ s = .ok b := by cases s <;> exact h1
  have h0 : BuildWithCtx lib m resolve.plain fuel σ s.plain = .ok b.plain := by rw [buildWithCtx_plain, h2]; rfl
  obtain ⟨ρ, v', hv'⟩ := ha
  have hv1 := (C88_returns hu1 hu2 hv).1 ⟨v', hv'⟩
  intro hr1
  have hr2 := (C88_returns hu1 hu2 hw).1 ⟨w', hr1⟩
  refine C127_schema ht hb (root_plain hroot) h0 hv hw hr ⟨ρ, v, ?_⟩ τ e w ?_
  · rw [built_env_plain]; exact hv1
  · rw [built_env_plain]; exact hr2

/-- C127 for conforming documents without endless references: then every call on what results comes back and accepts. -/
theorem C127_accepts {cls : DocClass} (ht : TolerantDocument ext L D resolve s) (hb : BareDocument ext resolve s)
    (hroot : ∀ t, (resolve (b! "#")).target = .ok t → t = s) (h1 : Build lib m resolve fuel σ s = .ok b) (hs : s.Conforms ext lib.formats cls)
    (hto : ∀ n s1, Reaches resolve s n → RefersTo resolve s n s1 → s1.Conforms ext lib.formats cls) (hg : Grounded resolve s)
    (hv : IsJson v) (hw : Doc cls w) (hr : Revised L D v w) (ha : Accepted ext (b.env m) b.root v) (τ : Sched) :
    Returns ext (b.env m) b.root τ w .ok w := by
  have h2 : BuildWithCtx lib m resolve fuel σ s = .ok b := by cases s <;> exact h1
  obtain ⟨⟨R, hR⟩, key⟩ := C63_exact (fun _ => hroot) h1 hs hto hg
  obtain ⟨k1, k2⟩ := key R hR w hw τ
  refine k1.1 ?_
  by_contra hnot
  obtain ⟨e, he⟩ := k2.1 hnot
  exact C127_schema ht hb hroot h2 hv hw.json hr ha τ e w he
end

/-! ## Examples -/

/-- the values of a list may be missing -/
def exValsMiss (k : GoStr) : Prop := k = b! "val"

/-- Schemas without most keywords. -/
theorem tolerant_simple {ext : Ext} {L D : GoStr → Prop} {s : SchemaF Schema} (h1 : s.required = []) (h2 : s.depNames = []) (h3 : s.minProps = none)
    (h4 : s.maxProps = none) (h5 : ∀ k, D k → ∀ x, (k, x) ∉ s.properties) (h6 : s.patternProps = []) (h7 : s.additionalProps = .allow)
    (h8 : s.uniqueItems = none) (h9 : s.enum = []) (h10 : s.oneOf = []) (h11 : s.not = none) : s.Tolerant ext L D where
  optional k _ := ⟨by simp [h1], by simp [h2], by simp [h3]⟩
  undeclared k h := ⟨h5 k h, by simp [h6]⟩
  open_ k _ := ⟨h7, by simp [h3], by simp [h4]⟩
  unique h := by rw [h8] at h; cases h
  enum := by simp [h9]
  oneOf := .inr (by simp [h10])
  not := .inr (by simp [h11])

theorem exList_tolerant : TolerantDocument demoExt exValsMiss exNotes exListResolve exListSchema := by
  have hs : exListSchema.Tolerant demoExt exValsMiss exNotes := by
    refine .node _ rfl (tolerant_simple rfl rfl rfl rfl (fun k hk x hx => ?_) rfl rfl rfl rfl rfl rfl) fun c hc => ?_
    · cases hk
      simp only [List.mem_cons, Prod.mk.injEq, List.not_mem_nil, or_false] at hx
      rcases hx with ⟨h, -⟩ | ⟨h, -⟩ <;> exact absurd h (by decide)
    · cases hc with
      | property h =>
        simp only [List.mem_cons, Prod.mk.injEq, List.not_mem_nil, or_false] at h
        rcases h with ⟨-, rfl⟩ | ⟨-, rfl⟩ <;> exact .ref _ (by decide)
      | _ h => simp at h
  refine ⟨hs, fun n t h => ?_⟩
  have h' : RefersTo exListResolve exListSchema n t := by
    rcases h with ⟨rfl, rfl⟩ | ⟨h1, h2⟩
    · exact .root
    · exact .resolved h1 h2
  rcases exListResolve_refersTo h' with ⟨-, rfl⟩ | ⟨-, rfl⟩ | ⟨-, rfl⟩
  · exact hs
  · refine .node _ rfl (tolerant_simple rfl rfl rfl rfl (fun k _ x hx => by cases hx) rfl rfl rfl rfl rfl rfl) fun c hc => ?_
    cases hc with
    | list h hm =>
      cases h
      simp only [List.mem_singleton] at hm
      subst hm
      exact .ref _ (by decide)
    | tuple h => simp at h
    | _ h => simp at h
  · refine .node _ rfl (tolerant_simple rfl rfl rfl rfl (fun k _ x hx => by cases hx) rfl rfl rfl rfl rfl rfl) fun c hc => ?_
    cases hc with
    | anyOf h =>
      simp only [List.mem_cons, List.not_mem_nil, or_false] at h
      rcases h with rfl | rfl
      · refine .node _ rfl (tolerant_simple rfl rfl rfl rfl (fun k _ x hx => by cases hx) rfl rfl rfl rfl rfl rfl) fun c hc => ?_
        cases hc with
        | _ h => simp at h
      · exact .ref _ (by decide)
    | _ h => simp at h

/-- a list of two nodes with the values `x` and `y`, and one with a note instead of the second value -/
def exTwoNodes (x y : GoVal) : GoVal := .map false [(b! "val", x), (b! "next", .map false [(b! "val", y)])]
def exTwoNodes' (x z : GoVal) : GoVal := .map false [(b! "val", x), (b! "next", .map false [(b! "note", z)])]

theorem exTwoNodes_revised (x y z : GoVal) : Revised exValsMiss exNotes (exTwoNodes x y) (exTwoNodes' x z) := by
  refine .obj _ _ ?_ ?_ ?_
  · rintro k ⟨a, ha⟩
    simp only [List.mem_cons, Prod.mk.injEq, List.not_mem_nil, or_false] at ha
    rcases ha with ⟨rfl, -⟩ | ⟨rfl, -⟩
    · exact .inl ⟨_, List.mem_cons_self ..⟩
    · exact .inl ⟨_, List.mem_cons_of_mem _ (List.mem_cons_self ..)⟩
  · rintro k ⟨a, ha⟩
    simp only [List.mem_cons, Prod.mk.injEq, List.not_mem_nil, or_false] at ha
    rcases ha with ⟨rfl, -⟩ | ⟨rfl, -⟩
    · exact .inl ⟨_, List.mem_cons_self ..⟩
    · exact .inl ⟨_, List.mem_cons_of_mem _ (List.mem_cons_self ..)⟩
  · intro k a b ha hb _
    simp only [List.mem_cons, Prod.mk.injEq, List.not_mem_nil, or_false] at ha hb
    rcases ha with ⟨rfl, rfl⟩ | ⟨rfl, rfl⟩
    · rcases hb with ⟨-, rfl⟩ | ⟨h, -⟩
      · exact .same _
      · exact absurd h (by decide)
    · rcases hb with ⟨h, -⟩ | ⟨-, rfl⟩
      · exact absurd h (by decide)
      · refine .obj _ _ ?_ ?_ ?_
        · rintro k ⟨a, ha⟩
          simp only [List.mem_singleton, Prod.mk.injEq] at ha
          exact .inr ha.1
        · rintro k ⟨a, ha⟩
          simp only [List.mem_singleton, Prod.mk.injEq] at ha
          exact .inr (.inl ha.1)
        · intro k a b ha hb _
          simp only [List.mem_singleton, Prod.mk.injEq] at ha hb
          exact absurd (ha.1.symm.trans hb.1) (by decide)

/-- The value of the second node left out and a note put there: if the list was accepted, every call on the new one accepts, however the validator was
built. -/
example {fuel : Nat} {σ : Sched} {b : Built} (h : Build lib0 7 exListResolve fuel σ exListSchema = .ok b) (x y z : GoVal) (hv : IsJson (exTwoNodes x y))
    (hw : Doc anyDoc (exTwoNodes' x z)) (ha : Accepted demoExt (b.env 7) b.root (exTwoNodes x y)) (τ : Sched) :
    Returns demoExt (b.env 7) b.root τ (exTwoNodes' x z) .ok (exTwoNodes' x z) :=
  C127_accepts exList_tolerant exWide_bare (fun t h => by cases h) h (exListSchema_conforms _ _ _)
    (fun _ _ _ h => exListResolve_conforms _ _ _ (by decide) h) exList_grounded hv hw (exTwoNodes_revised x y z) ha τ

/-- Such a list is accepted. -/
example : Accepted demoExt (exListBuilt.env 7) exListBuilt.root (exTwoNodes (.slice false [fl 3]) (.slice false [])) ∧
    IsJson (exTwoNodes (.slice false [fl 3]) (.slice false [])) ∧ Doc anyDoc (exTwoNodes' (.slice false [fl 3]) .nil) := by
  refine ⟨⟨sched0, _, by simp, 6, Prod.ext (by decide +kernel) rfl⟩, ?_, ?_⟩
  · refine .obj _ (by decide) fun k x hx => ?_
    simp only [List.mem_cons, Prod.mk.injEq, List.not_mem_nil, or_false] at hx
    rcases hx with ⟨-, rfl⟩ | ⟨-, rfl⟩
    · exact .arr _ fun x hx => by rw [List.mem_singleton.1 hx]; exact .num _
    · refine .obj _ (by decide) fun k x hx => ?_
      simp only [List.mem_singleton, Prod.mk.injEq] at hx
      rw [hx.2]
      exact .arr _ fun x hx => by cases hx
  · refine .obj _ (by decide) (fun _ _ _ h => h.elim) fun k x hx => ?_
    simp only [List.mem_cons, Prod.mk.injEq, List.not_mem_nil, or_false] at hx
    rcases hx with ⟨-, rfl⟩ | ⟨-, rfl⟩
    · exact .arr _ fun x hx => by rw [List.mem_singleton.1 hx]; exact .num _ _ fun h => h.elim
    · refine .obj _ (by decide) (fun _ _ _ h => h.elim) fun k x hx => ?_
      simp only [List.mem_singleton, Prod.mk.injEq] at hx
      rw [hx.2]
      exact .null

/-- In the narrow lists of C123 values are required: without the second one the list is rejected. -/
example : Accepted demoExt (exNarrowBuilt.env 2) exNarrowBuilt.root (exTwoNodes (.slice false [fl 3]) (.slice false [fl 4])) ∧
    Returns demoExt (exNarrowBuilt.env 2) exNarrowBuilt.root sched0 (exTwoNodes' (.slice false [fl 3]) .nil)
      (.err (.prop (b! "next") (.required (b! "val")))) (exTwoNodes' (.slice false [fl 3]) .nil) :=
  ⟨⟨sched0, _, by simp, 6, Prod.ext (by decide +kernel) rfl⟩, by simp, 6, Prod.ext (by decide +kernel) rfl⟩

/-- The number of a port left out, which has a default: whatever the number was, if it was accepted, nobody complains. -/
example {fuel : Nat} {σ : Sched} {b : Built} (h : Build lib0 7 (fun _ => .fail) fuel σ exPort = .ok b) (x : GoVal) (hx : IsJson x)
    (ha : Accepted demoExt (b.env 7) b.root (.map false [(b! "n", x)])) (τ : Sched) (e : Err) (w : GoVal) :
    ¬ Returns demoExt (b.env 7) b.root τ (.map false []) (.err e) w := by
  have leads : ∀ n t, Leads (Resolver.plain fun _ => .fail) exPort.plain n t → t = exPort.plain := by
    rintro n t (⟨-, rfl⟩ | ⟨-, ht⟩)
    · rfl
    · cases ht
  have hb : exPort.plain.Bare demoExt := Schema.bare_of_check _ (by decide)
  have ht : exPort.plain.Tolerant demoExt (· = b! "n") (fun _ => False) := by
    rw [show exPort.plain = .mk { type := [.object], properties := [(b! "n", .mk { type := [.integer] })] } from rfl]
    refine .node _ rfl (tolerant_simple rfl rfl rfl rfl (fun k h => h.elim) rfl rfl rfl rfl rfl rfl) fun c hc => ?_
    cases hc with
    | property h =>
      simp only [List.mem_singleton, Prod.mk.injEq] at h
      rw [h.2]
      refine .node _ rfl (tolerant_simple rfl rfl rfl rfl (fun k h => h.elim) rfl rfl rfl rfl rfl rfl) fun c hc => ?_
      cases hc with
      | _ h => simp at h
    | _ h => simp at h
  refine C127_schema_defaults (L := (· = b! "n")) (D := fun _ => False) ⟨ht, fun n t h => by rw [leads n t h]; exact ht⟩
    ⟨hb, fun n t h => by rw [leads n t h]; exact hb⟩ (fun t h => by cases h)
    (exPort_discreet ⟨rfl, rfl, rfl, rfl⟩ (by decide) rfl rfl (int_leaf (.inr (.inr rfl))) rfl) h ?_ ?_ ?_ ha τ e w
  · refine .obj _ (show [b! "n"].Nodup by decide) fun k y hy => ?_
    simp only [List.mem_singleton, Prod.mk.injEq] at hy
    rw [hy.2]; exact hx
  · exact .obj _ (by decide) fun k y hy => by cases hy
  · refine .obj _ _ (fun k ⟨y, hy⟩ => by cases hy) ?_ fun k y z _ hz => by cases hz
    rintro k ⟨y, hy⟩
    simp only [List.mem_singleton, Prod.mk.injEq] at hy
    exact .inr (.inl hy.1)

end Jsval
