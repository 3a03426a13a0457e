import Verif.Lemmas.SchemaPlain
import Verif.Lemmas.BuildUnseen
import Verif.Props.Conforming
import Verif.Props.Unseen
/-!
# Built validators implement schemas with defaults (C63)

`Spec/SchemaDefaults.lean` says what the schema is without its defaults, and when nothing looks at what is filled in.
-/
namespace Jsval
variable {ext : Ext} {cls : DocClass} {lib : SchemaLib} {m : Nat} {resolve : Resolver} {s : Schema}

theorem mentions_uses {n : GoStr} : ∀ {t : Schema}, t.Mentions n → ∃ f : SchemaF Schema, UsesSchema resolve s t (.mk f) ∧ f.reference ≠ [] ∧ f.reference = n
  | _, .here h1 h2 => ⟨_, .refl _, h1, h2⟩
  | _, .child h1 h2 h3 => by
    obtain ⟨f, h4, h5⟩ := mentions_uses h3
    exact ⟨f, .child h1 h2 h4, h5⟩

theorem reaches_uses {n : GoStr} (h : Reaches resolve s n) : ∀ s1, RefersTo resolve s n s1 → UsesSchema resolve s s s1 := by
  induction h with
  | root h =>
    intro s1 h1
    obtain ⟨f, h2, h3, rfl⟩ := mentions_uses (resolve := resolve) (s := s) h
    exact h2.trans (.ref h3 h1 (.refl _))
  | step _ h2 h3 ih =>
    intro s1 h1
    obtain ⟨f, h4, h5, rfl⟩ := mentions_uses (resolve := resolve) (s := s) h3
    exact (ih _ h2).trans (h4.trans (.ref h5 h1 (.refl _)))

/-- What is built from a discreet document does not look at what it fills in. -/
theorem built_unseen (hroot : Reaches resolve s (b! "#") → ∀ s1, (resolve (b! "#")).target = .ok s1 → s1 = s) {bfuel : Nat} {σ : Sched} {b : Built}
    (h : Build lib m resolve bfuel σ s = .ok b) (hd : s.Discreet lib.formats resolve) :
    (b.env m).Every (Unseen (b.env m)) ∧ b.root.Every (Unseen (b.env m)) := by
  have h' : BuildWithCtx lib m resolve bfuel σ s = .ok b := by cases s <;> exact h
  obtain ⟨h1, h2⟩ := built_from hroot h'
  have hlook : ∀ m' n d, b.env m m' n = some d → (n, d) ∈ b.table := by
    intro m' n d hd
    unfold Built.env at hd
    split at hd
    · exact alookup_mem hd
    · cases hd
  have htab : TableFrom lib resolve s (b.env m) := fun m' n d hd => by
    obtain ⟨-, s1, h3, h4⟩ := h2 _ (hlook m' n d hd)
    exact ⟨s1, m, h3, h4⟩
  refine ⟨fun m' n c hc => ?_, unseen_of_discreet htab s hd _ h1⟩
  obtain ⟨h3, s1, h4, h5⟩ := h2 _ (hlook m' n c hc)
  exact unseen_of_discreet htab s1 (fun f hf => hd f ((reaches_uses h3 s1 h4).trans hf)) c h5

/-- C63, with defaults: take a schema that conforms once its defaults are taken out. If nothing looks at what is filled in, then with the
defaults, too, the validator returns and accepts exactly the valid documents, for every iteration order of the build and of the validation. -/
theorem C63_defaults (hroot : Reaches resolve s (b! "#") → ∀ s1, (resolve (b! "#")).target = .ok s1 → s1 = s) {bfuel : Nat} {σ : Sched} {b : Built}
    (h : Build lib m resolve bfuel σ s = .ok b) (hs : s.plain.Conforms ext lib.formats cls)
    (hto : ∀ n s1, Reaches resolve s n → RefersTo resolve s n s1 → s1.plain.Conforms ext lib.formats cls)
    (hg : Grounded resolve s) (hd : s.Discreet lib.formats resolve) :
    (∃ R, Meaning ext resolve s R) ∧ ∀ R, Meaning ext resolve s R → ∀ v, Doc cls v → ∀ τ,
      (s.Valid ext R v ↔ ∃ v', Returns ext (b.env m) b.root τ v .ok v') ∧
      (¬ s.Valid ext R v ↔ ∃ e v', Returns ext (b.env m) b.root τ v (.err e) v') := by
  obtain ⟨hu1, hu2⟩ := built_unseen hroot h hd
  have hb : Build lib m resolve.plain bfuel σ s.plain = .ok b.plain := by rw [buildTop_plain, h]; rfl
  have hroot' : Reaches resolve.plain s.plain (b! "#") → ∀ s1, (resolve.plain (b! "#")).target = .ok s1 → s1 = s.plain := by
    intro h1 s1 h2
    rw [show resolve.plain (b! "#") = (resolve (b! "#")).plain from rfl, target_plain] at h2
    cases ht : (resolve (b! "#")).target with
    | error e => rw [ht] at h2; cases h2
    | ok s2 =>
      rw [ht] at h2
      cases h2
      rw [hroot (reaches_plain.1 h1) s2 ht]
  obtain ⟨⟨R, hR⟩, hall⟩ := C63_exact (ext := ext) (cls := cls) hroot' hb hs (fun n t h1 h2 => by
    obtain ⟨s1, h3, rfl⟩ := refersTo_plain.1 h2
    exact hto n s1 (reaches_plain.1 h1) h3) (grounded_plain hg)
  refine ⟨⟨R, meaning_plain.1 hR⟩, fun R hR v hv τ => ?_⟩
  obtain ⟨h1, h2⟩ := hall R (meaning_plain.2 hR) v hv τ
  rw [valid_plain] at h1 h2
  have key : ∀ r, (∃ v', Returns ext (b.env m) b.root τ v r v') ↔ Returns ext (b.plain.env m) b.plain.root τ v r v := fun r => by
    rw [C88_returns hu1 hu2 hv.json, built_env_plain]; rfl
  refine ⟨by rw [h1, key], ?_⟩
  rw [h2]
  exact ⟨fun ⟨e, he⟩ => ⟨e, (key _).2 he⟩, fun ⟨e, he⟩ => ⟨e, (key _).1 he⟩⟩

/-! A recursive schema with defaults: a node has a `color` (by default `red`), a `next` node, and a `port`, which is a name or a list of
objects whose `n` is 0 by default. -/

/-- `{"properties": {"n": {"type": "integer", "default": 0}}}` -/
def exPort : Schema := .mk { type := [.object], properties := [(b! "n", .mk { type := [.integer], dflt := .float .f64 F64.zero })] }
/-- Lists of those. -/
def exPorts : Schema := .mk { type := [.array], items := .list [exPort] }
/-- A name. -/
def exName : Schema := .mk { type := [.string] }
/-- `{"type": "string", "default": "red"}` -/
def exColor : Schema := .mk { type := [.string], dflt := .str (b! "red") }
/-- The schema. -/
def exNodes : Schema := .mk { type := [.object], properties := [(b! "color", .mk { reference := b! "c" }), (b! "next", .mk { reference := b! "#" }),
  (b! "port", .mk { anyOf := [exPorts, exName] })] }
/-- `c` is a color. -/
def exNodesResolve : Resolver := fun n => if n = b! "c" then .schema exColor else .fail

theorem exNodesResolve_refersTo {n : GoStr} {s1 : Schema} (h : RefersTo exNodesResolve exNodes n s1) :
    (n = b! "#" ∧ s1 = exNodes) ∨ (n = b! "c" ∧ s1 = exColor) := by
  cases h with
  | root => exact Or.inl ⟨rfl, rfl⟩
  | resolved hn h =>
    unfold exNodesResolve at h
    split at h
    · rename_i e
      cases h
      exact Or.inr ⟨e, rfl⟩
    · cases h

theorem exNodes_conforms (ext : Ext) (formats : List GoStr) (cls : DocClass) (hf : [] ∉ formats) : exNodes.plain.Conforms ext formats cls := by
  have leaf : ∀ f : SchemaF Schema, f.reference = [] → f.Conforming ext formats cls → (∀ c, ¬ f.Child c) → (Schema.mk f).Conforms ext formats cls :=
    fun f h1 h2 h3 => .node f h1 h2 (fun c hc => absurd hc (h3 c))
  simp only [exNodes, exPort, exPorts, exName, Schema.plain_mk, SchemaF.map, List.map_cons, List.map_nil, ItemSpec.map, Option.map_none, Extra.map]
  refine .node _ rfl ?_ (fun c hc => ?_)
  · constructor <;> simp [List.Nodup, List.pairwise_cons] <;> decide
  · cases hc with
    | property h =>
      simp only [List.mem_cons, Prod.mk.injEq, List.not_mem_nil, or_false] at h
      rcases h with ⟨-, rfl⟩ | ⟨-, rfl⟩ | ⟨-, rfl⟩
      · exact .ref _ (by decide)
      · exact .ref _ (by decide)
      · refine .node _ rfl ?_ (fun c hc => ?_)
        · constructor <;> simp [List.Nodup]
          intro t ht
          cases ht <;> simp_all [SchemaF.firstBound]
        · cases hc with
          | anyOf h =>
            simp only [List.mem_cons, List.not_mem_nil, or_false] at h
            rcases h with rfl | rfl
            · refine .node _ rfl ?_ (fun c hc => ?_)
              · constructor <;> simp [List.Nodup] <;> decide
              · cases hc with
                | list h hm =>
                  cases h
                  simp only [List.mem_singleton] at hm
                  subst hm
                  refine .node _ rfl ?_ (fun c hc => ?_)
                  · constructor <;> simp [List.Nodup] <;> decide
                  · cases hc with
                    | property h =>
                      simp only [List.mem_cons, Prod.mk.injEq, List.not_mem_nil, or_false] at h
                      obtain ⟨-, rfl⟩ := h
                      refine leaf _ rfl ?_ (fun c hc => ?_)
                      · constructor <;> simp [List.Nodup] <;> decide
                      · cases hc with
                        | _ h => simp at h
                    | _ h => simp at h
                | tuple h => simp at h
                | _ h => simp at h
            · refine leaf _ rfl ?_ (fun c hc => ?_)
              · constructor <;> simp [List.Nodup] <;> decide
              · cases hc with
                | _ h => simp at h
          | _ h => simp at h
    | _ h => simp at h

theorem exColor_conforms (ext : Ext) (formats : List GoStr) (cls : DocClass) : exColor.plain.Conforms ext formats cls := by
  simp only [exColor, Schema.plain_mk, SchemaF.map, List.map_nil, ItemSpec.map, Option.map_none, Extra.map]
  refine .node _ rfl ?_ (fun c hc => ?_)
  · constructor <;> simp [List.Nodup] <;> decide
  · cases hc with
    | _ h => simp at h

theorem exNodes_grounded : Grounded exNodesResolve exNodes := by
  refine ⟨fun n => ⟨_, fun k ⟨s1, h1, h2⟩ => ?_⟩⟩
  rcases exNodesResolve_refersTo h1 with ⟨-, rfl⟩ | ⟨-, rfl⟩
  · cases h2 with
    | here h => exact absurd rfl h
    | _ _ h => simp at h
  · cases h2 with
    | here h => exact absurd rfl h
    | _ _ h => simp at h

/-- The schemas of the document. -/
theorem exNodes_uses {t : Schema} (h : UsesSchema exNodesResolve exNodes exNodes t) : t = exNodes ∨ t = exColor ∨ t = exPort ∨ t = exPorts ∨
    t = exName ∨ t = .mk { anyOf := [exPorts, exName] } ∨ t = .mk { reference := b! "c" } ∨ t = .mk { reference := b! "#" } ∨
    t = .mk { type := [.integer], dflt := .float .f64 F64.zero } := by
  let I : Schema → Prop := fun t => t = exNodes ∨ t = exColor ∨ t = exPort ∨ t = exPorts ∨ t = exName ∨ t = .mk { anyOf := [exPorts, exName] } ∨
    t = .mk { reference := b! "c" } ∨ t = .mk { reference := b! "#" } ∨ t = .mk { type := [.integer], dflt := .float .f64 F64.zero }
  have inv : ∀ s t, UsesSchema exNodesResolve exNodes s t → I s → I t := by
    intro s t h
    induction h with
    | refl => exact id
    | @child f c t h1 h2 _ ih =>
      intro hs
      refine ih ?_
      rcases hs with h | h | h | h | h | h | h | h | h <;> cases h
      · cases h2 with
        | property h =>
          simp only [List.mem_cons, Prod.mk.injEq, List.not_mem_nil, or_false] at h
          rcases h with ⟨-, rfl⟩ | ⟨-, rfl⟩ | ⟨-, rfl⟩ <;> simp [I]
        | _ h => simp at h
      · cases h2 with
        | _ h => simp at h
      · cases h2 with
        | property h =>
          simp only [List.mem_cons, Prod.mk.injEq, List.not_mem_nil, or_false] at h
          obtain ⟨-, rfl⟩ := h
          simp [I]
        | _ h => simp at h
      · cases h2 with
        | list h hm =>
          cases h
          simp only [List.mem_singleton] at hm
          subst hm
          simp [I]
        | tuple h => simp at h
        | _ h => simp at h
      · cases h2 with
        | _ h => simp at h
      · cases h2 with
        | anyOf h =>
          simp only [List.mem_cons, List.not_mem_nil, or_false] at h
          rcases h with rfl | rfl <;> simp [I]
        | _ h => simp at h
      · exact absurd h1 (by decide)
      · exact absurd h1 (by decide)
      · cases h2 with
        | _ h => simp at h
    | ref h1 h2 _ ih =>
      intro _
      rcases exNodesResolve_refersTo h2 with ⟨-, rfl⟩ | ⟨-, rfl⟩
      · exact ih (Or.inl rfl)
      · exact ih (Or.inr (Or.inl rfl))
  exact inv _ _ h (Or.inl rfl)

/-- The only schema with combinators is that of `port`, whose branches are for different types. -/
theorem exNodes_discreet (formats : List GoStr) (hf : [] ∉ formats) : exNodes.Discreet formats exNodesResolve := by
  have easy : ∀ f : SchemaF Schema, f.NoCombos → f.type.Nodup → (∀ l, f.items ≠ .tuple l) → f.depSchemas = [] →
      f.Discreet formats exNodesResolve exNodes := by
    rintro f ⟨h1, h2, h3, h4⟩ h5 h6 h7
    refine ⟨by simp [h2], by simp [h3], by simp [h4], fun _ c hc => ?_, h5, fun l _ h => absurd h (h6 l), Or.inl h7⟩
    simp [h1, h2, h3, h4] at hc
  have port : ({ anyOf := [exPorts, exName] } : SchemaF Schema).Discreet formats exNodesResolve exNodes := by
    refine ⟨by simp, ?_, by simp, fun h => ?_, by simp, by simp, Or.inl rfl⟩
    · refine List.pairwise_cons.2 ⟨fun b hb => Or.inr ?_, List.pairwise_singleton _ _⟩
      simp only [List.mem_singleton] at hb
      subst hb
      exact .mk rfl rfl ⟨rfl, rfl, rfl, rfl⟩ ⟨rfl, rfl, rfl, rfl⟩ rfl rfl (by decide) (Or.inr rfl)
    · rcases h with h | h | ⟨t, h⟩
      · exact absurd rfl h
      · exact absurd rfl h
      · cases h <;> simp_all [SchemaF.firstBound]
  intro f hf hr
  rcases exNodes_uses hf with h | h | h | h | h | h | h | h | h <;> cases h
  · exact easy _ ⟨rfl, rfl, rfl, rfl⟩ (by decide) (by simp) rfl
  · exact easy _ ⟨rfl, rfl, rfl, rfl⟩ (by decide) (by simp) rfl
  · exact easy _ ⟨rfl, rfl, rfl, rfl⟩ (by decide) (by simp) rfl
  · exact easy _ ⟨rfl, rfl, rfl, rfl⟩ (by decide) (by simp) rfl
  · exact easy _ ⟨rfl, rfl, rfl, rfl⟩ (by decide) (by simp) rfl
  · exact port
  · exact absurd hr (by decide)
  · exact absurd hr (by decide)
  · exact easy _ ⟨rfl, rfl, rfl, rfl⟩ (by decide) (by simp) rfl

/-- What is built from it. -/
def exNodesBuilt : Built := match Build lib0 7 exNodesResolve 10 sched0 exNodes with
  | .ok b => b
  | .error _ => ⟨.empty, []⟩

/-- All hypotheses of `C63_defaults` hold for it, -/
theorem exNodes_exact (R : GoStr → GoVal → Prop) (hR : Meaning ext exNodesResolve exNodes R) (v : GoVal) (hv : Doc anyDoc v) (τ : Sched) :
    exNodes.Valid ext R v ↔ ∃ v', Returns ext (exNodesBuilt.env 7) exNodesBuilt.root τ v .ok v' :=
  ((C63_defaults (lib := lib0) (m := 7) (σ := sched0) (bfuel := 10) (fun _ s1 h => by cases h) (b := exNodesBuilt) rfl
    (exNodes_conforms ext _ _ (by decide)) (fun _ s1 _ h => by
      rcases exNodesResolve_refersTo h with ⟨-, rfl⟩ | ⟨-, rfl⟩
      · exact exNodes_conforms ext _ _ (by decide)
      · exact exColor_conforms ext _ _) exNodes_grounded (exNodes_discreet _ (by decide))).2 R hR v hv τ).1

/-- it accepts `{"next": {}, "port": [{}]}` and fills in both colors and the port number, -/
example : (sem demoExt (exNodesBuilt.env 7) 9 exNodesBuilt.root).val sched0 (.map false
    [(b! "next", .map false []), (b! "port", .slice false [.map false []])]) = (.ok, .map false
      [(b! "next", .map false [(b! "color", .str (b! "red"))]), (b! "port", .slice false [.map false [(b! "n", .float .f64 F64.zero)]]),
        (b! "color", .str (b! "red"))]) := by rfl

/-- and rejects `{"port": [{"n": true}]}`. -/
example : (match ((sem demoExt (exNodesBuilt.env 7) 9 exNodesBuilt.root).val sched0 (.map false
    [(b! "port", .slice false [.map false [(b! "n", .bool true)]])])).1 with
    | .err _ => true | _ => false) = true := by decide +kernel

end Jsval
