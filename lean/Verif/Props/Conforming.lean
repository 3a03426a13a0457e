import Verif.Lemmas.SchemaRefs
import Verif.Lemmas.SchemaMeaning
/-!
# Built validators implement the schema (C63)

`Spec/JsonSchema.lean` says what a schema means (`Schema.Valid`) and which schemas are considered (`Schema.Conforms`).
-/
namespace Jsval
variable {ext : Ext} {cls : DocClass} {lib : SchemaLib} {m : Nat} {resolve : Resolver} {s : Schema}

/-- C63: whenever the validator built from a conforming schema returns, it has accepted exactly if the document is
valid; it leaves the document as it was; and the only way not to return is to follow references forever. Here the
references mean `R`, any solution of the equations "the name is valid for what the schema it stands for is valid for".
If the schema comes to refer to `#`, then resolving `#` must not give anything else than the schema itself. -/
theorem C63_sound (hroot : Reaches resolve s (b! "#") → ∀ s1, (resolve (b! "#")).target = .ok s1 → s1 = s) {bfuel : Nat} {σ : Sched} {b : Built}
    (h : Build lib m resolve bfuel σ s = .ok b) (hs : s.Conforms ext lib.formats cls)
    (hto : ∀ n s1, Reaches resolve s n → RefersTo resolve s n s1 → s1.Conforms ext lib.formats cls)
    {R : GoStr → GoVal → Prop} (hR : Meaning ext resolve s R) {v : GoVal} (hv : Doc cls v)
    (fuel : Nat) (τ : Sched) :
    ((sem ext (b.env m) fuel b.root).val τ v = (.ok, v) ∧ s.Valid ext R v) ∨
    ((∃ e, (sem ext (b.env m) fuel b.root).val τ v = (.err e, v)) ∧ ¬ s.Valid ext R v) ∨
    (sem ext (b.env m) fuel b.root).val τ v = (.abort .diverge, v) := by
  have h' : BuildWithCtx lib m resolve bfuel σ s = .ok b := by cases s <;> exact h
  have ht := built_tracks hroot h' hs hto hR fuel
  have hsame := ht.same τ v
  rcases hc : (sem ext (b.env m) fuel b.root).val τ v with ⟨r, v'⟩
  rw [hc] at hsame
  obtain rfl : v' = v := hsame
  cases r with
  | ok => exact Or.inl ⟨rfl, ht.ok τ v' hv (by rw [hc])⟩
  | err e => exact Or.inr (Or.inl ⟨⟨e, rfl⟩, ht.err τ v' e hv (by rw [hc])⟩)
  | abort a =>
    refine Or.inr (Or.inr ?_)
    rw [(ht.data.val τ v' hv.json.data).2.2 a (by rw [hc])]

/-- C63: if following references cannot go on forever at one place of the document, then the references have a meaning,
and with it (with any, so there is only one) the validator returns and accepts exactly the valid documents, for every
iteration order of the build and of the validation. -/
theorem C63_exact (hroot : Reaches resolve s (b! "#") → ∀ s1, (resolve (b! "#")).target = .ok s1 → s1 = s) {bfuel : Nat} {σ : Sched} {b : Built}
    (h : Build lib m resolve bfuel σ s = .ok b) (hs : s.Conforms ext lib.formats cls)
    (hto : ∀ n s1, Reaches resolve s n → RefersTo resolve s n s1 → s1.Conforms ext lib.formats cls)
    (hg : Grounded resolve s) :
    (∃ R, Meaning ext resolve s R) ∧ ∀ R, Meaning ext resolve s R → ∀ v, Doc cls v → ∀ τ,
      (s.Valid ext R v ↔ Returns ext (b.env m) b.root τ v .ok v) ∧
      (¬ s.Valid ext R v ↔ ∃ e, Returns ext (b.env m) b.root τ v (.err e) v) := by
  have h' : BuildWithCtx lib m resolve bfuel σ s = .ok b := by cases s <;> exact h
  refine ⟨meaning_exists ext hg, fun R hR v hv τ => ?_⟩
  have key : ∀ {r v'}, Returns ext (b.env m) b.root τ v r v' →
      (r = .ok ∧ s.Valid ext R v) ∨ ((∃ e, r = .err e) ∧ ¬ s.Valid ext R v) := by
    rintro r v' ⟨hne, k, hk⟩
    rcases C63_sound hroot h hs hto hR hv k τ with ⟨h1, h2⟩ | ⟨⟨e, h1⟩, h2⟩ | h1 <;> rw [hk] at h1 <;> cases h1
    · exact Or.inl ⟨rfl, h2⟩
    · exact Or.inr ⟨⟨e, rfl⟩, h2⟩
    · exact absurd rfl hne
  obtain ⟨hd1, hd2⟩ := built_noDflt hroot h' hs hto
  obtain ⟨r, v', hret⟩ := C49_guarded_returns (ext := ext) (guarded_of_grounded hroot h' hg) hd2 hd1 τ v
  have hsame : v' = v := by
    obtain ⟨-, k, hk⟩ := hret
    have := (built_tracks hroot h' hs hto hR k).same τ v
    rw [hk] at this; exact this
  subst hsame
  rcases key hret with ⟨rfl, hv2⟩ | ⟨⟨e, rfl⟩, hv2⟩
  · refine ⟨⟨fun _ => hret, fun _ => hv2⟩, ⟨fun hn => absurd hv2 hn, fun ⟨e, he⟩ => ?_⟩⟩
    rcases key he with ⟨h1, -⟩ | ⟨-, h2⟩
    · cases h1
    · exact h2
  · refine ⟨⟨fun hn => absurd hn hv2, fun ho => ?_⟩, ⟨fun _ => ⟨e, hret⟩, fun _ => hv2⟩⟩
    rcases key ho with ⟨-, h2⟩ | ⟨⟨e, h1⟩, -⟩
    · exact h2
    · cases h1

/-! A recursive schema in the fragment: `exListSchema`, a linked list whose values are nested arrays of non-negative
integers. -/

theorem exListSchema_conforms (ext : Ext) (formats : List GoStr) (cls : DocClass) :
    exListSchema.Conforms ext formats cls := by
  refine .node _ rfl ?_ (fun c hc => ?_)
  · constructor <;> simp [List.Nodup, List.pairwise_cons] <;> decide
  · cases hc with
    | property h =>
      simp only [List.mem_cons, Prod.mk.injEq, List.not_mem_nil, or_false] at h
      rcases h with ⟨-, rfl⟩ | ⟨-, rfl⟩ <;> exact .ref _ (by decide)
    | _ h => simp at h

/-- The schemas the references stand for. -/
theorem exListResolve_refersTo {n : GoStr} {s1 : Schema} (h : RefersTo exListResolve exListSchema n s1) :
    (n = b! "#" ∧ s1 = exListSchema) ∨
    (n = b! "v" ∧ s1 = .mk { type := [.array], items := .list [.mk { reference := b! "w" }] }) ∨
    (n = b! "w" ∧ s1 =
      .mk { anyOf := [.mk { type := [.integer], minimum := some F64.zero }, .mk { reference := b! "v" }] }) := by
  cases h with
  | root => exact Or.inl ⟨rfl, rfl⟩
  | resolved hn h =>
    refine Or.inr ?_
    unfold exListResolve at h
    split at h
    · rename_i e
      cases h
      exact Or.inl ⟨e, rfl⟩
    · split at h
      · rename_i e
        cases h
        exact Or.inr ⟨e, rfl⟩
      · cases h

theorem exListResolve_conforms (ext : Ext) (formats : List GoStr) (cls : DocClass) (hf : [] ∉ formats) {n : GoStr} {s1 : Schema}
    (h : RefersTo exListResolve exListSchema n s1) : s1.Conforms ext formats cls := by
  rcases exListResolve_refersTo h with ⟨-, rfl⟩ | ⟨-, rfl⟩ | ⟨-, rfl⟩
  · exact exListSchema_conforms ext formats cls
  · refine .node _ rfl ?_ (fun c hc => ?_)
    · constructor <;> simp [List.Nodup] <;> decide
    · cases hc with
      | list h hm =>
        cases h
        simp only [List.mem_singleton] at hm
        subst hm
        exact .ref _ (by decide)
      | tuple h => simp at h
      | _ h => simp at h
  · refine .node _ rfl ?_ (fun c hc => ?_)
    · constructor <;> simp [List.Nodup]
      · intro t ht
        cases ht <;> simp_all [SchemaF.firstBound]
    · cases hc with
      | anyOf h =>
        simp only [List.mem_cons, List.not_mem_nil, or_false] at h
        rcases h with rfl | rfl
        · refine .node _ rfl ?_ (fun c hc => ?_)
          · constructor <;> simp [List.Nodup] <;> first | decide | (simp [F64.zero])
          · cases hc with
            | _ h => simp at h
        · exact .ref _ (by decide)
      | _ h => simp at h

theorem exList_grounded : Grounded exListResolve exListSchema := by
  have hv : ∀ k s1, RefersTo exListResolve exListSchema (b! "v") s1 → ¬ s1.MentionsHere k := by
    intro k s1 h1 h2
    rcases exListResolve_refersTo h1 with ⟨h, -⟩ | ⟨-, rfl⟩ | ⟨h, -⟩
    · exact absurd h (by decide)
    · cases h2 with
      | here h => exact h rfl
      | _ _ h => simp at h
    · exact absurd h (by decide)
  refine ⟨fun n => ⟨_, fun k ⟨s1, h1, h2⟩ => ?_⟩⟩
  rcases exListResolve_refersTo h1 with ⟨-, rfl⟩ | ⟨rfl, -⟩ | ⟨-, rfl⟩
  · cases h2 with
    | here h => exact absurd rfl h
    | _ _ h => simp at h
  · exact absurd h2 (hv k s1 h1)
  · cases h2 with
    | here h => exact absurd rfl h
    | anyOf _ h hk =>
      simp only [List.mem_cons, List.not_mem_nil, or_false] at h
      rcases h with rfl | rfl
      · cases hk with
        | here h => exact absurd rfl h
        | _ _ h => simp at h
      · cases hk with
        | here _ h =>
          subst h
          exact ⟨_, fun k ⟨s1, h1, h2⟩ => absurd h2 (hv k s1 h1)⟩
        | _ h => exact absurd h (by decide)
    | _ _ h => simp at h

/-- All hypotheses of `C63_exact` hold for it, -/
example (R : GoStr → GoVal → Prop) (hR : Meaning ext exListResolve exListSchema R) (v : GoVal) (hv : Doc anyDoc v) (τ : Sched) :
    exListSchema.Valid ext R v ↔ Returns ext (exListBuilt.env 7) exListBuilt.root τ v .ok v :=
  ((C63_exact (lib := lib0) (m := 7) (σ := sched0) (bfuel := 10) (fun _ s1 h => by cases h) rfl
    (exListSchema_conforms ext _ _) (fun _ _ _ h => exListResolve_conforms ext _ _ (by decide) h) exList_grounded).2
    R hR v hv τ).1

/-- it accepts `{"val": [[0]], "next": {}}`, -/
example : (match ((sem demoExt (exListBuilt.env 7) 9 exListBuilt.root).val sched0 (.map false
    [(b! "val", .slice false [.slice false [.float .f64 F64.zero]]), (b! "next", .map false [])])).1 with
    | .ok => true | _ => false) = true := by decide +kernel

/-- and rejects `{"next": {"val": [true]}}`. -/
example : (match ((sem demoExt (exListBuilt.env 7) 9 exListBuilt.root).val sched0 (.map false
    [(b! "next", .map false [(b! "val", .slice false [.bool true])])])).1 with
    | .err _ => true | _ => false) = true := by decide +kernel

/-! A list of different names, as in `definitions/stringArray` of the draft-4 metaschema (schema.json:21-26). -/

def exNamesSchema : Schema :=
  .mk { type := [.array], items := .list [.mk { type := [.string] }], minItems := some 1, uniqueItems := some true }

def exNamesBuilt : Built where
  root := .array { items := some (.string String'), positional := [], additional := some .empty, minItems := 1, maxItems := -1,
                   unique := true }
  table := []

theorem exNamesSchema_conforms (formats : List GoStr) (cls : DocClass) : exNamesSchema.Conforms demoExt formats cls := by
  refine .node _ rfl ?_ (fun c hc => ?_)
  · constructor <;> simp [List.Nodup] <;> first | decide | skip
    exact .inl ⟨fun _ => rfl, _, rfl, rfl, Or.inl (by simp)⟩
  · cases hc with
    | list h hm =>
      cases h
      simp only [List.mem_singleton] at hm
      subst hm
      refine .node _ rfl ?_ (fun c hc => ?_)
      · constructor <;> simp [List.Nodup] <;> decide
      · cases hc with
        | _ h => simp at h
    | tuple h => simp at h
    | _ h => simp at h

theorem exNames_noRefs {n : GoStr} : ¬ exNamesSchema.Mentions n := by
  intro h
  cases h with
  | here h => exact h rfl
  | child _ hc h =>
    cases hc with
    | list h' hm =>
      cases h'
      simp only [List.mem_singleton] at hm
      subst hm
      cases h with
      | here h => exact h rfl
      | child _ hc => cases hc with | _ h => simp at h
    | tuple h => simp at h
    | _ h => simp at h

theorem exNames_grounded : Grounded (fun _ => .fail) exNamesSchema := by
  refine ⟨fun n => ⟨_, fun k ⟨s1, h1, h2⟩ => ?_⟩⟩
  cases h1 with
  | root => cases h2 with
    | here h => exact absurd rfl h
    | _ _ h => simp at h
  | resolved _ h => cases h

/-- All hypotheses of `C63_exact` hold for it; -/
example (R : GoStr → GoVal → Prop) (v : GoVal) (hv : Doc anyDoc v) (τ : Sched) :
    exNamesSchema.Valid demoExt R v ↔ Returns demoExt (exNamesBuilt.env 7) exNamesBuilt.root τ v .ok v := by
  have hno : ∀ n, ¬ Reaches (fun _ => .fail) exNamesSchema n := by
    intro n h
    induction h with
    | root h => exact exNames_noRefs h
    | step _ _ _ ih => exact ih
  exact ((C63_exact (lib := lib0) (m := 7) (σ := sched0) (bfuel := 10) (fun h => absurd h (hno _)) rfl
    (exNamesSchema_conforms _ anyDoc) (fun _ _ h => absurd h (hno _)) exNames_grounded).2
    R (fun n _ h => absurd h (hno n)) v hv τ).1

/-- it accepts `["a", "b"]` and rejects `["a", "a"]` and `[]`. -/
example : (fun v : List GoStr => (match ((sem demoExt (exNamesBuilt.env 7) 9 exNamesBuilt.root).val sched0
    (.slice false (v.map .str))).1 with | .ok => true | _ => false)) <$> [[b! "a", b! "b"], [b! "a", b! "a"], []] = [true, false, false] := by
  decide +kernel

end Jsval
