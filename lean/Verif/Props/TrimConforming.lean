import Verif.Props.Trim
/-!
# Schemas that conform up to keywords that do not apply (C63, C128)
-/
namespace Jsval
variable {S : Type}

/-- Each sub-schema keyword is as before or left out. -/
theorem trim_parts (s : SchemaF S) : (s.trim.reference = s.reference) ∧
    (s.trim.items = s.items ∨ s.trim.items = .nil) ∧ (s.trim.additionalItems = s.additionalItems ∨ s.trim.additionalItems = .allow) ∧
    (s.trim.properties = s.properties ∨ s.trim.properties = []) ∧ (s.trim.patternProps = s.patternProps ∨ s.trim.patternProps = []) ∧
    (s.trim.additionalProps = s.additionalProps ∨ s.trim.additionalProps = .allow) ∧
    (s.trim.depSchemas = s.depSchemas ∨ s.trim.depSchemas = []) := by
  by_cases h : s.reference = []
  swap
  · rw [trim_ref h]; simp
  by_cases ht : s.type = []
  · rw [trim_untyped h ht]; simp
  unfold SchemaF.trim
  rw [if_neg (by simp [h]), if_neg ht]
  by_cases h1 : .number ∈ s.type ∨ .integer ∈ s.type <;> by_cases h2 : .string ∈ s.type <;> by_cases h3 : .array ∈ s.type <;>
    by_cases h4 : .object ∈ s.type <;> simp [h1, h2, h3, h4]

theorem trim_reference (s : SchemaF S) : s.trim.reference = s.reference := (trim_parts s).1

theorem trim_child {s : SchemaF S} (hr : s.reference = []) {x : S} (h : s.trim.Child x) : s.Child x := by
  obtain ⟨-, -, a, b, c, d, -, -⟩ := trim_common s hr
  obtain ⟨-, pi, pa, pp, pt, pe, pd⟩ := trim_parts s
  cases h with
  | not h => exact .not (a ▸ h)
  | allOf h => exact .allOf (b ▸ h)
  | anyOf h => exact .anyOf (c ▸ h)
  | oneOf h => exact .oneOf (d ▸ h)
  | list h hm => rcases pi with e | e <;> rw [e] at h <;> first | exact .list h hm | cases h
  | tuple h hm => rcases pi with e | e <;> rw [e] at h <;> first | exact .tuple h hm | cases h
  | additionalItems h => rcases pa with e | e <;> rw [e] at h <;> first | exact .additionalItems h | cases h
  | property h => rcases pp with e | e <;> rw [e] at h <;> first | exact .property h | cases h
  | patternProp h => rcases pt with e | e <;> rw [e] at h <;> first | exact .patternProp h | cases h
  | additionalProps h => rcases pe with e | e <;> rw [e] at h <;> first | exact .additionalProps h | cases h
  | dependency h => rcases pd with e | e <;> rw [e] at h <;> first | exact .dependency h | cases h

theorem trim_mk' (s : SchemaF Schema) : (Schema.mk s).trim = .mk (s.trim.map Schema.trim) := by
  rw [Schema.trim_mk, SchemaF.trim_map]

theorem trim_mentions {n : GoStr} (s : Schema) : s.trim.Mentions n → s.Mentions n := by
  induction s using Schema.ind with
  | hn => intro h; cases h
  | h s ih =>
    rw [trim_mk']
    intro h
    cases h with
    | here h1 h2 => exact .here (trim_reference s ▸ h1) (trim_reference s ▸ h2)
    | child h1 hc h2 =>
      have hr : s.reference = [] := by rw [← trim_reference s]; exact h1
      obtain ⟨x, hx, rfl⟩ := SchemaF.child_map hc
      have hx := trim_child hr hx
      exact .child hr hx (ih x hx h2)

theorem trim_mentionsHere {n : GoStr} (s : Schema) : s.trim.MentionsHere n → s.MentionsHere n := by
  induction s using Schema.ind with
  | hn => intro h; cases h
  | h s ih =>
    rw [trim_mk']
    intro h
    have hr : ∀ {x : GoStr}, (s.trim.map Schema.trim).reference = x → s.reference = x := fun h => (trim_reference s).symm.trans h
    cases h with
    | here h1 h2 => exact .here (trim_reference s ▸ h1) (hr h2)
    | not h1 h2 h3 =>
      have h2 : s.trim.not.map Schema.trim = _ := h2
      rw [(trim_common s (hr h1)).2.2.1] at h2
      obtain ⟨x, hx, rfl⟩ := Option.map_eq_some_iff.1 h2
      exact .not (hr h1) hx (ih x (.not hx) h3)
    | allOf h1 h2 h3 =>
      obtain ⟨x, hx, rfl⟩ := List.mem_map.1 h2
      rw [(trim_common s (hr h1)).2.2.2.1] at hx
      exact .allOf (hr h1) hx (ih x (.allOf hx) h3)
    | anyOf h1 h2 h3 =>
      obtain ⟨x, hx, rfl⟩ := List.mem_map.1 h2
      rw [(trim_common s (hr h1)).2.2.2.2.1] at hx
      exact .anyOf (hr h1) hx (ih x (.anyOf hx) h3)
    | oneOf h1 h2 h3 =>
      obtain ⟨x, hx, rfl⟩ := List.mem_map.1 h2
      rw [(trim_common s (hr h1)).2.2.2.2.2.1] at hx
      exact .oneOf (hr h1) hx (ih x (.oneOf hx) h3)
    | dependency h1 h2 h3 =>
      obtain ⟨⟨k, x⟩, hx, e⟩ := List.mem_map.1 h2
      cases e
      rcases (trim_parts s).2.2.2.2.2.2 with e | e <;> rw [e] at hx
      · exact .dependency (hr h1) hx (ih x (.dependency hx) h3)
      · cases hx

/-! ## Resolvers -/

/-- Resolving to schemas without such keywords. -/
def Resolved.trim : Resolved → Resolved
  | .fail => .fail
  | .schema s => .schema s.trim
  | .object none => .object none
  | .object (some s) => .object (some (s.map Schema.trim).trim)
  | .other => .other

theorem Resolved.trim_target (r : Resolved) : r.trim.target = r.target.map Schema.trim := by
  cases r with
  | object s => cases s <;> first | rfl | (simp only [Resolved.trim, Resolved.target, Except.map, Schema.trim_mk])
  | _ => rfl

variable {resolve : Resolver} {s : Schema}

theorem trim_target {n : GoStr} {t : Schema} (h : ((resolve n).trim).target = .ok t) : ∃ s1, (resolve n).target = .ok s1 ∧ t = s1.trim := by
  rw [Resolved.trim_target] at h
  cases h1 : (resolve n).target with
  | error e => rw [h1] at h; cases h
  | ok s1 => rw [h1] at h; injection h with h; exact ⟨s1, rfl, h.symm⟩

theorem trim_refersTo {n : GoStr} {t : Schema} (h : RefersTo (fun n => (resolve n).trim) s.trim n t) :
    ∃ s1, RefersTo resolve s n s1 ∧ t = s1.trim := by
  cases h with
  | root => exact ⟨s, .root, rfl⟩
  | resolved hn h =>
    obtain ⟨s1, h1, h2⟩ := trim_target h
    exact ⟨s1, .resolved hn h1, h2⟩

theorem trim_reaches {n : GoStr} (h : Reaches (fun n => (resolve n).trim) s.trim n) : Reaches resolve s n := by
  induction h with
  | root h => exact .root (trim_mentions s h)
  | step _ h1 h2 ih =>
    obtain ⟨s1, h3, rfl⟩ := trim_refersTo h1
    exact .step ih h3 (trim_mentions s1 h2)

/-- C63, for schemas that conform up to keywords that do not apply (C128): the validator decides validity all the same. -/
theorem C63_trimmed {ext : Ext} {cls : DocClass} {lib : SchemaLib} {m : Nat}
    (hroot : Reaches resolve s (b! "#") → ∀ s1, (resolve (b! "#")).target = .ok s1 → s1 = s) {bfuel : Nat} {σ : Sched} {b : Built}
    (h : Build lib m resolve bfuel σ s = .ok b) (hs : s.trim.Conforms ext lib.formats cls)
    (hto : ∀ n s1, Reaches resolve s n → RefersTo resolve s n s1 → s1.trim.Conforms ext lib.formats cls)
    (hg : Grounded resolve s) :
    (∃ R, Meaning ext resolve s R) ∧ ∀ R, Meaning ext resolve s R → ∀ v, Doc cls v → ∀ τ,
      (s.Valid ext R v ↔ Returns ext (b.env m) b.root τ v .ok v) ∧
      (¬ s.Valid ext R v ↔ ∃ e, Returns ext (b.env m) b.root τ v (.err e) v) := by
  have hr : TrimsAlike (fun n => (resolve n).trim) resolve := fun n => by
    show (resolve n).trim.target.map _ = _
    rw [Resolved.trim_target]
    cases (resolve n).target with
    | error e => rfl
    | ok s => exact congrArg Except.ok s.trim_trim
  have h' := h
  rw [← C128_build s.trim_trim hr] at h'
  have key := (C63_exact (resolve := fun n => (resolve n).trim) (s := s.trim) (fun hre s1 h1 => ?_) h' hs (fun n s1 h1 h2 => ?_) ?_).2
  · refine ⟨meaning_exists ext hg, fun R hR v hv τ => ?_⟩
    have := key R (fun n s1 h1 h2 v => ?_) v hv τ
    · rwa [trim_valid] at this
    · obtain ⟨s2, h3, rfl⟩ := trim_refersTo h2
      rw [trim_valid]
      exact hR n s2 (trim_reaches h1) h3 v
  · obtain ⟨s2, h2, rfl⟩ := trim_target h1
    rw [hroot (trim_reaches hre) s2 h2]
  · obtain ⟨s2, h3, rfl⟩ := trim_refersTo h2
    exact hto n s2 (trim_reaches h1) h3
  · refine Subrelation.wf ?_ hg
    rintro k n ⟨s1, h1, h2⟩
    obtain ⟨s2, h3, rfl⟩ := trim_refersTo h1
    exact ⟨s2, h3, trim_mentionsHere s2 h2⟩

/-! ## A case -/

/-- `{"type": "boolean", "maxLength": 5, "format": "ipv6", "required": ["a"]}`: outside the fragment, -/
def exStray : Schema := .mk { type := [.boolean], maxLength := some 5, format := b! "ipv6", required := [b! "a"] }

example (ext : Ext) (formats : List GoStr) (cls : DocClass) : ¬ exStray.Conforms ext formats cls := by
  intro h
  cases h with
  | ref _ h => exact h rfl
  | node _ _ h => exact h.format (by simp)

/-- but inside up to keywords that do not apply. -/
theorem exStray_conforms (ext : Ext) (formats : List GoStr) (cls : DocClass) : exStray.trim.Conforms ext formats cls := by
  show (Schema.mk { type := [.boolean] }).Conforms ext formats cls
  refine .node _ rfl ?_ (fun c hc => ?_)
  · constructor <;> simp [List.Nodup] <;> decide
  · cases hc with
    | _ h => simp at h

/-- So `C63_trimmed` applies. -/
example (ext : Ext) (R : GoStr → GoVal → Prop) (v : GoVal) (hv : Doc anyDoc v) (τ : Sched) :
    exStray.Valid ext R v ↔ Returns ext (Built.env ⟨.boolean none, []⟩ 7) (.boolean none) τ v .ok v := by
  have hno : ∀ n, ¬ exStray.Mentions n := by
    intro n h
    cases h with
    | here h => exact h rfl
    | child _ hc _ => cases hc with | _ h => simp at h
  have hno' : ∀ n, ¬ Reaches (fun _ => .fail) exStray n := by
    intro n h
    induction h with
    | root h => exact hno _ h
    | step _ _ _ ih => exact ih
  have hg : Grounded (fun _ => .fail) exStray := by
    refine ⟨fun n => ⟨_, fun k ⟨s1, h1, h2⟩ => ?_⟩⟩
    cases h1 with
    | root => cases h2 with
      | here h => exact absurd rfl h
      | _ _ h => simp at h
    | resolved _ h => cases h
  exact ((C63_trimmed (lib := lib0) (m := 7) (σ := sched0) (bfuel := 10) (b := ⟨.boolean none, []⟩) (fun h => absurd h (hno' _)) rfl
    (exStray_conforms _ _ anyDoc) (fun _ _ h => absurd h (hno' _)) hg).2 R (fun n _ h => absurd h (hno' n)) v hv τ).1

end Jsval
