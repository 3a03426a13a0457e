import Verif.Lemmas.Trim
/-!
# Keywords that do not apply (C128)
-/
namespace Jsval
variable {lib : SchemaLib} {m : Nat}

/-- Leaving them out twice is leaving them out. -/
theorem SchemaF.trim_trim {S : Type} (s : SchemaF S) : s.trim.trim = s.trim := by
  by_cases h : s.reference = []
  · by_cases ht : s.type = []
    · rw [trim_untyped h ht, trim_untyped h ht]
    · unfold SchemaF.trim
      by_cases h1 : .number ∈ s.type ∨ .integer ∈ s.type <;> by_cases h2 : .string ∈ s.type <;> by_cases h3 : .array ∈ s.type <;>
        by_cases h4 : .object ∈ s.type <;> simp [h, ht, h1, h2, h3, h4]
  · rw [trim_ref h]
    exact trim_ref (s := { reference := s.reference }) h

theorem Schema.trim_trim (s : Schema) : s.trim.trim = s.trim := by
  induction s using Schema.ind with
  | hn => rfl
  | h s ih =>
    rw [Schema.trim_mk, Schema.trim_mk, ← SchemaF.trim_map, SchemaF.map_map, SchemaF.map_congr ih, SchemaF.trim_trim]

theorem trim_nil_iff (s : Schema) : s.trim = .nil ↔ s = .nil := by
  cases s with
  | nil => exact ⟨fun _ => rfl, fun _ => rfl⟩
  | mk s => rw [Schema.trim_mk]; exact ⟨fun h => (by cases h), fun h => by cases h⟩

theorem build_of_trim {s s' : Schema} (h : s.trim = s'.trim) : build lib m s = build lib m s' := by
  rw [← trim_build s, h, trim_build]

/-- The resolvers lead to the same schemas, up to keywords that do not apply. -/
def TrimsAlike (resolve resolve' : Resolver) : Prop := ∀ n, (resolve n).target.map Schema.trim = (resolve' n).target.map Schema.trim

theorem compile_of_trim {resolve resolve' : Resolver} (h : TrimsAlike resolve resolve') (k : Nat) :
    (∀ σ ref st, compileRef lib m resolve k σ ref st = compileRef lib m resolve' k σ ref st) ∧
    ∀ σ l st, compileLoop lib m resolve k σ l st = compileLoop lib m resolve' k σ l st := by
  induction k with
  | zero =>
    refine ⟨fun _ _ _ => by rw [compileRef, compileRef], fun σ l st => ?_⟩
    cases l <;> rw [compileLoop, compileLoop]
  | succ k ih =>
    refine ⟨fun σ ref st => ?_, fun σ l st => ?_⟩
    · rw [compileRef, compileRef]
      have hn := h ref
      cases h1 : (resolve ref).target with
      | error e =>
        cases h2 : (resolve' ref).target with
        | error e' => rw [h1, h2] at hn; cases hn; rfl
        | ok s => rw [h1, h2] at hn; cases hn
      | ok s =>
        cases h2 : (resolve' ref).target with
        | error e' => rw [h1, h2] at hn; cases hn
        | ok s' =>
          rw [h1, h2] at hn
          have hs : s.trim = s'.trim := by injection hn
          simp only [build_of_trim hs, ih.2]
    · cases l with
      | nil => rw [compileLoop, compileLoop]
      | cons ref l =>
        rw [compileLoop, compileLoop, ih.1]
        simp only [ih.2]

/-- C128: schemas that differ only in keywords for types that are not listed, and next to references, at any depth, are built alike: the same
validators, and the same failures, with all orders and whatever their references lead to differs in the same way only. -/
theorem C128_build {s s' : Schema} (hs : s.trim = s'.trim) {resolve resolve' : Resolver} (hr : TrimsAlike resolve resolve')
    (fuel : Nat) (σ : Sched) : Build lib m resolve fuel σ s = Build lib m resolve' fuel σ s' := by
  cases s with
  | nil =>
    have : s' = .nil := (trim_nil_iff s').1 (hs.symm.trans rfl)
    subst this
    rfl
  | mk s =>
    cases s' with
    | nil => exact absurd ((trim_nil_iff _).1 hs) (by simp)
    | mk s' => simp only [Build, BuildWithCtx, build_of_trim hs, (compile_of_trim hr _).2]

/-- C128: in particular these keywords can be left out. -/
theorem C128_left_out (s : Schema) (resolve : Resolver) (fuel : Nat) (σ : Sched) :
    Build lib m resolve fuel σ s.trim = Build lib m resolve fuel σ s :=
  C128_build s.trim_trim (fun _ => rfl) fuel σ

/-- C128: rightly so; they are valid for the same values. -/
theorem C128_valid {s s' : Schema} (hs : s.trim = s'.trim) (ext : Ext) (R : GoStr → GoVal → Prop) (v : GoVal) :
    s.Valid ext R v ↔ s'.Valid ext R v := by
  rw [← trim_valid ext R s, hs, trim_valid]

/-! ## Cases -/

/-- `{"type": "object", "maxLength": 3, "properties": {"n": {"type": "integer", "items": {}, "minimum": 0}, "r": {"$ref": "#", "type": "string"}}}` -/
def exBlurred : Schema := .mk { type := [.object], maxLength := some 3, properties :=
  [(b! "n", .mk { type := [.integer], items := .list [.mk {}], minimum := some F64.zero }),
   (b! "r", .mk { reference := b! "#", type := [.string] })] }

/-- The same without keywords that do not apply. -/
def exSharp : Schema := .mk { type := [.object], properties :=
  [(b! "n", .mk { type := [.integer], minimum := some F64.zero }), (b! "r", .mk { reference := b! "#" })] }

theorem exBlurred_trim : exBlurred.trim = exSharp := rfl

example : exBlurred.trim = exSharp.trim := by rw [← exBlurred_trim, Schema.trim_trim]

/-- Both are built into this; -/
example : Build lib0 7 (fun _ => .fail) 10 sched0 exBlurred = .ok
    ⟨.object { Object' with
        props := [(b! "n", .integer { Number' with minimum := some F64.zero }), (b! "r", .ref 7 (b! "#"))], additional := some .empty },
     [(b! "#", .object { Object' with
        props := [(b! "n", .integer { Number' with minimum := some F64.zero }), (b! "r", .ref 7 (b! "#"))], additional := some .empty })]⟩ := rfl

/-- Where no type is listed, keywords suggest one, and it does matter what is left out: `{"maxLength": 3}` and `{}`. -/
example : Build lib0 7 (fun _ => .fail) 10 sched0 (.mk { maxLength := some 3 }) = .ok ⟨.string { String' with maxLength := 3 }, []⟩ ∧
    Build lib0 7 (fun _ => .fail) 10 sched0 (.mk {}) = .ok ⟨.all [], []⟩ := ⟨rfl, rfl⟩

end Jsval
