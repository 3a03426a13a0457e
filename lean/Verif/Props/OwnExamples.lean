import Verif.Props.OwnTests
import Verif.Props.Exact
/-!
# C110: the tests without schemas, the table of guessed types, and the examples
-/
namespace Jsval

variable {lib : SchemaLib} {m : Nat} {resolve : Resolver} {ext : Ext}

/-! ## Guessed types -/

/-- C110: the list `guessSchemaType` gives: exactly the suggested types, each once, in this order. -/
theorem C110_guess {S : Type} (s : SchemaF S) : (guessSchemaType lib s).Sublist [.object, .array, .string, .integer, .number, .boolean] ∧
    ∀ t, t ∈ guessSchemaType lib s ↔ Suggests lib.formats s t := by
  refine ⟨?_, fun t => mem_guess⟩
  have hif : ∀ (b : Bool) (t : PrimType), (if b then [t] else []).Sublist [t] := fun b t => by cases b <;> simp
  have hnum : (match schemaLooksLikeNumber s with | some t => [t] | none => []).Sublist [.integer, .number] := by
    cases h : schemaLooksLikeNumber s with
    | none => simp
    | some t =>
      rcases ((looksLikeNumber_iff (formats := lib.formats) t).1 h).1 with rfl | rfl <;> simp
  exact ((((hif _ _).append (hif _ _)).append (hif _ _)).append hnum).append (hif _ _)

/-- C110: the table of `TestGuessType` (builder/builder_test.go:11-22), for any sub-schemas, limits, expressions and divisors. -/
theorem C110_guess_table (hf : [] ∉ lib.formats) (c : Schema) (k : GoStr) (n : Int) (p : GoStr) (f : F64) :
    guessSchemaType lib ({ items := .list [c] } : SchemaF Schema) = [.array] ∧
    guessSchemaType lib ({ properties := [(k, c)] } : SchemaF Schema) = [.object] ∧
    guessSchemaType lib ({ additionalProps := .nil } : SchemaF Schema) = [.object] ∧
    guessSchemaType lib ({ maxLength := some n } : SchemaF Schema) = [.string] ∧
    guessSchemaType lib ({ pattern := some p } : SchemaF Schema) = [.string] ∧
    (p ∈ lib.formats → guessSchemaType lib ({ format := p } : SchemaF Schema) = [.string]) ∧
    (f.Whole → guessSchemaType lib ({ multipleOf := some f } : SchemaF Schema) = [.integer]) ∧
    (¬ f.Whole → guessSchemaType lib ({ multipleOf := some f } : SchemaF Schema) = [.number]) ∧
    (f.Whole → guessSchemaType lib ({ minimum := some f, pattern := some p } : SchemaF Schema) = [.string, .integer]) := by
  refine ⟨?_, ?_, ?_, ?_, ?_, fun h => ?_, fun h => ?_, fun h => ?_, fun h => ?_⟩ <;> try rw [← isInteger_iff] at h
  all_goals simp_all [guessSchemaType, schemaLooksLikeObject, schemaLooksLikeArray, schemaLooksLikeString, schemaLooksLikeNumber, schemaLooksLikeBool,
      numberFromEnum, ItemSpec.isSome]

example : (F64.ofInt 1).Whole ∧ F64.zero.Whole := by
  rw [← isInteger_iff, ← isInteger_iff]; decide +kernel

/-! ## Number and String -/

/-- C110: `TestNumber` (number_test.go:39-68) for all numbers: the default is the one given, what is accepted is what is at most the maximum, and after
`Minimum` also at least the minimum. -/
theorem C110_number_calls {ρ : RefSem} {σ : Sched} (d lo hi f : F64) (h1 : lo ≠ .nan) (h2 : hi ≠ .nan) (h3 : f ≠ .nan) :
    (denote ext ρ (.number ((Number'.Default (.float .f64 d)).Maximum hi))).dflt = .some (.float .f64 d) ∧
    ((denote ext ρ (.number ((Number'.Default (.float .f64 d)).Maximum hi))).AcceptsBy σ (.float .f64 f) ↔ F64.Le f hi) ∧
    ((denote ext ρ (.number (((Number'.Default (.float .f64 d)).Maximum hi).Minimum lo))).AcceptsBy σ (.float .f64 f) ↔ F64.Le lo f ∧ F64.Le f hi) := by
  have hnum : ∀ x : F64, x ≠ .nan → ∃ y, x.num = some y := by
    intro x hx
    rcases x with _ | n | _
    · exact absurd rfl hx
    · cases n <;> exact ⟨_, rfl⟩
    · exact ⟨_, rfl⟩
  have hkey : ∀ p q : F64, p ≠ .nan → q ≠ .nan → (¬ F64.Lt q p ↔ F64.Le p q) := by
    intro p q hp hq
    obtain ⟨x, hx⟩ := hnum p hp
    obtain ⟨y, hy⟩ := hnum q hq
    constructor
    · intro h; exact ⟨x, y, hx, hy, not_lt.1 fun h' => h ⟨y, x, hy, hx, h'⟩⟩
    · rintro ⟨x', y', h1, h2, h3⟩ ⟨y'', x'', h4, h5, h6⟩
      rw [h1] at h5; rw [h2] at h4; cases h4; cases h5
      exact absurd h6 (not_lt.2 h3)
  have hself : ∀ c : NumC, (denote ext ρ (.number c)).AcceptsBy σ (.float .f64 f) ↔ NumOk c f := fun c => by
    rw [C16_number_exact]
    constructor
    · rintro ⟨k, g, h1, h2⟩
      cases h1 with
      | self => exact h2
    · exact fun h => ⟨.f64, f, .self _ (by simp) (by simp), h⟩
  refine ⟨rfl, ?_, ?_⟩ <;> rw [hself]
  · rw [← hkey _ _ h3 h2]
    refine ⟨fun h => h.max _ rfl, fun h => ⟨?_, ?_, ?_, ?_, ?_, ?_⟩⟩
    · intro m hm; cases hm
    · intro m hm; cases hm
    · intro m hm; cases hm; exact h
    · intro m _ h; cases h
    · intro m h; cases h
    · intro m h; cases h
  · rw [← hkey _ _ h3 h2, ← hkey _ _ h1 h3]
    refine ⟨fun h => ⟨h.min _ rfl, h.max _ rfl⟩, fun h => ⟨?_, ?_, ?_, ?_, ?_, ?_⟩⟩
    · intro m hm; cases hm; exact h.1
    · intro m _ h; cases h
    · intro m hm; cases hm; exact h.2
    · intro m _ h; cases h
    · intro m h; cases h
    · intro m h; cases h

/-- 10 between 5 and 15 -/
example : F64.Le (F64.exactInt 5) (F64.exactInt 10) ∧ F64.exactInt 5 ≠ .nan := ⟨⟨_, _, rfl, rfl, by decide +kernel⟩, by simp [F64.exactInt]⟩

/-- C110: `TestString` (string_test.go:39-66) for all strings and limits. -/
theorem C110_string_calls {ρ : RefSem} {σ : Sched} (d s : GoStr) (lo hi : Nat) :
    (denote ext ρ (.string ((String'.Default (.str d)).MaxLength hi))).dflt = .some (.str d) ∧
    ((denote ext ρ (.string ((String'.Default (.str d)).MaxLength hi))).AcceptsBy σ (.str s) ↔ s.length ≤ hi) ∧
    ((denote ext ρ (.string (((String'.Default (.str d)).MaxLength hi).MinLength lo))).AcceptsBy σ (.str s) ↔ lo ≤ s.length ∧ s.length ≤ hi) := by
  have hself : ∀ (c : StrC), (denote ext ρ (.string c)).AcceptsBy σ (.str s) ↔ StrOk ext c s := fun c => by
    rw [accepts_string (.str s)]
    exact ⟨fun ⟨t, e, h⟩ => by cases e; exact h, fun h => ⟨s, rfl, h⟩⟩
  refine ⟨rfl, ?_, ?_⟩ <;> rw [hself]
  · refine ⟨fun h => ?_, fun h => ?_⟩
    · have := h.max (by simp [StrC.MaxLength]); simpa [StrC.MaxLength] using this
    · exact { max := fun _ => by simpa [StrC.MaxLength] using h
              min := fun _ => Int.natCast_nonneg _
              format := noFormat_ok s
              regexp := fun _ h => by cases h
              enums := fun _ h => by cases h }
  · refine ⟨fun h => ⟨?_, ?_⟩, fun h => ?_⟩
    · have := h.min (by simp [StrC.MaxLength, StrC.MinLength]); simpa [StrC.MaxLength, StrC.MinLength] using this
    · have := h.max (by simp [StrC.MaxLength, StrC.MinLength]); simpa [StrC.MaxLength, StrC.MinLength] using this
    · exact { max := fun _ => by simpa [StrC.MaxLength, StrC.MinLength] using h.2
              min := fun _ => by simpa [StrC.MaxLength, StrC.MinLength] using h.1
              format := noFormat_ok s
              regexp := fun _ h => by cases h
              enums := fun _ h => by cases h }

/-! ## The example built by hand -/

/-- The validator of `ExampleManual` (example_test.go:32-38). -/
def manualC : ObjC Constraint :=
  ((((Object'.AddProp (b! "zip") (.string (String'.Regexp (b! "^\\d{5}$")))).AddProp (b! "address") (.string String')).AddProp (b! "name")
    (.string String')).AddProp (b! "phone_number") (.string (String'.Regexp (b! "^[\\d-]+$")))).Required [b! "zip", b! "address", b! "name"]

/-- What it accepts: strings under the four names, those under `zip` and `phone_number` matching, the first three of them there, and nothing
else. -/
structure ManualOk (ext : Ext) (kvs : List (GoStr × GoVal)) : Prop where
  zip : ∃ s, (b! "zip", .str s) ∈ kvs ∧ ext.reMatch (b! "^\\d{5}$") s = true
  address : ∃ s, (b! "address", .str s) ∈ kvs
  name : ∃ s, (b! "name", .str s) ∈ kvs
  phone : ∀ x, (b! "phone_number", x) ∈ kvs → ∃ s, x = .str s ∧ ext.reMatch (b! "^[\\d-]+$") s = true
  only : ∀ k x, (k, x) ∈ kvs → k ∈ [b! "zip", b! "address", b! "name", b! "phone_number"]

theorem strOk_regexp (rx s : GoStr) : StrOk ext (String'.Regexp rx) s ↔ ext.reMatch rx s = true :=
  ⟨fun h => h.regexp _ rfl, fun h => {
    max := fun h => absurd h (by simp [StrC.Regexp, String'])
    min := fun _ => Int.natCast_nonneg _
    format := noFormat_ok s
    regexp := fun _ h' => by cases h'; exact h
    enums := fun _ h => by cases h }⟩

theorem manual_props : manualC.props = [(b! "zip", .string (String'.Regexp (b! "^\\d{5}$"))), (b! "address", .string String'),
    (b! "name", .string String'), (b! "phone_number", .string (String'.Regexp (b! "^[\\d-]+$")))] := by rfl

theorem manual_plain : (Constraint.object manualC).Every PlainC := by
  refine .intro (plain_leaf rfl rfl (by rintro m n ⟨⟩)) fun d hd => ?_
  rw [show (Constraint.object manualC).kids = [.string (String'.Regexp (b! "^\\d{5}$")), .string String', .string String',
    .string (String'.Regexp (b! "^[\\d-]+$"))] from rfl] at hd
  simp only [List.mem_cons, List.not_mem_nil, or_false] at hd
  rcases hd with rfl | rfl | rfl | rfl <;> exact plain_str rfl rfl

theorem manual_child {c : Constraint} (h : manualC.Child c) : ∃ d : StrC, c = .string d := by
  cases h with
  | prop h =>
    rw [manual_props] at h
    simp only [List.mem_cons, Prod.mk.injEq, List.not_mem_nil, or_false] at h
    rcases h with ⟨-, rfl⟩ | ⟨-, rfl⟩ | ⟨-, rfl⟩ | ⟨-, rfl⟩ <;> exact ⟨_, rfl⟩
  | pattern h => cases h
  | additional h => cases h
  | dependency h => cases h

/-- C110: the validator of `ExampleManual` accepts exactly the maps `ManualOk` describes, in every order, … -/
theorem C110_manual {n : Bool} {kvs : List (GoStr × GoVal)} (hnd : (kvs.map (·.1)).Nodup) (hd : ∀ k x, (k, x) ∈ kvs → Data true x) (k : Nat) (τ : Sched) :
    (sem ext (fun _ _ => none) k (.object manualC)).AcceptsBy τ (.map n kvs) ↔ ManualOk ext kvs := by
  have hdecl : ∀ k, manualC.Declares k ↔ k ∈ [b! "zip", b! "address", b! "name", b! "phone_number"] := by
    intro k
    simp only [ObjC.Declares, manual_props, List.mem_cons, Prod.mk.injEq, List.not_mem_nil, or_false]
    aesop
  have hpat : ∀ k, ¬ manualC.PatternFor ext k := by
    rintro k ⟨_, _, _, h, -⟩
    cases h
  rw [accepts_map ⟨by decide⟩ manual_plain (by decide) hnd ?_ τ]
  · constructor
    · intro h
      have hreq : ∀ p, p ∈ [b! "zip", b! "address", b! "name"] → Has kvs p := fun p hp => h.required p hp ((hdecl p).2 (by
        simp only [List.mem_cons, List.not_mem_nil, or_false] at hp ⊢; tauto))
      have hstr : ∀ p c x, (p, Constraint.string c) ∈ manualC.props → (p, x) ∈ kvs → ∃ s, x = .str s ∧ StrOk ext c s := fun p c x hc hx =>
        (accepts_string (hd _ _ hx)).1 (h.declared p _ x hc hx)
      refine ⟨?_, ?_, ?_, fun x hx => ?_, fun k x hx => ?_⟩
      · obtain ⟨x, hx⟩ := hreq (b! "zip") (by simp)
        obtain ⟨s, rfl, hs⟩ := hstr _ _ x (by rw [manual_props]; exact .head _) hx
        exact ⟨s, hx, (strOk_regexp _ _).1 hs⟩
      · obtain ⟨x, hx⟩ := hreq (b! "address") (by simp)
        obtain ⟨s, rfl, hs⟩ := hstr _ _ x (by rw [manual_props]; exact .tail _ (.head _)) hx
        exact ⟨s, hx⟩
      · obtain ⟨x, hx⟩ := hreq (b! "name") (by simp)
        obtain ⟨s, rfl, hs⟩ := hstr _ _ x (by rw [manual_props]; exact .tail _ (.tail _ (.head _))) hx
        exact ⟨s, hx⟩
      · obtain ⟨s, rfl, hs⟩ := hstr _ _ x (by rw [manual_props]; exact .tail _ (.tail _ (.tail _ (.head _)))) hx
        exact ⟨s, rfl, (strOk_regexp _ _).1 hs⟩
      · by_contra hk
        obtain ⟨c, hc, -⟩ := h.additional k x hx (fun h => hk ((hdecl k).1 h)) (hpat k)
        cases hc
    · intro h
      have huniq : ∀ k x y, (k, x) ∈ kvs → (k, y) ∈ kvs → x = y := fun k x y h1 h2 => by
        have := List.inj_on_of_nodup_map hnd h1 h2 rfl
        cases this; rfl
      refine ⟨⟨fun h => absurd h (by decide), fun h => absurd h (by decide)⟩, fun p c x hpc hx => ?_, fun p hp _ => ?_,
        fun k x hx hnot id src c hm hr => (by cases hm), fun k x hx hnot _ => absurd ((hdecl k).2 (h.only k x hx)) hnot,
        fun k hk _ d hdp => (by cases hdp), fun k _ _ _ c hc => (by cases hc)⟩
      · rw [manual_props] at hpc
        simp only [List.mem_cons, Prod.mk.injEq, List.not_mem_nil, or_false] at hpc
        rcases hpc with ⟨rfl, rfl⟩ | ⟨rfl, rfl⟩ | ⟨rfl, rfl⟩ | ⟨rfl, rfl⟩ <;> refine (accepts_string (hd _ _ hx)).2 ?_
        · obtain ⟨s, hs, hm⟩ := h.zip
          exact ⟨s, huniq _ _ _ hx hs, (strOk_regexp _ _).2 hm⟩
        · obtain ⟨s, hs⟩ := h.address
          exact ⟨s, huniq _ _ _ hx hs, strOk_any s⟩
        · obtain ⟨s, hs⟩ := h.name
          exact ⟨s, huniq _ _ _ hx hs, strOk_any s⟩
        · obtain ⟨s, rfl, hs⟩ := h.phone x hx
          exact ⟨s, rfl, (strOk_regexp _ _).2 hs⟩
      · have hp' : p ∈ [b! "zip", b! "address", b! "name"] := hp
        simp only [List.mem_cons, List.not_mem_nil, or_false] at hp'
        rcases hp' with rfl | rfl | rfl
        · obtain ⟨s, hs, -⟩ := h.zip; exact ⟨_, hs⟩
        · obtain ⟨s, hs⟩ := h.address; exact ⟨_, hs⟩
        · obtain ⟨s, hs⟩ := h.name; exact ⟨_, hs⟩
  · intro c x hx τ τ'
    obtain ⟨d, rfl⟩ := manual_child hx.child
    exact det_string x τ τ'

/-- … and rejects the input of the example, which is nil. -/
theorem C110_manual_nil (k : Nat) (τ : Sched) : (sem ext (fun _ _ => none) k (.object manualC)).val τ .nil = (.err .noPropNames, .nil) := by
  cases k <;> rfl

/-- an address -/
example (h : ext.reMatch (b! "^\\d{5}$") (b! "94043") = true) : ManualOk ext [(b! "zip", .str (b! "94043")), (b! "address", .str (b! "Main Street 1")),
    (b! "name", .str (b! "Jo"))] where
  zip := ⟨_, .head _, h⟩
  address := ⟨_, .tail _ (.head _)⟩
  name := ⟨_, .tail _ (.tail _ (.head _))⟩
  phone x hx := by simp at hx
  only k x hx := by simp only [List.mem_cons, Prod.mk.injEq, List.not_mem_nil, or_false] at hx ⊢; tauto

/-! ## The README's reference -/

/-- The schema of README.md:124-135, and its definition. -/
def readmeSchema : Schema := .mk { properties := [(b! "age", .mk { reference := b! "#/definitions/positiveInteger" })] }
@[inherit_doc readmeSchema] def readmeResolve : Resolver := fun n =>
  if n = b! "#/definitions/positiveInteger" then .object (some { type := [.integer], minimum := some F64.zero }) else .fail

/-- The root that is built for it, and what it comes to. -/
def readmeRoot (m : Nat) : ObjC Constraint where
  props := [(b! "age", .ref m (b! "#/definitions/positiveInteger"))]
  patterns := []
  additional := some .empty
  minProps := -1
  maxProps := -1
  required := []
  propdeps := []
  schemadeps := []
@[inherit_doc readmeRoot] def readmeC : ObjC Constraint :=
  { readmeRoot 0 with props := [(b! "age", .integer (Number'.Minimum F64.zero))] }

theorem readme_built (hfmt : lib.formats = knownFormats) : BuildWithCtx lib m readmeResolve 8 sched0 readmeSchema =
    .ok ⟨.object (readmeRoot m), [(b! "#/definitions/positiveInteger", .integer (Number'.Minimum F64.zero))]⟩ := by
  have hlib : lib = { lib with formats := knownFormats } := by rw [← hfmt]
  rw [hlib]
  with_unfolding_all rfl

theorem readme_keyed (formats : List GoStr) : KeyedAll formats readmeResolve readmeSchema :=
  ⟨Schema.keyed_of_check _ (by decide), fun n s1 _ h => by
    unfold readmeResolve at h
    split at h
    · cases h; exact Schema.keyed_of_check _ (by decide)
    · cases h⟩

theorem readme_same (b : Built) (hb : b = ⟨.object (readmeRoot m), [(b! "#/definitions/positiveInteger", .integer (Number'.Minimum F64.zero))]⟩) (k : Nat) :
    (sem ext (b.env m) (k + 1) b.root).val = (sem ext (fun _ _ => none) k (.object readmeC)).val := by
  subst hb
  simp only [sem, denote_object]
  congr 1
  simp [readmeRoot, readmeC, ObjC.map, denote, refSem, Built.env, alookup]

theorem readme_plain : (Constraint.object readmeC).Every PlainC := by
  refine .intro (plain_leaf rfl rfl (by rintro m n ⟨⟩)) fun d hd => ?_
  rw [show (Constraint.object readmeC).kids = [.integer (Number'.Minimum F64.zero), .empty] from rfl] at hd
  simp only [List.mem_cons, List.not_mem_nil, or_false] at hd
  rcases hd with rfl | rfl <;> exact .intro (plain_leaf rfl rfl (by rintro m n ⟨⟩)) (fun d hd => by cases hd)

theorem readme_accepts {n : Bool} {kvs : List (GoStr × GoVal)} (hnd : (kvs.map (·.1)).Nodup) (hd : ∀ k x, (k, x) ∈ kvs → Data true x) (k : Nat) (τ : Sched) :
    (sem ext (fun _ _ => none) k (.object readmeC)).AcceptsBy τ (.map n kvs) ↔ ∀ x, (b! "age", x) ∈ kvs →
      (∃ k n, x = .int k n ∧ 0 ≤ n) ∨ (∃ k n, x = .uint k n) ∨ ∃ k f, x = .float k f ∧ f.Whole ∧ F64.Le F64.zero f := by
  rw [accepts_map ⟨by decide⟩ readme_plain (by decide) hnd ?_ τ]
  · constructor
    · intro h x hx
      exact (accepts_age (hd _ _ hx)).1 (h.declared _ _ x (.head _) hx)
    · intro h
      refine ⟨⟨fun h => absurd h (by decide), fun h => absurd h (by decide)⟩, fun p c x hpc hx => ?_, fun p hp => (by cases hp),
        fun k x hx hnot id src c hm hr => (by cases hm), fun k x hx hnot hpat => ⟨.empty, rfl, by simp [Sem.AcceptsBy, sem, denote]⟩,
        fun k _ _ d hdp => (by cases hdp), fun k _ _ _ c hc => (by cases hc)⟩
      rw [show readmeC.props = [(b! "age", .integer (Number'.Minimum F64.zero))] from rfl, List.mem_singleton] at hpc
      cases hpc
      exact (accepts_age (hd _ _ hx)).2 (h x hx)
  · intro c x hx τ τ'
    have : c = .integer (Number'.Minimum F64.zero) ∨ c = .empty := by
      cases hx.child with
      | prop h =>
        rw [show readmeC.props = [(b! "age", .integer (Number'.Minimum F64.zero))] from rfl, List.mem_singleton] at h
        cases h; exact .inl rfl
      | pattern h => cases h
      | additional h => cases h; exact .inr rfl
      | dependency h => cases h
    rcases this with rfl | rfl
    · exact (C18_integer_exact ext _ τ _ x).trans (C18_integer_exact ext _ τ' _ x).symm
    · simp [Sem.AcceptsBy, sem, denote]

/-- C110: the example of README.md:120-135: "age" is validated against the `positiveInteger` schema. Whatever the orders, the schema can be built, and the
validator accepts exactly the objects whose age, if there is one, is a whole number and not negative; others are rejected with an error. -/
theorem C110_reference (hfmt : lib.formats = knownFormats) {n : Bool} {kvs : List (GoStr × GoVal)} (hnd : (kvs.map (·.1)).Nodup)
    (hd : ∀ k x, (k, x) ∈ kvs → Data true x) :
    (∃ N, ∀ fuel, N ≤ fuel → ∀ σ, ∃ b, BuildWithCtx lib m readmeResolve fuel σ readmeSchema = .ok b) ∧
    ∀ fuel σ b, BuildWithCtx lib m readmeResolve fuel σ readmeSchema = .ok b → ∀ name k τ,
      ((∀ x, (b! "age", x) ∈ kvs → (∃ k n, x = .int k n ∧ 0 ≤ n) ∨ (∃ k n, x = .uint k n) ∨ ∃ k f, x = .float k f ∧ f.Whole ∧ F64.Le F64.zero f) ∧
        JSVal.validate ext (b.env m) (k + 1) ⟨name, some b.root⟩ τ (.map n kvs) = (.ok, .map n kvs)) ∨
      ((∃ x, (b! "age", x) ∈ kvs ∧ ¬ ((∃ k n, x = .int k n ∧ 0 ≤ n) ∨ (∃ k n, x = .uint k n) ∨ ∃ k f, x = .float k f ∧ f.Whole ∧ F64.Le F64.zero f)) ∧
        ∃ w e, JSVal.validate ext (b.env m) (k + 1) ⟨name, some b.root⟩ τ (.map n kvs) = (.err w e, .map n kvs)) := by
  have h0 := readme_built (m := m) hfmt
  refine ⟨C108_any_order h0, fun fuel σ b h name k τ => ?_⟩
  obtain ⟨τ', e⟩ := (built_covers (readme_keyed _) h h0 ext (k + 1)).2 τ (.map n kvs)
  rw [readme_same _ rfl k] at e
  have h1 := readme_accepts (ext := ext) (n := n) hnd hd k τ'
  have henv : ∀ L, Env.Every L (fun _ _ => none) := fun L m n c h => by cases h
  have h2 := C41_read_only (ext := ext) (σ := τ') (henv NoDefault) (readme_plain.imp fun c h => h.1) k (.map n kvs)
  have h3 := C43_nil_maps_partial (ext := ext) (σ := τ') (henv fun c => NoDefault c ∧ ScalarEnum c)
    (readme_plain.imp fun c h => ⟨h.1, h.2.1⟩) (.map n kvs (fun _ => rfl) hd) k
  have h4 := ((total_sem (ext := ext) (refSem ext (fun _ _ => none) k) (.object readmeC) (readme_plain.imp fun c h => h.2.2)).val τ' (.map n kvs) trivial).2.2
  unfold Sem.AcceptsBy at h1
  unfold sem at h1 h2 h3
  rw [show sem ext (fun _ _ => none) k (.object readmeC) = denote ext (refSem ext (fun _ _ => none) k) (.object readmeC) from rfl] at e
  rcases e' : (denote ext (refSem ext (fun _ _ => none) k) (.object readmeC)).val τ' (.map n kvs) with ⟨r, v'⟩
  rw [e'] at h1 h2 h3 h4 e
  simp only at h1 h2 h3 h4
  subst h2
  cases r with
  | ok => exact .inl ⟨h1.1 rfl, by simp only [JSVal.validate, ← e]⟩
  | err er =>
    refine .inr ⟨?_, if name.length = 0 then .byPointer else .byName name, er, by simp only [JSVal.validate, ← e]⟩
    by_contra hno
    push Not at hno
    have := h1.2 (fun x hx => by by_contra hc; exact absurd (hno x hx) (by tauto))
    cases this
  | abort a => exact absurd (h3 a rfl) (h4 a rfl)

example : ∃ fuel b, BuildWithCtx { lib0 with formats := knownFormats } m readmeResolve fuel (turnAt 1) readmeSchema = .ok b ∧
    ∃ w e, JSVal.validate demoExt (b.env m) 1 ⟨b! "V0", some b.root⟩ (turnAt 2) (.map false [(b! "age", .int .int (-1))]) = (.err w e, .map false [(b! "age", .int .int (-1))]) := by
  obtain ⟨⟨N, hN⟩, h⟩ := C110_reference (lib := { lib0 with formats := knownFormats }) (m := m) (ext := demoExt) rfl (n := false)
    (kvs := [(b! "age", .int .int (-1))]) (by decide) (fun k x hx => by simp at hx; obtain ⟨-, rfl⟩ := hx; exact .int _ _)
  obtain ⟨b, hb⟩ := hN N (Nat.le_refl _) (turnAt 1)
  refine ⟨N, b, hb, ?_⟩
  rcases h N _ b hb (b! "V0") 0 (turnAt 2) with ⟨h1, -⟩ | ⟨-, h1⟩
  · rcases h1 _ (.head _) with ⟨k, n, e, h2⟩ | ⟨k, n, e⟩ | ⟨k, f, e, -⟩ <;> cases e
    exact absurd h2 (by decide)
  · exact h1

end Jsval
