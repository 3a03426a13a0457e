import Verif.Lemmas.GenText
import Verif.Lemmas.Induct
import Verif.Lemmas.Basic
import Verif.Lemmas.Sched
import Verif.Model.Generator
/-!
# Generated text read back: the constraint it builds
-/
namespace Jsval
open Go

/-! ## Sorting -/

theorem u8_tri (a b : UInt8) : a < b ∨ a = b ∨ b < a := by
  rcases lt_trichotomy a.toNat b.toNat with h | h | h
  · exact .inl (UInt8.lt_iff_toNat_lt.2 h)
  · exact .inr (.inl (UInt8.toNat_inj.1 h))
  · exact .inr (.inr (UInt8.lt_iff_toNat_lt.2 h))

theorem strLe_refl : ∀ s, strLe s s = true
  | [] => rfl
  | a :: s => by simp [strLe, strLe_refl s]

theorem strLe_total : ∀ s t, strLe s t = true ∨ strLe t s = true
  | [], _ => .inl rfl
  | _ :: _, [] => .inr rfl
  | a :: s, b :: t => by
    simp only [strLe]
    rcases u8_tri a b with h | h | h
    · simp [h]
    · subst h; simpa using strLe_total s t
    · simp [h]

theorem strLe_cons {a b : UInt8} {s t : GoStr} : strLe (a :: s) (b :: t) = true ↔ a < b ∨ (a = b ∧ strLe s t = true) := by
  simp only [strLe]
  by_cases h : a < b
  · simp [h]
  · by_cases h' : a = b <;> simp [h, h']

theorem strLe_antisymm : ∀ s t, strLe s t = true → strLe t s = true → s = t
  | [], [], _, _ => rfl
  | [], _ :: _, _, h => by simp [strLe] at h
  | _ :: _, [], h, _ => by simp [strLe] at h
  | a :: s, b :: t, h1, h2 => by
    rw [strLe_cons] at h1 h2
    rcases h1 with h1 | ⟨rfl, h1⟩
    · rcases h2 with h2 | ⟨rfl, _⟩
      · exact absurd (UInt8.lt_trans h1 h2) (UInt8.lt_irrefl _)
      · exact absurd h1 (UInt8.lt_irrefl _)
    · rcases h2 with h2 | ⟨_, h2⟩
      · exact absurd h2 (UInt8.lt_irrefl _)
      · rw [strLe_antisymm s t h1 h2]

theorem strLe_trans : ∀ s t u, strLe s t = true → strLe t u = true → strLe s u = true
  | [], _, _, _, _ => rfl
  | _ :: _, [], _, h, _ => by simp [strLe] at h
  | _ :: _, _ :: _, [], _, h => by simp [strLe] at h
  | a :: s, b :: t, c :: u, h1, h2 => by
    rw [strLe_cons] at h1 h2 ⊢
    rcases h1 with h1 | ⟨rfl, h1⟩
    · rcases h2 with h2 | ⟨rfl, _⟩
      · exact .inl (UInt8.lt_trans h1 h2)
      · exact .inl h1
    · rcases h2 with h2 | ⟨rfl, h2⟩
      · exact .inl h2
      · exact .inr ⟨rfl, strLe_trans s t u h1 h2⟩

instance : Std.Total (fun a b : GoStr => strLe a b = true) := ⟨strLe_total⟩
instance : IsTrans GoStr (fun a b : GoStr => strLe a b = true) := ⟨strLe_trans⟩

theorem sortStrings_perm (l : List GoStr) : (sortStrings l).Perm l := List.perm_insertionSort _ l

theorem sortStrings_sorted (l : List GoStr) : (sortStrings l).Pairwise (fun a b => strLe a b = true) :=
  List.pairwise_insertionSort _ l

theorem sortStrings_congr {l l' : List GoStr} (h : l.Perm l') : sortStrings l = sortStrings l' := by
  refine List.Perm.eq_of_pairwise (le := fun a b => strLe a b = true) ?_ (sortStrings_sorted l) (sortStrings_sorted l') ?_
  · intro a b _ _ h1 h2
    exact strLe_antisymm a b h1 h2
  · exact ((sortStrings_perm l).trans h).trans (sortStrings_perm l').symm

theorem mem_sortStrings {l : List GoStr} {s : GoStr} : s ∈ sortStrings l ↔ s ∈ l := (sortStrings_perm l).mem_iff

theorem sortStrings_shuffle (k : Nat) (l : List GoStr) : sortStrings (shuffle k l) = sortStrings l :=
  sortStrings_congr (shuffle_perm l k)

/-! ## The constraint generated code builds -/

/-- Look the names up in the table. -/
def rowsOf {C : Type} (tbl : List (GoStr × C)) (names : List GoStr) : List (GoStr × C) :=
  names.filterMap (fun n => (alookup n tbl).map (fun c => (n, c)))

/-- The rows of a table in the order of their names. -/
def sortedRows {C : Type} (tbl : List (GoStr × C)) : List (GoStr × C) := rowsOf tbl (sortStrings (tbl.map (·.1)))

/-- The dependencies as pairs, in the order of the names. -/
def depPairs (deps : List (GoStr × List GoStr)) : List (GoStr × GoStr) :=
  (sortStrings (deps.map (·.1))).flatMap (fun k => ((alookup k deps).getD []).map (fun d => (k, d)))

/-- Object constraints as rebuilt. -/
def rebuildObj (o : ObjC Constraint) : ObjC Constraint :=
  let o1 := Object'.Required (sortStrings o.required)
  let o2 := match o.additional with | none => o1 | some c => o1.AdditionalProperties (some c)
  let o3 := (sortedRows o.props).foldl (fun x p => x.AddProp p.1 p.2) o2
  let o4 := (sortedRows (o.patterns.map (·.2))).foldl (fun x p => x.PatternProperties x.patterns.length p.1 p.2) o3
  (depPairs o.propdeps).foldl (fun x p => x.PropDependency p.1 [p.2]) o4

/-- Array constraints as rebuilt. -/
def rebuildArr (a : ArrC Constraint) : ArrC Constraint :=
  { items := a.items
    positional := a.positional
    additional := some (a.additional.getD .empty)
    minItems := if a.minItems > -1 then a.minItems else -1
    maxItems := if a.maxItems > -1 then a.maxItems else -1
    unique := a.unique }

/-- String constraints as rebuilt. -/
def rebuildStr (c : StrC) : StrC :=
  { c with
    maxLength := if c.maxLength > -1 then c.maxLength else -1
    minLength := if c.minLength > 0 then c.minLength else 0 }

/-- Integer constraints as rebuilt: the default is an `int`. -/
def rebuildInt (c : NumC) : NumC :=
  { c with dflt := c.dflt.map fun
    | .float .f64 f => .int .int f.truncInt
    | v => v }

mutual
/-- A constraint as rebuilt, with references into map number `m`. -/
def rebuild (m : Nat) : Constraint → Constraint
  | .empty => .empty
  | .null => .null
  | .boolean d => .boolean d
  | .string c => .string (rebuildStr c)
  | .number c => .number c
  | .integer c => .integer (rebuildInt c)
  | .enum l => .enum l
  | .array ⟨i, p, a, mn, mx, u⟩ => .array (rebuildArr ⟨rebuildOpt m i, rebuildList m p, rebuildOpt m a, mn, mx, u⟩)
  | .object ⟨ps, pats, a, req, pd, sd, mn, mx⟩ =>
    .object (rebuildObj ⟨rebuildProps m ps, rebuildPats m pats, rebuildOpt m a, req, pd, rebuildProps m sd, mn, mx⟩)
  | .any cs => .any (rebuildList m cs)
  | .all cs => match cs with | [] => .empty | c :: cs => .all (rebuild m c :: rebuildList m cs)
  | .oneOf cs => .oneOf (rebuildList m cs)
  | .not c => .not (rebuildOpt m c)
  | .ref _ n => .ref m n
/-- Optional child. -/
def rebuildOpt (m : Nat) : Option Constraint → Option Constraint
  | none => none
  | some c => some (rebuild m c)
/-- List of children. -/
def rebuildList (m : Nat) : List Constraint → List Constraint
  | [] => []
  | c :: cs => rebuild m c :: rebuildList m cs
/-- Named children. -/
def rebuildProps (m : Nat) : List (GoStr × Constraint) → List (GoStr × Constraint)
  | [] => []
  | (n, c) :: cs => (n, rebuild m c) :: rebuildProps m cs
/-- Pattern children. -/
def rebuildPats (m : Nat) : List (Nat × GoStr × Constraint) → List (Nat × GoStr × Constraint)
  | [] => []
  | (i, s, c) :: cs => (i, s, rebuild m c) :: rebuildPats m cs
end

theorem rebuildOpt_eq (m : Nat) (o : Option Constraint) : rebuildOpt m o = o.map (rebuild m) := by
  cases o <;> simp [rebuildOpt]
theorem rebuildList_eq (m : Nat) : ∀ l, rebuildList m l = l.map (rebuild m)
  | [] => by simp [rebuildList]
  | c :: l => by simp [rebuildList, rebuildList_eq m l]
theorem rebuildProps_eq (m : Nat) : ∀ l, rebuildProps m l = l.map (fun p => (p.1, rebuild m p.2))
  | [] => by simp [rebuildProps]
  | (n, c) :: l => by simp [rebuildProps, rebuildProps_eq m l]
theorem rebuildPats_eq (m : Nat) : ∀ l, rebuildPats m l = l.map (fun p => (p.1, p.2.1, rebuild m p.2.2))
  | [] => by simp [rebuildPats]
  | (i, s, c) :: l => by simp [rebuildPats, rebuildPats_eq m l]

theorem rebuild_object (m : Nat) (o : ObjC Constraint) : rebuild m (.object o) = .object (rebuildObj (o.map (rebuild m))) := by
  cases o; simp [rebuild, ObjC.map, rebuildProps_eq, rebuildPats_eq, rebuildOpt_eq]
theorem rebuild_array (m : Nat) (a : ArrC Constraint) : rebuild m (.array a) = .array (rebuildArr (a.map (rebuild m))) := by
  cases a; simp [rebuild, ArrC.map, rebuildList_eq, rebuildOpt_eq]

theorem genOpt_eq (isPrint : Nat → Bool) (cm : GoStr) (o : Option Constraint) :
    genOpt isPrint cm o = o.map (gen isPrint cm) := by
  cases o <;> simp [genOpt]
theorem genList_eq (isPrint : Nat → Bool) (cm : GoStr) : ∀ l, genList isPrint cm l = l.map (gen isPrint cm)
  | [] => by simp [genList]
  | c :: l => by simp [genList, genList_eq isPrint cm l]
theorem genProps_eq (isPrint : Nat → Bool) (cm : GoStr) : ∀ l,
    genProps isPrint cm l = l.map (fun p => (p.1, gen isPrint cm p.2))
  | [] => by simp [genProps]
  | (n, c) :: l => by simp [genProps, genProps_eq isPrint cm l]
theorem genPats_eq (isPrint : Nat → Bool) (cm : GoStr) : ∀ l,
    genPats isPrint cm l = l.map (fun p => (p.1, p.2.1, gen isPrint cm p.2.2))
  | [] => by simp [genPats]
  | (i, s, c) :: l => by simp [genPats, genPats_eq isPrint cm l]

/-! ## Concatenation -/

theorem catG_append {a b : List G} {s t : GoStr} (ha : catG a = .ok s) (hb : catG b = .ok t) :
    catG (a ++ b) = .ok (s ++ t) := by
  induction a generalizing s with
  | nil =>
    simp only [catG, Except.ok.injEq] at ha
    subst ha
    simpa using hb
  | cons x a ih =>
    cases x with
    | error e => simp [catG] at ha
    | ok x =>
      cases h : catG a with
      | error e => simp [catG, h] at ha
      | ok r =>
        simp only [catG, h, Except.ok.injEq] at ha
        subst ha
        simp [catG, ih h]

theorem catG_one (t : GoStr) : catG [.ok t] = .ok t := by simp [catG]

theorem catG_cons (t : GoStr) {l : List G} {s : GoStr} (h : catG l = .ok s) : catG (.ok t :: l) = .ok (t ++ s) := by
  simp [catG, h]

/-! ## Constructors and calls -/

variable {ρ : GoStr → Option Val}

theorem builds_empty : Builds ρ (b! "jsval.EmptyConstraint") (.con .empty) :=
  Builds.pkgVar (n := b! "EmptyConstraint") (by decide) ⟨b! "EmptyConstrain", 0x74, rfl, by decide⟩ (fun _ _ => ⟨rfl, rfl⟩) rfl

theorem builds_null : Builds ρ (b! "jsval.NullConstraint") (.con .null) :=
  Builds.pkgVar (n := b! "NullConstraint") (by decide) ⟨b! "NullConstrain", 0x74, rfl, by decide⟩ (fun _ _ => ⟨rfl, rfl⟩) rfl

theorem builds_string : Builds ρ (b! "jsval.String()") (.con (.string String')) :=
  Builds.pkgFunc (n := b! "String") (by decide) (fun _ _ => rfl) rfl
theorem builds_number : Builds ρ (b! "jsval.Number()") (.con (.number Number')) :=
  Builds.pkgFunc (n := b! "Number") (by decide) (fun _ _ => rfl) rfl
theorem builds_integer : Builds ρ (b! "jsval.Integer()") (.con (.integer Number')) :=
  Builds.pkgFunc (n := b! "Integer") (by decide) (fun _ _ => rfl) rfl
theorem builds_boolean : Builds ρ (b! "jsval.Boolean()") (.con (.boolean none)) :=
  Builds.pkgFunc (n := b! "Boolean") (by decide) (fun _ _ => rfl) rfl
theorem builds_array : Builds ρ (b! "jsval.Array()") (.con (.array Array')) :=
  Builds.pkgFunc (n := b! "Array") (by decide) (fun _ _ => rfl) rfl
theorem builds_object : Builds ρ (b! "jsval.Object()") (.con (.object Object')) :=
  Builds.pkgFunc (n := b! "Object") (by decide) (fun _ _ => rfl) rfl
theorem builds_any : Builds ρ (b! "jsval.Any()") (.con (.any [])) :=
  Builds.pkgFunc (n := b! "Any") (by decide) (fun _ _ => rfl) rfl
theorem builds_all : Builds ρ (b! "jsval.All()") (.con (.all [])) :=
  Builds.pkgFunc (n := b! "All") (by decide) (fun _ _ => rfl) rfl
theorem builds_oneOf : Builds ρ (b! "jsval.OneOf()") (.con (.oneOf [])) :=
  Builds.pkgFunc (n := b! "OneOf") (by decide) (fun _ _ => rfl) rfl

/-- The kinds of combinator. -/
inductive IsCombo : GoStr → (List Constraint → Constraint) → Prop where
  | any : IsCombo (b! "Any") .any
  | all : IsCombo (b! "All") .all
  | oneOf : IsCombo (b! "OneOf") .oneOf

theorem IsCombo.start {n k} (h : IsCombo n k) : Builds ρ (b! "jsval." ++ n ++ b! "()") (.con (k [])) := by
  cases h
  · exact builds_any
  · exact builds_all
  · exact builds_oneOf

theorem IsCombo.add {n k} (h : IsCombo n k) (l : List Constraint) (c : Constraint) :
    method (.con (k l)) (b! "Add") [.con c] = some (.con (k (l ++ [c]))) := by
  cases h <;> rfl

/-- A call with one sub-constraint on its own line. -/
theorem Step.sub {open' t n c v v'} (ho : OpenText open' n) (ht : Builds ρ t (.con c)) (hm : method v n [.con c] = some v') :
    Step ρ (open' ++ (t ++ b! ",\n)")) v v' := by
  have := Step.ofComma ho (ArgsText.nil.snoc ht.toArg (.inr rfl)) (v := v) (v' := v') (by simpa using hm)
  simpa using this

theorem genAdds_chain {name k} (hk : IsCombo name k) {isPrint cm} {f : Constraint → Constraint} : ∀ (cs : List Constraint) (i : Nat) (σ : Sched) (acc),
    (∀ c ∈ cs, ∀ σ, ∃ t, gen isPrint cm c σ = .ok t ∧ Builds ρ t (.con (f c))) →
    ∃ t, catG (genAdds i (cs.map (gen isPrint cm)) σ) = .ok t ∧
      Chain ρ t (.con (k acc)) (.con (k (acc ++ cs.map f)))
  | [], i, σ, acc, _ => ⟨[], rfl, by simpa using Chain.nil _⟩
  | c :: cs, i, σ, acc, h => by
    obtain ⟨t, ht, hb⟩ := h c (List.mem_cons_self ..) (σ.sub i)
    obtain ⟨u, hu, hc⟩ := genAdds_chain hk cs (i + 1) σ (acc ++ [f c]) (fun d hd => h d (List.mem_cons_of_mem _ hd))
    refine ⟨b! ".\nAdd(\n" ++ (t ++ b! ",\n)") ++ u, ?_, ?_⟩
    · rw [List.map_cons, genAdds]
      refine catG_append (catG_cons _ ?_) hu
      rw [ht]
      exact catG_cons _ (catG_one _)
    · have hs : Step ρ (b! ".\nAdd(\n" ++ (t ++ b! ",\n)")) (.con (k acc)) (.con (k (acc ++ [f c]))) :=
        Step.sub (n := b! "Add") ⟨by decide, ⟨_, rfl⟩, fun _ _ => rfl⟩ hb (hk.add acc _)
      have := hs.chain.append hc
      simpa [List.append_assoc] using this

theorem genCombo_builds {name k} (hk : IsCombo name k) {isPrint cm} {f : Constraint → Constraint} (cs : List Constraint) (σ : Sched) (hne : cs ≠ [])
    (h : ∀ c ∈ cs, ∀ σ, ∃ t, gen isPrint cm c σ = .ok t ∧ Builds ρ t (.con (f c))) :
    ∃ t, genCombo name (cs.map (gen isPrint cm)) σ = .ok t ∧ Builds ρ t (.con (k (cs.map f))) := by
  obtain ⟨u, hu, hc⟩ := genAdds_chain hk cs 0 σ [] h
  refine ⟨_, ?_, hk.start.chain hc⟩
  cases cs with
  | nil => exact absurd rfl hne
  | cons c cs =>
    rw [List.map_cons, genCombo, ← List.map_cons]
    · exact catG_cons _ hu
    · simp

/-! ## Scalars -/

/-- An optional call. -/
theorem Chain.ofOpt {α : Type} {o : Option α} {open' : GoStr} {f : α → GoStr} {v : Val} {g : α → Val} {dflt : Val}
    (h0 : o = none → v = dflt) (h : ∀ a, o = some a → Step ρ (open' ++ f a ++ [0x29]) v (g a)) :
    Chain ρ (optCall o open' f) v (match o with | none => dflt | some a => g a) := by
  cases o with
  | none => rw [h0 rfl]; exact Chain.nil _
  | some a => exact (h a rfl).chain

theorem Chain.ofBool {b : Bool} {t : GoStr} {v v' : Val} (h0 : b = false → v = v') (h : b = true → Step ρ t v v') :
    Chain ρ (optText b t) v v' := by
  cases b with
  | false => rw [h0 rfl]; exact Chain.nil _
  | true => exact (h rfl).chain

theorem Chain.ofIf {p : Prop} [Decidable p] {t : GoStr} {v v' : Val} (h0 : ¬ p → v = v') (h : p → Step ρ t v v') :
    Chain ρ (if p then t else []) v v' := by
  by_cases hp : p
  · rw [if_pos hp]; exact (h hp).chain
  · rw [if_neg hp, h0 hp]; exact Chain.nil _

/-- Number or integer. -/
inductive IsNum : (NumC → Constraint) → Prop where
  | number : IsNum .number
  | integer : IsNum .integer

theorem IsNum.method {k} (h : IsNum k) (c : NumC) (n : GoStr) (args : List Val) :
    method (.con (k c)) n args = (numMethod c n args).map (fun c => .con (k c)) := by
  cases h <;> simp [Go.method, conMethod, Option.map_map, Function.comp_def]

theorem num_bool_step {k} (hk : IsNum k) (c : NumC) :
    Step ρ (b! ".ExclusiveMinimum(true)") (.con (k c)) (.con (k (c.ExclusiveMinimum true))) ∧
    Step ρ (b! ".ExclusiveMaximum(true)") (.con (k c)) (.con (k (c.ExclusiveMaximum true))) := by
  constructor
  · exact Step.one (t := b! ".ExclusiveMinimum(") (w := b! "true") (n := b! "ExclusiveMinimum")
      ⟨by decide, ⟨_, rfl⟩, fun _ _ => rfl⟩ (ArgText.bool true) (by rw [hk.method]; rfl)
  · exact Step.one (t := b! ".ExclusiveMaximum(") (w := b! "true") (n := b! "ExclusiveMaximum")
      ⟨by decide, ⟨_, rfl⟩, fun _ _ => rfl⟩ (ArgText.bool true) (by rw [hk.method]; rfl)

theorem num_bound_step {k} (hk : IsNum k) (c : NumC) {t : GoStr} {v : Val} {f : F64} (ht : ArgText ρ t v) (hv : v.toF64 = some f) :
    Step ρ (b! ".Minimum(" ++ t ++ [0x29]) (.con (k c)) (.con (k (c.Minimum f))) ∧
    Step ρ (b! ".Maximum(" ++ t ++ [0x29]) (.con (k c)) (.con (k (c.Maximum f))) := by
  constructor
  · refine Step.one (n := b! "Minimum") ⟨by decide, ⟨_, rfl⟩, fun _ _ => rfl⟩ ht ?_
    rw [hk.method]
    show Option.map _ (v.toF64.map c.Minimum) = _
    rw [hv]; rfl
  · refine Step.one (n := b! "Maximum") ⟨by decide, ⟨_, rfl⟩, fun _ _ => rfl⟩ ht ?_
    rw [hk.method]
    show Option.map _ (v.toF64.map c.Maximum) = _
    rw [hv]; rfl

/-- The bounds, common to both kinds. -/
theorem num_bounds_map {k} (hk : IsNum k) (c : NumC) (p : F64 → GoStr) (g : F64 → F64) (B : F64 → Prop)
    (hp : ∀ f, B f → ∃ v, ArgText ρ (p f) v ∧ v.toF64 = some (g f))
    (hmin : ∀ f, c.minimum = some f → B f) (hmax : ∀ f, c.maximum = some f → B f) :
    Chain ρ (optCall c.minimum (b! ".Minimum(") p ++
      optText c.exclMin (b! ".ExclusiveMinimum(true)") ++
      optCall c.maximum (b! ".Maximum(") p ++
      optText c.exclMax (b! ".ExclusiveMaximum(true)")) (.con (k Number'))
      (.con (k { minimum := c.minimum.map g, maximum := c.maximum.map g, exclMin := c.exclMin, exclMax := c.exclMax })) := by
  have h1 : Chain ρ (optCall c.minimum (b! ".Minimum(") p) (.con (k Number')) (.con (k { minimum := c.minimum.map g })) := by
    cases hm : c.minimum with
    | none => exact Chain.nil _
    | some f =>
      obtain ⟨v, h, hv⟩ := hp f (hmin f hm)
      exact (num_bound_step hk _ h hv).1.chain
  have h2 : Chain ρ (optText c.exclMin (b! ".ExclusiveMinimum(true)")) (.con (k { minimum := c.minimum.map g }))
      (.con (k { minimum := c.minimum.map g, exclMin := c.exclMin })) := by
    cases c.exclMin with
    | false => exact Chain.nil _
    | true => exact (num_bool_step hk _).1.chain
  have h3 : Chain ρ (optCall c.maximum (b! ".Maximum(") p) (.con (k { minimum := c.minimum.map g, exclMin := c.exclMin }))
      (.con (k { minimum := c.minimum.map g, maximum := c.maximum.map g, exclMin := c.exclMin })) := by
    cases hm : c.maximum with
    | none => exact Chain.nil _
    | some f =>
      obtain ⟨v, h, hv⟩ := hp f (hmax f hm)
      exact (num_bound_step hk _ h hv).2.chain
  have h4 : Chain ρ (optText c.exclMax (b! ".ExclusiveMaximum(true)"))
      (.con (k { minimum := c.minimum.map g, maximum := c.maximum.map g, exclMin := c.exclMin }))
      (.con (k { minimum := c.minimum.map g, maximum := c.maximum.map g, exclMin := c.exclMin, exclMax := c.exclMax })) := by
    cases c.exclMax with
    | false => exact Chain.nil _
    | true => exact (num_bool_step hk _).2.chain
  exact ((h1.append h2).append h3).append h4

theorem num_bounds {k} (hk : IsNum k) (c : NumC) (p : F64 → GoStr) (B : F64 → Prop)
    (hp : ∀ f, B f → ∃ v, ArgText ρ (p f) v ∧ v.toF64 = some f)
    (hmin : ∀ f, c.minimum = some f → B f) (hmax : ∀ f, c.maximum = some f → B f) :
    Chain ρ (optCall c.minimum (b! ".Minimum(") p ++
      optText c.exclMin (b! ".ExclusiveMinimum(true)") ++
      optCall c.maximum (b! ".Maximum(") p ++
      optText c.exclMax (b! ".ExclusiveMaximum(true)")) (.con (k Number'))
      (.con (k { minimum := c.minimum, maximum := c.maximum, exclMin := c.exclMin, exclMax := c.exclMax })) := by
  simpa using num_bounds_map hk c p id B hp hmin hmax

theorem genInteger_builds {ints : Prop} {c : NumC} (h : c.GenInt ints) :
    ∃ t, genInteger c = .ok t ∧ Builds ρ t (.con (.integer (rebuildInt c))) := by
  have hb := builds_integer.chain (num_bounds (ρ := ρ) .integer c (fun f => intDec f.truncInt) IntBound
    (fun f hf => ⟨.int f.truncInt, ArgText.int _, by rw [Val.toF64, hf]⟩) h.minimum h.maximum)
  have e : (c : NumC) = { dflt := c.dflt, minimum := c.minimum, maximum := c.maximum, exclMin := c.exclMin, exclMax := c.exclMax } := by
    obtain ⟨d, mn, mx, mu, e1, e2, en⟩ := c
    obtain ⟨_, _, rfl, rfl, _⟩ := h
    rfl
  cases hd : c.dflt with
  | none =>
    refine ⟨_, by unfold genInteger; rw [hd], ?_⟩
    rw [e, hd]
    simpa [List.append_assoc, rebuildInt] using hb
  | some v =>
    obtain ⟨-, f, rfl⟩ := h.dflt v hd
    refine ⟨_, by unfold genInteger; rw [hd], ?_⟩
    rw [e, hd]
    have hs : Step ρ (b! ".Default(" ++ intDec f.truncInt ++ [0x29])
        (.con (.integer { minimum := c.minimum, maximum := c.maximum, exclMin := c.exclMin, exclMax := c.exclMax }))
        (.con (.integer { dflt := some (.int .int f.truncInt), minimum := c.minimum, maximum := c.maximum, exclMin := c.exclMin, exclMax := c.exclMax })) := by
      refine Step.one (n := b! "Default") ⟨by decide, ⟨_, rfl⟩, fun _ _ => rfl⟩ (ArgText.int _) ?_
      rw [IsNum.integer.method]
      rfl
    have := hb.step hs
    simpa [List.append_assoc, rebuildInt] using this

theorem genNumber_builds {c : NumC} (h : c.GenNum) : ∃ t, genNumber c = .ok t ∧ Builds ρ t (.con (.number c)) := by
  have hp : ∀ f, SixDec f → ∃ v, ArgText ρ (fltDec f) v ∧ v.toF64 = some f := by
    intro f hf
    obtain ⟨neg, n, k, h1, h2⟩ := ArgText.flt (ρ := ρ) hf
    exact ⟨_, h1, h2⟩
  have hb := builds_number.chain (num_bounds (ρ := ρ) .number c fltDec SixDec hp h.minimum h.maximum)
  have e : (c : NumC) = { dflt := c.dflt, minimum := c.minimum, maximum := c.maximum, exclMin := c.exclMin, exclMax := c.exclMax } := by
    obtain ⟨d, mn, mx, mu, e1, e2, en⟩ := c
    obtain ⟨_, _, rfl, rfl, _⟩ := h
    rfl
  cases hd : c.dflt with
  | none =>
    refine ⟨_, by unfold genNumber; rw [hd], ?_⟩
    rw [e, hd]
    simpa [List.append_assoc] using hb
  | some v =>
    obtain ⟨f, rfl, hf⟩ := h.dflt v hd
    obtain ⟨neg, n, k, h1, h2⟩ := ArgText.flt (ρ := ρ) hf
    refine ⟨_, by unfold genNumber; rw [hd], ?_⟩
    rw [e, hd]
    have hs : Step ρ (b! ".Default(" ++ fltDec f ++ [0x29])
        (.con (.number { minimum := c.minimum, maximum := c.maximum, exclMin := c.exclMin, exclMax := c.exclMax }))
        (.con (.number { dflt := some (.float .f64 f), minimum := c.minimum, maximum := c.maximum, exclMin := c.exclMin, exclMax := c.exclMax })) := by
      refine Step.one (n := b! "Default") ⟨by decide, ⟨_, rfl⟩, fun _ _ => rfl⟩ h1 ?_
      rw [IsNum.number.method]
      show Option.map _ (((decF64 neg n k).map (GoVal.float .f64)).map _) = _
      rw [h2]; rfl
    have := hb.step hs
    simpa [List.append_assoc] using this

theorem enumVal_arg {isPrint} {v : GoVal} (h : EnumLit v) : ∃ t x, genEnumVal isPrint v = .ok t ∧ ArgText ρ t x ∧ x.toAny = some v := by
  cases v <;> try exact absurd h id
  case str s => exact ⟨_, _, rfl, ArgText.quote h, rfl⟩
  case int k n =>
    cases k <;> try exact absurd h id
    exact ⟨_, _, rfl, ArgText.int n, rfl⟩
  case float k f =>
    cases k <;> try exact absurd h id
    obtain ⟨neg, n, k, h1, h2⟩ := ArgText.flt (ρ := ρ) h
    exact ⟨_, _, rfl, h1, by rw [Val.toAny, h2]; rfl⟩

theorem allSome_append {α : Type} : ∀ {a b : List (Option α)} {x y}, allSome a = some x → allSome b = some y →
    allSome (a ++ b) = some (x ++ y)
  | [], b, x, y, h, h' => by
    simp only [allSome, Option.some.injEq] at h
    subst h
    simpa using h'
  | none :: a, b, x, y, h, h' => by simp [allSome] at h
  | some c :: a, b, x, y, h, h' => by
    cases h1 : allSome a with
    | none => simp [allSome, h1] at h
    | some z =>
      simp only [allSome, h1, Option.map_some, Option.some.injEq] at h
      subst h
      simp [allSome, allSome_append h1 h']

theorem allSome_map {α β : Type} (f : α → Option β) (g : β → α) (h : ∀ b, f (g b) = some b) :
    ∀ l : List β, allSome ((l.map g).map f) = some l
  | [] => rfl
  | b :: l => by
    simp only [List.map_cons, h, allSome, allSome_map f g h l, Option.map_some]

/-- The arguments of an enumeration. -/
theorem enumList_args {isPrint} {P : GoVal → Prop} {g : GoVal → GoVal}
    (hP : ∀ v, P v → ∃ t x, genEnumVal isPrint v = .ok t ∧ ArgText ρ t x ∧ x.toAny = some (g v)) :
    ∀ (l : List GoVal) (pre : GoStr) (xs : List Val), l ≠ [] → (∀ v ∈ l, P v) →
    ArgsText ρ pre xs →
    ∃ t x0 ys w, catG (genEnumList isPrint l) = .ok t ∧ pre ++ t = x0 ++ w ∧ ∃ y, ArgsText ρ x0 (xs ++ ys) ∧ ArgText ρ w y ∧
      allSome ((ys ++ [y]).map Val.toAny) = some (l.map g)
  | [], _, _, h, _, _ => absurd rfl h
  | [v], pre, xs, _, hl, hp => by
    obtain ⟨t, x, h1, h2, h3⟩ := hP v (hl v (List.mem_cons_self ..))
    refine ⟨t, pre, [], t, ?_, rfl, x, by simpa using hp, h2, ?_⟩
    · rw [genEnumList, h1, catG_one]
    · simp [allSome, h3]
  | v :: w :: l, pre, xs, _, hl, hp => by
    obtain ⟨t, x, h1, h2, h3⟩ := hP v (hl v (List.mem_cons_self ..))
    obtain ⟨u, x0, ys, z, g1, g2, y, g3, g4, g5⟩ := enumList_args hP (w :: l) (pre ++ (t ++ b! ", ")) (xs ++ [x]) (by simp)
      (fun a ha => hl a (List.mem_cons_of_mem _ ha)) (hp.snoc h2 (.inl rfl))
    refine ⟨t ++ (b! ", " ++ u), x0, x :: ys, z, ?_, ?_, y, ?_, g4, ?_⟩
    · rw [genEnumList, h1]
      have := catG_append (catG_cons t (catG_one (b! ", "))) g1
      rw [this, List.append_assoc]
    · rw [← g2]; simp
    · simpa using g3
    · simp only [List.cons_append, List.map_cons, h3, allSome, g5, Option.map_some]

theorem str_method (c : StrC) (n : GoStr) (args : List Val) :
    method (.con (.string c)) n args = (strMethod c n args).map (fun c => .con (.string c)) := by
  simp [Go.method, conMethod, Option.map_map, Function.comp_def]

theorem enum_step {isPrint} {P : GoVal → Prop} {g : GoVal → GoVal}
    (hP : ∀ v, P v → ∃ t x, genEnumVal isPrint v = .ok t ∧ ArgText ρ t x ∧ x.toAny = some (g v))
    (c : StrC) {l : List GoVal} (hne : l ≠ []) (hl : ∀ v ∈ l, P v) :
    ∃ t, catG ([.ok (b! ".Enum(")] ++ genEnumList isPrint l ++ [.ok (b! ",)")]) = .ok t ∧
      Step ρ t (.con (.string c)) (.con (.string (c.Enum (l.map g)))) := by
  obtain ⟨u, x0, ys, w, g1, g2, y, g3, g4, g5⟩ := enumList_args hP l [] [] hne hl ArgsText.nil
  simp only [List.nil_append] at g2 g3
  subst g2
  refine ⟨_, catG_append (catG_append (catG_one _) g1) (catG_one _), ?_⟩
  -- the last argument is followed by a bare comma
  obtain ⟨a1, ks, args, b, al, rfl, ap, ae⟩ := g3
  obtain ⟨k1, ks', e, kl, kp, ke⟩ := g4
  refine ⟨?_, ⟨b! ".Enum(" ++ (x0 ++ w) ++ b! ",", by simp⟩, _, b! "Enum", args ++ [e], ys ++ [y], _, by simp; rfl, ?_,
    CallToks.ofComma _ (ap.snoc kp), evalArgs_snoc ae ke, ?_⟩
  · simp only [List.mem_append, not_or]
    exact ⟨⟨by decide, a1, k1⟩, by decide⟩
  · intro out semi
    have ho : LexN (b! ".Enum(") [.op 0x2E, .ident (b! "Enum"), .op 0x28] false := fun _ _ => rfl
    rw [List.append_assoc, lexRun_append, ho, List.append_assoc, lexRun_append, al, kl.thenN (by decide) lexN_commaClose']
    simp
  · rw [str_method]
    show Option.map _ ((allSome ((ys ++ [y]).map Val.toAny)).map c.Enum) = _
    rw [g5]; rfl

end Jsval
