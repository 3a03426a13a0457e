import Verif.Spec.Keep
import Verif.Lemmas.Erase
import Verif.Lemmas.RebuildSem
import Verif.Lemmas.Pipeline
/-!
# Lemmas on what generated code keeps
-/
namespace Jsval
open Go

variable {ρ : GoStr → Option Val}

theorem keepOpt_eq (o : Option Constraint) : keepOpt o = o.map Constraint.keep := by
  cases o <;> simp [keepOpt]
theorem keepList_eq : ∀ l, keepList l = l.map Constraint.keep
  | [] => by simp [keepList]
  | c :: l => by simp [keepList, keepList_eq l]
theorem keepProps_eq : ∀ l, keepProps l = l.map (fun p => (p.1, p.2.keep))
  | [] => by simp [keepProps]
  | (n, c) :: l => by simp [keepProps, keepProps_eq l]
theorem keepPats_eq : ∀ l, keepPats l = l.map (fun p => (p.1, p.2.1, p.2.2.keep))
  | [] => by simp [keepPats]
  | (i, s, c) :: l => by simp [keepPats, keepPats_eq l]
theorem keep_array (a : ArrC Constraint) : (Constraint.array a).keep = .array (a.map Constraint.keep).keep := by
  cases a; simp [Constraint.keep, ArrC.map, keepOpt_eq, keepList_eq]
theorem keep_object (o : ObjC Constraint) : (Constraint.object o).keep = .object (o.map Constraint.keep).keep := by
  cases o; simp [Constraint.keep, ObjC.map, keepOpt_eq, keepProps_eq, keepPats_eq]
theorem keep_any {l : List Constraint} (h : l ≠ []) : (Constraint.any l).keep = .any (l.map Constraint.keep) := by
  cases l with
  | nil => exact absurd rfl h
  | cons c l => simp [Constraint.keep, keepList_eq]
theorem keep_all (l : List Constraint) : (Constraint.all l).keep = .all (l.map Constraint.keep) := by
  simp [Constraint.keep, keepList_eq]
theorem keep_oneOf {l : List Constraint} (h : l ≠ []) : (Constraint.oneOf l).keep = .oneOf (l.map Constraint.keep) := by
  cases l with
  | nil => exact absurd rfl h
  | cons c l => simp [Constraint.keep, keepList_eq]
theorem keep_not (c : Option Constraint) : (Constraint.not c).keep = .not (c.map Constraint.keep) := by
  simp [Constraint.keep, keepOpt_eq]

/-! ## The text -/

theorem enumVal_keep {isPrint} {v : GoVal} (h : v.Spellable) : ∃ t x, genEnumVal isPrint v = .ok t ∧ ArgText ρ t x ∧ x.toAny = some v.keep := by
  cases v <;> try exact absurd h id
  case str s => exact ⟨_, _, rfl, ArgText.quote h, rfl⟩
  case int k n => exact ⟨_, _, rfl, ArgText.int n, rfl⟩
  case float k f =>
    obtain ⟨neg, n, k, h1, h2⟩ := ArgText.reread (ρ := ρ) h
    exact ⟨_, _, rfl, h1, by rw [Val.toAny, h2]; rfl⟩

theorem genInteger_keep {c : NumC} (h : ∀ v, c.dflt = some v → ∃ f, v = .float .f64 f) :
    ∃ t, genInteger c = .ok t ∧ Builds ρ t (.con (.integer c.keepInt)) := by
  have hb := builds_integer.chain (num_bounds_map (ρ := ρ) .integer c (fun f => intDec f.truncInt) (fun f => F64.ofInt f.truncInt) (fun _ => True)
    (fun f hf => ⟨.int f.truncInt, ArgText.int _, rfl⟩) (fun _ _ => trivial) (fun _ _ => trivial))
  cases hd : c.dflt with
  | none =>
    refine ⟨_, by unfold genInteger; rw [hd], ?_⟩
    simpa [List.append_assoc, NumC.keepInt, hd] using hb
  | some v =>
    obtain ⟨f, rfl⟩ := h v hd
    refine ⟨_, by unfold genInteger; rw [hd], ?_⟩
    have hs : Step ρ (b! ".Default(" ++ intDec f.truncInt ++ [0x29])
        (.con (.integer { minimum := c.minimum.map (fun f => F64.ofInt f.truncInt), maximum := c.maximum.map (fun f => F64.ofInt f.truncInt),
                          exclMin := c.exclMin, exclMax := c.exclMax }))
        (.con (.integer c.keepInt)) := by
      refine Step.one (n := b! "Default") ⟨by decide, ⟨_, rfl⟩, fun _ _ => rfl⟩ (ArgText.int _) ?_
      rw [IsNum.integer.method]
      simp only [NumC.keepInt, hd]
      rfl
    have := hb.step hs
    simpa [List.append_assoc] using this

theorem genNumber_keep {c : NumC} (hmin : ∀ f, c.minimum = some f → f.IsFinite) (hmax : ∀ f, c.maximum = some f → f.IsFinite)
    (hdf : ∀ v, c.dflt = some v → ∃ k f, v = .float k f ∧ f.IsFinite) :
    ∃ t, genNumber c = .ok t ∧ Builds ρ t (.con (.number c.keepNum)) := by
  have hp : ∀ f : F64, f.IsFinite → ∃ v, ArgText ρ (fltDec f) v ∧ v.toF64 = some f.reread := by
    intro f hf
    obtain ⟨neg, n, k, h1, h2⟩ := ArgText.reread (ρ := ρ) hf
    exact ⟨_, h1, h2⟩
  have hb := builds_number.chain (num_bounds_map (ρ := ρ) .number c fltDec F64.reread F64.IsFinite hp hmin hmax)
  cases hd : c.dflt with
  | none =>
    refine ⟨_, by unfold genNumber; rw [hd], ?_⟩
    simpa [List.append_assoc, NumC.keepNum, hd] using hb
  | some v =>
    obtain ⟨k0, f, rfl, hf⟩ := hdf v hd
    obtain ⟨neg, n, k, h1, h2⟩ := ArgText.reread (ρ := ρ) hf
    refine ⟨_, by unfold genNumber; rw [hd], ?_⟩
    have hs : Step ρ (b! ".Default(" ++ fltDec f ++ [0x29])
        (.con (.number { minimum := c.minimum.map F64.reread, maximum := c.maximum.map F64.reread, exclMin := c.exclMin, exclMax := c.exclMax }))
        (.con (.number c.keepNum)) := by
      refine Step.one (n := b! "Default") ⟨by decide, ⟨_, rfl⟩, fun _ _ => rfl⟩ h1 ?_
      rw [IsNum.number.method]
      simp only [NumC.keepNum, hd]
      show Option.map _ (((decF64 neg n k).map (GoVal.float .f64)).map _) = _
      rw [h2]; rfl
    have := hb.step hs
    simpa [List.append_assoc] using this

theorem rebuildInt_keep (c : NumC) : rebuildInt c.keepInt = c.keepInt := by
  obtain ⟨d, mn, mx, mu, e1, e2, en⟩ := c
  cases d with
  | none => rfl
  | some v =>
    cases v <;> try rfl
    case float k f => cases k <;> rfl

theorem rebuildArr_keep (m : Nat) (a : ArrC Constraint) :
    rebuildArr ((a.map Constraint.keep).keep.map (rebuild m)) = rebuildArr (a.map (fun d => rebuild m d.keep)) := by
  obtain ⟨i, p, ad, mn, mx, u⟩ := a
  cases ad <;> simp [ArrC.map, ArrC.keep, rebuildArr, rebuild, Function.comp_def]

theorem rebuildObj_keep (m : Nat) (o : ObjC Constraint) :
    rebuildObj ((o.map Constraint.keep).keep.map (rebuild m)) = rebuildObj (o.map (fun d => rebuild m d.keep)) := by
  obtain ⟨ps, pats, a, req, pd, sd, mn, mx⟩ := o
  simp only [ObjC.map, ObjC.keep, rebuildObj, List.map_map, Option.map_map, Function.comp_def]

/-- The text for a constraint builds what is kept of it. -/
theorem gen_keep {isPrint : Nat → Bool} {cm : GoStr} {refs : Bool} {m : Nat}
    (hrefs : refs = true → cm = b! "M" ∧ ρ (b! "M") = some (.cmap m)) (c : Constraint) (hc : c.Every (Constraint.Spellable refs)) :
    ∀ σ, ∃ t, gen isPrint cm c σ = .ok t ∧ Builds ρ t (.con (rebuild m c.keep)) := by
  induction c using Constraint.ind with
  | h c ih =>
    intro σ
    have ih' : ∀ d, c.Child d → ∀ σ, ∃ t, gen isPrint cm d σ = .ok t ∧ Builds ρ t (.con ((fun d => rebuild m d.keep) d)) :=
      fun d hd => ih d hd (hc.child hd)
    have hs := hc.self
    cases c with
    | empty => rw [gen, Constraint.keep, rebuild]; exact emit_builds ⟨_, rfl, builds_empty⟩
    | null => rw [gen, Constraint.keep, rebuild]; exact emit_builds ⟨_, rfl, builds_null⟩
    | boolean d => rw [gen, Constraint.keep, rebuild]; exact emit_builds (genBoolean_builds hs)
    | string c =>
      rw [gen, Constraint.keep, rebuild]
      obtain ⟨h1, h2, h3, h4⟩ := hs
      exact emit_builds (genString_map_builds (fun v hv => enumVal_keep hv) h1 h2 h3 h4)
    | number c => rw [gen, Constraint.keep, rebuild]; exact emit_builds (genNumber_keep hs.1 hs.2.1 hs.2.2)
    | integer c => rw [gen, Constraint.keep, rebuild, rebuildInt_keep]; exact emit_builds (genInteger_keep hs.2.2)
    | enum l => exact absurd hs id
    | array a =>
      rw [gen, keep_array, rebuild_array, rebuildArr_keep]
      exact emit_builds (genArray_builds σ (fun d hd => ih' d (.array hd)))
    | object o =>
      rw [gen, keep_object, rebuild_object, rebuildObj_keep]
      exact emit_builds (genObject_builds hs.2.2 σ (fun d hd => ih' d (.object hd)))
    | any l =>
      by_cases hl : l = []
      · subst hl
        rw [gen, Constraint.keep, rebuild, genList_eq]; exact emit_builds ⟨_, rfl, builds_empty⟩
      · rw [gen, keep_any hl, rebuild, genList_eq, rebuildList_eq, List.map_map]
        exact emit_builds (genCombo_builds .any l σ hl (fun d hd => ih' d (.any hd)))
    | all l =>
      rw [keep_all]
      cases l with
      | nil => rw [gen, List.map_nil, rebuild]; exact emit_builds ⟨_, rfl, builds_empty⟩
      | cons d l =>
        rw [gen, List.map_cons, rebuild, genList_eq, rebuildList_eq, List.map_map]
        exact emit_builds (genCombo_builds .all (d :: l) σ (by simp) (fun d hd => ih' d (.all hd)))
    | oneOf l =>
      by_cases hl : l = []
      · subst hl
        rw [gen, Constraint.keep, rebuild, genList_eq]; exact emit_builds ⟨_, rfl, builds_empty⟩
      · rw [gen, keep_oneOf hl, rebuild, genList_eq, rebuildList_eq, List.map_map]
        exact emit_builds (genCombo_builds .oneOf l σ hl (fun d hd => ih' d (.oneOf hd)))
    | not d => exact absurd hs id
    | ref _ n =>
      obtain ⟨h1, h2⟩ := hrefs hs.1
      rw [gen, Constraint.keep, rebuild, h1]
      exact emit_builds (genReference_builds h2 hs.2)

theorem carries_keep {isPrint : Nat → Bool} {refs : Bool} :
    GenCarries isPrint refs (fun c => c.Every (Constraint.Spellable refs)) (fun c => rebuild 0 c.keep) :=
  fun _ _ h c hc => gen_keep h c hc

/-! ## The behaviour -/

theorem keep_child {c d : Constraint} (h : c.keep.Child d) : d = .empty ∨ ∃ e, c.Child e ∧ e.keep = d := by
  cases c with
  | array a =>
    rw [keep_array] at h
    cases h with
    | array h =>
      cases h with
      | items h =>
        obtain ⟨e, h1, h2⟩ := ArrC.map_child' (.items h)
        exact .inr ⟨e, .array h1, h2⟩
      | positional h =>
        obtain ⟨e, h1, h2⟩ := ArrC.map_child' (.positional h)
        exact .inr ⟨e, .array h1, h2⟩
      | additional h =>
        obtain ⟨i, p, ad, mn, mx, u⟩ := a
        cases ad with
        | none => cases h; exact .inl rfl
        | some e => cases h; exact .inr ⟨e, .array (.additional rfl), rfl⟩
  | object o =>
    rw [keep_object] at h
    cases h with
    | object h =>
      have : (o.map Constraint.keep).Child d := by
        cases h with
        | prop h => exact .prop h
        | pattern h => exact .pattern h
        | additional h => exact .additional h
        | dependency h => cases h
      obtain ⟨e, h1, h2⟩ := (ObjC.map_child _ _).1 this
      exact .inr ⟨e, .object h1, h2⟩
  | any cs =>
    by_cases hl : cs = []
    · subst hl; simp only [Constraint.keep] at h; cases h
    rw [keep_any hl] at h
    cases h with
    | any h => obtain ⟨e, h1, h2⟩ := List.mem_map.1 h; exact .inr ⟨e, .any h1, h2⟩
  | all cs =>
    rw [keep_all] at h
    cases h with
    | all h => obtain ⟨e, h1, h2⟩ := List.mem_map.1 h; exact .inr ⟨e, .all h1, h2⟩
  | oneOf cs =>
    by_cases hl : cs = []
    · subst hl; simp only [Constraint.keep] at h; cases h
    rw [keep_oneOf hl] at h
    cases h with
    | oneOf h => obtain ⟨e, h1, h2⟩ := List.mem_map.1 h; exact .inr ⟨e, .oneOf h1, h2⟩
  | not c =>
    rw [keep_not] at h
    cases c with
    | none => cases h
    | some c => cases h; exact .inr ⟨c, .not, rfl⟩
  | _ => simp only [Constraint.keep] at h; cases h

/-- A property of all constraints of the tree. -/
theorem every_keep {L L' : Constraint → Prop} (h0 : L' .empty) (hL : ∀ c, L c → L' c.keep) {c : Constraint} (h : c.Every L) : c.keep.Every L' := by
  induction c using Constraint.ind with
  | h c ih =>
    refine every_of_children (hL c h.self) fun d hd => ?_
    rcases keep_child hd with rfl | ⟨e, h1, rfl⟩
    · exact every_of_children h0 (fun d hd => by cases hd)
    · exact ih e h1 (h.child h1)

theorem keep_ref {c : Constraint} {m : Nat} {n : GoStr} (h : c.keep = .ref m n) : c = .ref m n := by
  cases c with
  | ref m' n' => simpa [Constraint.keep] using h
  | array a => rw [keep_array] at h; cases h
  | object o => rw [keep_object] at h; cases h
  | any l =>
    by_cases hl : l = []
    · subst hl; simp [Constraint.keep] at h
    · rw [keep_any hl] at h; cases h
  | oneOf l =>
    by_cases hl : l = []
    · subst hl; simp [Constraint.keep] at h
    · rw [keep_oneOf hl] at h; cases h
  | _ => simp [Constraint.keep] at h

theorem keep_refsTo {m : Nat} {S : GoStr → Prop} {c : Constraint} (h : c.Every (Constraint.RefsTo m S)) : c.keep.Every (Constraint.RefsTo m S) :=
  every_keep (by intro m n h; cases h) (fun c h m' n he => h m' n (keep_ref he)) h

theorem keep_stays {refs : Bool} {c : Constraint} (h : c.Every (Constraint.Spellable refs)) : c.keep.Every (Constraint.Stays refs) := by
  refine every_keep trivial (fun c h => ?_) h
  cases c with
  | integer c => exact rebuildInt_keep c
  | array a =>
    rw [keep_array]
    exact Or.inl (by simp [ArrC.keep])
  | object o =>
    rw [keep_object]
    obtain ⟨h1, h3, h2, h4, h5, h6, h7⟩ := h
    refine ⟨by simpa [ObjC.keep, ObjC.map, Function.comp_def] using h1, by simpa [ObjC.keep, ObjC.map, Function.comp_def] using h2, h3,
      fun p hp => ?_, fun p hp => ?_, h6, h7, rfl, by simp [ObjC.keep], by simp [ObjC.keep]⟩
    · obtain ⟨q, hq, rfl⟩ := List.mem_map.1 hp
      exact h4 q hq
    · obtain ⟨q, hq, rfl⟩ := List.mem_map.1 hp
      exact h5 q hq
  | any l =>
    by_cases hl : l = []
    · subst hl; exact True.intro
    · rw [keep_any hl]; exact True.intro
  | all l => rw [keep_all]; exact True.intro
  | oneOf l =>
    by_cases hl : l = []
    · subst hl; exact True.intro
    · rw [keep_oneOf hl]; exact True.intro
  | not c => exact h.elim
  | enum l => exact h.elim
  | empty => exact True.intro
  | null => exact True.intro
  | boolean => exact True.intro
  | string => exact True.intro
  | number => exact True.intro
  | ref m n => exact h

end Jsval
