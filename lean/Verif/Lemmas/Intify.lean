import Verif.Lemmas.Erase
import Verif.Lemmas.RebuildSem
import Verif.Lemmas.Pipeline
/-!
# Integer defaults as generated code reads them

The generator writes the default of an integer without fraction, and it becomes an `int`. `Constraint.intify` makes this change in a tree.
It does not matter where nothing looks at what is filled in.
-/
namespace Jsval

mutual
/-- The constraint with `int` defaults for integers. -/
def Constraint.intify : Constraint → Constraint
  | .empty => .empty
  | .null => .null
  | .boolean d => .boolean d
  | .string c => .string c
  | .number c => .number c
  | .integer c => .integer (rebuildInt c)
  | .enum l => .enum l
  | .array ⟨i, p, a, mn, mx, u⟩ => .array ⟨intifyOpt i, intifyList p, intifyOpt a, mn, mx, u⟩
  | .object ⟨ps, pats, a, req, pd, sd, mn, mx⟩ =>
    .object ⟨intifyProps ps, intifyPats pats, intifyOpt a, req, pd, intifyProps sd, mn, mx⟩
  | .any cs => .any (intifyList cs)
  | .all cs => .all (intifyList cs)
  | .oneOf cs => .oneOf (intifyList cs)
  | .not c => .not (intifyOpt c)
  | .ref m n => .ref m n
/-- Optional child. -/
def intifyOpt : Option Constraint → Option Constraint
  | none => none
  | some c => some c.intify
/-- List of children. -/
def intifyList : List Constraint → List Constraint
  | [] => []
  | c :: cs => c.intify :: intifyList cs
/-- Named children. -/
def intifyProps : List (GoStr × Constraint) → List (GoStr × Constraint)
  | [] => []
  | (n, c) :: cs => (n, c.intify) :: intifyProps cs
/-- Pattern children. -/
def intifyPats : List (Nat × GoStr × Constraint) → List (Nat × GoStr × Constraint)
  | [] => []
  | (i, s, c) :: cs => (i, s, c.intify) :: intifyPats cs
end

/-- The registered constraints with `int` defaults for integers. -/
def Env.intify (env : Env) : Env := fun m n => (env m n).map Constraint.intify

theorem intifyOpt_eq (o : Option Constraint) : intifyOpt o = o.map Constraint.intify := by
  cases o <;> simp [intifyOpt]
theorem intifyList_eq : ∀ l, intifyList l = l.map Constraint.intify
  | [] => by simp [intifyList]
  | c :: l => by simp [intifyList, intifyList_eq l]
theorem intifyProps_eq : ∀ l, intifyProps l = l.map (fun p => (p.1, p.2.intify))
  | [] => by simp [intifyProps]
  | (n, c) :: l => by simp [intifyProps, intifyProps_eq l]
theorem intifyPats_eq : ∀ l, intifyPats l = l.map (fun p => (p.1, p.2.1, p.2.2.intify))
  | [] => by simp [intifyPats]
  | (i, s, c) :: l => by simp [intifyPats, intifyPats_eq l]
theorem intify_array (a : ArrC Constraint) : (Constraint.array a).intify = .array (a.map Constraint.intify) := by
  cases a; simp [Constraint.intify, ArrC.map, intifyOpt_eq, intifyList_eq]
theorem intify_object (o : ObjC Constraint) : (Constraint.object o).intify = .object (o.map Constraint.intify) := by
  cases o; simp [Constraint.intify, ObjC.map, intifyOpt_eq, intifyProps_eq, intifyPats_eq]
theorem intify_any (l : List Constraint) : (Constraint.any l).intify = .any (l.map Constraint.intify) := by
  simp [Constraint.intify, intifyList_eq]
theorem intify_all (l : List Constraint) : (Constraint.all l).intify = .all (l.map Constraint.intify) := by
  simp [Constraint.intify, intifyList_eq]
theorem intify_oneOf (l : List Constraint) : (Constraint.oneOf l).intify = .oneOf (l.map Constraint.intify) := by
  simp [Constraint.intify, intifyList_eq]
theorem intify_not (c : Option Constraint) : (Constraint.not c).intify = .not (c.map Constraint.intify) := by
  simp [Constraint.intify, intifyOpt_eq]

theorem intify_child {c d : Constraint} (h : c.intify.Child d) : ∃ e, c.Child e ∧ e.intify = d := by
  cases c with
  | array a =>
    rw [intify_array] at h
    cases h with
    | array h =>
      obtain ⟨e, h1, h2⟩ := ArrC.map_child' h
      exact ⟨e, .array h1, h2⟩
  | object o =>
    rw [intify_object] at h
    cases h with
    | object h =>
      obtain ⟨e, h1, h2⟩ := (ObjC.map_child _ _).1 h
      exact ⟨e, .object h1, h2⟩
  | any cs =>
    rw [intify_any] at h
    cases h with
    | any h => obtain ⟨e, h1, h2⟩ := List.mem_map.1 h; exact ⟨e, .any h1, h2⟩
  | all cs =>
    rw [intify_all] at h
    cases h with
    | all h => obtain ⟨e, h1, h2⟩ := List.mem_map.1 h; exact ⟨e, .all h1, h2⟩
  | oneOf cs =>
    rw [intify_oneOf] at h
    cases h with
    | oneOf h => obtain ⟨e, h1, h2⟩ := List.mem_map.1 h; exact ⟨e, .oneOf h1, h2⟩
  | not c =>
    rw [intify_not] at h
    cases c with
    | none => cases h
    | some c => cases h; exact ⟨c, .not, rfl⟩
  | _ => simp only [Constraint.intify] at h; cases h

/-- A property of all constraints of the tree. -/
theorem every_intify {L L' : Constraint → Prop} (hL : ∀ c, L c → L' c.intify) {c : Constraint} (h : c.Every L) : c.intify.Every L' := by
  induction c using Constraint.ind with
  | h c ih =>
    refine every_of_children (hL c h.self) fun d hd => ?_
    obtain ⟨e, h1, rfl⟩ := intify_child hd
    exact ih e h1 (h.child h1)

theorem intify_ref {c : Constraint} {m : Nat} {n : GoStr} (h : c.intify = .ref m n) : c = .ref m n := by
  cases c with
  | ref m' n' => simpa [Constraint.intify] using h
  | array a => rw [intify_array] at h; cases h
  | object o => rw [intify_object] at h; cases h
  | _ => simp [Constraint.intify] at h

theorem intify_object_inv {c : Constraint} {o : ObjC Constraint} (h : c.intify = .object o) : ∃ o', c = .object o' ∧ o = o'.map Constraint.intify := by
  cases c with
  | object o' => rw [intify_object] at h; cases h; exact ⟨o', rfl, rfl⟩
  | array a => rw [intify_array] at h; cases h
  | _ => simp [Constraint.intify] at h

theorem intify_default {c : Constraint} (h : c.intify.ownDefault ≠ none) : c.ownDefault ≠ none := by
  cases c with
  | array a => rw [intify_array] at h; exact absurd rfl h
  | object o => rw [intify_object] at h; exact absurd rfl h
  | integer c =>
    intro hc
    apply h
    have hc : c.dflt = none := hc
    simp [Constraint.intify, Constraint.ownDefault, rebuildInt, hc]
  | _ => simpa [Constraint.intify, Constraint.ownDefault] using h

theorem intify_resolves {env : Env} {c e : Constraint} (h : c.intify.Resolves env.intify e) : ∃ d, c.Resolves env d ∧ d.intify = e := by
  generalize hc : c.intify = c' at h
  induction h generalizing c with
  | refl => exact ⟨c, .refl _, hc⟩
  | ref he _ ih =>
    have := intify_ref hc
    subst this
    obtain ⟨d, hd, rfl⟩ := Option.map_eq_some_iff.1 he
    obtain ⟨x, h1, h2⟩ := ih rfl
    exact ⟨x, .ref hd h1, h2⟩

theorem intify_defaulted {env : Env} {c : Constraint} (h : Defaulted env.intify c.intify) : Defaulted env c := by
  obtain ⟨d, h1, h2⟩ := h
  obtain ⟨e, h3, rfl⟩ := intify_resolves h1
  exact ⟨e, h3, intify_default h2⟩

theorem intify_fills {env : Env} {c : Constraint} (h : c.intify.FillsIn env.intify) : c.FillsIn env := by
  generalize hc : c.intify = c' at h
  cases h with
  | mk hp hd =>
    obtain ⟨o, rfl, rfl⟩ := intify_object_inv hc
    simp only [ObjC.map, List.mem_map] at hp
    obtain ⟨q, hq, he⟩ := hp
    cases he
    exact .mk hq (intify_defaulted hd)

theorem intify_uses {env : Env} {c e : Constraint} (h : c.intify.Uses env.intify e) : ∃ d, c.Uses env d ∧ d.intify = e := by
  generalize hc : c.intify = c' at h
  induction h generalizing c with
  | refl => exact ⟨c, .refl _, hc⟩
  | child h1 _ ih =>
    subst hc
    obtain ⟨x, h2, rfl⟩ := intify_child h1
    obtain ⟨d, h3, h4⟩ := ih rfl
    exact ⟨d, .child h2 h3, h4⟩
  | ref he _ ih =>
    have := intify_ref hc
    subst this
    obtain ⟨d, hd, rfl⟩ := Option.map_eq_some_iff.1 he
    obtain ⟨x, h1, h2⟩ := ih rfl
    exact ⟨x, .ref hd h1, h2⟩

theorem intify_inert {env : Env} {c : Constraint} (h : Inert env c) : Inert env.intify c.intify := by
  intro e he hf
  obtain ⟨d, h1, rfl⟩ := intify_uses he
  exact h d h1 (intify_fills hf)

theorem intify_scalars {c : Constraint} (h : c.ForScalars) : c.intify.ForScalars := by
  cases h <;> simp only [Constraint.intify] <;> constructor

theorem intify_clash {env : Env} {a b : Constraint} (h : Clash env a b) : Clash env.intify a.intify b.intify := by
  induction h with
  | objectScalar h => rw [intify_object]; exact .objectScalar (intify_scalars h)
  | objectArray => rw [intify_object, intify_array]; exact .objectArray
  | arrayScalar h => rw [intify_array]; exact .arrayScalar (intify_scalars h)
  | arrayObject => rw [intify_object, intify_array]; exact .arrayObject
  | left he _ ih => exact .left (by rw [Env.intify, he]; rfl) ih
  | right he _ ih => exact .right (by rw [Env.intify, he]; rfl) ih
  | leftNothing he => exact .leftNothing (by rw [Env.intify, he]; rfl)
  | rightNothing he => exact .rightNothing (by rw [Env.intify, he]; rfl)

theorem intify_unseen {env : Env} {c : Constraint} (h : Unseen env c) : Unseen env.intify c.intify := by
  cases c with
  | all cs => rw [intify_all]; exact List.pairwise_map.2 (List.Pairwise.imp (fun h => intify_inert h) h)
  | any cs => rw [intify_any]; exact List.pairwise_map.2 (List.Pairwise.imp (fun h => h.imp intify_inert intify_clash) h)
  | oneOf cs => rw [intify_oneOf]; exact List.pairwise_map.2 (List.Pairwise.imp (fun h => h.imp intify_inert intify_clash) h)
  | array a =>
    rw [intify_array]
    intro d hd
    obtain ⟨e, he, rfl⟩ := Option.map_eq_some_iff.1 hd
    rcases h e he with rfl | h
    · exact Or.inl rfl
    · refine Or.inr fun p hp => ?_
      obtain ⟨q, hq, rfl⟩ := List.mem_map.1 hp
      exact intify_inert (h q hq)
  | object o =>
    rw [intify_object]
    refine ⟨(ObjC.map_wf _ _).2 h.1, h.2.imp (fun h => ?_) fun h => ?_⟩
    · simp [ObjC.map, h]
    · rw [← intify_object]; exact intify_inert h
  | not c => rw [intify_not]; trivial
  | _ => trivial

mutual
theorem intify_plain : ∀ c : Constraint, c.intify.plain = c.plain
  | .empty => rfl
  | .null => rfl
  | .boolean d => rfl
  | .string c => rfl
  | .number c => rfl
  | .integer c => by
    cases h : c.dflt with
    | none => simp [Constraint.intify, Constraint.plain, rebuildInt, h]
    | some v => simp only [Constraint.intify, Constraint.plain, rebuildInt, h, Option.map_some]
  | .enum l => rfl
  | .array ⟨i, p, a, mn, mx, u⟩ => by simp only [Constraint.intify, Constraint.plain, intify_plainOpt i, intify_plainList p, intify_plainOpt a]
  | .object ⟨ps, pats, a, req, pd, sd, mn, mx⟩ => by
    simp only [Constraint.intify, Constraint.plain, intify_plainProps ps, intify_plainPats pats, intify_plainOpt a, intify_plainProps sd]
  | .any cs => by simp only [Constraint.intify, Constraint.plain, intify_plainList cs]
  | .all cs => by simp only [Constraint.intify, Constraint.plain, intify_plainList cs]
  | .oneOf cs => by simp only [Constraint.intify, Constraint.plain, intify_plainList cs]
  | .not c => by simp only [Constraint.intify, Constraint.plain, intify_plainOpt c]
  | .ref m n => rfl
theorem intify_plainOpt : ∀ c : Option Constraint, plainOpt (intifyOpt c) = plainOpt c
  | none => rfl
  | some c => by simp only [intifyOpt, plainOpt, intify_plain c]
theorem intify_plainList : ∀ l : List Constraint, plainList (intifyList l) = plainList l
  | [] => rfl
  | c :: l => by simp only [intifyList, plainList, intify_plain c, intify_plainList l]
theorem intify_plainProps : ∀ l : List (GoStr × Constraint), plainProps (intifyProps l) = plainProps l
  | [] => rfl
  | (n, c) :: l => by simp only [intifyProps, plainProps, intify_plain c, intify_plainProps l]
theorem intify_plainPats : ∀ l : List (Nat × GoStr × Constraint), plainPats (intifyPats l) = plainPats l
  | [] => rfl
  | (i, s, c) :: l => by simp only [intifyPats, plainPats, intify_plain c, intify_plainPats l]
end

section
variable {m : Nat}

mutual
theorem intify_rebuild : ∀ c : Constraint, rebuild m c.intify = rebuild m c
  | .empty => rfl
  | .null => rfl
  | .boolean d => rfl
  | .string c => rfl
  | .number c => rfl
  | .integer c => by
    cases h : c.dflt with
    | none => simp [Constraint.intify, rebuild, rebuildInt, h]
    | some v =>
      simp only [Constraint.intify, rebuild, rebuildInt, h, Option.map_some]
      cases v with
      | float k f => cases k <;> rfl
      | _ => rfl
  | .enum l => rfl
  | .array ⟨i, p, a, mn, mx, u⟩ => by simp only [Constraint.intify, rebuild, intify_rebuildOpt i, intify_rebuildList p, intify_rebuildOpt a]
  | .object ⟨ps, pats, a, req, pd, sd, mn, mx⟩ => by
    simp only [Constraint.intify, rebuild, intify_rebuildProps ps, intify_rebuildPats pats, intify_rebuildOpt a, intify_rebuildProps sd]
  | .any cs => by simp only [Constraint.intify, rebuild, intify_rebuildList cs]
  | .all cs => by 
    cases cs with
    | nil => rfl
    | cons c cs => simp only [Constraint.intify, intifyList, rebuild, intify_rebuild c, intify_rebuildList cs]
  | .oneOf cs => by simp only [Constraint.intify, rebuild, intify_rebuildList cs]
  | .not c => by simp only [Constraint.intify, rebuild, intify_rebuildOpt c]
  | .ref m n => rfl
theorem intify_rebuildOpt : ∀ c : Option Constraint, rebuildOpt m (intifyOpt c) = rebuildOpt m c
  | none => rfl
  | some c => by simp only [intifyOpt, rebuildOpt, intify_rebuild c]
theorem intify_rebuildList : ∀ l : List Constraint, rebuildList m (intifyList l) = rebuildList m l
  | [] => rfl
  | c :: l => by simp only [intifyList, rebuildList, intify_rebuild c, intify_rebuildList l]
theorem intify_rebuildProps : ∀ l : List (GoStr × Constraint), rebuildProps m (intifyProps l) = rebuildProps m l
  | [] => rfl
  | (n, c) :: l => by simp only [intifyProps, rebuildProps, intify_rebuild c, intify_rebuildProps l]
theorem intify_rebuildPats : ∀ l : List (Nat × GoStr × Constraint), rebuildPats m (intifyPats l) = rebuildPats m l
  | [] => rfl
  | (i, s, c) :: l => by simp only [intifyPats, rebuildPats, intify_rebuild c, intify_rebuildPats l]
end

/-- The tree that generated code sets up behaves like this one. -/
theorem intify_stays {ints : Prop} {refs : Bool} {c : Constraint} (h : c.GenD ints refs) : c.intify.Stays refs := by
  cases c with
  | integer c =>
    show rebuildInt (rebuildInt c) = rebuildInt c
    cases hd : c.dflt with
    | none => simp [rebuildInt, hd]
    | some v =>
      obtain ⟨-, f, rfl⟩ := h.dflt v hd
      simp [rebuildInt, hd]
  | array a =>
    rw [intify_array]
    rcases h with h | h | h
    · exact Or.inl (by simpa [ArrC.map] using h)
    · exact Or.inr (Or.inl (by simpa [ArrC.map] using h))
    · exact Or.inr (Or.inr (by simpa [ArrC.map] using h))
  | object o =>
    rw [intify_object]
    obtain ⟨h1, h2, h3, h4, h5, h6, h7, h8, h9, h10⟩ := h
    refine ⟨by simpa [ObjC.map, Function.comp_def] using h1, by simpa [ObjC.map, Function.comp_def] using h2, h3, fun p hp => ?_, fun p hp => ?_, h6, h7,
      by simp [ObjC.map, h8], h9, h10⟩
    · obtain ⟨q, hq, rfl⟩ := List.mem_map.1 hp
      exact h4 q hq
    · obtain ⟨q, hq, rfl⟩ := List.mem_map.1 hp
      exact h5 q hq
  | any l => rw [intify_any]; trivial
  | all l => rw [intify_all]; trivial
  | oneOf l => rw [intify_oneOf]; trivial
  | boolean _ => exact True.intro
  | string _ => exact True.intro
  | number _ => exact True.intro
  | not c => exact h.elim
  | enum l => exact h.elim
  | _ => exact h

theorem intify_refsTo {m : Nat} {S : GoStr → Prop} {c : Constraint} (h : c.RefsTo m S) : c.intify.RefsTo m S :=
  fun m' n he => h m' n (intify_ref he)

end

end Jsval
