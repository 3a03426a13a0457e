import Verif.Lemmas.BuildPure
import Verif.Spec.Rewritten
import Verif.Props.Builder
/-!
# Schemas written in two ways are built alike
-/
namespace Jsval

/-- Relations that hold between constraints built alike if they hold between their parts. -/
structure PairClosed (B : Constraint → Constraint → Prop) : Prop where
  leaf : ∀ {c}, (∀ d, ¬ Constraint.Child c d) → (∀ m n, c ≠ .ref m n) → B c c
  array : ∀ {a : ArrC (Constraint × Constraint)}, (∀ p, a.Child p → B p.1 p.2) → B (.array (a.map Prod.fst)) (.array (a.map Prod.snd))
  object : ∀ {o : ObjC (Constraint × Constraint)}, (∀ p, o.Child p → B p.1 p.2) → B (.object (o.map Prod.fst)) (.object (o.map Prod.snd))
  any : ∀ {l : List (Constraint × Constraint)}, (∀ p ∈ l, B p.1 p.2) → B (.any (l.map Prod.fst)) (.any (l.map Prod.snd))
  all : ∀ {l : List (Constraint × Constraint)}, (∀ p ∈ l, B p.1 p.2) → B (.all (l.map Prod.fst)) (.all (l.map Prod.snd))
  oneOf : ∀ {l : List (Constraint × Constraint)}, (∀ p ∈ l, B p.1 p.2) → B (.oneOf (l.map Prod.fst)) (.oneOf (l.map Prod.snd))
  not : ∀ {c d}, B c d → B (.not (some c)) (.not (some d))

section
variable {B : Constraint → Constraint → Prop} (hB : PairClosed B)
include hB

theorem PairClosed.empty : B .empty .empty := hB.leaf (fun d h => by cases h) (fun m n h => by cases h)

theorem PairClosed.reduce {l : List (Constraint × Constraint)} (h : ∀ p ∈ l, B p.1 p.2) :
    B (reduceAll (l.map Prod.fst)) (reduceAll (l.map Prod.snd)) ∧ B (reduceAny (l.map Prod.fst)) (reduceAny (l.map Prod.snd)) ∧
      B (reduceOneOf (l.map Prod.fst)) (reduceOneOf (l.map Prod.snd)) := by
  unfold reduceAll reduceAny reduceOneOf reduceCombined
  match l, h with
  | [], h => exact ⟨hB.all h, hB.any h, hB.oneOf h⟩
  | [p], h => exact ⟨h p (by simp), h p (by simp), h p (by simp)⟩
  | p :: q :: l, h => exact ⟨hB.all h, hB.any h, hB.oneOf h⟩

variable {s : SchemaF (Constraint × Constraint)} (hs : ∀ p, s.Child p → B p.1 p.2)
include hs

theorem PairClosed.type (t : PrimType) : B (typeC (s.map Prod.fst) t) (typeC (s.map Prod.snd) t) := by
  cases t with
  | array =>
    have h1 := arrC_map Prod.fst s (Constraint.empty, Constraint.empty)
    have h2 := arrC_map Prod.snd s (Constraint.empty, Constraint.empty)
    simp only [typeC]
    simp only at h1 h2
    rw [h1, h2]
    refine hB.array fun p hp => ?_
    rcases arrC_child hp with rfl | hp
    · exact hB.empty
    · exact hs p hp
  | object =>
    have h1 := objC_map Prod.fst s (Constraint.empty, Constraint.empty)
    have h2 := objC_map Prod.snd s (Constraint.empty, Constraint.empty)
    simp only [typeC]
    simp only at h1 h2
    rw [h1, h2]
    refine hB.object fun p hp => ?_
    rcases objC_child hp with rfl | hp
    · exact hB.empty
    · exact hs p hp
  | boolean =>
    change B (match s.dflt with | .bool b => .boolean (some (.bool b)) | _ => .boolean none)
      (match s.dflt with | .bool b => .boolean (some (.bool b)) | _ => .boolean none)
    generalize s.dflt = d
    cases d <;> exact hB.leaf (fun d h => by cases h) (fun m n h => by cases h)
  | _ => exact hB.leaf (fun d h => by cases h) (fun m n h => by cases h)

theorem PairClosed.combo : ∃ l : List (Constraint × Constraint), comboC (s.map Prod.fst) = l.map Prod.fst ∧ comboC (s.map Prod.snd) = l.map Prod.snd ∧
    ∀ p ∈ l, B p.1 p.2 := by
  unfold comboC
  simp only [SchemaF.map, List.length_map]
  cases hn : s.not with
  | some p =>
    refine ⟨[(.not (some p.1), .not (some p.2))], rfl, rfl, fun q hq => ?_⟩
    simp only [List.mem_singleton] at hq
    subst hq
    exact hB.not (hs p (.not hn))
  | none =>
    simp only [Option.map_none]
    split
    · refine ⟨[(reduceAll (s.allOf.map Prod.fst), reduceAll (s.allOf.map Prod.snd))], rfl, rfl, fun q hq => ?_⟩
      simp only [List.mem_singleton] at hq
      subst hq
      exact (hB.reduce fun p hp => hs p (.allOf hp)).1
    split
    · refine ⟨[(reduceAny (s.anyOf.map Prod.fst), reduceAny (s.anyOf.map Prod.snd))], rfl, rfl, fun q hq => ?_⟩
      simp only [List.mem_singleton] at hq
      subst hq
      exact (hB.reduce fun p hp => hs p (.anyOf hp)).2.1
    split
    · refine ⟨[(reduceOneOf (s.oneOf.map Prod.fst), reduceOneOf (s.oneOf.map Prod.snd))], rfl, rfl, fun q hq => ?_⟩
      simp only [List.mem_singleton] at hq
      subst hq
      exact (hB.reduce fun p hp => hs p (.oneOf hp)).2.2
    · exact ⟨[], rfl, rfl, fun q hq => by cases hq⟩

theorem PairClosed.node (lib : SchemaLib) (m m' : Nat) (hr : s.reference = []) : B (nodeC lib m (s.map Prod.fst)) (nodeC lib m' (s.map Prod.snd)) := by
  obtain ⟨l, e1, e2, hl⟩ := hB.combo hs
  have hf := types_of_map lib Prod.fst s
  have hg := types_of_map lib Prod.snd s
  unfold nodeC
  rw [e1, e2, hf, hg]
  have hz : ¬ s.reference ≠ [] := by simp [hr]
  rw [show (s.map Prod.fst).reference = s.reference from rfl, show (s.map Prod.snd).reference = s.reference from rfl, if_neg hz, if_neg hz,
    show (s.map Prod.fst).enum = s.enum from rfl, show (s.map Prod.snd).enum = s.enum from rfl]
  have happ : ∀ {c d}, B c d → B (reduceAll (l.map Prod.fst ++ [c])) (reduceAll (l.map Prod.snd ++ [d])) := by
    intro c d hcd
    have := (hB.reduce (l := l ++ [(c, d)]) (fun p hp => by
      simp only [List.mem_append, List.mem_singleton] at hp
      rcases hp with hp | rfl
      · exact hl p hp
      · exact hcd)).1
    simpa only [List.map_append, List.map_cons, List.map_nil] using this
  split
  · refine happ ?_
    have := (hB.reduce (l := (schemaTypes lib s).map fun t => (typeC (s.map Prod.fst) t, typeC (s.map Prod.snd) t)) (fun p hp => by
      obtain ⟨t, -, rfl⟩ := List.mem_map.1 hp
      exact hB.type hs t)).2.1
    simpa only [List.map_map, Function.comp_def] using this
  split
  · exact happ (hB.leaf (fun d h => by cases h) (fun m n h => by cases h))
  · exact (hB.reduce hl).1
end

/-- All references in the constraint go to map `m` and are found there. -/
def AllFound (m : Nat) (env : Env) (c : Constraint) : Prop := ∀ a n, (Constraint.ref a n).In c → a = m ∧ ∃ d, env a n = some d

theorem AllFound.child {m : Nat} {env : Env} {c d : Constraint} (h : AllFound m env c) (hd : c.Child d) : AllFound m env d :=
  fun a n hin => h a n (.child hd hin)

theorem ArrC.child_into {C D : Type} (f : C → D) {a : ArrC C} {c : C} (h : a.Child c) : (a.map f).Child (f c) := by
  cases h with
  | items h => exact .items (by simp [ArrC.map, h])
  | positional h => exact .positional (List.mem_map_of_mem h)
  | additional h => exact .additional (by simp [ArrC.map, h])

theorem ObjC.child_into {C D : Type} (f : C → D) {o : ObjC C} {c : C} (h : o.Child c) : (o.map f).Child (f c) := by
  cases h with
  | @prop p _ h => exact .prop (List.mem_map.2 ⟨(p, c), h, rfl⟩)
  | @pattern i n _ h => exact .pattern (List.mem_map.2 ⟨(i, n, c), h, rfl⟩)
  | additional h => exact .additional (by simp [ObjC.map, h])
  | @dependency p _ h => exact .dependency (p := p) (by
      simp only [ObjC.GetSchemaDependency, ObjC.map, alookup_map] at h ⊢
      rw [h]
      rfl)

theorem found_closed {m m' : Nat} {env env' : Env} {R : Nat × GoStr → Nat × GoStr → Prop} :
    PairClosed fun c d => AllFound m env c → AllFound m' env' d → BuiltAlike env env' R c d where
  leaf h1 h2 := fun _ _ => .leaf h1 h2
  array h := fun f f' => .array fun p hp => h p hp (f.child (.array (ArrC.child_into _ hp))) (f'.child (.array (ArrC.child_into _ hp)))
  object h := fun f f' => .object fun p hp => h p hp (f.child (.object (ObjC.child_into _ hp))) (f'.child (.object (ObjC.child_into _ hp)))
  any h := fun f f' => .any fun p hp => h p hp (f.child (.any (List.mem_map_of_mem hp))) (f'.child (.any (List.mem_map_of_mem hp)))
  all h := fun f f' => .all fun p hp => h p hp (f.child (.all (List.mem_map_of_mem hp))) (f'.child (.all (List.mem_map_of_mem hp)))
  oneOf h := fun f f' => .oneOf fun p hp => h p hp (f.child (.oneOf (List.mem_map_of_mem hp))) (f'.child (.oneOf (List.mem_map_of_mem hp)))
  not h := fun f f' => .not (h (f.child .not) (f'.child .not))

section
variable {lib : SchemaLib} {m m' : Nat} {env env' : Env} {L L' : GoStr → Schema → Prop} {N : GoStr → GoStr → Prop}

/-- Names taken for each other that are both registered. -/
def BothFound (m m' : Nat) (env env' : Env) (N : GoStr → GoStr → Prop) (p q : Nat × GoStr) : Prop :=
  p.1 = m ∧ q.1 = m' ∧ N p.2 q.2 ∧ (∃ d, env p.1 p.2 = some d) ∧ ∃ d, env' q.1 q.2 = some d

theorem buildC_ref {s : SchemaF Schema} (h : s.reference ≠ []) : buildC lib m (.mk s) = .ref m s.reference := by
  rw [buildC_mk, nodeC, if_pos (show (s.map (buildC lib m)).reference ≠ [] from h)]
  rfl

theorem rewritten_alike (hE : ∀ n d, env m n = some d → AllFound m env d ∧ ∀ t, L n t → d = buildC lib m t)
    (hE' : ∀ n d, env' m' n = some d → AllFound m' env' d ∧ ∀ t, L' n t → d = buildC lib m' t) {s s' : Schema} (h : Rewritten L L' N s s') :
    AllFound m env (buildC lib m s) → AllFound m' env' (buildC lib m' s') → BuiltAlike env env' (BothFound m m' env env' N) (buildC lib m s) (buildC lib m' s') := by
  induction h with
  | nil => exact fun _ _ => .leaf (fun d h => by cases h) (fun m n h => by cases h)
  | @same s hr _ ih =>
    have e1 : buildC lib m (.mk (s.map Prod.fst)) = nodeC lib m ((s.map fun p => (buildC lib m p.1, buildC lib m' p.2)).map Prod.fst) := by
      rw [buildC_mk, SchemaF.map_map, SchemaF.map_map]
    have e2 : buildC lib m' (.mk (s.map Prod.snd)) = nodeC lib m' ((s.map fun p => (buildC lib m p.1, buildC lib m' p.2)).map Prod.snd) := by
      rw [buildC_mk, SchemaF.map_map, SchemaF.map_map]
    rw [e1, e2]
    refine PairClosed.node (found_closed (m := m) (m' := m') (env := env) (env' := env') (R := BothFound m m' env env' N)) (fun p hp => ?_) lib m m' hr
    obtain ⟨q, hq, rfl⟩ := SchemaF.child_map hp
    exact ih q hq
  | names h1 h2 h3 =>
    rw [buildC_ref h1, buildC_ref h2]
    exact fun f f' => .ref ⟨rfl, rfl, h3, (f _ _ (.refl _)).2, (f' _ _ (.refl _)).2⟩
  | left h1 h2 _ ih =>
    rw [buildC_ref h1]
    intro f f'
    obtain ⟨-, d, hd⟩ := f _ _ (.refl _)
    obtain ⟨hf, ht⟩ := hE _ d hd
    rw [ht _ h2] at hd hf
    exact .left hd (ih hf f')
  | right h1 h2 _ ih =>
    rw [buildC_ref h1]
    intro f f'
    obtain ⟨-, d, hd⟩ := f' _ _ (.refl _)
    obtain ⟨hf, ht⟩ := hE' _ d hd
    rw [ht _ h2] at hd hf
    exact .right hd (ih f hf)
end

section
variable {lib : SchemaLib} {m m' : Nat} {resolve resolve' : Resolver} {N : GoStr → GoStr → Prop} {s s' : Schema} {fuel fuel' : Nat} {b b' : Built}

theorem allFound_root {σ : Sched} (h : BuildWithCtx lib m resolve fuel σ s = .ok b) : AllFound m (b.env m) b.root := by
  intro a n hin
  obtain ⟨rfl, c, hc⟩ := C61_no_dangling_ctx h (.inl hin)
  exact ⟨rfl, c, by simp only [Built.env, if_true, hc]⟩

theorem allFound_entry {σ : Sched} (h : BuildWithCtx lib m resolve fuel σ s = .ok b) {n : GoStr} {d : Constraint} (hd : b.env m m n = some d) :
    AllFound m (b.env m) d := by
  simp only [Built.env, if_true] at hd
  intro a k hin
  obtain ⟨rfl, c, hc⟩ := C61_no_dangling_ctx h (.inr ⟨_, _, hd, hin⟩)
  exact ⟨rfl, c, by simp only [Built.env, if_true, hc]⟩

theorem entry_leads (hroot : ∀ t, (resolve (b! "#")).target = .ok t → t = s) (h : BuildWithCtx lib m resolve fuel zeroSched s = .ok b) {n : GoStr}
    {d : Constraint} (hd : b.env m m n = some d) : (∃ t, Leads resolve s n t) ∧ ∀ t, Leads resolve s n t → d = buildC lib m t := by
  simp only [Built.env, if_true] at hd
  rcases (built_zero h).2 n d hd with ⟨rfl, rfl⟩ | ⟨t, ht, rfl⟩
  · refine ⟨⟨s, .inl ⟨rfl, rfl⟩⟩, fun t ht => ?_⟩
    rcases ht with ⟨-, rfl⟩ | ⟨hn, -⟩
    · rfl
    · exact absurd rfl hn
  · by_cases hn : n = b! "#"
    · subst hn
      have := hroot t ht
      subst this
      refine ⟨⟨t, .inl ⟨rfl, rfl⟩⟩, fun t' ht' => ?_⟩
      rcases ht' with ⟨-, rfl⟩ | ⟨hn, -⟩
      · rfl
      · exact absurd rfl hn
    · refine ⟨⟨t, .inr ⟨hn, ht⟩⟩, fun t' ht' => ?_⟩
      rcases ht' with ⟨h1, -⟩ | ⟨-, h2⟩
      · exact absurd h1 hn
      · rw [ht] at h2
        cases h2
        rfl

theorem same_corresponds (hd : SameDocument resolve resolve' N s s') (h : BuildWithCtx lib m resolve fuel zeroSched s = .ok b)
    (h' : BuildWithCtx lib m' resolve' fuel' zeroSched s' = .ok b') :
    Corresponds (b.env m) (b'.env m') (BothFound m m' (b.env m) (b'.env m') N) ∧
      BuiltAlike (b.env m) (b'.env m') (BothFound m m' (b.env m) (b'.env m') N) b.root b'.root := by
  have hE : ∀ n d, b.env m m n = some d → AllFound m (b.env m) d ∧ ∀ t, Leads resolve s n t → d = buildC lib m t :=
    fun n d he => ⟨allFound_entry h he, (entry_leads hd.root h he).2⟩
  have hE' : ∀ n d, b'.env m' m' n = some d → AllFound m' (b'.env m') d ∧ ∀ t, Leads resolve' s' n t → d = buildC lib m' t :=
    fun n d he => ⟨allFound_entry h' he, (entry_leads hd.root' h' he).2⟩
  refine ⟨⟨?_, ?_, ?_⟩, ?_⟩
  · intro a n a' n' c d hR hc hc'
    obtain ⟨h1, h2, h3, -, -⟩ := hR
    simp only at h1 h2 h3
    subst h1
    subst h2
    obtain ⟨t, ht⟩ := (entry_leads hd.root h hc).1
    obtain ⟨t', ht'⟩ := (entry_leads hd.root' h' hc').1
    have f := (hE n c hc).1
    have f' := (hE' n' d hc').1
    rw [(hE n c hc).2 t ht] at f ⊢
    rw [(hE' n' d hc').2 t' ht'] at f' ⊢
    exact rewritten_alike hE hE' (hd.parts h3 ht ht') f f'
  · intro a n a' n' hR
    obtain ⟨-, -, -, ⟨c, hc⟩, d, hd⟩ := hR
    simp only at hc hd
    simp [hc, hd]
  · intro a n a' n' hR hn
    obtain ⟨-, -, -, ⟨c, hc⟩, -⟩ := hR
    simp only at hc
    rw [hn] at hc
    cases hc
  · have f := allFound_root h
    have f' := allFound_root h'
    rw [(built_zero h).1] at f ⊢
    rw [(built_zero h').1] at f' ⊢
    exact rewritten_alike hE hE' hd.whole f f'
end

end Jsval
