import Verif.Spec.Matches
import Verif.Lemmas.ReportedTree
import Verif.Lemmas.Graph
/-!
# Matching constraints behave alike
-/
namespace Jsval

variable {env env' : Env} {R : Nat × GoStr → Nat × GoStr → Prop}

theorem ArrC.map_map' {C D E : Type} (f : C → D) (g : D → E) (a : ArrC C) : (a.map f).map g = a.map (fun c => g (f c)) := by
  simp [ArrC.map, Function.comp_def]
theorem ObjC.map_map' {C D E : Type} (f : C → D) (g : D → E) (o : ObjC C) : (o.map f).map g = o.map (fun c => g (f c)) := by
  simp [ObjC.map, Function.comp_def]

theorem ArrC.child_of_map {C D : Type} {f : C → D} {a : ArrC C} {d : D} (h : (a.map f).Child d) : ∃ c, a.Child c ∧ d = f c := by
  cases h with
  | items h =>
    obtain ⟨c, hc, rfl⟩ := Option.map_eq_some_iff.1 h
    exact ⟨c, .items hc, rfl⟩
  | positional h =>
    obtain ⟨c, hc, rfl⟩ := List.mem_map.1 h
    exact ⟨c, .positional hc, rfl⟩
  | additional h =>
    obtain ⟨c, hc, rfl⟩ := Option.map_eq_some_iff.1 h
    exact ⟨c, .additional hc, rfl⟩

theorem ObjC.child_of_map {C D : Type} {f : C → D} {o : ObjC C} {d : D} (h : (o.map f).Child d) : ∃ c, o.Child c ∧ d = f c := by
  cases h with
  | prop h =>
    obtain ⟨⟨n, c⟩, hc, e⟩ := List.mem_map.1 h
    cases e
    exact ⟨c, .prop hc, rfl⟩
  | pattern h =>
    obtain ⟨⟨i, n, c⟩, hc, e⟩ := List.mem_map.1 h
    cases e
    exact ⟨c, .pattern hc, rfl⟩
  | additional h =>
    obtain ⟨c, hc, rfl⟩ := Option.map_eq_some_iff.1 h
    exact ⟨c, .additional hc, rfl⟩
  | dependency h =>
    unfold ObjC.GetSchemaDependency at h
    simp only [ObjC.map, alookup_map] at h
    obtain ⟨c, hc, rfl⟩ := Option.map_eq_some_iff.1 h
    exact ⟨c, .dependency hc, rfl⟩

/-- The sub-constraints of an array constraint are finitely many. -/
theorem ArrC.ev {C : Type} (a : ArrC C) {P : C → ℕ → Prop} (h : ∀ c, a.Child c → Ev (P c)) : Ev fun k => ∀ c, a.Child c → P c k := by
  have h1 : Ev fun k => ∀ c ∈ a.items.toList, P c k := Ev.ball fun c hc => h c (.items (by simpa using hc))
  have h2 : Ev fun k => ∀ c ∈ a.positional, P c k := Ev.ball fun c hc => h c (.positional hc)
  have h3 : Ev fun k => ∀ c ∈ a.additional.toList, P c k := Ev.ball fun c hc => h c (.additional (by simpa using hc))
  refine (h1.and (h2.and h3)).mono fun k ⟨h1, h2, h3⟩ c hc => ?_
  cases hc with
  | items hc => exact h1 c (by simpa using hc)
  | positional hc => exact h2 c hc
  | additional hc => exact h3 c (by simpa using hc)

/-- The sub-constraints of an object constraint are finitely many. -/
theorem ObjC.ev {C : Type} (o : ObjC C) {P : C → ℕ → Prop} (h : ∀ c, o.Child c → Ev (P c)) : Ev fun k => ∀ c, o.Child c → P c k := by
  have h1 : Ev fun k => ∀ p ∈ o.props, P p.2 k := Ev.ball fun p hp => h p.2 (.prop hp)
  have h2 : Ev fun k => ∀ p ∈ o.patterns, P p.2.2 k := Ev.ball fun p hp => h p.2.2 (.pattern hp)
  have h3 : Ev fun k => ∀ c ∈ o.additional.toList, P c k := Ev.ball fun c hc => h c (.additional (by simpa using hc))
  have h4 : Ev fun k => ∀ p ∈ o.schemadeps, ∀ n, o.GetSchemaDependency n = some p.2 → P p.2 k := Ev.ball fun p hp => by
    by_cases hx : ∃ n, o.GetSchemaDependency n = some p.2
    · obtain ⟨n, hn⟩ := hx
      exact (h p.2 (.dependency hn)).mono fun _ h _ _ => h
    · exact .of fun _ n hn => absurd ⟨n, hn⟩ hx
  refine (h1.and (h2.and (h3.and h4))).mono fun k ⟨h1, h2, h3, h4⟩ c hc => ?_
  cases hc with
  | prop hc => exact h1 _ hc
  | pattern hc => exact h2 _ hc
  | additional hc => exact h3 c (by simpa using hc)
  | dependency hc => exact h4 _ (alookup_mem hc) _ hc

theorem denote_leaf {ext : Ext} {ρ ρ' : RefSem} {c : Constraint} (h : ∀ d, ¬ c.Child d) (h' : ∀ m n, c ≠ .ref m n) :
    denote ext ρ c = denote ext ρ' c := by
  cases c with
  | array a =>
    obtain ⟨i, p, x, _, _, _⟩ := a
    cases i with
    | some i => exact absurd (.array (.items rfl)) (h i)
    | none =>
    cases x with
    | some x => exact absurd (.array (.additional rfl)) (h x)
    | none =>
    cases p with
    | cons c p => exact absurd (.array (.positional (by simp))) (h c)
    | nil => simp [denote, denoteArr, denoteOpt, denoteList]
  | object o =>
    obtain ⟨ps, pats, x, _, _, sd, _, _⟩ := o
    cases x with
    | some x => exact absurd (.object (.additional rfl)) (h x)
    | none =>
    cases ps with
    | cons p _ => exact absurd (.object (.prop (p := p.1) (by simp))) (h p.2)
    | nil =>
    cases pats with
    | cons p _ => exact absurd (.object (.pattern (id := p.1) (src := p.2.1) (by simp))) (h p.2.2)
    | nil =>
    cases sd with
    | cons p _ => exact absurd (.object (.dependency (p := p.1) (by simp [ObjC.GetSchemaDependency, alookup]))) (h p.2)
    | nil => simp [denote, denoteObj, denoteOpt, denoteProps, denotePats]
  | any cs =>
    cases cs with
    | nil => simp [denote, denoteList]
    | cons c cs => exact absurd (.any (by simp)) (h c)
  | all cs =>
    cases cs with
    | nil => simp [denote, denoteList]
    | cons c cs => exact absurd (.all (by simp)) (h c)
  | oneOf cs =>
    cases cs with
    | nil => simp [denote, denoteList]
    | cons c cs => exact absurd (.oneOf (by simp)) (h c)
  | not c =>
    cases c with
    | none => simp [denote, denoteOpt]
    | some c => exact absurd .not (h c)
  | ref m n => exact absurd rfl (h' m n)
  | _ => simp [denote]

theorem sem_ref_succ {ext : Ext} (k m n) : sem ext env (k + 1) (.ref m n) = (match env m n with | none => unresolved n | some c => sem ext env k c) := by
  simp only [sem, denote, refSem]
  cases env m n <;> rfl

theorem below_running (ext : Ext) (env : Env) (m : Nat) (n : GoStr) (t : Sem) : Below (· = .diverge) (sem ext env 0 (.ref m n)) t := by
  have : sem ext env 0 (.ref m n) = running := by simp [sem, denote, refSem]
  rw [this]
  exact ⟨fun h => absurd rfl (h .diverge rfl), fun σ v h => absurd rfl (h .diverge rfl)⟩

/-- With enough fuel, the second does what the first does with `k`. -/
theorem BuiltAlike.sem_ev {ext : Ext} (h : Corresponds env env' R) : ∀ (k : ℕ) {c d : Constraint}, BuiltAlike env env' R c d →
    Ev fun k' => Below (· = .diverge) (sem ext env k c) (sem ext env' k' d) := by
  intro k
  induction k using Nat.strongRecOn with
  | _ k ih =>
  intro c d hm
  induction hm with
  | leaf h1 h2 =>
    refine .of fun k' => ?_
    rw [sem, sem, denote_leaf h1 h2]
    exact .refl _
  | @array a _ iha =>
    refine (a.ev iha).mono fun k' hk => ⟨fun _ => by simp [sem, denote], fun σ v hv => ?_⟩
    simp only [sem, denote_array, ArrC.map_map'] at hv ⊢
    exact arrayV_below a hk σ v hv
  | @object o _ iho =>
    refine (o.ev iho).mono fun k' hk => ⟨fun _ => by simp [sem, denote], fun σ v hv => ?_⟩
    simp only [sem, denote_object, ObjC.map_map'] at hv ⊢
    exact objectV_below o hk σ v hv
  | @any l _ ihl =>
    refine (Ev.ball ihl).mono fun k' hk => ⟨fun _ => by simp [sem, denote], fun σ v hv => ?_⟩
    simp only [sem, denote_any, List.map_map] at hv ⊢
    exact anyLoop_below σ l 0 v hk hv
  | @all l _ ihl =>
    refine (Ev.ball ihl).mono fun k' hk => ⟨fun _ => by simp [sem, denote], fun σ v hv => ?_⟩
    simp only [sem, denote_all, List.map_map] at hv ⊢
    exact allLoop_below σ l 0 v hk hv
  | @oneOf l _ ihl =>
    refine (Ev.ball ihl).mono fun k' hk => ⟨fun _ => by simp [sem, denote], fun σ v hv => ?_⟩
    simp only [sem, denote_oneOf, List.map_map] at hv ⊢
    exact oneOfLoop_below σ l 0 0 v hk hv
  | @not c d _ ihc =>
    refine ihc.mono fun k' hk => ⟨fun _ => by simp [sem, denote], fun σ v hv => ?_⟩
    simp only [sem, denote_not] at hv ⊢
    exact notV_below (f := fun p : Constraint × Constraint => denote ext (refSem ext env k) p.1)
      (g := fun p => denote ext (refSem ext env' k') p.2) σ (some (c, d)) v (fun p hp => by cases hp; exact hk) hv
  | @ref m n m' n' hR =>
    cases k with
    | zero => exact .of fun _ => below_running _ _ _ _ _
    | succ k =>
      cases he : env m n with
      | none =>
        refine ⟨1, fun k' hk => ?_⟩
        obtain ⟨k', rfl⟩ : ∃ x, k' = x + 1 := ⟨k' - 1, by omega⟩
        rw [sem_ref_succ, sem_ref_succ, he, (h.both hR).1 he, h.missing hR he]
        exact .refl _
      | some c =>
        cases he' : env' m' n' with
        | none => rw [(h.both hR).2 he'] at he; cases he
        | some d =>
          refine (ih k (by omega) (h.found hR he he')).shift fun k' hk => ?_
          simp only [sem_ref_succ, he, he']
          exact hk
  | @left m n c d he hm _ =>
    cases k with
    | zero => exact .of fun _ => below_running _ _ _ _ _
    | succ k =>
      refine (ih k (by omega) hm).mono fun k' hk => ?_
      simp only [sem_ref_succ, he]
      exact hk
  | @right m n c d he hm ihm =>
    refine ihm.shift fun k' hk => ?_
    simp only [sem_ref_succ, he]
    exact hk

theorem BuiltAlike.symm {c d : Constraint} (h : BuiltAlike env env' R c d) : BuiltAlike env' env (fun q p => R p q) d c := by
  have ha : ∀ a : ArrC (Constraint × Constraint), a.map Prod.snd = (a.map Prod.swap).map Prod.fst ∧ a.map Prod.fst = (a.map Prod.swap).map Prod.snd :=
    fun a => by rw [ArrC.map_map', ArrC.map_map']; exact ⟨rfl, rfl⟩
  have ho : ∀ a : ObjC (Constraint × Constraint), a.map Prod.snd = (a.map Prod.swap).map Prod.fst ∧ a.map Prod.fst = (a.map Prod.swap).map Prod.snd :=
    fun a => by rw [ObjC.map_map', ObjC.map_map']; exact ⟨rfl, rfl⟩
  have hl : ∀ a : List (Constraint × Constraint), a.map Prod.snd = (a.map Prod.swap).map Prod.fst ∧ a.map Prod.fst = (a.map Prod.swap).map Prod.snd :=
    fun a => by simp [List.map_map, Function.comp_def]
  have hml : ∀ {l : List (Constraint × Constraint)} {P : Constraint → Constraint → Prop}, (∀ p ∈ l, P p.2 p.1) → ∀ p ∈ l.map Prod.swap, P p.1 p.2 := by
    intro l P h p hp
    obtain ⟨q, hq, rfl⟩ := List.mem_map.1 hp
    exact h q hq
  induction h with
  | leaf h1 h2 => exact .leaf h1 h2
  | @array a _ ih =>
    rw [(ha a).1, (ha a).2]
    refine .array fun p hp => ?_
    obtain ⟨q, hq, rfl⟩ := ArrC.child_of_map hp
    exact ih q hq
  | @object o _ ih =>
    rw [(ho o).1, (ho o).2]
    refine .object fun p hp => ?_
    obtain ⟨q, hq, rfl⟩ := ObjC.child_of_map hp
    exact ih q hq
  | @any l _ ih => rw [(hl l).1, (hl l).2]; exact .any (hml ih)
  | @all l _ ih => rw [(hl l).1, (hl l).2]; exact .all (hml ih)
  | @oneOf l _ ih => rw [(hl l).1, (hl l).2]; exact .oneOf (hml ih)
  | not _ ih => exact .not ih
  | ref h => exact .ref h
  | left h _ ih => exact .right h ih
  | right h _ ih => exact .left h ih

theorem Corresponds.symm (h : Corresponds env env' R) : Corresponds env' env (fun q p => R p q) :=
  ⟨fun hR h1 h2 => (h.found hR h2 h1).symm, fun hR => (h.both hR).symm, fun hR hn => (h.missing hR ((h.both hR).2 hn)).symm⟩

theorem BuiltAlike.returns {ext : Ext} (h : Corresponds env env' R) {c d : Constraint} (hm : BuiltAlike env env' R c d) {σ : Sched} {v v' : GoVal} {r : Res}
    (hr : Returns ext env c σ v r v') : Returns ext env' d σ v r v' := by
  obtain ⟨hn, k, e⟩ := hr
  obtain ⟨N, hN⟩ := BuiltAlike.sem_ev (ext := ext) h k hm
  exact ⟨hn, N, (hN N (Nat.le_refl N)).keep hn e⟩

theorem BuiltAlike.default {ext : Ext} (h : Corresponds env env' R) {c d : Constraint} (hm : BuiltAlike env env' R c d) {x : Dflt}
    (hr : DefaultReturns ext env c x) : DefaultReturns ext env' d x := by
  obtain ⟨hn, k, e⟩ := hr
  obtain ⟨N, hN⟩ := BuiltAlike.sem_ev (ext := ext) h k hm
  exact ⟨hn, N, (hN N (Nat.le_refl N)).keepD hn e⟩

/-! ## Renaming -/

theorem rename_array (f : Nat → GoStr → Nat × GoStr) (a : ArrC Constraint) : (Constraint.array a).rename f = .array (a.map (Constraint.rename f)) := by
  obtain ⟨i, p, x, _, _, _⟩ := a
  simp only [Constraint.rename, Constraint.inline, inlineOpt_eq, inlineList_eq]
  rfl
theorem rename_object (f : Nat → GoStr → Nat × GoStr) (o : ObjC Constraint) : (Constraint.object o).rename f = .object (o.map (Constraint.rename f)) := by
  obtain ⟨ps, pats, x, _, _, sd, _, _⟩ := o
  simp only [Constraint.rename, Constraint.inline, inlineOpt_eq, inlineProps_eq, inlinePats_eq]
  rfl
theorem rename_any (f : Nat → GoStr → Nat × GoStr) (l : List Constraint) : (Constraint.any l).rename f = .any (l.map (Constraint.rename f)) := by
  simp only [Constraint.rename, Constraint.inline, inlineList_eq]
  rfl
theorem rename_all (f : Nat → GoStr → Nat × GoStr) (l : List Constraint) : (Constraint.all l).rename f = .all (l.map (Constraint.rename f)) := by
  simp only [Constraint.rename, Constraint.inline, inlineList_eq]
  rfl
theorem rename_oneOf (f : Nat → GoStr → Nat × GoStr) (l : List Constraint) : (Constraint.oneOf l).rename f = .oneOf (l.map (Constraint.rename f)) := by
  simp only [Constraint.rename, Constraint.inline, inlineList_eq]
  rfl
theorem rename_not (f : Nat → GoStr → Nat × GoStr) (c : Option Constraint) : (Constraint.not c).rename f = .not (c.map (Constraint.rename f)) := by
  simp only [Constraint.rename, Constraint.inline, inlineOpt_eq]
  rfl
theorem rename_ref (f : Nat → GoStr → Nat × GoStr) (m : Nat) (n : GoStr) : (Constraint.ref m n).rename f = .ref (f m n).1 (f m n).2 := by
  simp only [Constraint.rename, Constraint.inline]

/-- A constraint matches the one that has other references in the same places. -/
theorem matches_rename {f : Nat → GoStr → Nat × GoStr} {c : Constraint} (h : ∀ m n, (Constraint.ref m n).In c → R (m, n) (f m n)) :
    BuiltAlike env env' R c (c.rename f) := by
  induction c using Constraint.ind with
  | h c ih =>
  have ih' : ∀ d, c.Child d → BuiltAlike env env' R d (d.rename f) := fun d hd => ih d hd fun m n hin => h m n (.child hd hin)
  have hl : ∀ l : List Constraint, (l.map fun d => (d, d.rename f)).map Prod.fst = l ∧
      (l.map fun d => (d, d.rename f)).map Prod.snd = l.map (Constraint.rename f) := fun l => by simp [List.map_map, Function.comp_def]
  have hml : ∀ l : List Constraint, (∀ d ∈ l, c.Child d) → ∀ p ∈ l.map fun d => (d, d.rename f), BuiltAlike env env' R p.1 p.2 := by
    intro l hc p hp
    obtain ⟨d, hd, rfl⟩ := List.mem_map.1 hp
    exact ih' d (hc d hd)
  cases c with
  | array a =>
    have := BuiltAlike.array (env := env) (env' := env') (R := R) (a := a.map fun d => (d, d.rename f)) (fun p hp => by
      obtain ⟨d, hd, rfl⟩ := ArrC.child_of_map hp
      exact ih' d (.array hd))
    rw [ArrC.map_map', ArrC.map_map'] at this
    rw [rename_array]
    convert this using 2
    obtain ⟨i, p, x, _, _, _⟩ := a
    simp [ArrC.map]
  | object o =>
    have := BuiltAlike.object (env := env) (env' := env') (R := R) (o := o.map fun d => (d, d.rename f)) (fun p hp => by
      obtain ⟨d, hd, rfl⟩ := ObjC.child_of_map hp
      exact ih' d (.object hd))
    rw [ObjC.map_map', ObjC.map_map'] at this
    rw [rename_object]
    convert this using 2
    obtain ⟨ps, pats, x, _, _, sd, _, _⟩ := o
    simp [ObjC.map]
  | any l =>
    have := BuiltAlike.any (env := env) (env' := env') (R := R) (hml l fun d hd => .any hd)
    rw [(hl l).1, (hl l).2] at this
    rw [rename_any]; exact this
  | all l =>
    have := BuiltAlike.all (env := env) (env' := env') (R := R) (hml l fun d hd => .all hd)
    rw [(hl l).1, (hl l).2] at this
    rw [rename_all]; exact this
  | oneOf l =>
    have := BuiltAlike.oneOf (env := env) (env' := env') (R := R) (hml l fun d hd => .oneOf hd)
    rw [(hl l).1, (hl l).2] at this
    rw [rename_oneOf]; exact this
  | not c =>
    rw [rename_not]
    cases c with
    | none => exact .leaf (fun d hd => by cases hd) (fun m n h => by cases h)
    | some c => exact .not (ih' c .not)
  | ref m n => rw [rename_ref]; exact .ref (h m n (.refl _))
  | _ =>
    simp only [Constraint.rename, Constraint.inline]
    exact .leaf (fun d hd => by cases hd) (fun m n h => by cases h)

/-- A constraint matches itself where its references do. -/
theorem matches_self {c : Constraint} (h : ∀ m n, (Constraint.ref m n).In c → R (m, n) (m, n)) : BuiltAlike env env' R c c := by
  induction c using Constraint.ind with
  | h c ih =>
  have ih' : ∀ d, c.Child d → BuiltAlike env env' R d d := fun d hd => ih d hd fun m n hin => h m n (.child hd hin)
  have hl : ∀ l : List Constraint, (l.map fun d => (d, d)).map Prod.fst = l ∧ (l.map fun d => (d, d)).map Prod.snd = l :=
    fun l => by simp [List.map_map, Function.comp_def]
  have hml : ∀ l : List Constraint, (∀ d ∈ l, c.Child d) → ∀ p ∈ l.map fun d => (d, d), BuiltAlike env env' R p.1 p.2 := by
    intro l hc p hp
    obtain ⟨d, hd, rfl⟩ := List.mem_map.1 hp
    exact ih' d (hc d hd)
  cases c with
  | array a =>
    have := BuiltAlike.array (env := env) (env' := env') (R := R) (a := a.map fun d => (d, d)) (fun p hp => by
      obtain ⟨d, hd, rfl⟩ := ArrC.child_of_map hp
      exact ih' d (.array hd))
    rw [ArrC.map_map', ArrC.map_map'] at this
    convert this using 2 <;> simp [ArrC.map]
  | object o =>
    have := BuiltAlike.object (env := env) (env' := env') (R := R) (o := o.map fun d => (d, d)) (fun p hp => by
      obtain ⟨d, hd, rfl⟩ := ObjC.child_of_map hp
      exact ih' d (.object hd))
    rw [ObjC.map_map', ObjC.map_map'] at this
    convert this using 2 <;> simp [ObjC.map]
  | any l =>
    have := BuiltAlike.any (env := env) (env' := env') (R := R) (hml l fun d hd => .any hd)
    rwa [(hl l).1, (hl l).2] at this
  | all l =>
    have := BuiltAlike.all (env := env) (env' := env') (R := R) (hml l fun d hd => .all hd)
    rwa [(hl l).1, (hl l).2] at this
  | oneOf l =>
    have := BuiltAlike.oneOf (env := env) (env' := env') (R := R) (hml l fun d hd => .oneOf hd)
    rwa [(hl l).1, (hl l).2] at this
  | not c =>
    cases c with
    | none => exact .leaf (fun d hd => by cases hd) (fun m n h => by cases h)
    | some c => exact .not (ih' c .not)
  | ref m n => exact .ref (h m n (.refl _))
  | _ => exact .leaf (fun d hd => by cases hd) (fun m n h => by cases h)

end Jsval
