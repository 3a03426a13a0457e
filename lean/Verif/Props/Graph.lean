import Verif.Lemmas.Graph
import Verif.Props.References
import Verif.Props.Calls
/-!
# C102: constraints are objects
-/
namespace Jsval
variable {ext : Ext} {s : Store}

/-! ## Objects and trees -/

/-- C102: an object behaves as the tree that hangs at it, however often its parts are shared. -/
theorem C102_tree {env : Env} (he : s.MapsAre env) {p : Nat} {c : Constraint} (hc : s.Hangs p c) :
    (∀ σ v r v', s.Returns ext p σ v r v' ↔ Returns ext env c σ v r v') ∧
      ∀ d, s.DefaultReturns ext p d ↔ DefaultReturns ext env c d := by
  have h1 : ∀ k, ∃ k', Below (· = .diverge) (graphSem ext s k p) (sem ext env k' c) := fun k => ⟨k, graph_below_tree he k p c hc⟩
  have h2 : ∀ k, ∃ k', Below (· = .diverge) (sem ext env k c) (graphSem ext s k' p) := fun k =>
    let ⟨K, hK⟩ := tree_below_graph he k p c hc
    ⟨K, hK K (Nat.le_refl K)⟩
  exact ⟨fun σ v r v' => ⟨returns_of_below h1, returns_of_below h2⟩, fun d => ⟨default_of_below h1, default_of_below h2⟩⟩

/-- C102: a tree hangs at an object exactly if one cannot follow pointers from it for ever. -/
theorem C102_has_tree (p : Nat) : (∃ c, s.Hangs p c) ↔ Acc (fun q p => (s.node p).Points q) p := by
  constructor
  · rintro ⟨c, h⟩
    induction h with
    | mk f _ ih => exact ⟨_, ih⟩
  · intro h
    induction h with
    | intro p _ ih =>
      classical
      refine ⟨_, .mk (fun q => if h : (s.node p).Points q then (ih q h).choose else .empty) fun q hq => ?_⟩
      rw [dif_pos hq]
      exact (ih q hq).choose_spec

/-- C102: objects behave as if every pointer were a reference by a name of its own. -/
theorem C102_as_references (p : Nat) :
    (∀ σ v r v', s.Returns ext p σ v r v' ↔ Returns ext s.asEnv (.ref (2 * p) []) σ v r v') ∧
      ∀ d, s.DefaultReturns ext p d ↔ DefaultReturns ext s.asEnv (.ref (2 * p) []) d := by
  have e : ∀ k, sem ext s.asEnv k (.ref (2 * p) []) = refSem ext s.asEnv k (2 * p) [] := fun k => by simp only [sem, denote]
  have h1 : ∀ k, ∃ k', Below (· = .diverge) (graphSem ext s k p) (sem ext s.asEnv k' (.ref (2 * p) [])) := fun k =>
    ⟨k + 1, by rw [e]; exact graph_below_refs k p⟩
  have h2 : ∀ k, ∃ k', Below (· = .diverge) (sem ext s.asEnv k (.ref (2 * p) [])) (graphSem ext s k' p) := fun k =>
    ⟨k, by rw [e]; exact refs_below_graph k p⟩
  exact ⟨fun σ v r v' => ⟨returns_of_below h1, returns_of_below h2⟩, fun d => ⟨default_of_below h1, default_of_below h2⟩⟩

/-! ## Changes elsewhere do not matter -/

/-- C102: what an object does depends only on what it uses, directly or not. -/
theorem C102_frame {s' : Store} {R : Nat → Prop} (ha : s.AlikeOn s' R) (hc : s.Closed R) {p : Nat} (hp : R p) :
    (∀ σ v r v', s'.Returns ext p σ v r v' ↔ s.Returns ext p σ v r v') ∧
      ∀ d, s'.DefaultReturns ext p d ↔ s.DefaultReturns ext p d := by
  unfold Store.Returns Store.DefaultReturns
  simp only [graphSem_alike ha hc _ p hp]
  exact ⟨fun _ _ _ _ => trivial, fun _ => trivial⟩

/-! ## Changes show wherever the object is used -/

/-- C102: let `s` have references in place of the objects in `P`, and `s'` be a store that has the same objects elsewhere. What
hangs in `s'` is what hangs in `s` with these references replaced by what hangs in `s'` at the objects in `P`. -/
theorem C102_everywhere {s' : Store} {P : Nat → Prop} {hole : Nat → Nat × GoStr} {g : Nat → GoStr → Constraint}
    (hs : ∀ p, P p → s.node p = .ref (hole p).1 (hole p).2) (hn : ∀ p, ¬ P p → s'.node p = s.node p)
    (hcell : ∀ p a, ¬ P p → (s.node p).Cell a → s'.cell a = s.cell a)
    (hg : ∀ p, P p → s'.Hangs p (g (hole p).1 (hole p).2))
    (hg' : ∀ p m n, ¬ P p → s.node p = .ref m n → g m n = .ref m n) {q : Nat} {c : Constraint} (h : s.Hangs q c) :
    s'.Hangs q (c.inline g) := by
  induction h with
  | @mk q f hf ih =>
    by_cases hq : P q
    · rw [hs q hq]
      simp only [GNode.tree, Constraint.inline]
      exact hg q hq
    · rw [GNode.inline_tree (fun m x h => hg' q m x hq h) (fun a h => hcell q a hq h), ← hn q hq]
      exact .mk _ fun x hx => ih x (by rw [← hn q hq]; exact hx)

/-- C102: if one object changes, every tree in the store changes exactly where the object is used in it: the tree was `c` with
the old tree of the object in all these places, and is `c` with the new one. -/
theorem C102_in_place {p : Nat} {n : GNode} {h : Nat × GoStr} (hfresh : ∀ q, q ≠ p → s.node q ≠ .ref h.1 h.2)
    {q : Nat} {c d d' : Constraint} (hc : (s.setNode p (.ref h.1 h.2)).Hangs q c) (hd : s.Hangs p d)
    (hd' : (s.setNode p n).Hangs p d') : s.Hangs q (c.fill h d) ∧ (s.setNode p n).Hangs q (c.fill h d') := by
  have key : ∀ (t : Store) (e : Constraint), t.cell = s.cell → (∀ x, x ≠ p → t.node x = s.node x) → t.Hangs p e →
      t.Hangs q (c.fill h e) := by
    intro t e ht1 ht2 he
    refine C102_everywhere (P := (· = p)) (hole := fun _ => h) (s := s.setNode p (.ref h.1 h.2)) ?_ ?_ ?_ ?_ ?_ hc
    · rintro x rfl; simp [Store.setNode]
    · intro x hx; rw [ht2 x hx]; simp [Store.setNode, hx]
    · intro x a _ _; rw [ht1]; rfl
    · rintro x rfl; simpa using he
    · intro x m y hx hm
      simp only [Store.setNode, if_neg hx] at hm
      refine if_neg fun he => hfresh x hx ?_
      rw [hm, ← he]
  exact ⟨key s d rfl (fun _ _ => rfl) hd, key _ d' rfl (fun x hx => by simp [Store.setNode, hx]) hd'⟩

/-! ## Cycles -/

/-- C102: an object from which one can go round for ever, each time to what is tried first, never returns an answer. -/
theorem C102_cycle {S : Nat → Prop} (hS : ∀ p, S p → ∃ q, s.First p q ∧ S q) {p : Nat} (hp : S p) (σ : Sched) (v : GoVal)
    (r : Res) (v' : GoVal) : ¬ s.Returns ext p σ v r v' := by
  have key : ∀ k p, S p → ∀ σ v, ((graphSem ext s k p).val σ v).1 = .abort .diverge := by
    intro k
    induction k with
    | zero => intros; rfl
    | succ k ih =>
      intro p hp σ v
      obtain ⟨q, hq, hqS⟩ := hS p hp
      simp only [graphSem]
      cases hq with
      | @any cs _ h =>
        have := ih q hqS (σ.sub 0) v
        simp only [h, GNode.sem, List.map_cons, anyLoop]
        rcases hx : (graphSem ext s k q).val (σ.sub 0) v with ⟨r, x⟩
        rw [hx] at this; simp only at this; subst this; rfl
      | @all cs _ h =>
        have := ih q hqS (σ.sub 0) v
        simp only [h, GNode.sem, List.map_cons, allLoop]
        rcases hx : (graphSem ext s k q).val (σ.sub 0) v with ⟨r, x⟩
        rw [hx] at this; simp only at this; subst this; rfl
      | @oneOf cs _ h =>
        have := ih q hqS (σ.sub 0) v
        simp only [h, GNode.sem, List.map_cons, oneOfLoop]
        rcases hx : (graphSem ext s k q).val (σ.sub 0) v with ⟨r, x⟩
        rw [hx] at this; simp only at this; subst this; rfl
      | not h =>
        have := ih q hqS (σ.sub 0) v
        simp only [h, GNode.sem, Option.map_some, notV]
        rcases hx : (graphSem ext s k q).val (σ.sub 0) v with ⟨r, x⟩
        rw [hx] at this; simp only at this; subst this; rfl
      | name h h' =>
        simp only [h, GNode.sem, h']
        exact ih q hqS σ v
  rintro ⟨hr, k, hk⟩
  have := key k p hp σ v
  rw [hk] at this
  exact hr this

theorem asRefs_here {cell : Nat → NumC} {n : GNode} {m : Nat} {x : GoStr} (h : (Constraint.ref m x).Here (n.asRefs cell)) :
    (∃ m', n = .ref m' x ∧ m = 2 * m' + 1) ∨
    (∃ q, m = 2 * q ∧ x = [] ∧ ((∃ o y, n = .object o ∧ o.GetSchemaDependency y = some q) ∨ (∃ cs, n = .any cs ∧ q ∈ cs) ∨
      (∃ cs, n = .all cs ∧ q ∈ cs) ∨ (∃ cs, n = .oneOf cs ∧ q ∈ cs) ∨ n = .not (some q))) := by
  have hleaf : ∀ q, (Constraint.ref m x).Here (.ref (2 * q) []) → m = 2 * q ∧ x = [] := by
    intro q h
    cases h with
    | refl => exact ⟨rfl, rfl⟩
    | same h _ => cases h
  cases n with
  | ref m' x' =>
    simp only [GNode.asRefs] at h
    cases h with
    | refl => exact .inl ⟨m', rfl, rfl⟩
    | same h _ => cases h
  | object o =>
    simp only [GNode.asRefs, GNode.tree] at h
    cases h with
    | same h h' =>
      cases h with
      | @dependency _ y d h =>
        have h := (alookup_map (fun q => Constraint.ref (2 * q) []) y o.schemadeps).symm.trans h
        obtain ⟨q, hq, rfl⟩ := Option.map_eq_some_iff.1 h
        obtain ⟨h1, h2⟩ := hleaf q h'
        exact .inr ⟨q, h1, h2, .inl ⟨o, y, rfl, hq⟩⟩
  | any cs =>
    simp only [GNode.asRefs, GNode.tree] at h
    cases h with
    | same h h' =>
      cases h with
      | any h =>
        obtain ⟨q, hq, rfl⟩ := List.mem_map.1 h
        obtain ⟨h1, h2⟩ := hleaf q h'
        exact .inr ⟨q, h1, h2, .inr (.inl ⟨cs, rfl, hq⟩)⟩
  | all cs =>
    simp only [GNode.asRefs, GNode.tree] at h
    cases h with
    | same h h' =>
      cases h with
      | all h =>
        obtain ⟨q, hq, rfl⟩ := List.mem_map.1 h
        obtain ⟨h1, h2⟩ := hleaf q h'
        exact .inr ⟨q, h1, h2, .inr (.inr (.inl ⟨cs, rfl, hq⟩))⟩
  | oneOf cs =>
    simp only [GNode.asRefs, GNode.tree] at h
    cases h with
    | same h h' =>
      cases h with
      | oneOf h =>
        obtain ⟨q, hq, rfl⟩ := List.mem_map.1 h
        obtain ⟨h1, h2⟩ := hleaf q h'
        exact .inr ⟨q, h1, h2, .inr (.inr (.inr (.inl ⟨cs, rfl, hq⟩)))⟩
  | not c =>
    simp only [GNode.asRefs, GNode.tree] at h
    cases c with
    | none =>
      cases h with
      | same h h' => cases h
    | some q =>
      cases h with
      | same h h' =>
        cases h with
        | not =>
          obtain ⟨h1, h2⟩ := hleaf q h'
          exact .inr ⟨q, h1, h2, .inr (.inr (.inr (.inr rfl)))⟩
  | _ =>
    simp only [GNode.asRefs, GNode.tree] at h
    cases h with
    | same h h' => cases h

theorem asEnv_guarded (hg : s.Guarded) : Guarded s.asEnv := by
  have haddr : ∀ p, Acc (Unguarded s.asEnv) (2 * p, []) := by
    intro p
    induction hg.apply p with
    | intro p _ ih =>
      refine ⟨_, ?_⟩
      rintro ⟨m, x⟩ ⟨c, hc, hh⟩
      simp only [asEnv_addr, Option.some.injEq] at hc
      subst hc
      rcases asRefs_here hh with ⟨m', hn, hm⟩ | ⟨q, hm, hx, h⟩
      · simp only at hm hn; subst hm
        refine ⟨_, ?_⟩
        rintro ⟨m2, x2⟩ ⟨c, hc, hh⟩
        simp only [asEnv_name] at hc
        obtain ⟨q, hq, rfl⟩ := Option.map_eq_some_iff.1 hc
        exact (ih q (.name hn hq)).inv ⟨_, asEnv_addr q, hh⟩
      · simp only at hm hx; subst hm; subst hx
        rcases h with ⟨o, y, h, h'⟩ | ⟨cs, h, h'⟩ | ⟨cs, h, h'⟩ | ⟨cs, h, h'⟩ | h
        · exact ih q (.dependency h h')
        · exact ih q (.any h h')
        · exact ih q (.all h h')
        · exact ih q (.oneOf h h')
        · exact ih q (.not h)
  refine ⟨fun ⟨i, x⟩ => ⟨_, ?_⟩⟩
  rintro ⟨m2, x2⟩ ⟨c, hc, hh⟩
  simp only [Store.asEnv] at hc
  split at hc
  · split at hc
    · simp only [Option.some.injEq] at hc; subst hc
      exact (haddr (i / 2)).inv ⟨_, asEnv_addr _, hh⟩
    · cases hc
  · obtain ⟨q, hq, rfl⟩ := Option.map_eq_some_iff.1 hc
    exact (haddr q).inv ⟨_, asEnv_addr q, hh⟩

theorem asRefs_flat (hd : s.FlatDefaults) (p : Nat) : ((s.node p).asRefs s.cell).Every (DefaultIn Flat) := by
  have hself : DefaultIn Flat ((s.node p).asRefs s.cell) := by
    intro dv h
    have := hd p dv
    cases hn : s.node p <;> rw [hn] at h this <;> simp only [GNode.asRefs, GNode.tree, Constraint.ownDefault] at h <;>
      first | exact this h | cases h
  have hkid : ∀ e, ((s.node p).asRefs s.cell).Child e → ∃ q, e = .ref (2 * q) [] := by
    intro e h
    cases hn : s.node p with
    | array a =>
      rw [hn] at h
      simp only [GNode.asRefs, GNode.tree] at h
      cases h with
      | array h =>
        cases h with
        | items h => obtain ⟨q, _, rfl⟩ := Option.map_eq_some_iff.1 h; exact ⟨q, rfl⟩
        | positional h => obtain ⟨q, _, rfl⟩ := List.mem_map.1 h; exact ⟨q, rfl⟩
        | additional h => obtain ⟨q, _, rfl⟩ := Option.map_eq_some_iff.1 h; exact ⟨q, rfl⟩
    | object o =>
      rw [hn] at h
      simp only [GNode.asRefs, GNode.tree] at h
      cases h with
      | object h =>
        cases h with
        | prop h => obtain ⟨⟨_, q⟩, _, h⟩ := List.mem_map.1 h; cases h; exact ⟨q, rfl⟩
        | pattern h => obtain ⟨⟨_, _, q⟩, _, h⟩ := List.mem_map.1 h; cases h; exact ⟨q, rfl⟩
        | additional h => obtain ⟨q, _, rfl⟩ := Option.map_eq_some_iff.1 h; exact ⟨q, rfl⟩
        | dependency h =>
          have h := (alookup_map (fun q => Constraint.ref (2 * q) []) _ o.schemadeps).symm.trans h
          obtain ⟨q, _, rfl⟩ := Option.map_eq_some_iff.1 h; exact ⟨q, rfl⟩
    | any cs =>
      rw [hn] at h
      simp only [GNode.asRefs, GNode.tree] at h
      cases h with
      | any h => obtain ⟨q, _, rfl⟩ := List.mem_map.1 h; exact ⟨q, rfl⟩
    | all cs =>
      rw [hn] at h
      simp only [GNode.asRefs, GNode.tree] at h
      cases h with
      | all h => obtain ⟨q, _, rfl⟩ := List.mem_map.1 h; exact ⟨q, rfl⟩
    | oneOf cs =>
      rw [hn] at h
      simp only [GNode.asRefs, GNode.tree] at h
      cases h with
      | oneOf h => obtain ⟨q, _, rfl⟩ := List.mem_map.1 h; exact ⟨q, rfl⟩
    | not c =>
      rw [hn] at h
      cases c with
      | none => cases h
      | some q => cases h; exact ⟨q, rfl⟩
    | _ =>
      rw [hn] at h
      cases h
  intro e he
  cases he with
  | refl => exact hself
  | child h h' =>
    obtain ⟨q, rfl⟩ := hkid _ h
    cases h' with
    | refl => intro dv h; cases h
    | child h _ => cases h

/-- C102: if every cycle of objects goes through an array element or a property, and no default is a container, every call
returns. -/
theorem C102_guarded (hg : s.Guarded) (hd : s.FlatDefaults) (p : Nat) (σ : Sched) (v : GoVal) :
    ∃ r v', s.Returns ext p σ v r v' := by
  have henv : s.asEnv.Every (DefaultIn Flat) := by
    intro m n c hc
    simp only [Store.asEnv] at hc
    split at hc
    · split at hc
      · cases hc; exact asRefs_flat hd _
      · cases hc
    · obtain ⟨q, _, rfl⟩ := Option.map_eq_some_iff.1 hc
      exact asRefs_flat hd q
  obtain ⟨r, v', h⟩ := C49_guarded_returns (ext := ext) (asEnv_guarded hg) henv (c := .ref (2 * p) [])
    (fun e he => by
      cases he with
      | refl => intro dv h; cases h
      | child h _ => cases h) σ v
  exact ⟨r, v', ((C102_as_references p).1 σ v r v').2 h⟩

/-! ## Programs -/

/-- C102: what a program leaves behind depends only on the steps for each object, cell and map entry, in their order; steps for
different ones may be exchanged. -/
theorem C102_order {l l' : List BStep} (h : ∀ x, SameAt x l l') : s.run l = s.run l' := by
  have e := fun x => run_eqAt (h x) (s.eqAt_refl x)
  rcases e1 : s.run l with ⟨n, c, m⟩
  rcases e2 : s.run l' with ⟨n', c', m'⟩
  rw [e1, e2] at e
  rw [show n = n' from funext fun p => e (.node p), show c = c' from funext fun a => e (.cell a),
    show m = m' from funext fun i => funext fun x => e (.entry i x)]

/-- C102: a program leaves alone whatever none of its steps is about. -/
theorem C102_untouched {l : List BStep} {x : Loc} (h : ∀ b ∈ l, ¬ b.Writes x) : (s.run l).EqAt s x := by
  refine run_eqAt (l' := []) ?_ (s.eqAt_refl x)
  induction l with
  | nil => exact .nil
  | cons b l ih => exact .left (h b (by simp)) (ih fun b hb => h b (by simp [hb]))

/-- C102: among other steps, `p := String()` and calls on `p` leave at `p` what the chain of these calls is, whenever the calls
were made. -/
theorem C102_own_string {l : List BStep} {p : Nat} {calls : List StrCall}
    (h : SameAt (.node p) l (.newString p :: calls.map (.str p))) : (s.run l).Hangs p (StringCalls calls) := by
  have e : (s.run l).node p = .string (calls.foldl StrCall.on String') :=
    Eq.trans (run_eqAt h (s.eqAt_refl _)) (run_str p calls _ String' (by simp [Store.step, Store.setNode]))
  have := Store.Hangs.mk (s := s.run l) (p := p) (fun _ => .empty) (by rw [e]; intro q hq; cases hq)
  rw [e] at this
  exact this

/-- C102: the same for `p := Number()`: calls through any pointer to it count. -/
theorem C102_own_number {l : List BStep} {p a : Nat} {calls : List NumCall} (hp : SameAt (.node p) l [.newNumber p a])
    (h : SameAt (.cell a) l (.newNumber p a :: calls.map (.num a))) :
    (s.run l).Hangs p (.number (calls.foldl NumCall.on Number')) := by
  have e : (s.run l).node p = .number a :=
    Eq.trans (run_eqAt hp (s.eqAt_refl _)) (by simp [Store.run, Store.step, Store.setNode, Store.setCell])
  have ec : (s.run l).cell a = calls.foldl NumCall.on Number' :=
    Eq.trans (run_eqAt h (s.eqAt_refl _)) ((run_num a calls _).trans (by simp [Store.step, Store.setCell]))
  have := Store.Hangs.mk (s := s.run l) (p := p) (fun _ => .empty) (by rw [e]; intro q hq; cases hq)
  rw [e, GNode.tree, ec] at this
  exact this

/-- C102: `p := Integer()` and the number constraint `q` that an inherited setter gives have their parameters in common: each is
what all the calls, through either pointer, make it; `p` stays an integer constraint and `q` is none. -/
theorem C102_own_integer {l : List BStep} {p q a : Nat} {calls : List NumCall} (hp : SameAt (.node p) l [.newInteger p a])
    (hq : SameAt (.node q) l [.asNumber q a]) (h : SameAt (.cell a) l (.newInteger p a :: calls.map (.num a))) :
    (s.run l).Hangs p (.integer (calls.foldl NumCall.on Number')) ∧ (s.run l).Hangs q (.number (calls.foldl NumCall.on Number')) := by
  have e : (s.run l).node p = .integer a :=
    Eq.trans (run_eqAt hp (s.eqAt_refl _)) (by simp [Store.run, Store.step, Store.setNode, Store.setCell])
  have e' : (s.run l).node q = .number a :=
    Eq.trans (run_eqAt hq (s.eqAt_refl _)) (by simp [Store.run, Store.step, Store.setNode])
  have ec : (s.run l).cell a = calls.foldl NumCall.on Number' :=
    Eq.trans (run_eqAt h (s.eqAt_refl _)) ((run_num a calls _).trans (by simp [Store.step, Store.setCell]))
  have h1 := Store.Hangs.mk (s := s.run l) (p := p) (fun _ => .empty) (by rw [e]; intro q hq; cases hq)
  have h2 := Store.Hangs.mk (s := s.run l) (p := q) (fun _ => .empty) (by rw [e']; intro q hq; cases hq)
  rw [e, GNode.tree, ec] at h1
  rw [e', GNode.tree, ec] at h2
  exact ⟨h1, h2⟩

/-- C102: the same for `p := Array()`; what is given to the calls is what hangs there in the end. -/
theorem C102_own_array {l : List BStep} {p : Nat} {calls : List (ArrCall Nat)}
    (h : SameAt (.node p) l (.newArray p :: calls.map (.arr p))) {f : Nat → Constraint} (hf0 : f emptyAddr = .empty)
    (hf : ∀ q, ((s.run l).node p).Points q → (s.run l).Hangs q (f q)) :
    (s.run l).Hangs p (ArrayCalls (calls.map (·.withTrees f))) := by
  have e : (s.run l).node p = .array (calls.foldl ArrCall.on ⟨none, [], some emptyAddr, -1, -1, false⟩) :=
    Eq.trans (run_eqAt h (s.eqAt_refl _)) (run_arr p calls _ _ (by simp [Store.step, Store.setNode]))
  have := Store.Hangs.mk (s := s.run l) (p := p) f hf
  rw [e] at this
  have e2 := arr_calls_map f calls ⟨none, [], some emptyAddr, -1, -1, false⟩
  unfold ArrayCalls
  rw [show Array' = (⟨none, [], some emptyAddr, -1, -1, false⟩ : ArrC Nat).map f by simp [ArrC.map, hf0, Array'], ← e2]
  exact this

/-- C102: the same for `p := Object()`. -/
theorem C102_own_object {l : List BStep} {p : Nat} {calls : List (ObjCall Nat)}
    (h : SameAt (.node p) l (.newObject p :: calls.map (.obj p))) {f : Nat → Constraint}
    (hf : ∀ q, ((s.run l).node p).Points q → (s.run l).Hangs q (f q)) :
    (s.run l).Hangs p (ObjectCalls (calls.map (·.withTrees f))) := by
  have e : (s.run l).node p = .object (calls.foldl ObjCall.on ⟨[], [], none, [], [], [], -1, -1⟩) :=
    Eq.trans (run_eqAt h (s.eqAt_refl _)) (run_obj p calls _ _ (by simp [Store.step, Store.setNode]))
  have := Store.Hangs.mk (s := s.run l) (p := p) f hf
  rw [e] at this
  have e2 := obj_calls_map f calls ⟨[], [], none, [], [], [], -1, -1⟩
  unfold ObjectCalls ObjectOf
  rw [show Object' = (⟨[], [], none, [], [], [], -1, -1⟩ : ObjC Nat).map f from rfl, ← e2]
  exact this

/-- C102: the same for combinations and `Add`. -/
theorem C102_own_combinators {l : List BStep} {p : Nat} {qs : List Nat} {f : Nat → Constraint}
    (hf : ∀ q ∈ qs, (s.run l).Hangs q (f q)) :
    (SameAt (.node p) l (.newAny p :: qs.map (.add p)) → (s.run l).Hangs p (.any (qs.map f))) ∧
    (SameAt (.node p) l (.newAll p :: qs.map (.add p)) → (s.run l).Hangs p (.all (qs.map f))) ∧
    (SameAt (.node p) l (.newOneOf p :: qs.map (.add p)) → (s.run l).Hangs p (.oneOf (qs.map f))) := by
  refine ⟨fun h => ?_, fun h => ?_, fun h => ?_⟩
  · have e : (s.run l).node p = .any ([] ++ qs) := Eq.trans (run_eqAt h (s.eqAt_refl _))
      (run_add p GNode.any (fun _ _ => rfl) qs _ [] (by simp [Store.step, Store.setNode]))
    have := Store.Hangs.mk (s := s.run l) (p := p) f (by rw [e]; intro q hq; cases hq with | any hq => exact hf q hq)
    rw [e] at this
    exact this
  · have e : (s.run l).node p = .all ([] ++ qs) := Eq.trans (run_eqAt h (s.eqAt_refl _))
      (run_add p GNode.all (fun _ _ => rfl) qs _ [] (by simp [Store.step, Store.setNode]))
    have := Store.Hangs.mk (s := s.run l) (p := p) f (by rw [e]; intro q hq; cases hq with | all hq => exact hf q hq)
    rw [e] at this
    exact this
  · have e : (s.run l).node p = .oneOf ([] ++ qs) := Eq.trans (run_eqAt h (s.eqAt_refl _))
      (run_add p GNode.oneOf (fun _ _ => rfl) qs _ [] (by simp [Store.step, Store.setNode]))
    have := Store.Hangs.mk (s := s.run l) (p := p) f (by rw [e]; intro q hq; cases hq with | oneOf hq => exact hf q hq)
    rw [e] at this
    exact this

/-- C102: the same for the other kinds. The last `Default` of a boolean constraint, the last `Enum` of an enumeration and the last
`RefersTo` of a reference count; a negation has the child it was made with. -/
theorem C102_own_others {l : List BStep} {p : Nat} :
    (∀ vs : List GoVal, SameAt (.node p) l (.newBoolean p :: vs.map (.boolDefault p)) → (s.run l).Hangs p (.boolean vs.getLast?)) ∧
    (∀ (vals : List GoVal) (ls : List (List GoVal)), SameAt (.node p) l (.newEnum p vals :: ls.map (.enum p)) → (s.run l).Hangs p (.enum (ls.getLast?.getD vals))) ∧
    (∀ (m : Nat) (ns : List GoStr), SameAt (.node p) l (.newReference p m :: ns.map (.refersTo p)) →
      (s.run l).Hangs p (.ref m (ns.getLast?.getD []))) ∧
    (SameAt (.node p) l [.newNot p none] → (s.run l).Hangs p (.not none)) ∧
    (∀ q c, SameAt (.node p) l [.newNot p (some q)] → (s.run l).Hangs q c → (s.run l).Hangs p (.not (some c))) := by
  refine ⟨fun vs h => ?_, fun vals ls h => ?_, fun m ns h => ?_, fun h => ?_, fun q c h hq => ?_⟩
  · have e : (s.run l).node p = .boolean (vs.getLast?.or none) := Eq.trans (run_eqAt h (s.eqAt_refl _))
      (run_bool p vs _ none (by simp [Store.step, Store.setNode]))
    have := Store.Hangs.mk (s := s.run l) (p := p) (fun _ => .empty) (by rw [e]; intro q hq; cases hq)
    rw [e, Option.or_none] at this
    exact this
  · have e : (s.run l).node p = .enum (ls.getLast?.getD vals) := Eq.trans (run_eqAt h (s.eqAt_refl _))
      (run_enum p ls _ vals (by simp [Store.step, Store.setNode]))
    have := Store.Hangs.mk (s := s.run l) (p := p) (fun _ => .empty) (by rw [e]; intro q hq; cases hq)
    rw [e] at this
    exact this
  · have e : (s.run l).node p = .ref m (ns.getLast?.getD []) := Eq.trans (run_eqAt h (s.eqAt_refl _))
      (run_ref p m ns _ [] (by simp [Store.step, Store.setNode]))
    have := Store.Hangs.mk (s := s.run l) (p := p) (fun _ => .empty) (by rw [e]; intro q hq; cases hq)
    rw [e] at this
    exact this
  · have e : (s.run l).node p = .not none := Eq.trans (run_eqAt h (s.eqAt_refl _)) (by simp [Store.run, Store.step, Store.setNode])
    have := Store.Hangs.mk (s := s.run l) (p := p) (fun _ => .empty) (by rw [e]; intro q hq; cases hq)
    rw [e] at this
    exact this
  · have e : (s.run l).node p = .not (some q) := Eq.trans (run_eqAt h (s.eqAt_refl _)) (by simp [Store.run, Store.step, Store.setNode])
    have := Store.Hangs.mk (s := s.run l) (p := p) (fun _ => c) (by rw [e]; intro q hq'; cases hq'; exact hq)
    rw [e] at this
    exact this

/-- C102: what is in a map under a name is what was registered last. -/
theorem C102_registered {l : List BStep} {m : Nat} {n : GoStr} {qs : List Nat}
    (h : SameAt (.entry m n) l (qs.map (.setReference m n))) : (s.run l).maps m n = qs.getLast?.or (s.maps m n) :=
  Eq.trans (run_eqAt h (s.eqAt_refl _)) (run_entry m n qs s)

/-! ## Examples -/

/-- `s := String(); o := Object().AddProp("a", s).AddProp("b", s); s.MinLength(3)`: the last call comes when `s` is in use. -/
def exShare : List BStep :=
  [.newString 2, .newObject 3, .obj 3 (.addProp (b! "a") 2), .obj 3 (.addProp (b! "b") 2), .str 2 (.minLength 3)]

/-- Both properties are strings of length 3 at least. -/
theorem exShare_hangs : (Store.init.run exShare).Hangs 3
    (ObjectCalls [.addProp (b! "a") (StringCalls [.minLength 3]), .addProp (b! "b") (StringCalls [.minLength 3])]) := by
  refine C102_own_object (calls := [.addProp (b! "a") 2, .addProp (b! "b") 2]) (f := fun _ => StringCalls [.minLength 3])
    (.left (by intro h; cases h) (.both (.both (.both (.left (by intro h; cases h) .nil))))) fun q hq => ?_
  have hq : q = 2 := by
    have : q ∈ [2, 2] := GNode.mem_kids hq
    simpa using this
  subst hq
  exact C102_own_string (.both (.left (by intro h; cases h) (.left (by intro h; cases h) (.left (by intro h; cases h) (.both .nil)))))

theorem init_maps (l : List BStep) (h : ∀ m n q, BStep.setReference m n q ∉ l) : (Store.init.run l).MapsAre fun _ _ => none := by
  intro m n
  refine .inl ⟨?_, rfl⟩
  exact C102_untouched (s := .init) (x := .entry m n) fun b hb hw => by cases hw; exact h _ _ _ hb

/-- `{"b": "xx"}` is rejected on account of the call made last. -/
example : (Store.init.run exShare).Returns demoExt 3 sched0 (.map false [(b! "b", .str (b! "xx"))]) (.err (.prop (b! "b") (.tooShort 3)))
    (.map false [(b! "b", .str (b! "xx"))]) :=
  ((C102_tree (init_maps exShare (by simp [exShare])) exShare_hangs).1 _ _ _ _).2 ⟨by decide, 0, by rfl⟩

/-- The same store before the last call; the object there with a hole for `s`, and what `MinLength(3)` makes of it. -/
example : let s := Store.init.run exShare.dropLast
    let c : Constraint := ObjectCalls [.addProp (b! "a") (.ref 7 []), .addProp (b! "b") (.ref 7 [])]
    s.Hangs 3 (c.fill (7, []) (StringCalls [])) ∧
      (s.setNode 2 (.string (String'.MinLength 3))).Hangs 3 (c.fill (7, []) (StringCalls [.minLength 3])) := by
  refine C102_in_place (h := (7, [])) ?_ ?_ ?_ ?_
  · intro q _ h
    by_cases h3 : q = 3
    · subst h3; cases h
    · have := C102_untouched (s := .init) (l := exShare.dropLast) (x := .node q) (by
        intro b hb hw
        simp only [exShare, List.dropLast, List.mem_cons, List.not_mem_nil, or_false] at hb
        rcases hb with rfl | rfl | rfl | rfl <;> cases hw <;> contradiction)
      rw [show _ = _ from this] at h
      simp only [Store.init] at h
      split at h <;> cases h
  · refine Store.Hangs.mk (p := 3) (fun _ => .ref 7 []) fun q hq => ?_
    have hq : q ∈ [2, 2] := GNode.mem_kids hq
    have hq : q = 2 := by simpa using hq
    subst hq
    exact Store.Hangs.mk (p := 2) (fun _ => .empty) fun q hq => by cases hq
  · exact Store.Hangs.mk (p := 2) (fun _ => .empty) fun q hq => by cases hq
  · exact Store.Hangs.mk (p := 2) (fun _ => .empty) fun q hq => by cases hq

/-- The object and its string may be made in the other order, and the last call be made early. -/
example : Store.init.run exShare = Store.init.run
    [.newObject 3, .newString 2, .str 2 (.minLength 3), .obj 3 (.addProp (b! "a") 2), .obj 3 (.addProp (b! "b") 2)] := by
  refine C102_order fun x => ?_
  by_cases h2 : x = .node 2
  · subst h2
    exact .right (by intro h; cases h) (.both (.left (by intro h; cases h) (.left (by intro h; cases h) (.left (by intro h; cases h)
      (.both (.right (by intro h; cases h) (.right (by intro h; cases h) .nil)))))))
  · have hs : ¬ (BStep.newString 2).Writes x := by intro h; cases h; exact h2 rfl
    have hm : ¬ (BStep.str 2 (.minLength 3)).Writes x := by intro h; cases h; exact h2 rfl
    exact .left hs (.both (.right hs (.right hm (.both (.both (.left hm .nil))))))

/-- Another string, made and changed later, does not matter to the object. -/
example (σ : Sched) (v : GoVal) (r : Res) (v' : GoVal) :
    (Store.init.run (exShare ++ [.newString 9, .str 9 (.maxLength 1)])).Returns ext 3 σ v r v' ↔
      (Store.init.run exShare).Returns ext 3 σ v r v' := by
  refine (C102_frame (R := fun p => p = 2 ∨ p = 3) ⟨?_, ?_, ?_⟩ ?_ (.inr rfl)).1 σ v r v'
  · rintro p (rfl | rfl) <;> rfl
  · rintro p a (rfl | rfl) (h | h) <;> cases h
  · rintro p m n (rfl | rfl) h <;> cases h
  · rintro p q (rfl | rfl) h
    · cases h with
      | pointer h => cases h
      | name h => cases h
    · cases h with
      | pointer h =>
        have hq : q ∈ [2, 2] := GNode.mem_kids h
        exact .inl (by simpa using hq)
      | name h => cases h

/-- A reference with two names, and a map with two entries under the last one: the string is found, the boolean is not. -/
example : let s := Store.init.run [.newString 2, .newBoolean 3, .newReference 4 5, .refersTo 4 (b! "x"), .setReference 5 (b! "y") 3,
      .setReference 5 (b! "y") 2, .refersTo 4 (b! "y")]
    s.Hangs 4 (.ref 5 (b! "y")) ∧ s.maps 5 (b! "y") = some 2 :=
  ⟨C102_own_others.2.2.1 5 [b! "x", b! "y"] (.left (by intro h; cases h) (.left (by intro h; cases h) (.both (.both
      (.left (by intro h; cases h) (.left (by intro h; cases h) (.both .nil))))))),
    C102_registered (qs := [3, 2]) (.left (by intro h; cases h) (.left (by intro h; cases h) (.left (by intro h; cases h)
      (.left (by intro h; cases h) (.both (.both (.left (by intro h; cases h) .nil)))))))⟩

/-- An object that uses itself: `n := Object(); a := Any().Add(NullConstraint).Add(n); n.AddProp("next", a)`. -/
def exLinked : List BStep := [.newObject 2, .newAny 3, .add 3 nullAddr, .add 3 2, .obj 2 (.addProp (b! "next") 3)]

theorem exLinked_node (p : Nat) : (Store.init.run exLinked).node p =
    if p = 2 then .object ⟨[(b! "next", 3)], [], none, [], [], [], -1, -1⟩ else if p = 3 then .any [1, 2] else
      if p = 1 then .null else .empty := by
  by_cases h2 : p = 2
  · subst h2; rfl
  by_cases h3 : p = 3
  · subst h3; rfl
  have := C102_untouched (s := .init) (l := exLinked) (x := .node p) (by
    intro b hb hw
    simp only [exLinked, List.mem_cons, List.not_mem_nil, or_false] at hb
    rcases hb with rfl | rfl | rfl | rfl | rfl <;> cases hw <;> omega)
  rw [if_neg h2, if_neg h3]
  exact this

/-- No tree hangs there, but every call returns. -/
example (σ : Sched) (v : GoVal) : (¬ ∃ c, (Store.init.run exLinked).Hangs 2 c) ∧
    ∃ r v', (Store.init.run exLinked).Returns ext 2 σ v r v' := by
  refine ⟨?_, C102_guarded ?_ ?_ 2 σ v⟩
  · rw [C102_has_tree]
    have h23 : ((Store.init.run exLinked).node 2).Points 3 := .object (.prop (p := b! "next") (by decide))
    have h32 : ((Store.init.run exLinked).node 3).Points 2 := .any (by decide)
    intro h
    have : ∀ p, Acc (fun q p => ((Store.init.run exLinked).node p).Points q) p → p ≠ 2 ∧ p ≠ 3 := by
      intro p h
      induction h with
      | intro p _ ih =>
        refine ⟨?_, ?_⟩
        · rintro rfl; exact (ih 3 h23).2 rfl
        · rintro rfl; exact (ih 2 h32).1 rfl
    exact (this 2 h).1 rfl
  · have hsame : ∀ p q, (Store.init.run exLinked).Same p q → p = 3 ∧ (q = 1 ∨ q = 2) := by
      intro p q h
      have hn := exLinked_node p
      by_cases h3 : p = 3
      · subst h3
        refine ⟨rfl, ?_⟩
        cases h with
        | any h hq => rw [hn] at h; cases h; simpa using hq
        | _ h => rw [hn] at h; cases h
      · exfalso
        by_cases h2 : p = 2
        · subst h2
          cases h with
          | dependency h hq => rw [hn] at h; cases h; cases hq
          | _ h => rw [hn] at h; cases h
        · rw [if_neg h2, if_neg h3] at hn
          by_cases h1 : p = 1
          · rw [if_pos h1] at hn
            cases h <;> rename_i h <;> simp_all
          · rw [if_neg h1] at hn
            cases h <;> rename_i h <;> simp_all
    refine Subrelation.wf (r := fun q p => (if q = 3 then 1 else 0) < (if p = 3 then 1 else 0)) ?_ (measure fun p => if p = 3 then 1 else 0).wf
    intro q p h
    obtain ⟨rfl, h | h⟩ := hsame p q h <;> subst h <;> decide
  · intro p dv h
    rw [exLinked_node] at h
    split at h
    · cases h
    · split at h
      · cases h
      · split at h <;> cases h

/-- `{"next": {"next": null}}` is accepted. -/
example : (Store.init.run exLinked).Returns demoExt 2 sched0 (.map false [(b! "next", .map false [(b! "next", .nil)])]) .ok
    (.map false [(b! "next", .map false [(b! "next", .nil)])]) := ⟨by decide, 6, by rfl⟩

/-- `{"next": true}` is not. -/
example : (Store.init.run exLinked).Returns demoExt 2 sched0 (.map false [(b! "next", .bool true)]) (.err (.prop (b! "next") .anyNone))
    (.map false [(b! "next", .bool true)]) := ⟨by decide, 6, by rfl⟩

/-- `a := Any(); a.Add(a)` never answers. -/
example (σ : Sched) (v : GoVal) (r : Res) (v' : GoVal) : ¬ (Store.init.run [.newAny 2, .add 2 2]).Returns ext 2 σ v r v' :=
  C102_cycle (S := (· = 2)) (by rintro p rfl; exact ⟨2, .any (cs := []) rfl, rfl⟩) rfl σ v r v'

/-- `i := Integer(); n := i.Enum(5.0); n.Minimum(5)`: both have all the parameters; the integer one still is one. -/
example : let s := Store.init.run [.newInteger 2 0, .num 0 (.enum [fl 5]), .asNumber 3 0, .num 0 (.minimum (F64.exactInt 5))]
    s.Hangs 2 (.integer ((Number'.Enum [fl 5]).Minimum (F64.exactInt 5))) ∧ s.Hangs 3 (.number ((Number'.Enum [fl 5]).Minimum (F64.exactInt 5))) :=
  C102_own_integer (calls := [.enum [fl 5], .minimum (F64.exactInt 5)])
    (.both (.left (by intro h; cases h) (.left (by intro h; cases h) (.left (by intro h; cases h) .nil))))
    (.left (by intro h; cases h) (.left (by intro h; cases h) (.both (.left (by intro h; cases h) .nil))))
    (.both (.both (.left (by intro h; cases h) (.both .nil))))

end Jsval
