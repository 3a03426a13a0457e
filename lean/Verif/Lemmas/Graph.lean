import Verif.Spec.Graph
import Verif.Lemmas.Refine
import Verif.Lemmas.Inline
/-!
# Lemmas about constraints as objects
-/
namespace Jsval

variable {ext : Ext} {s : Store}

/-! ## One object -/

/-- The addresses an object holds. -/
def GNode.kids : GNode → List Nat
  | .array a => a.items.toList ++ a.positional ++ a.additional.toList
  | .object o => o.props.map (·.2) ++ o.patterns.map (·.2.2) ++ o.additional.toList ++ o.schemadeps.map (·.2)
  | .any cs => cs
  | .all cs => cs
  | .oneOf cs => cs
  | .not c => c.toList
  | _ => []

theorem GNode.mem_kids {n : GNode} {q : Nat} (h : n.Points q) : q ∈ n.kids := by
  cases h with
  | array h =>
    cases h with
    | items h => simp [kids, h]
    | positional h => simp [kids, h]
    | additional h => simp [kids, h]
  | object h =>
    cases h with
    | @prop x _ h => simp only [kids, List.mem_append, List.mem_map]; exact .inl (.inl (.inl ⟨_, h, rfl⟩))
    | pattern h => simp only [kids, List.mem_append, List.mem_map]; exact .inl (.inl (.inr ⟨_, h, rfl⟩))
    | additional h => simp [kids, h]
    | dependency h =>
      simp only [kids, List.mem_append, List.mem_map]
      exact .inr ⟨_, alookup_mem h, rfl⟩
  | any h => exact h
  | all h => exact h
  | oneOf h => exact h
  | not => simp [kids]

theorem GNode.sem_below {A : Abort → Prop} {cell : Nat → NumC} {S T : Nat → Sem} {ρ ρ' : RefSem} {n : GNode}
    (hS : ∀ q, n.Points q → Below A (S q) (T q)) (hρ : ∀ m x, n = .ref m x → Below A (ρ m x) (ρ' m x)) :
    Below A (n.sem ext cell S ρ) (n.sem ext cell T ρ') := by
  cases n with
  | array a => exact ⟨fun _ => rfl, fun σ v h => arrayV_below a (fun c hc => hS c (.array hc)) σ v h⟩
  | object o => exact ⟨fun _ => rfl, fun σ v h => objectV_below o (fun c hc => hS c (.object hc)) σ v h⟩
  | any cs => exact ⟨fun _ => rfl, fun σ v h => anyLoop_below σ cs 0 v (fun c hc => hS c (.any hc)) h⟩
  | all cs => exact ⟨fun _ => rfl, fun σ v h => allLoop_below σ cs 0 v (fun c hc => hS c (.all hc)) h⟩
  | oneOf cs => exact ⟨fun _ => rfl, fun σ v h => oneOfLoop_below σ cs 0 0 v (fun c hc => hS c (.oneOf hc)) h⟩
  | not c => exact ⟨fun _ => rfl, fun σ v h => notV_below σ c v (fun d hd => hS d (by subst hd; exact .not)) h⟩
  | ref m x => exact hρ m x rfl
  | _ => exact .refl _

theorem GNode.denote_tree (ρ : RefSem) (cell : Nat → NumC) (f : Nat → Constraint) (n : GNode) :
    denote ext ρ (n.tree cell f) = n.sem ext cell (fun q => denote ext ρ (f q)) ρ := by
  cases n with
  | array a =>
    simp only [tree, sem, denote, denoteArr_eq, ArrC.map, List.map_map, Option.map_map]
    rfl
  | object o =>
    simp only [tree, sem, denote, denoteObj_eq, ObjC.map, List.map_map, Option.map_map]
    rfl
  | any cs => simp only [tree, sem, denote, denoteList_eq, List.map_map]; rfl
  | all cs => simp only [tree, sem, denote, denoteList_eq, List.map_map]; rfl
  | oneOf cs => simp only [tree, sem, denote, denoteList_eq, List.map_map]; rfl
  | not c => simp only [tree, sem, denote, denoteOpt_eq, Option.map_map]; rfl
  | _ => simp only [tree, sem, denote]

/-! ## Fuel -/

theorem running_below (t : Sem) : Below (· = .diverge) running t :=
  ⟨fun h => absurd rfl (h .diverge rfl), fun _ _ h => absurd rfl (h .diverge rfl)⟩

theorem graphSem_below : ∀ {k k' : Nat}, k ≤ k' → ∀ p, Below (· = .diverge) (graphSem ext s k p) (graphSem ext s k' p)
  | 0, k', _, p => running_below _
  | k + 1, 0, h, p => by omega
  | k + 1, k' + 1, h, p => by
    refine GNode.sem_below (fun q _ => graphSem_below (by omega) q) fun m x _ => ?_
    cases s.maps m x with
    | none => exact .refl _
    | some q => exact graphSem_below (by omega) q

theorem returns_of_below {P : Nat → Sem} {Q : Nat → Sem} (h : ∀ k, ∃ k', Below (· = .diverge) (P k) (Q k')) {σ : Sched} {v v' : GoVal}
    {r : Res} : (r ≠ .abort .diverge ∧ ∃ k, (P k).val σ v = (r, v')) → (r ≠ .abort .diverge ∧ ∃ k, (Q k).val σ v = (r, v')) := by
  rintro ⟨hr, k, hk⟩
  obtain ⟨k', hb⟩ := h k
  exact ⟨hr, k', hb.keep hr hk⟩

theorem default_of_below {P : Nat → Sem} {Q : Nat → Sem} (h : ∀ k, ∃ k', Below (· = .diverge) (P k) (Q k')) {d : Dflt} :
    (d ≠ .abort .diverge ∧ ∃ k, (P k).dflt = d) → (d ≠ .abort .diverge ∧ ∃ k, (Q k).dflt = d) := by
  rintro ⟨hr, k, hk⟩
  obtain ⟨k', hb⟩ := h k
  exact ⟨hr, k', hb.keepD hr hk⟩

/-! ## Trees -/

theorem graph_below_tree {env : Env} (he : s.MapsAre env) : ∀ k p c, s.Hangs p c →
    Below (· = .diverge) (graphSem ext s k p) (sem ext env k c)
  | 0, p, c, _ => running_below _
  | k + 1, p, c, h => by
    obtain ⟨f, hf⟩ := h
    unfold Jsval.sem
    rw [GNode.denote_tree]
    refine GNode.sem_below (fun q hq => ?_) fun m x _ => ?_
    · exact (graph_below_tree he k q (f q) (hf q hq)).trans (Jsval.sem_below (Nat.le_succ k) (f q))
    · rcases he m x with ⟨h1, h2⟩ | ⟨q, c, h1, h2, h3⟩
      · simp only [h1, refSem, h2]; exact .refl _
      · simp only [h1, refSem, h2]; exact graph_below_tree he k q c h3

theorem bound_all {P : Nat → Nat → Prop} : ∀ l : List Nat, (∀ q ∈ l, ∃ K, ∀ K', K ≤ K' → P q K') →
    ∃ K, ∀ K', K ≤ K' → ∀ q ∈ l, P q K'
  | [], _ => ⟨0, by simp⟩
  | q :: l, h => by
    obtain ⟨K, hK⟩ := h q (by simp)
    obtain ⟨L, hL⟩ := bound_all l fun q hq => h q (by simp [hq])
    refine ⟨max K L, fun K' hK' x hx => ?_⟩
    rcases List.mem_cons.1 hx with rfl | hx
    · exact hK K' (by omega)
    · exact hL K' (by omega) x hx

theorem tree_below_graph {env : Env} (he : s.MapsAre env) : ∀ j p c, s.Hangs p c →
    ∃ K, ∀ K', K ≤ K' → Below (· = .diverge) (sem ext env j c) (graphSem ext s K' p) := by
  intro j
  induction j with
  | zero =>
    intro p c h
    induction h with
    | @mk p f hf ih =>
      obtain ⟨K, hK⟩ := bound_all (P := fun q K' => (s.node p).Points q → Below (· = .diverge) (sem ext env 0 (f q)) (graphSem ext s K' q))
        (s.node p).kids fun q _ => by
          by_cases hq : (s.node p).Points q
          · obtain ⟨K, hK⟩ := ih q hq
            exact ⟨K, fun K' h _ => hK K' h⟩
          · exact ⟨0, fun _ _ h => absurd h hq⟩
      refine ⟨K + 1, fun K' hK' => ?_⟩
      obtain ⟨K', rfl⟩ : ∃ L, K' = L + 1 := ⟨K' - 1, by omega⟩
      unfold Jsval.sem
      rw [GNode.denote_tree]
      exact GNode.sem_below (fun q hq => hK K' (by omega) q (GNode.mem_kids hq) hq) fun m x _ => running_below _
  | succ j ihj =>
    intro p c h
    induction h with
    | @mk p f hf ih =>
      obtain ⟨K, hK⟩ := bound_all (P := fun q K' => (s.node p).Points q → Below (· = .diverge) (sem ext env (j + 1) (f q)) (graphSem ext s K' q))
        (s.node p).kids fun q _ => by
          by_cases hq : (s.node p).Points q
          · obtain ⟨K, hK⟩ := ih q hq
            exact ⟨K, fun K' h _ => hK K' h⟩
          · exact ⟨0, fun _ _ h => absurd h hq⟩
      obtain ⟨L, hL⟩ : ∃ L, ∀ L', L ≤ L' → ∀ m x, s.node p = .ref m x → Below (· = .diverge) (refSem ext env (j + 1) m x)
          (match s.maps m x with | none => unresolved x | some q => graphSem ext s L' q) := by
        by_cases hp : ∃ m x, s.node p = .ref m x
        · obtain ⟨m, x, hp⟩ := hp
          rcases he m x with ⟨h1, h2⟩ | ⟨q, c, h1, h2, h3⟩
          · refine ⟨0, fun L' _ m' x' hx => ?_⟩
            rw [hp] at hx; cases hx
            simp only [h1, refSem, h2]; exact .refl _
          · obtain ⟨L, hL⟩ := ihj q c h3
            refine ⟨L, fun L' hL' m' x' hx => ?_⟩
            rw [hp] at hx; cases hx
            simp only [h1, refSem, h2]
            exact hL L' hL'
        · exact ⟨0, fun _ _ m x h => absurd ⟨m, x, h⟩ hp⟩
      refine ⟨max K L + 1, fun K' hK' => ?_⟩
      obtain ⟨K', rfl⟩ : ∃ L, K' = L + 1 := ⟨K' - 1, by omega⟩
      unfold Jsval.sem
      rw [GNode.denote_tree]
      exact GNode.sem_below (fun q hq => hK K' (by omega) q (GNode.mem_kids hq) hq) fun m x hx => hL K' (by omega) m x hx

/-! ## Pointers as references -/

theorem asEnv_addr (p : Nat) : s.asEnv (2 * p) [] = some ((s.node p).asRefs s.cell) := by
  unfold Store.asEnv
  rw [if_pos (by omega), if_pos rfl, show 2 * p / 2 = p by omega]

theorem asEnv_name (m : Nat) (x : GoStr) : s.asEnv (2 * m + 1) x = (s.maps m x).map fun q => (s.node q).asRefs s.cell := by
  unfold Store.asEnv
  rw [if_neg (by omega), show (2 * m + 1) / 2 = m by omega]

theorem denote_asRefs (ρ : RefSem) (cell : Nat → NumC) (n : GNode) :
    denote ext ρ (n.asRefs cell) = n.sem ext cell (fun q => ρ (2 * q) []) (fun m x => ρ (2 * m + 1) x) := by
  cases n with
  | ref m x => simp only [GNode.asRefs, denote, GNode.sem]
  | _ =>
    simp only [GNode.asRefs]
    rw [GNode.denote_tree]
    simp only [denote, GNode.sem]

theorem refSem_addr (k p : Nat) : refSem ext s.asEnv (k + 1) (2 * p) [] =
    (s.node p).sem ext s.cell (fun q => refSem ext s.asEnv k (2 * q) []) (fun m x => refSem ext s.asEnv k (2 * m + 1) x) := by
  simp only [refSem, asEnv_addr, denote_asRefs]

theorem refSem_name {m q : Nat} {x : GoStr} (h : s.maps m x = some q) (k : Nat) :
    refSem ext s.asEnv k (2 * m + 1) x = refSem ext s.asEnv k (2 * q) [] := by
  cases k with
  | zero => rfl
  | succ k => simp only [refSem, asEnv_addr, asEnv_name, h, Option.map_some]

theorem refs_below_graph : ∀ k p, Below (· = .diverge) (refSem ext s.asEnv k (2 * p) []) (graphSem ext s k p)
  | 0, p => running_below _
  | k + 1, p => by
    rw [refSem_addr]
    refine GNode.sem_below (fun q _ => refs_below_graph k q) fun m x _ => ?_
    cases h : s.maps m x with
    | none =>
      cases k with
      | zero => exact running_below _
      | succ k => simp only [refSem, asEnv_name, h, Option.map_none]; exact .refl _
    | some q =>
      rw [refSem_name h]
      exact refs_below_graph k q

theorem graph_below_refs : ∀ k p, Below (· = .diverge) (graphSem ext s k p) (refSem ext s.asEnv (k + 1) (2 * p) [])
  | 0, p => running_below _
  | k + 1, p => by
    rw [refSem_addr]
    refine GNode.sem_below (fun q _ => graph_below_refs k q) fun m x _ => ?_
    cases h : s.maps m x with
    | none => simp only [refSem, asEnv_name, h, Option.map_none]; exact .refl _
    | some q =>
      rw [refSem_name h]
      exact graph_below_refs k q

/-! ## Stores that are alike -/

theorem GNode.sem_congr {cell cell' : Nat → NumC} {S T : Nat → Sem} {ρ ρ' : RefSem} {n : GNode}
    (hS : ∀ q, n.Points q → T q = S q) (hρ : ∀ m x, n = .ref m x → ρ' m x = ρ m x) (hc : ∀ a, n.Cell a → cell' a = cell a) :
    n.sem ext cell' T ρ' = n.sem ext cell S ρ := by
  have hb : n.sem ext cell' T ρ' = n.sem ext cell T ρ' := by
    cases n with
    | number a => simp only [sem, hc a (.inl rfl)]
    | integer a => simp only [sem, hc a (.inr rfl)]
    | _ => rfl
  rw [hb]
  have : Below (fun _ => False) (n.sem ext cell S ρ) (n.sem ext cell T ρ') :=
    sem_below (fun q hq => by rw [hS q hq]; exact .refl _) fun m x h => by rw [hρ m x h]; exact .refl _
  have h1 := this.dflt (fun a h => absurd h id)
  have h2 := fun σ v => this.val σ v (fun a h => absurd h id)
  rcases e : n.sem ext cell S ρ with ⟨d, f⟩
  rcases e' : n.sem ext cell T ρ' with ⟨d', f'⟩
  rw [e, e'] at h1 h2
  simp only at h1 h2
  rw [h1, show f' = f from funext fun σ => funext fun v => h2 σ v]

theorem graphSem_alike {s' : Store} {R : Nat → Prop} (ha : s.AlikeOn s' R) (hc : s.Closed R) : ∀ k p, R p →
    graphSem ext s' k p = graphSem ext s k p
  | 0, _, _ => rfl
  | k + 1, p, hp => by
    simp only [graphSem, ha.node p hp]
    refine GNode.sem_congr (fun q hq => graphSem_alike ha hc k q (hc p q hp (.pointer hq))) (fun m x hx => ?_)
      fun a h => ha.cell p a hp h
    rw [ha.maps p m x hp hx]
    cases h : s.maps m x with
    | none => rfl
    | some q => exact graphSem_alike ha hc k q (hc p q hp (.name hx h))

/-! ## Replacing an object -/

theorem inlineOpt_eq (g : Nat → GoStr → Constraint) : ∀ c, inlineOpt g c = c.map (Constraint.inline g)
  | none => by simp [inlineOpt]
  | some c => by simp [inlineOpt]

theorem inlineList_eq (g : Nat → GoStr → Constraint) : ∀ cs, inlineList g cs = cs.map (Constraint.inline g)
  | [] => by simp [inlineList]
  | c :: cs => by simp [inlineList, inlineList_eq g cs]

theorem inlineProps_eq (g : Nat → GoStr → Constraint) : ∀ cs, inlineProps g cs = cs.map (fun x => (x.1, x.2.inline g))
  | [] => by simp [inlineProps]
  | (n, c) :: cs => by simp [inlineProps, inlineProps_eq g cs]

theorem inlinePats_eq (g : Nat → GoStr → Constraint) : ∀ cs, inlinePats g cs = cs.map (fun x => (x.1, x.2.1, x.2.2.inline g))
  | [] => by simp [inlinePats]
  | (i, n, c) :: cs => by simp [inlinePats, inlinePats_eq g cs]

theorem GNode.inline_tree {cell cell' : Nat → NumC} {f : Nat → Constraint} {g : Nat → GoStr → Constraint} {n : GNode}
    (hn : ∀ m x, n = .ref m x → g m x = .ref m x) (hc : ∀ a, n.Cell a → cell' a = cell a) :
    (n.tree cell f).inline g = n.tree cell' fun q => (f q).inline g := by
  cases n with
  | array a => simp [tree, Constraint.inline, inlineOpt_eq, inlineList_eq, Function.comp_def]
  | object o => simp [tree, Constraint.inline, inlineOpt_eq, inlineProps_eq, inlinePats_eq, Function.comp_def]
  | any cs => simp [tree, Constraint.inline, inlineList_eq, Function.comp_def]
  | all cs => simp [tree, Constraint.inline, inlineList_eq, Function.comp_def]
  | oneOf cs => simp [tree, Constraint.inline, inlineList_eq, Function.comp_def]
  | not c => simp [tree, Constraint.inline, inlineOpt_eq, Function.comp_def]
  | ref m x => simp [tree, Constraint.inline, hn m x rfl]
  | number a => simp [tree, Constraint.inline, hc a (.inl rfl)]
  | integer a => simp [tree, Constraint.inline, hc a (.inr rfl)]
  | _ => simp [tree, Constraint.inline]

/-! ## Programs -/

theorem Store.eqAt_refl (s : Store) (x : Loc) : s.EqAt s x := by cases x <;> rfl

theorem step_eqAt {s s' : Store} {x : Loc} (h : s.EqAt s' x) (b : BStep) : (s.step b).EqAt (s'.step b) x := by
  cases x with
  | node p =>
    simp only [Store.EqAt] at h ⊢
    cases b <;> simp only [Store.step, Store.setNode, Store.setCell, Store.setEntry] <;> first | exact h | (split <;> simp_all)
  | cell a =>
    simp only [Store.EqAt] at h ⊢
    cases b <;> simp only [Store.step, Store.setNode, Store.setCell, Store.setEntry] <;> first | exact h | (split <;> simp_all)
  | entry m n =>
    simp only [Store.EqAt] at h ⊢
    cases b <;> simp only [Store.step, Store.setNode, Store.setCell, Store.setEntry] <;> first | exact h | (split <;> simp_all)

theorem step_off {s : Store} {x : Loc} {b : BStep} (h : ¬ b.Writes x) : (s.step b).EqAt s x := by
  cases x with
  | node p =>
    simp only [Store.EqAt]
    cases b <;> simp only [Store.step, Store.setNode, Store.setCell, Store.setEntry] <;>
      first | rfl | (split <;> first | rfl | (subst_vars; exact absurd (by constructor) h))
  | cell a =>
    simp only [Store.EqAt]
    cases b <;> simp only [Store.step, Store.setNode, Store.setCell, Store.setEntry] <;>
      first | rfl | (split <;> first | rfl | (subst_vars; exact absurd (by constructor) h))
  | entry m n =>
    simp only [Store.EqAt]
    cases b <;> simp only [Store.step, Store.setNode, Store.setCell, Store.setEntry] <;>
      first | rfl | (split <;> first | rfl | (rename_i he; obtain ⟨rfl, rfl⟩ := he; exact absurd (by constructor) h))

theorem Store.EqAt.symm {s s' : Store} {x : Loc} (h : s.EqAt s' x) : s'.EqAt s x := by
  cases x <;> exact Eq.symm h

theorem Store.EqAt.trans {s s' t : Store} {x : Loc} (h : s.EqAt s' x) (h' : s'.EqAt t x) : s.EqAt t x := by
  cases x <;> exact Eq.trans h h'

theorem run_eqAt {x : Loc} {l l' : List BStep} (hl : SameAt x l l') : ∀ {s s' : Store}, s.EqAt s' x → (s.run l).EqAt (s'.run l') x := by
  induction hl with
  | nil => exact fun h => h
  | @both b l l' _ ih => exact fun h => ih (step_eqAt h b)
  | @left b l l' hb _ ih => exact fun h => ih ((step_off hb).trans h)
  | @right b l l' hb _ ih => exact fun h => ih (h.trans (step_off hb).symm)

theorem run_str (p : Nat) : ∀ (calls : List StrCall) (s : Store) (c : StrC), s.node p = .string c →
    (s.run (calls.map (.str p))).node p = .string (calls.foldl StrCall.on c)
  | [], s, c, h => h
  | k :: calls, s, c, h => run_str p calls (s.step (.str p k)) (k.on c) (by simp [Store.step, Store.setNode, h, GNode.str])

theorem run_num (a : Nat) : ∀ (calls : List NumCall) (s : Store),
    (s.run (calls.map (.num a))).cell a = calls.foldl NumCall.on (s.cell a)
  | [], s => rfl
  | k :: calls, s => by
    refine (run_num a calls (s.step (.num a k))).trans ?_
    simp [Store.step, Store.setCell]

theorem run_arr (p : Nat) : ∀ (calls : List (ArrCall Nat)) (s : Store) (c : ArrC Nat), s.node p = .array c →
    (s.run (calls.map (.arr p))).node p = .array (calls.foldl ArrCall.on c)
  | [], s, c, h => h
  | k :: calls, s, c, h => run_arr p calls (s.step (.arr p k)) (k.on c) (by simp [Store.step, Store.setNode, h, GNode.arr])

theorem run_obj (p : Nat) : ∀ (calls : List (ObjCall Nat)) (s : Store) (c : ObjC Nat), s.node p = .object c →
    (s.run (calls.map (.obj p))).node p = .object (calls.foldl ObjCall.on c)
  | [], s, c, h => h
  | k :: calls, s, c, h => run_obj p calls (s.step (.obj p k)) (k.on c) (by simp [Store.step, Store.setNode, h, GNode.obj])

theorem run_add (p : Nat) (K : List Nat → GNode) (hK : ∀ cs q, (K cs).add q = K (cs ++ [q])) : ∀ (qs : List Nat) (s : Store) (cs : List Nat),
    s.node p = K cs → (s.run (qs.map (.add p))).node p = K (cs ++ qs)
  | [], s, cs, h => by rw [List.append_nil]; exact h
  | q :: qs, s, cs, h => by
    have := run_add p K hK qs (s.step (.add p q)) (cs ++ [q]) (by simp [Store.step, Store.setNode, h, hK])
    rw [List.append_assoc] at this
    exact this

theorem run_bool (p : Nat) : ∀ (vs : List GoVal) (s : Store) (d : Option GoVal), s.node p = .boolean d →
    (s.run (vs.map (.boolDefault p))).node p = .boolean (vs.getLast?.or d)
  | [], s, d, h => by simpa [Store.run] using h
  | v :: vs, s, d, h => by
    have := run_bool p vs (s.step (.boolDefault p v)) (some v) (by simp [Store.step, Store.setNode, h, GNode.boolDefault])
    refine Eq.trans this ?_
    cases vs with
    | nil => simp
    | cons w vs => rw [List.getLast?_cons_cons]; cases h : (w :: vs).getLast? with
      | none => simp at h
      | some x => simp

theorem run_enum (p : Nat) : ∀ (ls : List (List GoVal)) (s : Store) (l : List GoVal), s.node p = .enum l →
    (s.run (ls.map (.enum p))).node p = .enum (ls.getLast?.getD l)
  | [], s, l, h => by simpa [Store.run] using h
  | k :: ls, s, l, h => by
    have := run_enum p ls (s.step (.enum p k)) k (by simp [Store.step, Store.setNode, h, GNode.setEnum])
    refine Eq.trans this ?_
    cases ls with
    | nil => simp
    | cons w ls => rw [List.getLast?_cons_cons]; cases h : (w :: ls).getLast? with
      | none => simp at h
      | some x => simp

theorem run_ref (p m : Nat) : ∀ (ns : List GoStr) (s : Store) (n : GoStr), s.node p = .ref m n →
    (s.run (ns.map (.refersTo p))).node p = .ref m (ns.getLast?.getD n)
  | [], s, n, h => by simpa [Store.run] using h
  | k :: ns, s, n, h => by
    have := run_ref p m ns (s.step (.refersTo p k)) k (by simp [Store.step, Store.setNode, h, GNode.refersTo])
    refine Eq.trans this ?_
    cases ns with
    | nil => simp
    | cons w ns => rw [List.getLast?_cons_cons]; cases h : (w :: ns).getLast? with
      | none => simp at h
      | some x => simp

theorem run_entry (m : Nat) (n : GoStr) : ∀ (qs : List Nat) (s : Store),
    (s.run (qs.map (.setReference m n))).maps m n = qs.getLast?.or (s.maps m n)
  | [], s => by simp [Store.run]
  | q :: qs, s => by
    have := run_entry m n qs (s.step (.setReference m n q))
    refine Eq.trans this ?_
    cases qs with
    | nil => simp [Store.step, Store.setEntry]
    | cons w qs => rw [List.getLast?_cons_cons]; cases h : (w :: qs).getLast? with
      | none => simp at h
      | some x => simp

theorem ainsert_onSnd {β γ : Type} (φ : β → γ) (k : GoStr) (v : β) : ∀ l : List (GoStr × β),
    (ainsert k v l).map (fun x => (x.1, φ x.2)) = ainsert k (φ v) (l.map fun x => (x.1, φ x.2))
  | [] => rfl
  | (k', v') :: l => by
    simp only [ainsert, List.map_cons]
    split
    · rfl
    · simp [ainsert_onSnd φ k v l]

theorem patInsert_onSnd {β γ : Type} (φ : β → γ) (i : Nat) (src : GoStr) (v : β) : ∀ l : List (Nat × GoStr × β),
    (patInsert i src v l).map (fun x => (x.1, x.2.1, φ x.2.2)) = patInsert i src (φ v) (l.map fun x => (x.1, x.2.1, φ x.2.2))
  | [] => rfl
  | (i', s', v') :: l => by
    simp only [patInsert, List.map_cons]
    split
    · rfl
    · simp [patInsert_onSnd φ i src v l]

theorem arr_on_map (f : Nat → Constraint) (a : ArrC Nat) (k : ArrCall Nat) : (k.on a).map f = (k.withTrees f).on (a.map f) := by
  cases k <;> rfl

theorem obj_on_map (f : Nat → Constraint) (o : ObjC Nat) (k : ObjCall Nat) : (k.on o).map f = (k.withTrees f).on (o.map f) := by
  cases k with
  | addProp n c => simp [ObjCall.on, ObjCall.withTrees, ObjC.AddProp, ObjC.map, ainsert_onSnd]
  | schemaDependency n c => simp [ObjCall.on, ObjCall.withTrees, ObjC.SchemaDependency, ObjC.map, ainsert_onSnd]
  | patternProperties i n c => simp [ObjCall.on, ObjCall.withTrees, ObjC.PatternProperties, ObjC.map, patInsert_onSnd]
  | _ => rfl

theorem arr_calls_map (f : Nat → Constraint) : ∀ (calls : List (ArrCall Nat)) (a : ArrC Nat),
    (calls.foldl ArrCall.on a).map f = (calls.map (·.withTrees f)).foldl ArrCall.on (a.map f)
  | [], _ => rfl
  | k :: calls, a => by simp only [List.foldl_cons, List.map_cons]; rw [arr_calls_map f calls, arr_on_map]

theorem obj_calls_map (f : Nat → Constraint) : ∀ (calls : List (ObjCall Nat)) (o : ObjC Nat),
    (calls.foldl ObjCall.on o).map f = (calls.map (·.withTrees f)).foldl ObjCall.on (o.map f)
  | [], _ => rfl
  | k :: calls, o => by simp only [List.foldl_cons, List.map_cons]; rw [obj_calls_map f calls, obj_on_map]

end Jsval
