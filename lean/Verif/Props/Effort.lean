import Verif.Lemmas.Effort
import Verif.Lemmas.EffortFuel
import Verif.Lemmas.EffortExact
import Verif.Props.Nesting
import Verif.Props.Unseen
/-!
# How many calls a validation makes (C126)
-/
namespace Jsval

variable {ext : Ext} {env : Env}

/-- C126: without references, validating a JSON document makes at most one call for each pair of a constraint in the validator and
a value in the document. -/
theorem C126_tree {c : Constraint} (hr : ∀ m n, ¬ (Constraint.ref m n).In c) (hc : Inert env c) (k : Nat) (σ : Sched) {v : GoVal} (hv : IsJson v) :
    callCount ext env k c σ v ≤ c.size * v.nodes := by
  have := callsOf_le (κ := refCalls ext env k) (ext := ext) (env := env) (fuel := k) rfl (le_refl 1) c (fun m n h => absurd h (hr m n)) hc σ hv
  rwa [Nat.mul_one] at this

/-- C126: if no definition has more than `S` constraints, a call that nests at most `k` references makes at most `(S + 1) ^ k` times as many. -/
theorem C126_nested {S : Nat} (hS : ∀ m n d, env m n = some d → d.size ≤ S) {c : Constraint} (hc : Inert env c) (k : Nat) (σ : Sched) {v : GoVal}
    (hv : IsJson v) : callCount ext env k c σ v ≤ c.size * (S + 1) ^ k * v.nodes :=
  calls_le hS hc k σ hv

/-- C126: the number of calls does not depend on how many nested references the model allows, as long as there are enough. -/
theorem C126_settled {k k' : Nat} (h : k ≤ k') {c : Constraint} {σ : Sched} {v : GoVal} (hd : ((sem ext env k c).val σ v).1 ≠ .abort .diverge) :
    callCount ext env k' c σ v = callCount ext env k c σ v :=
  callCount_below h hd

/-- C126: if every cycle of references goes through an element or a property, the number of calls on a document with `d` containers one inside
the other is bounded, whatever the definitions do. -/
theorem C126_recursive {F : Finset (Nat × GoStr)} (hF : Names env F) (hg : Guarded env) {S : Nat} (hS : ∀ m n d, env m n = some d → d.size ≤ S)
    (henv : env.Every NoDefault) {c : Constraint} (hc : c.Every NoDefault) {d : Nat} {v : GoVal} (hv : IsJson v) (hd : DepthLe d v) (k : Nat) (σ : Sched) :
    callCount ext env k c σ v ≤ c.size * (S + 1) ^ (F.card * (d + 2) + 1) * v.nodes := by
  have hdef : ∀ {e : Constraint}, e.Every NoDefault → e.Every (DefaultIn Flat) := fun h e he dv hdv => by
    have := h e he; unfold NoDefault at this; rw [this] at hdv; cases hdv
  rcases Nat.le_total (F.card * (d + 2) + 1) k with hk | hk
  · rw [C126_settled hk (C124_within hF hg (fun m n e h => hdef (henv m n e h)) (hdef hc) hd (le_refl _) σ)]
    exact C126_nested hS (inert_of_noDefault henv hc) _ σ hv
  · exact (C126_nested hS (inert_of_noDefault henv hc) k σ hv).trans
      (Nat.mul_le_mul_right _ (Nat.mul_le_mul_left _ (Nat.pow_le_pow_right (by omega) hk)))

/-! Neither bound can be improved much. -/

/-- `Array().Items(All().Add(EmptyConstraint)…)`, with `m` of them. -/
def exEach (m : Nat) : Constraint := .array { Array' with items := some (.all (List.replicate m .empty)) }
/-- `n` nulls -/
def exNulls (n : Nat) : GoVal := .slice false (List.replicate n .nil)

theorem exEach_size (m : Nat) : (exEach m).size = m + 3 := by
  simp only [exEach, Constraint.size, sizeArr, sizeOpt, sizeList_eq, Array', List.map_replicate, List.sum_replicate, List.map_nil, List.sum_nil]
  simp
  omega

theorem exNulls_nodes (n : Nat) : (exNulls n).nodes = n + 1 := by
  simp only [exNulls, GoVal.nodes, nodesList_eq, List.map_replicate, List.sum_replicate]
  simp
  omega

theorem all_empty_val (ρ : RefSem) (σ : Sched) (v : GoVal) : ∀ m i, allLoop i ((List.replicate m Constraint.empty).map (denote ext ρ)) σ v = (.ok, v)
  | 0, _ => rfl
  | m + 1, i => by
    simp only [List.replicate_succ, List.map_cons, allLoop, denote]
    exact all_empty_val ρ σ v m (i + 1)

theorem all_empty_calls (ρ : RefSem) (κ : Nat → GoStr → Sched → GoVal → Nat) (σ : Sched) (v : GoVal) :
    ∀ m i, allCalls i ((List.replicate m Constraint.empty).map (counted ext ρ κ)) σ v = m
  | 0, _ => rfl
  | m + 1, i => by
    simp only [List.replicate_succ, List.map_cons, allCalls, counted, denote, callsOf]
    have := all_empty_calls ρ κ σ v m (i + 1)
    omega

/-- C126: the number of calls can be the product, as far as the leaves of both are concerned. -/
theorem C126_product (m n k : Nat) (σ : Sched) : callCount ext env k (exEach m) σ (exNulls n) = 1 + n * (1 + m) := by
  have hi : ∀ (n i : Nat) (σ : Sched), itemsCalls (counted ext (refSem ext env k) (refCalls ext env k) (.all (List.replicate m .empty))) σ i
      (List.replicate n .nil) = n * (1 + m) := by
    intro n
    induction n with
    | zero => intro i σ; simp [itemsCalls]
    | succ n ih =>
      intro i σ
      have h1 : (counted ext (refSem ext env k) (refCalls ext env k) (.all (List.replicate m .empty))).calls (σ.sub i) .nil = 1 + m := by
        simp only [counted, callsOf, countList_eq]
        exact congrArg (1 + ·) (all_empty_calls _ _ _ _ m 0)
      have h2 : (counted ext (refSem ext env k) (refCalls ext env k) (.all (List.replicate m .empty))).sem.val (σ.sub i) .nil = (.ok, .nil) := by
        simp only [counted, denote_all, all_empty_val]
      simp only [List.replicate_succ, itemsCalls, h1, h2, ih, Nat.succ_mul]
      exact Nat.add_comm _ _
  simp only [callCount, exEach, callsOf, countArr_eq, exNulls, arrayCalls, valueOf, ArrC.map, Array', Option.map_some, elemsCalls]
  rw [if_neg (by omega), if_neg (by omega), if_neg (by simp), hi]

/-- Definitions that use the next one twice, `n` of them, and one that accepts everything. -/
def doubleEnv (n : Nat) : Env := fun m s =>
  if m = 0 ∧ s = linkName s.length ∧ s.length ≤ n then
    some (if s.length < n then .all [.ref 0 (linkName (s.length + 1)), .ref 0 (linkName (s.length + 1))] else .empty)
  else none

theorem doubleEnv_next {n i : Nat} (h : i < n) :
    doubleEnv n 0 (linkName i) = some (.all [.ref 0 (linkName (i + 1)), .ref 0 (linkName (i + 1))]) := by
  have : (linkName i).length = i := by simp [linkName]
  simp only [doubleEnv, this]
  rw [if_pos ⟨trivial, trivial, by omega⟩, if_pos h]

theorem doubleEnv_last (n : Nat) : doubleEnv n 0 (linkName n) = some .empty := by
  have : (linkName n).length = n := by simp [linkName]
  simp only [doubleEnv, this]
  rw [if_pos ⟨trivial, trivial, le_refl n⟩, if_neg (by omega)]

theorem double_ok {n : Nat} (k : Nat) : ∀ (j i : Nat), i + j = n → ∀ σ v, (refSem ext (doubleEnv n) (j + 1 + k) 0 (linkName i)).val σ v = (.ok, v)
  | 0, i, h, σ, v => by
    obtain rfl : i = n := by omega
    rw [show 0 + 1 + k = k + 1 by omega]
    simp only [refSem, doubleEnv_last, denote]
  | j + 1, i, h, σ, v => by
    have ih := double_ok (n := n) k j (i + 1) (by omega)
    rw [show j + 1 + 1 + k = (j + 1 + k) + 1 by omega]
    simp only [refSem, doubleEnv_next (show i < n by omega), denote, denoteList, allLoop, ih]

theorem double_calls {n : Nat} (k : Nat) : ∀ (j i : Nat), i + j = n → ∀ σ v, refCalls ext (doubleEnv n) (j + 1 + k) 0 (linkName i) σ v + 2 = 4 * 2 ^ j
  | 0, i, h, σ, v => by
    obtain rfl : i = n := by omega
    rw [show 0 + 1 + k = k + 1 by omega]
    simp only [refCalls, doubleEnv_last, callsOf]
    rfl
  | j + 1, i, h, σ, v => by
    have ih := double_calls (n := n) k j (i + 1) (by omega)
    have hk := double_ok (ext := ext) (n := n) k j (i + 1) (by omega)
    rw [show j + 1 + 1 + k = (j + 1 + k) + 1 by omega]
    simp only [refCalls, doubleEnv_next (show i < n by omega), callsOf, countList, allCalls, denote, hk]
    have h1 := ih (σ.sub 0) v
    have h2 := ih (σ.sub (0 + 1)) v
    generalize refCalls ext (doubleEnv n) (j + 1 + k) 0 (linkName (i + 1)) (σ.sub 0) v = a at *
    generalize refCalls ext (doubleEnv n) (j + 1 + k) 0 (linkName (i + 1)) (σ.sub (0 + 1)) v = b at *
    rw [Nat.pow_succ]
    generalize 2 ^ j = c at *
    show 1 + (1 + (a + b)) + 2 = _
    omega

/-- C126: `n` definitions of three constraints each can make every validation take more than `2 ^ n` calls, whatever the value. -/
theorem C126_doubling (n : Nat) (σ : Sched) (v : GoVal) :
    (∀ m s d, doubleEnv n m s = some d → d.size ≤ 3) ∧
      callCount ext (doubleEnv n) (n + 1) (.ref 0 (linkName 0)) σ v = 4 * 2 ^ n - 2 ∧
      (sem ext (doubleEnv n) (n + 1) (.ref 0 (linkName 0))).val σ v = (.ok, v) := by
  refine ⟨fun m s d h => ?_, ?_, ?_⟩
  · unfold doubleEnv at h
    split at h
    · simp only [Option.some.injEq] at h
      subst h
      split <;> simp [Constraint.size, sizeList]
    · cases h
  · have := double_calls (ext := ext) (n := n) 0 n 0 (by omega) σ v
    simp only [callCount, callsOf]
    rw [Nat.add_zero] at this
    generalize refCalls ext (doubleEnv n) (n + 1) 0 (linkName 0) σ v = a at *
    generalize 2 ^ n = c at *
    omega
  · simpa [sem, denote] using double_ok (ext := ext) (n := n) 0 n 0 (by omega) σ v

/-! Nor is anything left out: a loop that is not cut short calls every child. -/

section
variable {k : Nat} {σ : Sched} {v : GoVal}

/-- C126: `All` that accepts has called every child. -/
theorem C126_all {cs : List Constraint} (hi : ∀ d ∈ cs, Inert env d) {n : Constraint → Nat} (hn : ∀ d ∈ cs, ∀ σ, callCount ext env k d σ v = n d)
    (hok : ((sem ext env k (.all cs)).val σ v).1 = .ok) : callCount ext env k (.all cs) σ v = 1 + (cs.map n).sum := by
  simp only [callCount, callsOf, countList_eq]
  rw [sem, denote_all] at hok
  exact congrArg (1 + ·) (allCalls_exact (f := counted ext _ _) cs 0 σ (fun d hd => ⟨inert_readOnly k d (hi d hd), hn d hd⟩) hok)

/-- C126: `OneOf` calls every child, whether it accepts or not. -/
theorem C126_oneOf {cs : List Constraint} (hi : ∀ d ∈ cs, Inert env d) {n : Constraint → Nat} (hn : ∀ d ∈ cs, ∀ σ, callCount ext env k d σ v = n d)
    (hok : ((sem ext env k (.oneOf cs)).val σ v).1.Normal) : callCount ext env k (.oneOf cs) σ v = 1 + (cs.map n).sum := by
  simp only [callCount, callsOf, countList_eq]
  rw [sem, denote_oneOf] at hok
  exact congrArg (1 + ·) (oneOfCalls_exact (f := counted ext _ _) cs 0 0 σ (fun d hd => ⟨inert_readOnly k d (hi d hd), hn d hd⟩) hok)

/-- C126: `Any` calls the children up to the first that accepts. -/
theorem C126_any {pre post : List Constraint} {d : Constraint} (hi : ∀ c ∈ pre, Inert env c) {n : Constraint → Nat}
    (hn : ∀ c ∈ pre ++ [d], ∀ σ, callCount ext env k c σ v = n c) (hno : ∀ c ∈ pre, ∀ σ, ∃ e, ((sem ext env k c).val σ v).1 = .err e)
    (hok : ∀ σ, ((sem ext env k d).val σ v).1 = .ok) : callCount ext env k (.any (pre ++ d :: post)) σ v = 1 + ((pre.map n).sum + n d) := by
  simp only [callCount, callsOf, countList_eq]
  exact congrArg (1 + ·) (anyCalls_exact (f := counted ext _ _) (hn d (List.mem_append_right _ (List.mem_singleton_self d))) hok pre 0 σ
    (fun c hc => ⟨inert_readOnly k c (hi c hc), hn c (List.mem_append_left _ hc), hno c hc⟩))

/-- C126: an array that is accepted has called the constraint of its elements for each of them. -/
theorem C126_items {a : ArrC Constraint} {d : Constraint} (ha : a.items = some d) {xs : List GoVal} {n : GoVal → Nat}
    (hn : ∀ x ∈ xs, ∀ σ, callCount ext env k d σ x = n x) (hok : ((sem ext env k (.array a)).val σ (.slice false xs)).1 = .ok) :
    callCount ext env k (.array a) σ (.slice false xs) = 1 + (xs.map n).sum := by
  simp only [callCount, callsOf, countArr_eq]
  refine congrArg (1 + ·) ?_
  rw [sem, denote_array] at hok
  simp only [arrayV, arrayCalls, valueOf] at hok ⊢
  split at hok
  · cases hok
  rename_i h1
  split at hok
  · cases hok
  rename_i h2
  split at hok
  · cases hok
  rename_i h3
  refine (if_neg h1).trans ((if_neg h2).trans ((if_neg h3).trans ?_))
  simp only [arrayElems, elemsCalls, ArrC.map, ha, Option.map_some] at hok ⊢
  exact itemsCalls_exact (c := counted ext _ _ d) xs 0 hn hok

/-- C126: a map that is accepted has had every declared property it has looked at. -/
theorem C126_declared {o : ObjC Constraint} (hi : Inert env (.object o)) {kvs : List (GoStr × GoVal)} {n : Constraint → GoVal → Nat}
    (hn : ∀ p d, (p, d) ∈ o.props → ∀ x, alookup p kvs = some x → ∀ σ, callCount ext env k d σ x = n d x)
    (hok : ((sem ext env k (.object o)).val σ (.map false kvs)).1 = .ok) :
    1 + (o.props.map fun p => ((alookup p.1 kvs).map (n p.2)).getD 0).sum ≤ callCount ext env k (.object o) σ (.map false kvs) := by
  simp only [callCount, callsOf, countObj_eq]
  rw [sem, denote_object] at hok
  refine Nat.add_le_add_left (objectCalls_ge (f := counted ext _ _) (fun p d h => ⟨inert_readOnly k d (hi.child (.object (.prop h))), fun dv hdv => ?_, hn p d h⟩) σ hok) 1
  exact hi _ (.refl _) (.mk h (dflt_defaulted k d dv hdv))

end

theorem exLeaf_inert {d : Constraint} (hd : d ∈ [.empty, .boolean none, .null]) : Inert env0 d := by
  simp only [List.mem_cons, List.not_mem_nil, or_false] at hd
  refine inert_of_noDefault (fun m n d h => by cases h) (.intro ?_ fun e he => ?_) <;> rcases hd with rfl | rfl | rfl <;>
    first | rfl | (simp [Constraint.kids] at he)

theorem exLeaf_calls {d : Constraint} (hd : d ∈ [.empty, .boolean none, .null]) (σ : Sched) (v : GoVal) : callCount demoExt env0 0 d σ v = 1 := by
  simp only [List.mem_cons, List.not_mem_nil, or_false] at hd
  rcases hd with rfl | rfl | rfl <;> rfl

/-- In any order of the maps: two of three accept the null, and all are called; -/
example (σ : Sched) : callCount demoExt env0 0 (.oneOf [.empty, .boolean none, .null]) σ .nil = 4 :=
  (C126_oneOf (n := fun _ => 1) (fun _ hd => exLeaf_inert hd) (fun _ hd σ => exLeaf_calls hd σ _) (fun _ h => by cases h)).trans rfl
/-- all of these accept it; -/
example (σ : Sched) : callCount demoExt env0 0 (.all [.empty, .null]) σ .nil = 3 :=
  (C126_all (n := fun _ => 1) (fun d hd => exLeaf_inert (by revert hd; simp only [List.mem_cons, List.not_mem_nil, or_false]; rintro (rfl | rfl) <;> simp))
    (fun d hd σ => exLeaf_calls (by revert hd; simp only [List.mem_cons, List.not_mem_nil, or_false]; rintro (rfl | rfl) <;> simp) σ _) rfl).trans rfl
/-- the second does, and the third is not called; -/
example (σ : Sched) : callCount demoExt env0 0 (.any [.boolean none, .empty, .null]) σ .nil = 3 :=
  (C126_any (pre := [.boolean none]) (post := [.null]) (n := fun _ => 1) (fun d hd => exLeaf_inert (by rw [List.mem_singleton.1 hd]; simp))
    (fun d hd σ => exLeaf_calls (by revert hd; simp only [List.cons_append, List.nil_append, List.mem_cons, List.not_mem_nil, or_false]; rintro (rfl | rfl) <;> simp) σ _)
    (fun d hd σ => by rw [List.mem_singleton.1 hd]; exact ⟨_, rfl⟩) (fun _ => rfl)).trans rfl
/-- three elements; -/
example (σ : Sched) : callCount demoExt env0 0 (.array { Array' with items := some .null }) σ (.slice false [.nil, .nil, .nil]) = 4 :=
  (C126_items rfl (n := fun _ => 1) (fun _ _ _ => rfl) rfl).trans rfl
/-- one of two declared properties. -/
def exDeclared : ObjC Constraint := { Object' with props := [(b! "a", .null), (b! "b", .null)], additional := some .empty }
example : 2 ≤ callCount demoExt env0 0 (.object exDeclared) sched0 (.map false [(b! "b", .nil), (b! "c", .nil)]) :=
  le_trans (by decide) <| C126_declared (ext := demoExt) (env := env0) (k := 0) (σ := sched0) (o := exDeclared)
    (kvs := [(b! "b", .nil), (b! "c", .nil)]) (n := fun _ _ => 1) (inert_of_noDefault (fun m n d h => by cases h) (.intro rfl fun d hd => by
      rw [show (Constraint.object exDeclared).kids = [.null, .null, .empty] from rfl] at hd
      simp only [List.mem_cons, List.not_mem_nil, or_false] at hd
      rcases hd with rfl | rfl | rfl <;> exact .intro rfl fun d hd => by simp [Constraint.kids] at hd))
    (fun p d hd x hx σ => by
      simp only [exDeclared, List.mem_cons, Prod.mk.injEq, List.not_mem_nil, or_false] at hd
      rcases hd with ⟨-, rfl⟩ | ⟨-, rfl⟩ <;> rfl) rfl

/-! Where the other calls are. -/

/-- `Any` stops at the first, -/
example : callCount demoExt env0 0 (.any [.boolean none, .empty, .null]) sched0 .nil = 3 := by rfl
/-- `All` at the second. -/
example : callCount demoExt env0 0 (.all [.empty, .boolean none, .null]) sched0 .nil = 3 := by rfl
example : callCount demoExt env0 0 (.not (some (.any [.boolean none, .empty]))) sched0 .nil = 4 := by rfl
example : callCount demoExt env0 0 (.ref 0 (b! "x")) sched0 .nil = 1 := by rfl
/-- Two positions; the second is looked at again by the constraint for additional items, as are the two elements after it. -/
example : callCount demoExt env0 0 (.array { Array' with positional := [.all [.empty], .empty], additional := some .empty }) sched0
    (.slice false [.nil, .nil, .nil, .nil]) = 7 := by rfl
/-- One declared property, one that matches a pattern, one additional, and a dependency of the declared one. -/
def exSites : ObjC Constraint := { Object' with
  props := [(b! "a", .all [.empty])]
  patterns := [(1, b! "^b", .all [.empty, .empty])]
  additional := some (.all [.empty, .empty, .empty])
  schemadeps := [(b! "a", .all [.empty, .empty, .empty, .empty])] }
def exSitesDoc : GoVal := .map false [(b! "a", .nil), (b! "b", .nil), (b! "c", .nil)]
/-- A matcher that takes a pattern for the first byte after the caret. -/
def exSitesExt : Ext := { demoExt with reMatch := fun src s => src.drop 1 == s.take 1 }
example : callCount exSitesExt env0 0 (.object exSites) sched0 exSitesDoc = 1 + 2 + 3 + 4 + 5 := by rfl

/-! The bounds on a recursive validator. -/

/-- `Object().AddProp("kids", Array().Items(Reference("node")))` -/
def exKids : Constraint := .object { Object' with props := [(b! "kids", .array (Array'.Items (some (.ref 0 (b! "node")))))] }
def exKidsEnv : Env := fun m n => if m = 0 ∧ n = b! "node" then some exKids else none
/-- A node with two nodes below it. -/
def exKidsDoc : GoVal := .map false [(b! "kids", .slice false [.map false [], .map false [(b! "kids", .slice false [])]])]

theorem exKids_noDefault : exKids.Every NoDefault := by
  refine .intro rfl fun d hd => ?_
  rw [show exKids.kids = [.array (Array'.Items (some (.ref 0 (b! "node"))))] from rfl, List.mem_singleton] at hd
  subst hd
  refine .intro rfl fun d hd => ?_
  rw [show (Constraint.array (Array'.Items (some (Constraint.ref 0 (b! "node"))))).kids = [.ref 0 (b! "node"), .empty] from rfl] at hd
  simp only [List.mem_cons, List.not_mem_nil, or_false] at hd
  rcases hd with rfl | rfl <;> exact .intro rfl fun d hd => by simp [Constraint.kids] at hd

theorem exKidsEnv_some {m : Nat} {n : GoStr} {d : Constraint} (h : exKidsEnv m n = some d) : d = exKids := by
  unfold exKidsEnv at h
  split at h
  · exact (Option.some.inj h).symm
  · cases h

theorem exKidsDoc_json : IsJson exKidsDoc := by
  refine .obj _ (by decide) fun k x h => ?_
  simp only [List.mem_singleton, Prod.mk.injEq] at h
  obtain ⟨-, rfl⟩ := h
  refine .arr _ fun x h => ?_
  simp only [List.mem_cons, List.not_mem_nil, or_false] at h
  rcases h with rfl | rfl
  · exact .obj [] (by decide) fun k x h => by cases h
  · refine .obj _ (by decide) fun k x h => ?_
    simp only [List.mem_singleton, Prod.mk.injEq] at h
    obtain ⟨-, rfl⟩ := h
    exact .arr [] fun x h => by cases h

/-- The document has five values, the definition four constraints. -/
example : exKidsDoc.nodes = 5 ∧ exKids.size = 4 := by decide
/-- Validation makes seven calls, none of them with more than two references open, -/
example : callCount demoExt exKidsEnv 2 exKids sched0 exKidsDoc = 7 := by rfl
/-- and the bound says, in any order, -/
example (σ : Sched) : callCount demoExt exKidsEnv 2 exKids σ exKidsDoc ≤ 500 := by
  refine (C126_nested (S := 4) (fun m n d h => ?_) (inert_of_noDefault (fun m n d h => ?_) exKids_noDefault) 2 σ exKidsDoc_json).trans (by decide)
  · rw [exKidsEnv_some h]; decide
  · rw [exKidsEnv_some h]; exact exKids_noDefault

/-- It comes back, so more references change nothing: -/
example (k : Nat) (h : 2 ≤ k) : callCount demoExt exKidsEnv k exKids sched0 exKidsDoc = 7 :=
  (C126_settled h (show ((sem demoExt exKidsEnv 2 exKids).val sched0 exKidsDoc).1 ≠ .abort .diverge from fun h => by cases h)).trans rfl
/-- With too few the count stops early. -/
example : callCount demoExt exKidsEnv 0 exKids sched0 exKidsDoc ≠ 7 := by
  rw [show callCount demoExt exKidsEnv 0 exKids sched0 exKidsDoc = _ from rfl]; decide

theorem exKids_names : Names exKidsEnv {(0, b! "node")} := by
  intro m n h
  unfold exKidsEnv at h
  split at h
  · rename_i hm; obtain ⟨rfl, rfl⟩ := hm; exact Finset.mem_singleton_self _
  · exact absurd rfl h

theorem exKids_guarded : Guarded exKidsEnv := by
  refine ⟨fun p => ⟨_, fun q hq => ?_⟩⟩
  obtain ⟨c, hc, hh⟩ := hq
  cases exKidsEnv_some hc
  cases hh with
  | same hs _ =>
    cases hs with
    | dependency hd => cases hd

theorem exKidsDoc_depth : DepthLe 4 exKidsDoc := by
  refine .map _ _ fun k x hx => ?_
  simp only [List.mem_singleton, Prod.mk.injEq] at hx
  obtain ⟨_, rfl⟩ := hx
  refine .slice _ _ fun x hx => ?_
  simp only [List.mem_cons, List.not_mem_nil, or_false] at hx
  rcases hx with rfl | rfl
  · exact .map _ _ fun k x hx => by cases hx
  · refine .map _ _ fun k x hx => ?_
    simp only [List.mem_singleton, Prod.mk.injEq] at hx
    obtain ⟨_, rfl⟩ := hx
    exact .slice _ _ fun x hx => by cases hx

/-- One name, four containers: at most `5 ^ 7` times the product, in any order. -/
example (k : Nat) (σ : Sched) : callCount demoExt exKidsEnv k exKids σ exKidsDoc ≤ 4 * 5 ^ 7 * 5 :=
  C126_recursive (S := 4) exKids_names exKids_guarded (fun m n d h => by rw [exKidsEnv_some h]; decide)
    (fun m n d h => by rw [exKidsEnv_some h]; exact exKids_noDefault) exKids_noDefault exKidsDoc_json exKidsDoc_depth k σ

/-- The same without the reference, three levels of it written out. -/
def exKids0 : Constraint := .object { Object' with props := [(b! "kids", .array (Array'.Items (some (.object Object'))))] }
example (σ : Sched) : callCount demoExt exKidsEnv 0 exKids0 σ exKidsDoc ≤ 20 := by
  have h : exKids0.Every (fun d => NoDefault d ∧ ∀ m n, d ≠ .ref m n) := by
    refine .intro ⟨rfl, nofun⟩ fun d hd => ?_
    rw [show exKids0.kids = [.array (Array'.Items (some (.object Object')))] from rfl, List.mem_singleton] at hd
    subst hd
    refine .intro ⟨rfl, nofun⟩ fun d hd => ?_
    rw [show (Constraint.array (Array'.Items (some (Constraint.object Object')))).kids = [.object Object', .empty] from rfl] at hd
    simp only [List.mem_cons, List.not_mem_nil, or_false] at hd
    rcases hd with rfl | rfl <;> exact .intro ⟨rfl, nofun⟩ fun d hd => by simp [Constraint.kids, Object'] at hd
  exact (C126_tree (env := exKidsEnv) (fun m n hm => (h _ hm).2 m n rfl) (inert_of_noDefault
    (fun m n d h => by rw [exKidsEnv_some h]; exact exKids_noDefault) (fun d hd => (h d hd).1)) 0 σ exKidsDoc_json).trans (by decide)

end Jsval
