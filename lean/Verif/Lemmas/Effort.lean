import Verif.Model.Effort
import Verif.Spec.Effort
import Verif.Spec.Defaults
import Verif.Lemmas.Inert
import Verif.Lemmas.Loop
import Mathlib.Algebra.BigOperators.Group.List.Basic
import Mathlib.Algebra.Order.Group.Nat
/-!
# Adding up calls
-/
namespace Jsval

/-! ## Sums -/

theorem sizeList_eq : ∀ cs, sizeList cs = (cs.map Constraint.size).sum
  | [] => by simp [sizeList]
  | c :: cs => by simp [sizeList, sizeList_eq cs]

theorem sizeOpt_eq : ∀ c, sizeOpt c = (c.toList.map Constraint.size).sum
  | none => by simp [sizeOpt]
  | some c => by simp [sizeOpt]

theorem sizeProps_eq : ∀ cs, sizeProps cs = (cs.map (fun p => p.2.size)).sum
  | [] => by simp [sizeProps]
  | (n, c) :: cs => by simp [sizeProps, sizeProps_eq cs]

theorem sizePats_eq : ∀ cs, sizePats cs = (cs.map (fun p => p.2.2.size)).sum
  | [] => by simp [sizePats]
  | (i, n, c) :: cs => by simp [sizePats, sizePats_eq cs]

theorem nodesList_eq : ∀ xs, nodesList xs = (xs.map GoVal.nodes).sum
  | [] => by simp [nodesList]
  | x :: xs => by simp [nodesList, nodesList_eq xs]

theorem nodesEntries_eq : ∀ kvs, nodesEntries kvs = (kvs.map (fun p => p.2.nodes)).sum
  | [] => by simp [nodesEntries]
  | (k, x) :: kvs => by simp [nodesEntries, nodesEntries_eq kvs]

theorem GoVal.nodes_pos (v : GoVal) : 1 ≤ v.nodes := by
  cases v <;> simp [GoVal.nodes]

theorem sum_mul_right {α : Type} (f : α → Nat) (n : Nat) : ∀ l : List α, (l.map (fun a => f a * n)).sum = (l.map f).sum * n
  | [] => by simp
  | a :: l => by simp [sum_mul_right f n l, Nat.add_mul]

theorem sum_mul_left {α : Type} (f : α → Nat) (n : Nat) : ∀ l : List α, (l.map (fun a => n * f a)).sum = n * (l.map f).sum
  | [] => by simp
  | a :: l => by simp [sum_mul_left f n l, Nat.mul_add]

theorem sum_map_mono {α : Type} {f g : α → Nat} : ∀ {l : List α}, (∀ a ∈ l, f a ≤ g a) → (l.map f).sum ≤ (l.map g).sum
  | [], _ => le_refl _
  | a :: l, h => by
    simp only [List.map_cons, List.sum_cons]
    exact Nat.add_le_add (h a List.mem_cons_self) (sum_map_mono fun b hb => h b (List.mem_cons_of_mem _ hb))

theorem le_sum_map {α : Type} {f : α → Nat} {a : α} : ∀ {l : List α}, a ∈ l → f a ≤ (l.map f).sum
  | b :: l, h => by
    simp only [List.map_cons, List.sum_cons]
    rcases List.mem_cons.1 h with rfl | h
    · exact Nat.le_add_right _ _
    · exact (le_sum_map h).trans (Nat.le_add_left _ _)

/-- The weight found under a key. -/
def wAt {α : Type} (f : α → Nat) (l : List (GoStr × α)) (k : GoStr) : Nat :=
  match alookup k l with
  | none => 0
  | some x => f x

theorem sum_hit {n : Nat} {k0 : GoStr} : ∀ {ks : List GoStr}, ks.Nodup → (ks.map (fun k => if k0 = k then n else 0)).sum ≤ n
  | [], _ => by simp
  | k :: ks, h => by
    rw [List.nodup_cons] at h
    simp only [List.map_cons, List.sum_cons]
    by_cases hk : k0 = k
    · have : (ks.map (fun k => if k0 = k then n else 0)).sum = 0 := by
        apply List.sum_eq_zero
        intro x hx
        obtain ⟨k', h', rfl⟩ := List.mem_map.1 hx
        rw [if_neg]
        rintro rfl
        exact h.1 (hk ▸ h')
      rw [if_pos hk, this]
      exact le_refl _
    · rw [if_neg hk, Nat.zero_add]
      exact sum_hit h.2

/-- Distinct keys find different entries. -/
theorem sum_wAt_le {α : Type} (f : α → Nat) : ∀ (l : List (GoStr × α)) {ks : List GoStr}, ks.Nodup →
    (ks.map (wAt f l)).sum ≤ (l.map (fun p => f p.2)).sum
  | [], ks, _ => by
    have : (ks.map (wAt f [])).sum = 0 := by
      apply List.sum_eq_zero
      intro x hx
      obtain ⟨k, -, rfl⟩ := List.mem_map.1 hx
      rfl
    rw [this]
    exact Nat.zero_le _
  | (k0, x) :: l, ks, h => by
    have h1 : ∀ k ∈ ks, wAt f ((k0, x) :: l) k ≤ (if k0 = k then f x else 0) + wAt f l k := by
      intro k _
      unfold wAt
      rw [alookup]
      by_cases hk : k0 = k
      · simp [hk]
      · simp [hk]
    refine (sum_map_mono h1).trans ?_
    rw [List.sum_map_add]
    simp only [List.map_cons, List.sum_cons]
    exact Nat.add_le_add (sum_hit h) (sum_wAt_le f l h)

/-! ## Loops -/

theorem forCalls_le {α S : Type} {step : Nat → α → S → Res × S} {cost : Nat → α → S → Nat} (I : S → Prop) (w : α → Nat) :
    ∀ (i : Nat) (l : List α) (s : S), (∀ i, ∀ a ∈ l, ∀ s, I s → cost i a s ≤ w a ∧ I (step i a s).2) → I s →
      forCalls step cost i l s ≤ (l.map w).sum
  | _, [], _, _, _ => by simp [forCalls]
  | i, a :: l, s, h, hs => by
    have h1 := h i a List.mem_cons_self s hs
    have ih := forCalls_le (step := step) (cost := cost) I w (i + 1) l
    simp only [forCalls, List.map_cons, List.sum_cons]
    rcases e : step i a s with ⟨r, s'⟩
    have h2 := h1.2
    rw [e] at h2
    refine Nat.add_le_add h1.1 ?_
    cases r with
    | ok => exact ih s' (fun i b hb => h i b (List.mem_cons_of_mem _ hb)) h2
    | err => exact Nat.zero_le _
    | abort => exact Nat.zero_le _

theorem forCalls_map {α β S : Type} (φ : α → β) (step : Nat → β → S → Res × S) (cost : Nat → β → S → Nat) : ∀ (l : List α) (i : Nat) (s : S),
    forCalls step cost i (l.map φ) s = forCalls (fun i a => step i (φ a)) (fun i a => cost i (φ a)) i l s
  | [], _, _ => rfl
  | a :: l, i, s => by
    simp only [List.map_cons, forCalls]
    rcases step i (φ a) s with ⟨r, s'⟩
    cases r with
    | ok => simp only [forCalls_map φ step cost l]
    | err => rfl
    | abort => rfl

/-- A constraint that makes at most `w` calls for each value in the document, and changes nothing. -/
structure Cheap (c : Counted) (w : Nat) : Prop where
  le : ∀ σ x, IsJson x → c.calls σ x ≤ w * x.nodes
  same : c.sem.ReadOnly

section
variable {C : Type} {f : C → Counted} {w : C → Nat}

theorem anyCalls_le {v : GoVal} (hv : IsJson v) : ∀ (cs : List C) (i : Nat) (σ : Sched), (∀ c ∈ cs, Cheap (f c) (w c)) →
    anyCalls i (cs.map f) σ v ≤ (cs.map w).sum * v.nodes
  | [], _, _, _ => by simp [anyCalls]
  | c :: cs, i, σ, h => by
    have h1 := h c List.mem_cons_self
    have ih := anyCalls_le hv cs (i + 1) σ (fun d hd => h d (List.mem_cons_of_mem _ hd))
    have h2 := h1.same v (σ.sub i)
    simp only [List.map_cons, anyCalls, List.sum_cons, Nat.add_mul]
    rcases e : (f c).sem.val (σ.sub i) v with ⟨r, v'⟩
    rw [e] at h2
    simp only at h2; subst h2
    refine Nat.add_le_add (h1.le _ _ hv) ?_
    cases r with
    | ok => exact Nat.zero_le _
    | err => exact ih
    | abort => exact Nat.zero_le _

theorem allCalls_le {v : GoVal} (hv : IsJson v) : ∀ (cs : List C) (i : Nat) (σ : Sched), (∀ c ∈ cs, Cheap (f c) (w c)) →
    allCalls i (cs.map f) σ v ≤ (cs.map w).sum * v.nodes
  | [], _, _, _ => by simp [allCalls]
  | c :: cs, i, σ, h => by
    have h1 := h c List.mem_cons_self
    have ih := allCalls_le hv cs (i + 1) σ (fun d hd => h d (List.mem_cons_of_mem _ hd))
    have h2 := h1.same v (σ.sub i)
    simp only [List.map_cons, allCalls, List.sum_cons, Nat.add_mul]
    rcases e : (f c).sem.val (σ.sub i) v with ⟨r, v'⟩
    rw [e] at h2
    simp only at h2; subst h2
    refine Nat.add_le_add (h1.le _ _ hv) ?_
    cases r with
    | ok => exact ih
    | err => exact Nat.zero_le _
    | abort => exact Nat.zero_le _

theorem oneOfCalls_le {v : GoVal} (hv : IsJson v) : ∀ (cs : List C) (i : Nat) (σ : Sched), (∀ c ∈ cs, Cheap (f c) (w c)) →
    oneOfCalls i (cs.map f) σ v ≤ (cs.map w).sum * v.nodes
  | [], _, _, _ => by simp [oneOfCalls]
  | c :: cs, i, σ, h => by
    have h1 := h c List.mem_cons_self
    have ih := oneOfCalls_le hv cs (i + 1) σ (fun d hd => h d (List.mem_cons_of_mem _ hd))
    have h2 := h1.same v (σ.sub i)
    simp only [List.map_cons, oneOfCalls, List.sum_cons, Nat.add_mul]
    rcases e : (f c).sem.val (σ.sub i) v with ⟨r, v'⟩
    rw [e] at h2
    simp only at h2; subst h2
    refine Nat.add_le_add (h1.le _ _ hv) ?_
    cases r with
    | ok => exact ih
    | err => exact ih
    | abort => exact Nat.zero_le _

theorem itemsCalls_le {c : Counted} {n : Nat} (h : Cheap c n) {σ : Sched} : ∀ (xs : List GoVal) (i : Nat), (∀ x ∈ xs, IsJson x) →
    itemsCalls c σ i xs ≤ n * nodesList xs
  | [], _, _ => by simp [itemsCalls]
  | x :: xs, i, hx => by
    have ih := itemsCalls_le h (σ := σ) xs (i + 1) (fun y hy => hx y (List.mem_cons_of_mem _ hy))
    simp only [itemsCalls, nodesList, Nat.mul_add]
    refine Nat.add_le_add (h.le _ _ (hx x List.mem_cons_self)) ?_
    split
    · exact ih
    · exact Nat.zero_le _

theorem posCalls_le {σ : Sched} : ∀ (cs : List C) (xs : List GoVal) (i : Nat), (∀ c ∈ cs, Cheap (f c) (w c)) → (∀ x ∈ xs, IsJson x) →
    posCalls σ i (cs.map f) xs ≤ (cs.map w).sum * nodesList xs
  | [], _, _, _, _ => by simp [posCalls]
  | _ :: _, [], _, _, _ => by simp [posCalls]
  | c :: cs, x :: xs, i, h, hx => by
    have ih := posCalls_le (σ := σ) cs xs (i + 1) (fun d hd => h d (List.mem_cons_of_mem _ hd)) (fun y hy => hx y (List.mem_cons_of_mem _ hy))
    have h1 := (h c List.mem_cons_self).le (σ.sub i) x (hx x List.mem_cons_self)
    simp only [List.map_cons, posCalls, nodesList, List.sum_cons, Nat.add_mul, Nat.mul_add]
    have h2 : (match (f c).sem.val (σ.sub i) x with
      | (.ok, _) => posCalls σ (i + 1) (cs.map f) xs
      | _ => 0) ≤ (cs.map w).sum * nodesList xs := by
      split
      · exact ih
      · exact Nat.zero_le _
    refine (Nat.add_le_add h1 h2).trans ?_
    omega

theorem nodesList_drop_le : ∀ (n : Nat) (xs : List GoVal), nodesList (xs.drop n) ≤ nodesList xs
  | 0, _ => le_refl _
  | _ + 1, [] => le_refl _
  | n + 1, x :: xs => by
    simp only [List.drop_succ_cons, nodesList]
    exact (nodesList_drop_le n xs).trans (Nat.le_add_left _ _)

/-- An array constraint makes at most the calls of its children for each value in the elements. -/
theorem arrayCalls_le {ext : Ext} {a : ArrC C} (h : ∀ c, a.Child c → Cheap (f c) (w c)) (σ : Sched) {v : GoVal} (hv : IsJson v) :
    arrayCalls ext (a.map f) σ v ≤ ((a.items.toList.map w).sum + (a.positional.map w).sum + (a.additional.toList.map w).sum) * v.nodes := by
  cases hv with
  | arr xs hx =>
    simp only [arrayCalls, valueOf]
    split
    · exact Nat.zero_le _
    split
    · exact Nat.zero_le _
    split
    · exact Nat.zero_le _
    have hn : nodesList xs ≤ (GoVal.slice false xs).nodes := by simp [GoVal.nodes]
    refine le_trans ?_ (Nat.mul_le_mul_left _ hn)
    obtain ⟨items, pos, add, mn, mx, u⟩ := a
    simp only [elemsCalls, ArrC.map]
    cases items with
    | some c =>
      refine (itemsCalls_le (h c (.items rfl)) xs 0 hx).trans (Nat.mul_le_mul_right _ ?_)
      simp only [Option.toList_some, List.map_cons, List.map_nil, List.sum_cons, List.sum_nil]
      omega
    | none =>
      simp only [Option.map_none, Option.toList_none, List.map_nil, List.sum_nil, Nat.zero_add, Nat.add_mul, List.map_map]
      refine Nat.add_le_add (posCalls_le pos xs 0 (fun c hc => h c (.positional hc)) hx) ?_
      have h1 := runPos_same (σ := σ.sub 1) (pos.map (Counted.sem ∘ f)) xs 0 (fun s hs => by
        obtain ⟨c, hc, rfl⟩ := List.mem_map.1 hs
        exact (h c (.positional hc)).same)
      rcases e : runPos (σ.sub 1) 0 (pos.map (Counted.sem ∘ f)) xs with ⟨r, ys⟩
      rw [e] at h1
      simp only at h1; subst h1
      cases r with
      | err => exact Nat.zero_le _
      | abort => exact Nat.zero_le _
      | ok =>
        simp only [additionalCalls]
        split
        · cases add with
          | none => exact Nat.zero_le _
          | some c =>
            simp only [Option.map_some, Option.toList_some, List.map_cons, List.map_nil, List.sum_cons, List.sum_nil, Nat.add_zero]
            refine (itemsCalls_le (h c (.additional rfl)) _ _ (fun x hx' => hx x (List.mem_of_mem_drop hx'))).trans ?_
            exact Nat.mul_le_mul_left _ (nodesList_drop_le _ _)
        · exact Nat.zero_le _
  | _ => simp [arrayCalls, valueOf]

/-! ## Objects -/

/-- The state of the loops: the document as it was, and names without repetition. -/
structure Undisturbed (v : GoVal) (st : ObjSt) : Prop where
  same : st.v = v
  premain : st.premain.Nodup
  pseen : st.pseen.Nodup

theorem propStep_steady {ext : Ext} {o : ObjC Sem} {σ : Sched} {i : Nat} {p : GoStr} {c : Sem} {st : ObjSt} {v : GoVal} (hc : c.ReadOnly)
    (hd : ∀ dv, c.dflt ≠ .some dv) (h : Undisturbed v st) : Undisturbed v (propStep ext o σ i (p, c) st).2 := by
  refine ⟨(propStep_readOnly ext o hc (fun _ => hd)).trans h.same, ?_, ?_⟩
  all_goals
    unfold propStep
    split
    · first | exact h.premain | exact h.pseen
    · split
      · first | exact h.premain | exact h.pseen
      · split
        · first | exact h.premain | exact h.pseen
        · first | exact h.premain | exact h.pseen
        · split <;> first | exact h.premain | exact h.pseen
    · rename_i x _ _
      rcases e : c.val (σ.sub i) x with ⟨r, x'⟩
      simp only [e]
      cases r <;> first | exact h.premain.filter _ | exact nodup_addName h.pseen

theorem patStep_steady {ext : Ext} {src : GoStr} {σ : Sched} {i : Nat} {k : GoStr} {c : Sem} {st : ObjSt} {v : GoVal} (hc : c.ReadOnly)
    (h : Undisturbed v st) : Undisturbed v (patStep ext src c σ i k st).2 := by
  refine ⟨(patStep_readOnly ext hc).trans h.same, ?_, ?_⟩
  all_goals
    unfold patStep
    split
    · first | exact h.premain | exact h.pseen
    · split
      · first | exact h.premain | exact h.pseen
      · first | exact h.premain | exact h.pseen
      · rename_i x _
        rcases e : c.val (σ.sub i) x with ⟨r, x'⟩
        simp only [e]
        cases r <;> first | exact h.premain.filter _ | exact nodup_addName h.pseen

theorem addlStep_steady {σ : Sched} {i : Nat} {k : GoStr} {c : Sem} {st : ObjSt} {v : GoVal} (hc : c.ReadOnly)
    (h : Undisturbed v st) : Undisturbed v (addlStep c σ i k st).2 := by
  refine ⟨(addlStep_readOnly hc).trans h.same, ?_, ?_⟩
  all_goals
    unfold addlStep
    split
    · first | exact h.premain | exact h.pseen
    · first | exact h.premain | exact h.pseen
    · rename_i x _
      rcases e : c.val (σ.sub i) x with ⟨r, x'⟩
      simp only [e]
      cases r <;> first | exact h.premain | exact h.pseen

theorem depStep_steady {o : ObjC Sem} {σ : Sched} {i : Nat} {k : GoStr} {st : ObjSt} {v : GoVal}
    (hc : ∀ d, o.GetSchemaDependency k = some d → d.ReadOnly) (h : Undisturbed v st) : Undisturbed v (depStep o σ i k st).2 := by
  refine ⟨(depStep_readOnly o hc).trans h.same, ?_, ?_⟩
  all_goals
    unfold depStep
    split
    · first | exact h.premain | exact h.pseen
    · split <;> first | exact h.premain | exact h.pseen

theorem seqCalls_le {n a b : Nat} {r : Res × ObjSt} {k : ObjSt → Nat} {v : GoVal} (h1 : n ≤ a) (h2 : Undisturbed v r.2)
    (h3 : ∀ st, Undisturbed v st → k st ≤ b) : seqCalls n r k ≤ a + b := by
  rcases r with ⟨r, st⟩
  refine Nat.add_le_add h1 ?_
  cases r with
  | ok => exact h3 st h2
  | err => exact Nat.zero_le _
  | abort => exact Nat.zero_le _

theorem shuffle_sum {α : Type} (k : Nat) (l : List α) (g : α → Nat) : ((shuffle k l).map g).sum = (l.map g).sum :=
  ((shuffle_perm l k).map g).sum_eq

theorem IsJson.lookup {kvs : List (GoStr × GoVal)} (h : ∀ k x, (k, x) ∈ kvs → IsJson x) {p : GoStr} {x : GoVal}
    (hx : alookup p kvs = some x) : IsJson x ∧ x.nodes = wAt GoVal.nodes kvs p ∧ x.nodes ≤ nodesEntries kvs := by
  refine ⟨h p x (alookup_mem hx), by simp [wAt, hx], ?_⟩
  rw [nodesEntries_eq]
  exact le_sum_map (f := fun p : GoStr × GoVal => p.2.nodes) (alookup_mem hx)

/-- An object constraint makes at most the calls of its children for each value in the document. -/
theorem objectCalls_le {ext : Ext} {o : ObjC C} (h : ∀ c, o.Child c → Cheap (f c) (w c))
    (hd : ∀ p c, (p, c) ∈ o.props → ∀ dv, (f c).sem.dflt ≠ .some dv) (σ : Sched) {v : GoVal} (hv : IsJson v) :
    objectCalls ext (o.map f) σ v ≤ ((o.props.map (fun p => w p.2)).sum + (o.patterns.map (fun p => w p.2.2)).sum +
      (o.additional.toList.map w).sum + (o.schemadeps.map (fun p => w p.2)).sum) * v.nodes := by
  cases hv with
  | obj kvs hnd hx =>
    simp only [objectCalls, valueOf, RV.indirect, getPropNames]
    split
    · exact Nat.zero_le _
    split
    · exact Nat.zero_le _
    have hn : nodesEntries kvs ≤ (GoVal.map false kvs).nodes := by simp [GoVal.nodes]
    have hs0 : Undisturbed (.map false kvs) ⟨.map false kvs, nameSet (kvs.map (·.1)), []⟩ :=
      ⟨rfl, foldl_addName_nodup _ _ .nil, .nil⟩
    have hget : ∀ (st : ObjSt), Undisturbed (.map false kvs) st → ∀ p, getProp (valueOf st.v).indirect p = .ok (alookup p kvs) := by
      intro st hst p
      rw [hst.same]; rfl
    have hj : IsJson (.map false kvs) := .obj kvs hnd hx
    simp only [Nat.add_mul, Nat.add_assoc, loopsCalls]
    have hps : (o.map f).props = o.props.map (fun p => (p.1, f p.2)) := rfl
    have hpt : (o.map f).patterns = o.patterns.map (fun p => (p.1, p.2.1, f p.2.2)) := rfl
    -- a name costs what its value costs
    have hname : ∀ (c : Counted) (n : Nat), Cheap c n → ∀ ks : List GoStr, ks.Nodup →
        (ks.map (fun k => n * wAt GoVal.nodes kvs k)).sum ≤ n * (GoVal.map false kvs).nodes := by
      intro c n _ ks hks
      rw [sum_mul_left]
      refine Nat.mul_le_mul_left _ ((sum_wAt_le GoVal.nodes kvs hks).trans ?_)
      rw [← nodesEntries_eq]
      exact hn
    have hpat : ∀ (j : Nat) (p : Nat × GoStr × C), p ∈ o.patterns → ∀ st, Undisturbed (.map false kvs) st →
        Undisturbed (.map false kvs) (patOuter ext σ j (p.1, p.2.1, (f p.2.2).sem) st).2 := by
      intro j p hp st hst
      exact forLoop_inv _ 0 _ st (fun i k _ s hs => patStep_steady (h p.2.2 (.pattern hp)).same hs) hst
    have hmem : ∀ {α : Type} (k : Nat) (l : List α) (a : α), a ∈ shuffle k l → a ∈ l := fun k l a ha => (shuffle_perm l k).mem_iff.1 ha
    simp only [hps, hpt, shuffle_map, forCalls_map, forLoop_map]
    refine seqCalls_le (v := .map false kvs) ?_ ?_ fun st hst => seqCalls_le (v := .map false kvs) ?_ ?_ fun st hst =>
      seqCalls_le (v := .map false kvs) ?_ ?_ fun st hst => ?_
    · -- declared properties
      rw [← sum_mul_right, ← shuffle_sum (σ.sub 0).key]
      refine forCalls_le (Undisturbed (.map false kvs)) _ 0 _ _ (fun i pc hpc st hst => ⟨?_, ?_⟩) hs0
      · simp only [propCalls, viewProp, hget st hst]
        rw [hst.same]
        simp only [valueOf, RV.indirect]
        cases e : alookup pc.1 kvs with
        | none => exact Nat.zero_le _
        | some x =>
          obtain ⟨h1, -, h3⟩ := IsJson.lookup hx e
          exact ((h pc.2 (.prop (hmem _ _ _ hpc))).le _ x h1).trans (Nat.mul_le_mul_left _ (h3.trans hn))
      · exact propStep_steady (h pc.2 (.prop (hmem _ _ _ hpc))).same (hd pc.1 pc.2 (hmem _ _ _ hpc)) hst
    · exact forLoop_inv _ 0 _ _ (fun i pc hpc st hst =>
        propStep_steady (h pc.2 (.prop (hmem _ _ _ hpc))).same (hd pc.1 pc.2 (hmem _ _ _ hpc)) hst) hs0
    · -- patterns
      rw [← sum_mul_right, ← shuffle_sum (σ.sub 2).key]
      refine forCalls_le (Undisturbed (.map false kvs)) _ 0 _ _ (fun j p hp st hst => ⟨?_, hpat j p (hmem _ _ _ hp) st hst⟩) hst
      have hc := h p.2.2 (.pattern (hmem _ _ _ hp))
      simp only [patOuterCalls]
      refine le_trans (forCalls_le (Undisturbed (.map false kvs)) (fun k => w p.2.2 * wAt GoVal.nodes kvs k) 0 _ _
        (fun i k _ s hs => ⟨?_, patStep_steady hc.same hs⟩) hst) (hname _ _ hc _ (shuffle_nodup.2 hst.premain))
      simp only [patCalls, hget s hs]
      split
      · exact Nat.zero_le _
      · cases e : alookup k kvs with
        | none => exact Nat.zero_le _
        | some x =>
          obtain ⟨h1, h2, -⟩ := IsJson.lookup hx e
          rw [← h2]
          exact hc.le _ x h1
    · exact forLoop_inv _ 0 _ _ (fun j p hp st hst => hpat j p (hmem _ _ _ hp) st hst) hst
    · -- additional properties
      simp only [addlPhaseCalls, ObjC.map]
      split
      · cases ea : o.additional with
        | none => exact Nat.zero_le _
        | some c =>
          have hc := h c (.additional ea)
          simp only [Option.map_some, Option.toList_some, List.map_cons, List.map_nil, List.sum_cons, List.sum_nil, Nat.add_zero]
          refine le_trans (forCalls_le (Undisturbed (.map false kvs)) (fun k => w c * wAt GoVal.nodes kvs k) 0 _ _
            (fun i k _ s hs => ⟨?_, addlStep_steady hc.same hs⟩) hst) (hname _ _ hc _ (shuffle_nodup.2 hst.premain))
          simp only [addlCalls, hget s hs]
          cases e : alookup k kvs with
          | none => exact Nat.zero_le _
          | some x =>
            obtain ⟨h1, h2, -⟩ := IsJson.lookup hx e
            rw [← h2]
            exact hc.le _ x h1
      · exact Nat.zero_le _
    · simp only [addlPhase, ObjC.map]
      split
      · cases ea : o.additional with
        | none => exact hst
        | some c =>
          exact forLoop_inv _ 0 _ _ (fun i k _ s hs => addlStep_steady (h c (.additional ea)).same hs) hst
      · exact hst
    · -- dependencies
      have hdep : ∀ k d, ((o.map f).map Counted.sem).GetSchemaDependency k = some d → ∃ c, o.GetSchemaDependency k = some c ∧ (f c).sem = d := by
        intro k d hkd
        simp only [ObjC.map, ObjC.GetSchemaDependency, List.map_map] at hkd ⊢
        rw [show ((fun p : GoStr × Counted => (p.1, p.2.sem)) ∘ fun p : GoStr × C => (p.1, f p.2)) = fun p => (p.1, (f p.2).sem) from rfl,
          alookup_map (fun c => (f c).sem)] at hkd
        obtain ⟨c, hc, rfl⟩ := Option.map_eq_some_iff.1 hkd
        exact ⟨c, hc, rfl⟩
      refine le_trans (forCalls_le (Undisturbed (.map false kvs)) (fun k => wAt w o.schemadeps k * (GoVal.map false kvs).nodes) 0 _ _
        (fun i k _ s hs => ⟨?_, depStep_steady (fun d hkd => ?_) hs⟩) hst) ?_
      · simp only [depCalls]
        split
        · exact Nat.zero_le _
        · simp only [ObjC.map, ObjC.GetSchemaDependency, alookup_map]
          cases e : alookup k o.schemadeps with
          | none => exact Nat.zero_le _
          | some c =>
            simp only [Option.map_some, wAt, e]
            rw [hs.same]
            exact (h c (.dependency e)).le _ _ hj
      · obtain ⟨c, hc, rfl⟩ := hdep k d hkd
        exact (h c (.dependency hc)).same
      · rw [sum_mul_right]
        exact Nat.mul_le_mul_right _ (sum_wAt_le w o.schemadeps (shuffle_nodup.2 hst.pseen))
  | _ => simp [objectCalls, valueOf, RV.indirect, getPropNames]

end

/-! ## Trees -/

section
variable {ext : Ext} {env : Env} {ρ : RefSem} {κ : Nat → GoStr → Sched → GoVal → Nat}

/-- A constraint with its calls. -/
def counted (ext : Ext) (ρ : RefSem) (κ : Nat → GoStr → Sched → GoVal → Nat) (c : Constraint) : Counted := ⟨denote ext ρ c, callsOf ext ρ κ c⟩

theorem countList_eq : ∀ cs, countList ext ρ κ cs = cs.map (counted ext ρ κ)
  | [] => by simp [countList]
  | c :: cs => by simp [countList, countList_eq cs, counted]

theorem countOpt_eq : ∀ c, countOpt ext ρ κ c = c.map (counted ext ρ κ)
  | none => by simp [countOpt]
  | some c => by simp [countOpt, counted]

theorem countProps_eq : ∀ cs, countProps ext ρ κ cs = cs.map (fun p => (p.1, counted ext ρ κ p.2))
  | [] => by simp [countProps]
  | (n, c) :: cs => by simp [countProps, countProps_eq cs, counted]

theorem countPats_eq : ∀ cs, countPats ext ρ κ cs = cs.map (fun p => (p.1, p.2.1, counted ext ρ κ p.2.2))
  | [] => by simp [countPats]
  | (i, n, c) :: cs => by simp [countPats, countPats_eq cs, counted]

theorem countArr_eq (a : ArrC Constraint) : countArr ext ρ κ a = a.map (counted ext ρ κ) := by
  cases a; simp [countArr, ArrC.map, countOpt_eq, countList_eq]

theorem countObj_eq (o : ObjC Constraint) : countObj ext ρ κ o = o.map (counted ext ρ κ) := by
  cases o; simp [countObj, ObjC.map, countOpt_eq, countProps_eq, countPats_eq]

theorem one_add_le {n s B m : Nat} (hB : 1 ≤ B) (hm : 1 ≤ m) (h : n ≤ s * B * m) : 1 + n ≤ (1 + s) * B * m := by
  rw [Nat.add_mul, Nat.add_mul, Nat.one_mul]
  exact Nat.add_le_add (Nat.mul_pos hB hm) h

/-- A tree makes at most one call for each of its constraints and each value, a reference `B`. -/
theorem callsOf_le {fuel : Nat} (hρ : ρ = refSem ext env fuel) {B : Nat} (hB : 1 ≤ B) (c : Constraint)
    (hκ : ∀ m n, (Constraint.ref m n).In c → ∀ σ v, IsJson v → κ m n σ v ≤ B * v.nodes)
    (hc : Inert env c) (σ : Sched) {v : GoVal} (hv : IsJson v) : callsOf ext ρ κ c σ v ≤ c.size * B * v.nodes := by
  induction c using Constraint.ind generalizing σ v with
  | h c ih =>
    have hch : ∀ d, c.Child d → Cheap (counted ext ρ κ d) (d.size * B) := fun d hd =>
      ⟨fun σ x hx => ih d hd (fun m n h => hκ m n (.child hd h)) (hc.child hd) σ hx, hρ ▸ inert_readOnly fuel d (hc.child hd)⟩
    have leaf : 1 ≤ 1 * B * v.nodes := by
      rw [Nat.one_mul]
      exact Nat.mul_pos hB v.nodes_pos
    have hl : ∀ cs : List Constraint, (cs.map (fun d => d.size * B)).sum = sizeList cs * B := fun cs => by rw [sum_mul_right, sizeList_eq]
    have ho : ∀ c : Option Constraint, (c.toList.map (fun d => d.size * B)).sum = sizeOpt c * B := fun c => by rw [sum_mul_right, sizeOpt_eq]
    cases c with
    | array a =>
      simp only [callsOf, countArr_eq, Constraint.size]
      refine one_add_le hB v.nodes_pos ((arrayCalls_le (w := fun d => d.size * B) (fun d hd => hch d (.array hd)) σ hv).trans ?_)
      obtain ⟨i, p, a, _, _, _⟩ := a
      simp only [ho, hl, sizeArr, Nat.add_mul]
      exact le_refl _
    | object o =>
      simp only [callsOf, countObj_eq, Constraint.size]
      refine one_add_le hB v.nodes_pos ((objectCalls_le (w := fun d => d.size * B) (fun d hd => hch d (.object hd)) (fun p d h dv hdv => ?_) σ hv).trans ?_)
      · subst hρ
        exact hc _ (.refl _) (.mk h (dflt_defaulted fuel d dv hdv))
      · obtain ⟨ps, pats, a, _, _, sd, _, _⟩ := o
        simp only [ho, sizeObj, Nat.add_mul, sizeProps_eq, sizePats_eq, ← sum_mul_right (fun p : GoStr × Constraint => p.2.size) B,
          ← sum_mul_right (fun p : Nat × GoStr × Constraint => p.2.2.size) B]
        exact le_refl _
    | any cs =>
      simp only [callsOf, countList_eq, Constraint.size]
      refine one_add_le hB v.nodes_pos ((anyCalls_le (w := fun d => d.size * B) hv cs 0 σ (fun d hd => hch d (.any hd))).trans ?_)
      rw [hl]
    | all cs =>
      simp only [callsOf, countList_eq, Constraint.size]
      refine one_add_le hB v.nodes_pos ((allCalls_le (w := fun d => d.size * B) hv cs 0 σ (fun d hd => hch d (.all hd))).trans ?_)
      rw [hl]
    | oneOf cs =>
      simp only [callsOf, countList_eq, Constraint.size]
      refine one_add_le hB v.nodes_pos ((oneOfCalls_le (w := fun d => d.size * B) hv cs 0 σ (fun d hd => hch d (.oneOf hd))).trans ?_)
      rw [hl]
    | not d =>
      simp only [callsOf, countOpt_eq, Constraint.size]
      refine one_add_le hB v.nodes_pos ?_
      cases d with
      | none => exact Nat.zero_le _
      | some d =>
        simp only [Option.map_some, notCalls, sizeOpt]
        exact (hch d .not).le _ v hv
    | ref m n =>
      simp only [callsOf, Constraint.size, Nat.one_mul]
      exact hκ m n (.refl _) σ v hv
    | _ => simpa only [callsOf, Constraint.size] using leaf

/-- A reference makes at most `(S + 1) ^ k` calls for each value, if everything registered has at most `S` constraints. -/
theorem refCalls_le {S : Nat} (hS : ∀ m n d, env m n = some d → d.size ≤ S) : ∀ (k m : Nat) (n : GoStr), Inert env (.ref m n) → ∀ (σ : Sched) (v : GoVal),
    IsJson v → refCalls ext env k m n σ v ≤ (S + 1) ^ k * v.nodes
  | 0, m, n, _, σ, v, _ => by
    simp only [refCalls, Nat.pow_zero, Nat.one_mul]
    exact v.nodes_pos
  | k + 1, m, n, hi, σ, v, hv => by
    have hB : 1 ≤ (S + 1) ^ k := Nat.one_le_pow _ _ (Nat.succ_pos S)
    simp only [refCalls]
    cases e : env m n with
    | none => exact Nat.mul_pos (Nat.one_le_pow _ _ (Nat.succ_pos S)) v.nodes_pos
    | some d =>
      have hd : Inert env d := fun x hx => hi x (.ref e hx)
      have hin : ∀ {a b : Constraint}, a.In b → Inert env b → Inert env a := by
        intro a b h
        induction h with
        | refl => exact id
        | child hc _ ih => exact fun h => ih (h.child hc)
      have h1 := callsOf_le (κ := refCalls ext env k) (ext := ext) (ρ := refSem ext env k) rfl hB d
        (fun m' n' h' => refCalls_le hS k m' n' (hin h' hd)) hd σ hv
      have h2 := one_add_le hB v.nodes_pos h1
      refine h2.trans (Nat.mul_le_mul_right _ ?_)
      rw [Nat.pow_succ, Nat.mul_comm]
      refine Nat.mul_le_mul_left _ ?_
      have := hS m n d e
      omega

theorem calls_le {S : Nat} (hS : ∀ m n d, env m n = some d → d.size ≤ S) {c : Constraint} (hc : Inert env c) (k : Nat) (σ : Sched) {v : GoVal}
    (hv : IsJson v) : callCount ext env k c σ v ≤ c.size * (S + 1) ^ k * v.nodes := by
  have hin : ∀ {a b : Constraint}, a.In b → Inert env b → Inert env a := by
    intro a b h
    induction h with
    | refl => exact id
    | child hc _ ih => exact fun h => ih (h.child hc)
  exact callsOf_le rfl (Nat.one_le_pow _ _ (Nat.succ_pos S)) c (fun m n h => refCalls_le hS k m n (hin h hc)) hc σ hv

end
/-- Without defaults nothing is filled in. -/
theorem inert_of_noDefault {env : Env} (henv : env.Every NoDefault) {c : Constraint} (hc : c.Every NoDefault) : Inert env c := by
  have key : ∀ {c e : Constraint}, c.Uses env e → c.Every NoDefault → e.Every NoDefault := by
    intro c e h
    induction h with
    | refl => exact id
    | child hd _ ih => exact fun h => ih (h.child hd)
    | ref he _ ih => exact fun _ => ih (henv _ _ _ he)
  have res : ∀ {c d : Constraint}, c.Resolves env d → c.Every NoDefault → d.Every NoDefault := by
    intro c d h
    induction h with
    | refl => exact id
    | ref he _ ih => exact fun _ => ih (henv _ _ _ he)
  rintro e he ⟨hp, d, hd, hn⟩
  exact hn (res hd ((key he hc).child (.object (.prop hp)))).self

end Jsval
