import Verif.Lemmas.Effort
/-!
# The number of calls, exactly

Loops that run to the end add up the calls of their children.
-/
namespace Jsval

variable {C : Type} {f : C → Counted} {n : C → Nat} {v : GoVal}

theorem allCalls_exact : ∀ (cs : List C) (i : Nat) (σ : Sched), (∀ c ∈ cs, (f c).sem.ReadOnly ∧ ∀ σ, (f c).calls σ v = n c) →
    (allLoop i (cs.map fun c => (f c).sem) σ v).1 = .ok → allCalls i (cs.map f) σ v = (cs.map n).sum
  | [], _, _, _, _ => rfl
  | c :: cs, i, σ, h, hok => by
    obtain ⟨hr, hn⟩ := h c List.mem_cons_self
    simp only [List.map_cons, allCalls, allLoop, List.sum_cons, hn] at hok ⊢
    have hv := hr v (σ.sub i)
    rcases e : (f c).sem.val (σ.sub i) v with ⟨r, v'⟩
    rw [e] at hv
    have hv : v = v' := hv.symm
    subst hv
    simp only [e] at hok ⊢
    cases r with
    | ok => exact congrArg (n c + ·) (allCalls_exact cs (i + 1) σ (fun d hd => h d (List.mem_cons_of_mem _ hd)) hok)
    | err _ => cases hok
    | abort _ => cases hok

theorem oneOfCalls_exact : ∀ (cs : List C) (i k : Nat) (σ : Sched), (∀ c ∈ cs, (f c).sem.ReadOnly ∧ ∀ σ, (f c).calls σ v = n c) →
    (oneOfLoop i k (cs.map fun c => (f c).sem) σ v).1.Normal → oneOfCalls i (cs.map f) σ v = (cs.map n).sum
  | [], _, _, _, _, _ => rfl
  | c :: cs, i, k, σ, h, hok => by
    obtain ⟨hr, hn⟩ := h c List.mem_cons_self
    simp only [List.map_cons, oneOfCalls, oneOfLoop, List.sum_cons, hn] at hok ⊢
    have hv := hr v (σ.sub i)
    rcases e : (f c).sem.val (σ.sub i) v with ⟨r, v'⟩
    rw [e] at hv
    have hv : v = v' := hv.symm
    subst hv
    simp only [e] at hok ⊢
    cases r with
    | ok => exact congrArg (n c + ·) (oneOfCalls_exact cs (i + 1) _ σ (fun d hd => h d (List.mem_cons_of_mem _ hd)) hok)
    | err _ => exact congrArg (n c + ·) (oneOfCalls_exact cs (i + 1) _ σ (fun d hd => h d (List.mem_cons_of_mem _ hd)) hok)
    | abort a => exact absurd rfl (hok a)

/-- All that come before the first that accepts. -/
theorem anyCalls_exact {d : C} {post : List C} (hd : ∀ σ, (f d).calls σ v = n d) (hok : ∀ σ, ((f d).sem.val σ v).1 = .ok) :
    ∀ (pre : List C) (i : Nat) (σ : Sched), (∀ c ∈ pre, (f c).sem.ReadOnly ∧ (∀ σ, (f c).calls σ v = n c) ∧ ∀ σ, ∃ e, ((f c).sem.val σ v).1 = .err e) →
    anyCalls i ((pre ++ d :: post).map f) σ v = (pre.map n).sum + n d
  | [], i, σ, _ => by
    simp only [List.nil_append, List.map_cons, anyCalls, hd, List.map_nil, List.sum_nil, Nat.zero_add]
    have h := hok (σ.sub i)
    rcases e : (f d).sem.val (σ.sub i) v with ⟨r, v'⟩
    rw [e] at h
    obtain rfl : r = .ok := h
    rfl
  | c :: pre, i, σ, h => by
    obtain ⟨hr, hn, he⟩ := h c List.mem_cons_self
    have ih := anyCalls_exact (post := post) hd hok pre (i + 1) σ (fun d hd => h d (List.mem_cons_of_mem _ hd))
    simp only [List.cons_append, List.map_cons, anyCalls, hn, List.sum_cons]
    have hv := hr v (σ.sub i)
    obtain ⟨x, hx⟩ := he (σ.sub i)
    rcases e : (f c).sem.val (σ.sub i) v with ⟨r, v'⟩
    rw [e] at hv hx
    have hv : v = v' := hv.symm
    subst hv
    obtain rfl : r = .err x := hx
    simp only
    rw [ih, Nat.add_assoc]

theorem itemsCalls_exact {c : Counted} {n : GoVal → Nat} {σ : Sched} : ∀ (xs : List GoVal) (i : Nat), (∀ x ∈ xs, ∀ σ, c.calls σ x = n x) →
    (runItems c.sem σ i xs).1 = .ok → itemsCalls c σ i xs = (xs.map n).sum
  | [], _, _, _ => rfl
  | x :: xs, i, h, hok => by
    simp only [itemsCalls, runItems, List.map_cons, List.sum_cons, h x List.mem_cons_self] at hok ⊢
    rcases e : c.sem.val (σ.sub i) x with ⟨r, v'⟩
    simp only [e] at hok ⊢
    cases r with
    | ok => exact congrArg (n x + ·) (itemsCalls_exact xs (i + 1) (fun d hd => h d (List.mem_cons_of_mem _ hd)) hok)
    | err _ => cases hok
    | abort _ => cases hok

theorem posCalls_exact {n : C → GoVal → Nat} {σ : Sched} : ∀ (cs : List C) (xs : List GoVal) (i : Nat), (∀ c ∈ cs, ∀ x ∈ xs, ∀ σ, (f c).calls σ x = n c x) →
    (runPos σ i (cs.map fun c => (f c).sem) xs).1 = .ok → posCalls σ i (cs.map f) xs = ((cs.zip xs).map fun p => n p.1 p.2).sum
  | [], _, _, _, _ => rfl
  | _ :: _, [], _, _, _ => rfl
  | c :: cs, x :: xs, i, h, hok => by
    simp only [posCalls, runPos, List.map_cons, List.zip_cons_cons, List.sum_cons, h c List.mem_cons_self x List.mem_cons_self] at hok ⊢
    rcases e : (f c).sem.val (σ.sub i) x with ⟨r, v'⟩
    simp only [e] at hok ⊢
    cases r with
    | ok =>
      exact congrArg (n c x + ·) (posCalls_exact cs xs (i + 1) (fun d hd y hy => h d (List.mem_cons_of_mem _ hd) y (List.mem_cons_of_mem _ hy)) hok)
    | err _ => cases hok
    | abort _ => cases hok

/-- A loop that runs to the end. -/
theorem forCalls_exact {α S : Type} {step : Nat → α → S → Res × S} {cost : Nat → α → S → Nat} (I : S → Prop) (n : α → Nat) :
    ∀ (i : Nat) (l : List α) (s : S), (∀ i, ∀ a ∈ l, ∀ s, I s → cost i a s = n a ∧ I (step i a s).2) → I s → (forLoop step i l s).1 = .ok →
    forCalls step cost i l s = (l.map n).sum
  | _, [], _, _, _, _ => rfl
  | i, a :: l, s, h, hs, hok => by
    obtain ⟨h1, h2⟩ := h i a List.mem_cons_self s hs
    simp only [forCalls, forLoop, List.map_cons, List.sum_cons, h1] at hok ⊢
    rcases e : step i a s with ⟨r, s'⟩
    rw [e] at h2
    simp only [e] at hok ⊢
    cases r with
    | ok => exact congrArg (n a + ·) (forCalls_exact I n (i + 1) l s' (fun j b hb => h j b (List.mem_cons_of_mem _ hb)) h2 hok)
    | err _ => cases hok
    | abort _ => cases hok

/-- The declared properties of a document that is accepted. -/
theorem objectCalls_ge {ext : Ext} {o : ObjC C} {n : C → GoVal → Nat} {kvs : List (GoStr × GoVal)}
    (h : ∀ p c, (p, c) ∈ o.props → (f c).sem.ReadOnly ∧ (∀ dv, (f c).sem.dflt ≠ .some dv) ∧ ∀ x, alookup p kvs = some x → ∀ σ, (f c).calls σ x = n c x)
    (σ : Sched) (hok : (objectV ext (o.map fun c => (f c).sem) σ (.map false kvs)).1 = .ok) :
    (o.props.map fun p => ((alookup p.1 kvs).map (n p.2)).getD 0).sum ≤ objectCalls ext (o.map f) σ (.map false kvs) := by
  have e1 : ∀ {D : Type} (φ : C → D), (o.map φ).minProps = o.minProps := fun _ => rfl
  have e2 : ∀ {D : Type} (φ : C → D), (o.map φ).maxProps = o.maxProps := fun _ => rfl
  have e3 : (o.map f).map Counted.sem = o.map fun c => (f c).sem := by
    cases o; simp [ObjC.map, Option.map_map, Function.comp_def]
  simp only [objectCalls, objectV, valueOf, RV.indirect, getPropNames, e1, e2] at hok ⊢
  split at hok
  · cases hok
  rename_i hmin
  split at hok
  · cases hok
  rename_i hmax
  rw [if_neg hmin, if_neg hmax]
  simp only [objLoops, loopsCalls, e3] at hok ⊢
  have hps : ∀ {D : Type} (φ : C → D), (o.map φ).props = o.props.map (fun p => (p.1, φ p.2)) := fun _ => rfl
  simp only [hps, shuffle_map, forCalls_map, forLoop_map] at hok ⊢
  have hmem : ∀ {α : Type} (k : Nat) (l : List α) (a : α), a ∈ shuffle k l → a ∈ l := fun k l a ha => (shuffle_perm l k).mem_iff.1 ha
  have hfirst : (forLoop (fun i (a : GoStr × C) => propStep ext (o.map fun c => (f c).sem) (σ.sub 1) i (a.1, (f a.2).sem)) 0
      (shuffle (σ.sub 0).key o.props) ⟨.map false kvs, nameSet (kvs.map (·.1)), []⟩).1 = .ok := by
    revert hok
    generalize forLoop (fun i (a : GoStr × C) => propStep ext (o.map fun c => (f c).sem) (σ.sub 1) i (a.1, (f a.2).sem)) 0
      (shuffle (σ.sub 0).key o.props) ⟨.map false kvs, nameSet (kvs.map (·.1)), []⟩ = r
    rcases r with ⟨r, st⟩
    cases r with
    | ok => exact fun _ => rfl
    | err _ => exact fun h => absurd h (by simp [seqSt])
    | abort _ => exact fun h => absurd h (by simp [seqSt])
  refine le_trans (le_of_eq ?_) (Nat.le_add_right _ _)
  rw [← shuffle_sum (σ.sub 0).key]
  symm
  refine forCalls_exact (Undisturbed (.map false kvs)) _ 0 _ _ (fun i pc hpc st hst => ⟨?_, ?_⟩)
    ⟨rfl, foldl_addName_nodup _ _ .nil, .nil⟩ hfirst
  · obtain ⟨-, -, hn⟩ := h pc.1 pc.2 (hmem _ _ _ hpc)
    simp only [propCalls, hst.same, valueOf, RV.indirect, viewProp_map]
    cases e : alookup pc.1 kvs with
    | none => rfl
    | some x => exact hn x e _
  · obtain ⟨hr, hd, -⟩ := h pc.1 pc.2 (hmem _ _ _ hpc)
    exact propStep_steady hr hd hst

end Jsval
