import Verif.Lemmas.BuildTable
/-!
# What one constraint does in some order of its maps, the same constraint with its maps listed differently does in some order
-/
namespace Jsval

/-- The same default; and all that `s` does, `s'` does as well. -/
def Covers (s s' : Sem) : Prop := s.dflt = s'.dflt ∧ ∀ σ v, ∃ σ', s'.val σ' v = s.val σ v

/-- The schedule with this number and these schedules of sub-calls. -/
def Sched.of (k : Nat) (f : Nat → Sched) : Sched
  | [] => k
  | i :: p => f i p

theorem Sched.of_key (k : Nat) (f : Nat → Sched) : (Sched.of k f).key = k := rfl

theorem Sched.of_sub (k : Nat) (f : Nat → Sched) (i : Nat) : (Sched.of k f).sub i = f i := rfl

/-- The schedule with sub-call `i` exchanged. -/
def Sched.set (σ : Sched) (i : Nat) (τ : Sched) : Sched := Sched.of σ.key (fun j => if j = i then τ else σ.sub j)

theorem Sched.set_eq (σ : Sched) (i : Nat) (τ : Sched) : (σ.set i τ).sub i = τ := by
  show (if i = i then τ else σ.sub i) = τ
  rw [if_pos rfl]

theorem Sched.set_ne (σ : Sched) {i j : Nat} (τ : Sched) (h : j ≠ i) : (σ.set i τ).sub j = σ.sub j := by
  show (if j = i then τ else σ.sub j) = σ.sub j
  rw [if_neg h]

/-! ## Combinations -/

section
variable {σ τ : Sched}

theorem anyLoop_subs : ∀ (cs : List Sem) (i : Nat) (v : GoVal), (∀ j, i ≤ j → σ.sub j = τ.sub j) → anyLoop i cs σ v = anyLoop i cs τ v
  | [], _, _, _ => rfl
  | c :: cs, i, v, h => by
    simp only [anyLoop, h i (Nat.le_refl i)]
    rcases c.val (τ.sub i) v with ⟨r, v'⟩
    cases r with
    | err e => exact anyLoop_subs cs (i + 1) v' (fun j hj => h j (by omega))
    | _ => rfl

theorem allLoop_subs : ∀ (cs : List Sem) (i : Nat) (v : GoVal), (∀ j, i ≤ j → σ.sub j = τ.sub j) → allLoop i cs σ v = allLoop i cs τ v
  | [], _, _, _ => rfl
  | c :: cs, i, v, h => by
    simp only [allLoop, h i (Nat.le_refl i)]
    rcases c.val (τ.sub i) v with ⟨r, v'⟩
    cases r with
    | ok => exact allLoop_subs cs (i + 1) v' (fun j hj => h j (by omega))
    | _ => rfl

theorem oneOfLoop_subs : ∀ (cs : List Sem) (i n : Nat) (v : GoVal), (∀ j, i ≤ j → σ.sub j = τ.sub j) →
    oneOfLoop i n cs σ v = oneOfLoop i n cs τ v
  | [], _, _, _, _ => rfl
  | c :: cs, i, n, v, h => by
    simp only [oneOfLoop, h i (Nat.le_refl i)]
    rcases c.val (τ.sub i) v with ⟨r, v'⟩
    cases r with
    | ok => exact oneOfLoop_subs cs (i + 1) _ v' (fun j hj => h j (by omega))
    | err e => exact oneOfLoop_subs cs (i + 1) _ v' (fun j hj => h j (by omega))
    | abort a => rfl

theorem runItems_subs (c : Sem) : ∀ (xs : List GoVal) (i : Nat), (∀ j, i ≤ j → σ.sub j = τ.sub j) → runItems c σ i xs = runItems c τ i xs
  | [], _, _ => rfl
  | x :: xs, i, h => by
    simp only [runItems, h i (Nat.le_refl i), runItems_subs c xs (i + 1) (fun j hj => h j (by omega))]

theorem runPos_subs : ∀ (cs : List Sem) (xs : List GoVal) (i : Nat), (∀ j, i ≤ j → σ.sub j = τ.sub j) → runPos σ i cs xs = runPos τ i cs xs
  | [], _, _, _ => rfl
  | _ :: _, [], _, _ => rfl
  | c :: cs, x :: xs, i, h => by
    simp only [runPos, h i (Nat.le_refl i), runPos_subs cs xs (i + 1) (fun j hj => h j (by omega))]
end

theorem anyLoop_covers {l l' : List Sem} (h : List.Forall₂ Covers l l') : ∀ (i : Nat) (σ : Sched) (v : GoVal),
    ∃ σ', anyLoop i l' σ' v = anyLoop i l σ v := by
  induction h with
  | nil => exact fun i σ v => ⟨σ, rfl⟩
  | @cons c c' l l' h _ ih =>
    intro i σ v
    obtain ⟨τ, hτ⟩ := h.2 (σ.sub i) v
    rcases e : c.val (σ.sub i) v with ⟨r, v'⟩
    rw [e] at hτ
    cases r with
    | err x =>
      obtain ⟨ρ, hρ⟩ := ih (i + 1) σ v'
      refine ⟨ρ.set i τ, ?_⟩
      simp only [anyLoop, Sched.set_eq, hτ, e]
      rw [← hρ]
      exact anyLoop_subs _ _ _ (fun j hj => Sched.set_ne _ _ (by omega))
    | ok => exact ⟨σ.set i τ, by simp only [anyLoop, Sched.set_eq, hτ, e]⟩
    | abort a => exact ⟨σ.set i τ, by simp only [anyLoop, Sched.set_eq, hτ, e]⟩

theorem allLoop_covers {l l' : List Sem} (h : List.Forall₂ Covers l l') : ∀ (i : Nat) (σ : Sched) (v : GoVal),
    ∃ σ', allLoop i l' σ' v = allLoop i l σ v := by
  induction h with
  | nil => exact fun i σ v => ⟨σ, rfl⟩
  | @cons c c' l l' h _ ih =>
    intro i σ v
    obtain ⟨τ, hτ⟩ := h.2 (σ.sub i) v
    rcases e : c.val (σ.sub i) v with ⟨r, v'⟩
    rw [e] at hτ
    cases r with
    | ok =>
      obtain ⟨ρ, hρ⟩ := ih (i + 1) σ v'
      refine ⟨ρ.set i τ, ?_⟩
      simp only [allLoop, Sched.set_eq, hτ, e]
      rw [← hρ]
      exact allLoop_subs _ _ _ (fun j hj => Sched.set_ne _ _ (by omega))
    | err x => exact ⟨σ.set i τ, by simp only [allLoop, Sched.set_eq, hτ, e]⟩
    | abort a => exact ⟨σ.set i τ, by simp only [allLoop, Sched.set_eq, hτ, e]⟩

theorem oneOfLoop_covers {l l' : List Sem} (h : List.Forall₂ Covers l l') : ∀ (i n : Nat) (σ : Sched) (v : GoVal),
    ∃ σ', oneOfLoop i n l' σ' v = oneOfLoop i n l σ v := by
  induction h with
  | nil => exact fun i n σ v => ⟨σ, rfl⟩
  | @cons c c' l l' h _ ih =>
    intro i n σ v
    obtain ⟨τ, hτ⟩ := h.2 (σ.sub i) v
    rcases e : c.val (σ.sub i) v with ⟨r, v'⟩
    rw [e] at hτ
    cases r with
    | abort a => exact ⟨σ.set i τ, by simp only [oneOfLoop, Sched.set_eq, hτ, e]⟩
    | ok =>
      obtain ⟨ρ, hρ⟩ := ih (i + 1) (n + 1) σ v'
      refine ⟨ρ.set i τ, ?_⟩
      simp only [oneOfLoop, Sched.set_eq, hτ, e]
      rw [← hρ]
      exact oneOfLoop_subs _ _ _ _ (fun j hj => Sched.set_ne _ _ (by omega))
    | err x =>
      obtain ⟨ρ, hρ⟩ := ih (i + 1) n σ v'
      refine ⟨ρ.set i τ, ?_⟩
      simp only [oneOfLoop, Sched.set_eq, hτ, e]
      rw [← hρ]
      exact oneOfLoop_subs _ _ _ _ (fun j hj => Sched.set_ne _ _ (by omega))

theorem notV_covers {c c' : Sem} (h : Covers c c') (σ : Sched) (v : GoVal) : ∃ σ', notV (some c') σ' v = notV (some c) σ v := by
  obtain ⟨τ, hτ⟩ := h.2 (σ.sub 0) v
  exact ⟨σ.set 0 τ, by simp only [notV, Sched.set_eq, hτ]⟩

/-! ## Arrays -/

theorem runItems_covers {c c' : Sem} (h : Covers c c') : ∀ (xs : List GoVal) (i : Nat) (σ : Sched), ∃ σ', runItems c' σ' i xs = runItems c σ i xs
  | [], _, σ => ⟨σ, rfl⟩
  | x :: xs, i, σ => by
    obtain ⟨τ, hτ⟩ := h.2 (σ.sub i) x
    obtain ⟨ρ, hρ⟩ := runItems_covers h xs (i + 1) σ
    refine ⟨ρ.set i τ, ?_⟩
    have := runItems_subs c' (σ := ρ.set i τ) (τ := ρ) xs (i + 1) (fun j hj => Sched.set_ne _ _ (by omega))
    simp only [runItems, Sched.set_eq, hτ, this, hρ]

theorem runPos_covers {l l' : List Sem} (h : List.Forall₂ Covers l l') : ∀ (xs : List GoVal) (i : Nat) (σ : Sched),
    ∃ σ', runPos σ' i l' xs = runPos σ i l xs := by
  induction h with
  | nil => exact fun xs i σ => ⟨σ, rfl⟩
  | @cons c c' l l' h _ ih =>
    intro xs i σ
    cases xs with
    | nil => exact ⟨σ, rfl⟩
    | cons x xs =>
      obtain ⟨τ, hτ⟩ := h.2 (σ.sub i) x
      obtain ⟨ρ, hρ⟩ := ih xs (i + 1) σ
      refine ⟨ρ.set i τ, ?_⟩
      have := runPos_subs (σ := ρ.set i τ) (τ := ρ) l' xs (i + 1) (fun j hj => Sched.set_ne _ _ (by omega))
      simp only [runPos, Sched.set_eq, hτ, this, hρ]

theorem runAdditional_covers {a a' : ArrC Sem} (hp : a.positional.length = a'.positional.length) (ha : OptRel Covers a.additional a'.additional)
    (xs : List GoVal) (σ : Sched) : ∃ σ', runAdditional a' σ' xs = runAdditional a σ xs := by
  simp only [runAdditional, ← hp]
  split_ifs with h
  · generalize a.additional = x at ha ⊢
    generalize a'.additional = y at ha ⊢
    cases ha with
    | none => exact ⟨σ, rfl⟩
    | some h =>
      obtain ⟨τ, hτ⟩ := runItems_covers h (xs.drop (a.positional.length - 1)) (a.positional.length - 1) σ
      exact ⟨τ, by simp only [hτ]⟩
  · exact ⟨σ, rfl⟩

theorem arrayV_covers {ext : Ext} {a a' : ArrC Sem} (hi : OptRel Covers a.items a'.items) (hp : List.Forall₂ Covers a.positional a'.positional)
    (ha : OptRel Covers a.additional a'.additional) (h1 : a.minItems = a'.minItems) (h2 : a.maxItems = a'.maxItems) (h3 : a.unique = a'.unique)
    (σ : Sched) (v : GoVal) : ∃ σ', arrayV ext a' σ' v = arrayV ext a σ v := by
  have key : ∀ xs, ∃ σ', arrayElems a' σ' xs = arrayElems a σ xs := by
    intro xs
    simp only [arrayElems]
    generalize a.items = x at hi ⊢
    generalize a'.items = y at hi ⊢
    cases hi with
    | some h =>
      obtain ⟨τ, hτ⟩ := runItems_covers h xs 0 (σ.sub 0)
      exact ⟨σ.set 0 τ, by simp only [Sched.set_eq, hτ]⟩
    | none =>
      obtain ⟨τ, hτ⟩ := runPos_covers hp xs 0 (σ.sub 1)
      rcases e : runPos (σ.sub 1) 0 a.positional xs with ⟨r, xs'⟩
      rw [e] at hτ
      obtain ⟨ρ, hρ⟩ := runAdditional_covers hp.length_eq ha xs' (σ.sub 2)
      refine ⟨(σ.set 1 τ).set 2 ρ, ?_⟩
      rw [Sched.set_ne (σ.set 1 τ) ρ (show 1 ≠ 2 by omega), Sched.set_eq, Sched.set_eq, hτ]
      cases r with
      | ok => exact hρ
      | _ => rfl
  unfold arrayV
  rcases valueOf v with _ | x
  · exact ⟨σ, rfl⟩
  · cases x with
    | slice n xs =>
      obtain ⟨τ, hτ⟩ := key xs
      exact ⟨τ, by simp only [hτ, h1, h2, h3]⟩
    | _ => exact ⟨σ, rfl⟩

/-! ## Objects -/

theorem forLoop_subs {α S : Type} {f g : Nat → α → S → Res × S} : ∀ (l : List α) (i : Nat) (st : S), (∀ j, i ≤ j → f j = g j) →
    forLoop f i l st = forLoop g i l st
  | [], _, _, _ => rfl
  | a :: l, i, st, h => by
    simp only [forLoop, h i (Nat.le_refl i)]
    rcases g i a st with ⟨r, st'⟩
    cases r with
    | ok => exact forLoop_subs l (i + 1) st' (fun j hj => h j (by omega))
    | _ => rfl

theorem forLoop_covers {α β S X : Type} {R : α → β → Prop} {f : X → α → S → Res × S} {f' : X → β → S → Res × S}
    (hf : ∀ a b, R a b → ∀ x st, ∃ y, f' y b st = f x a st) {l : List α} {l' : List β} (h : List.Forall₂ R l l') :
    ∀ (x : Nat → X) (i : Nat) (st : S), ∃ y : Nat → X, forLoop (fun j => f' (y j)) i l' st = forLoop (fun j => f (x j)) i l st := by
  induction h with
  | nil => exact fun x i st => ⟨x, rfl⟩
  | @cons a b l l' h _ ih =>
    intro x i st
    obtain ⟨z, hz⟩ := hf a b h (x i) st
    rcases e : f (x i) a st with ⟨r, st'⟩
    rw [e] at hz
    cases r with
    | ok =>
      obtain ⟨y, hy⟩ := ih x (i + 1) st'
      refine ⟨fun j => if j = i then z else y j, ?_⟩
      simp only [forLoop, if_true, hz, e]
      rw [← hy]
      exact forLoop_subs _ _ _ (fun j hj => by rw [if_neg (by omega)])
    | err e' => exact ⟨fun _ => z, by simp only [forLoop, hz, e]⟩
    | abort e' => exact ⟨fun _ => z, by simp only [forLoop, hz, e]⟩

theorem seqSt_covers {X Y : Type} {f f' : X → ObjSt → Res × ObjSt} {g g' : Y → ObjSt → Res × ObjSt}
    (hf : ∀ x st, ∃ x', f' x' st = f x st) (hg : ∀ y st, ∃ y', g' y' st = g y st) :
    ∀ (z : X × Y) st, ∃ z' : X × Y, (fun (z : X × Y) st => seqSt (f' z.1 st) (g' z.2)) z' st = (fun (z : X × Y) st => seqSt (f z.1 st) (g z.2)) z st := by
  rintro ⟨x, y⟩ st
  obtain ⟨x', hx⟩ := hf x st
  rcases e : f x st with ⟨r, st'⟩
  rw [e] at hx
  cases r with
  | ok =>
    obtain ⟨y', hy⟩ := hg y st'
    exact ⟨(x', y'), by simp only [e, hx]; exact hy⟩
  | _ => exact ⟨(x', y), by simp only [e, hx]; rfl⟩

/-- A permutation on one side of a relation between lists can be made on the other side. -/
theorem shuffle_rel {α β : Type} {R : α → β → Prop} {l : List α} {l' : List β} (h : ∃ q, q.Perm l' ∧ List.Forall₂ R l q) (k : Nat) :
    ∃ k', List.Forall₂ R (shuffle k l) (shuffle k' l') := by
  obtain ⟨q, hq, h⟩ := h
  obtain ⟨d, hd, hp⟩ := List.perm_comp_forall₂ (shuffle_perm l k) h
  obtain ⟨k', hk⟩ := shuffle_surj l' d (hp.trans hq)
  exact ⟨k', by rw [hk]; exact hd⟩

/-- Entries with the same names, related by `Q`, up to their order. -/
theorem perm_of_lookups {α β : Type} {Q : α → β → Prop} : ∀ {l : List (GoStr × α)} {l' : List (GoStr × β)}, (l.map (·.1)).Nodup →
    (l.map (·.1)).Perm (l'.map (·.1)) → (∀ n, OptRel Q (alookup n l) (alookup n l')) →
    ∃ q, q.Perm l' ∧ List.Forall₂ (fun p r => p.1 = r.1 ∧ Q p.2 r.2) l q
  | [], l', _, hp, _ => by
    have : l' = [] := by simpa using hp.symm
    exact ⟨[], by rw [this], .nil⟩
  | (n, a) :: l, l', hn, hp, hl => by
    have hn' : (l'.map (·.1)).Nodup := hp.nodup_iff.1 hn
    have hl0 := hl n
    simp only [alookup, if_true] at hl0
    rcases e : alookup n l' with _ | b
    · rw [e] at hl0; cases hl0
    · rw [e] at hl0
      have hab : Q a b := by cases hl0; assumption
      obtain ⟨u, w, rfl⟩ := List.append_of_mem (alookup_mem e)
      have hperm : (u ++ (n, b) :: w).Perm ((n, b) :: (u ++ w)) := List.perm_middle
      have hp2 : (l.map (·.1)).Perm ((u ++ w).map (·.1)) := by
        have := hp.trans (hperm.map (·.1))
        simpa using this
      simp only [List.map_cons, List.nodup_cons] at hn
      have hn2 : (((n, b) :: (u ++ w)).map (·.1)).Nodup := (hperm.map (·.1)).nodup_iff.1 hn'
      obtain ⟨q, hq, hf⟩ := perm_of_lookups (l := l) (l' := u ++ w) hn.2 hp2 (fun k => by
        by_cases hk : k = n
        · subst hk
          have h1 : alookup k l = none := by
            rcases e1 : alookup k l with _ | x
            · rfl
            · exact absurd (alookup_isSome.1 ⟨x, e1⟩) hn.1
          have h2 : alookup k (u ++ w) = none := by
            rcases e1 : alookup k (u ++ w) with _ | x
            · rfl
            · exact absurd (hp2.mem_iff.2 (alookup_isSome.1 ⟨x, e1⟩)) hn.1
          rw [h1, h2]
          exact .none
        · have := hl k
          rw [alookup_perm hperm hn', alookup, alookup, if_neg (Ne.symm hk), if_neg (Ne.symm hk)] at this
          exact this)
      exact ⟨(n, b) :: q, (hq.cons _).trans hperm.symm, .cons ⟨rfl, hab⟩ hf⟩

section
variable {ext : Ext} {o o' : ObjC Sem}

theorem propStep_covers (hr : o.required = o'.required) {p p' : GoStr × Sem} (h : p.1 = p'.1 ∧ Covers p.2 p'.2) (x : Sched) (st : ObjSt) :
    ∃ y, propStep ext o' (Sched.of 0 fun _ => y) 0 p' st = propStep ext o (Sched.of 0 fun _ => x) 0 p st := by
  obtain ⟨n, c⟩ := p
  obtain ⟨n', c'⟩ := p'
  obtain ⟨h, hd, hv⟩ := h
  simp only at h hd hv
  subst h
  simp only [propStep, Sched.of_sub, hr, hd]
  rcases viewProp (valueOf st.v).indirect n with a | w
  · exact ⟨x, rfl⟩
  · cases w with
    | absent => exact ⟨x, rfl⟩
    | present z b =>
      obtain ⟨y, hy⟩ := hv x z
      exact ⟨y, by simp only [hy]⟩

theorem patStep_covers {src : GoStr} {c c' : Sem} (h : Covers c c') (n : GoStr) (x : Sched) (st : ObjSt) :
    ∃ y, patStep ext src c' (Sched.of 0 fun _ => y) 0 n st = patStep ext src c (Sched.of 0 fun _ => x) 0 n st := by
  simp only [patStep, Sched.of_sub]
  split_ifs
  · exact ⟨x, rfl⟩
  · rcases getProp (valueOf st.v).indirect n with a | w
    · exact ⟨x, rfl⟩
    · cases w with
      | none => exact ⟨x, rfl⟩
      | some z =>
        obtain ⟨y, hy⟩ := h.2 x z
        exact ⟨y, by simp only [hy]⟩

theorem addlStep_covers {c c' : Sem} (h : Covers c c') (n : GoStr) (x : Sched) (st : ObjSt) :
    ∃ y, addlStep c' (Sched.of 0 fun _ => y) 0 n st = addlStep c (Sched.of 0 fun _ => x) 0 n st := by
  simp only [addlStep, Sched.of_sub]
  rcases getProp (valueOf st.v).indirect n with a | w
  · exact ⟨x, rfl⟩
  · cases w with
    | none => exact ⟨x, rfl⟩
    | some z =>
      obtain ⟨y, hy⟩ := h.2 x z
      exact ⟨y, by simp only [hy]⟩

theorem depStep_covers (hd : ∀ n, alookup n o.propdeps = alookup n o'.propdeps)
    (hs : ∀ n, OptRel Covers (alookup n o.schemadeps) (alookup n o'.schemadeps)) (n : GoStr) (x : Sched) (st : ObjSt) :
    ∃ y, depStep o' (Sched.of 0 fun _ => y) 0 n st = depStep o (Sched.of 0 fun _ => x) 0 n st := by
  have e : o.GetPropDependencies n = o'.GetPropDependencies n := by simp only [ObjC.GetPropDependencies, hd]
  have h : OptRel Covers (o.GetSchemaDependency n) (o'.GetSchemaDependency n) := hs n
  simp only [depStep, Sched.of_sub, e]
  by_cases hc : o'.GetPropDependencies n ≠ []
  · exact ⟨x, by rw [if_pos hc, if_pos hc]⟩
  · simp only [if_neg hc]
    generalize o.GetSchemaDependency n = a at h ⊢
    generalize o'.GetSchemaDependency n = a' at h ⊢
    cases h with
    | none => exact ⟨x, rfl⟩
    | some h =>
      obtain ⟨y, hy⟩ := h.2 x st.v
      exact ⟨y, by simp only [hy]⟩

/-- One round of the loop over patterns, with its number and the schedules of the rounds of the inner loop. -/
def patRound (ext : Ext) (x : Nat × (Nat → Sched)) (p : Nat × GoStr × Sem) (st : ObjSt) : Res × ObjSt :=
  forLoop (fun j => patStep ext p.2.1 p.2.2 (Sched.of 0 fun _ => x.2 j) 0) 0 (shuffle x.1 st.premain) st

/-- The part for additional properties. -/
def addlPart (o : ObjC Sem) (x : Nat × (Nat → Sched)) (st : ObjSt) : Res × ObjSt :=
  if st.premain.length > 0 then
    match o.additional with
    | none => (.err .addlNotAllowed, st)
    | some c => forLoop (fun j => addlStep c (Sched.of 0 fun _ => x.2 j) 0) 0 (shuffle x.1 st.premain) st
  else (.ok, st)

theorem forall2_refl {α : Type} : ∀ l : List α, List.Forall₂ (fun a b => a = b) l l
  | [] => .nil
  | _ :: l => .cons rfl (forall2_refl l)

theorem patRound_covers {p p' : Nat × GoStr × Sem} (h : p.1 = p'.1 ∧ p.2.1 = p'.2.1 ∧ Covers p.2.2 p'.2.2) (x : Nat × (Nat → Sched)) (st : ObjSt) :
    ∃ y, patRound ext y p' st = patRound ext x p st := by
  obtain ⟨i, s, c⟩ := p
  obtain ⟨i', s', c'⟩ := p'
  obtain ⟨-, rfl, h⟩ := h
  obtain ⟨y, hy⟩ := forLoop_covers (f := fun x => patStep ext s c (Sched.of 0 fun _ => x) 0) (f' := fun x => patStep ext s c' (Sched.of 0 fun _ => x) 0)
    (R := fun a b => a = b) (fun a b e x st => e ▸ patStep_covers h a x st) (forall2_refl (shuffle x.1 st.premain)) x.2 0 st
  exact ⟨(x.1, y), hy⟩

theorem addlPart_covers (h : OptRel Covers o.additional o'.additional) (x : Nat × (Nat → Sched)) (st : ObjSt) :
    ∃ y, addlPart o' y st = addlPart o x st := by
  unfold addlPart
  split_ifs
  · generalize o.additional = a at h ⊢
    generalize o'.additional = a' at h ⊢
    cases h with
    | none => exact ⟨x, rfl⟩
    | @some c c' h =>
      obtain ⟨y, hy⟩ := forLoop_covers (f := fun x => addlStep c (Sched.of 0 fun _ => x) 0) (f' := fun x => addlStep c' (Sched.of 0 fun _ => x) 0)
        (R := fun a b => a = b) (fun a b e x st => e ▸ addlStep_covers h a x st) (forall2_refl (shuffle x.1 st.premain)) x.2 0 st
      exact ⟨(x.1, y), hy⟩
  · exact ⟨x, rfl⟩

/-- The four loops with all numbers and schedules they use as arguments. -/
def objParts (ext : Ext) (o : ObjC Sem) (x1 : Nat × (Nat → Sched)) (x2 : Nat × (Nat → Nat × (Nat → Sched))) (x3 : Nat × (Nat → Sched))
    (x4 : Nat × (Nat → Sched)) (st : ObjSt) : Res × ObjSt :=
  seqSt (forLoop (fun j => propStep ext o (Sched.of 0 fun _ => x1.2 j) 0) 0 (shuffle x1.1 o.props) st) fun st =>
  seqSt (forLoop (fun j => patRound ext (x2.2 j)) 0 (shuffle x2.1 o.patterns) st) fun st =>
  seqSt (addlPart o x3 st) fun st =>
  forLoop (fun j => depStep o (Sched.of 0 fun _ => x4.2 j) 0) 0 (shuffle x4.1 st.pseen) st

theorem objLoops_objParts (ext : Ext) (o : ObjC Sem) (σ : Sched) (st : ObjSt) : objLoops ext o σ st =
    objParts ext o ((σ.sub 0).key, (σ.sub 1).sub) ((σ.sub 2).key, fun j => (((σ.sub 3).sub j).key, ((σ.sub 4).sub j).sub))
      ((σ.sub 5).key, (σ.sub 6).sub) ((σ.sub 7).key, (σ.sub 8).sub) st := rfl

/-- The schedule that uses these numbers and schedules. -/
def Sched.ofParts (x1 : Nat × (Nat → Sched)) (x2 : Nat × (Nat → Nat × (Nat → Sched))) (x3 : Nat × (Nat → Sched)) (x4 : Nat × (Nat → Sched)) : Sched :=
  Sched.of 0 fun
    | 0 => Sched.of x1.1 x1.2
    | 1 => Sched.of 0 x1.2
    | 2 => Sched.of x2.1 x1.2
    | 3 => Sched.of 0 fun j => Sched.of (x2.2 j).1 x1.2
    | 4 => Sched.of 0 fun j => Sched.of 0 (x2.2 j).2
    | 5 => Sched.of x3.1 x1.2
    | 6 => Sched.of 0 x3.2
    | 7 => Sched.of x4.1 x1.2
    | _ => Sched.of 0 x4.2

theorem objLoops_covers (hr : o.required = o'.required) (ha : OptRel Covers o.additional o'.additional)
    (hp : ∃ q, q.Perm o'.props ∧ List.Forall₂ (fun p r => p.1 = r.1 ∧ Covers p.2 r.2) o.props q)
    (hq : ∃ q, q.Perm o'.patterns ∧ List.Forall₂ (fun p r => p.1 = r.1 ∧ p.2.1 = r.2.1 ∧ Covers p.2.2 r.2.2) o.patterns q)
    (hd : ∀ n, alookup n o.propdeps = alookup n o'.propdeps)
    (hs : ∀ n, OptRel Covers (alookup n o.schemadeps) (alookup n o'.schemadeps)) (σ : Sched) (st : ObjSt) :
    ∃ σ', objLoops ext o' σ' st = objLoops ext o σ st := by
  have h1 : ∀ (x : Nat × (Nat → Sched)) st, ∃ y : Nat × (Nat → Sched),
      forLoop (fun j => propStep ext o' (Sched.of 0 fun _ => y.2 j) 0) 0 (shuffle y.1 o'.props) st =
      forLoop (fun j => propStep ext o (Sched.of 0 fun _ => x.2 j) 0) 0 (shuffle x.1 o.props) st := by
    intro x st
    obtain ⟨k, hk⟩ := shuffle_rel hp x.1
    obtain ⟨y, hy⟩ := forLoop_covers (f := fun x => propStep ext o (Sched.of 0 fun _ => x) 0) (f' := fun x => propStep ext o' (Sched.of 0 fun _ => x) 0)
      (fun a b e x st => propStep_covers hr e x st) hk x.2 0 st
    exact ⟨(k, y), hy⟩
  have h2 : ∀ (x : Nat × (Nat → Nat × (Nat → Sched))) st, ∃ y : Nat × (Nat → Nat × (Nat → Sched)),
      forLoop (fun j => patRound ext (y.2 j)) 0 (shuffle y.1 o'.patterns) st = forLoop (fun j => patRound ext (x.2 j)) 0 (shuffle x.1 o.patterns) st := by
    intro x st
    obtain ⟨k, hk⟩ := shuffle_rel hq x.1
    obtain ⟨y, hy⟩ := forLoop_covers (f := patRound ext) (f' := patRound ext) (fun a b e x st => patRound_covers e x st) hk x.2 0 st
    exact ⟨(k, y), hy⟩
  have h4 : ∀ (x : Nat × (Nat → Sched)) st, ∃ y : Nat × (Nat → Sched),
      forLoop (fun j => depStep o' (Sched.of 0 fun _ => y.2 j) 0) 0 (shuffle y.1 st.pseen) st =
      forLoop (fun j => depStep o (Sched.of 0 fun _ => x.2 j) 0) 0 (shuffle x.1 st.pseen) st := by
    intro x st
    obtain ⟨y, hy⟩ := forLoop_covers (f := fun x => depStep o (Sched.of 0 fun _ => x) 0) (f' := fun x => depStep o' (Sched.of 0 fun _ => x) 0)
      (R := fun a b => a = b) (fun a b e x st => e ▸ depStep_covers hd hs a x st) (forall2_refl (shuffle x.1 st.pseen)) x.2 0 st
    exact ⟨(x.1, y), hy⟩
  obtain ⟨⟨y1, y2, y3, y4⟩, hy⟩ := seqSt_covers h1 (seqSt_covers h2 (seqSt_covers (addlPart_covers ha) h4)) (((σ.sub 0).key, (σ.sub 1).sub),
    ((σ.sub 2).key, fun j => (((σ.sub 3).sub j).key, ((σ.sub 4).sub j).sub)), ((σ.sub 5).key, (σ.sub 6).sub), ((σ.sub 7).key, (σ.sub 8).sub)) st
  exact ⟨Sched.ofParts y1 y2 y3 y4, hy⟩
end

theorem objectV_covers {ext : Ext} {o o' : ObjC Sem} (hr : o.required = o'.required) (h1 : o.minProps = o'.minProps)
    (h2 : o.maxProps = o'.maxProps) (ha : OptRel Covers o.additional o'.additional)
    (hp : ∃ q, q.Perm o'.props ∧ List.Forall₂ (fun p r => p.1 = r.1 ∧ Covers p.2 r.2) o.props q)
    (hq : ∃ q, q.Perm o'.patterns ∧ List.Forall₂ (fun p r => p.1 = r.1 ∧ p.2.1 = r.2.1 ∧ Covers p.2.2 r.2.2) o.patterns q)
    (hd : ∀ n, alookup n o.propdeps = alookup n o'.propdeps)
    (hs : ∀ n, OptRel Covers (alookup n o.schemadeps) (alookup n o'.schemadeps)) (σ : Sched) (v : GoVal) :
    ∃ σ', objectV ext o' σ' v = objectV ext o σ v := by
  simp only [objectV, h1, h2]
  rcases getPropNames (valueOf v).indirect with s | fields
  · exact ⟨σ, rfl⟩
  · obtain ⟨σ', h⟩ := objLoops_covers (ext := ext) hr ha hp hq hd hs σ ⟨v, nameSet fields, []⟩
    exact ⟨σ', by simp only [h]⟩

/-! ## Constraints -/

/-- All that `c` does, `c'` does as well, whatever references do. -/
def CoversC (c c' : Constraint) : Prop := ∀ (ext : Ext) (ρ ρ' : RefSem), (∀ m n, Covers (ρ m n) (ρ' m n)) → Covers (denote ext ρ c) (denote ext ρ' c')

theorem covers_refl (s : Sem) : Covers s s := ⟨rfl, fun σ _ => ⟨σ, rfl⟩⟩

theorem coversC_opt {ext : Ext} {ρ ρ' : RefSem} (hρ : ∀ m n, Covers (ρ m n) (ρ' m n)) {o o' : Option Constraint} (h : OptRel CoversC o o') :
    OptRel Covers (o.map (denote ext ρ)) (o'.map (denote ext ρ')) := by
  cases h with
  | none => exact .none
  | some h => exact .some (h ext ρ ρ' hρ)

theorem coversC_list {ext : Ext} {ρ ρ' : RefSem} (hρ : ∀ m n, Covers (ρ m n) (ρ' m n)) {l l' : List Constraint} (h : List.Forall₂ CoversC l l') :
    List.Forall₂ Covers (l.map (denote ext ρ)) (l'.map (denote ext ρ')) := by
  induction h with
  | nil => exact .nil
  | cons h _ ih => exact .cons (h ext ρ ρ' hρ) ih

theorem coversC_object {o o' : ObjC Constraint} (h : ObjAlike CoversC o o') : CoversC (.object o) (.object o') := by
  intro ext ρ ρ' hρ
  simp only [denote, denoteObj_eq]
  refine ⟨rfl, objectV_covers (o := o.map (denote ext ρ)) (o' := o'.map (denote ext ρ')) h.required h.minProps h.maxProps
    (coversC_opt hρ h.additional) ?_ ?_ h.deps ?_⟩
  · refine perm_of_lookups ?_ ?_ ?_
    · simpa [ObjC.map, List.map_map, Function.comp_def] using h.propNodup
    · simpa [ObjC.map, List.map_map, Function.comp_def] using h.propKeys
    · intro n
      simp only [ObjC.map, alookup_map]
      exact coversC_opt hρ (h.props n)
  · obtain ⟨q, hq, hf⟩ := h.patterns
    refine ⟨q.map (fun p => (p.1, p.2.1, denote ext ρ' p.2.2)), hq.map _, ?_⟩
    simp only [ObjC.map]
    clear hq h
    generalize o.patterns = ps at hf ⊢
    induction hf with
    | nil => exact .nil
    | cons h _ ih => exact .cons ⟨h.1, h.2.1, h.2.2 ext ρ ρ' hρ⟩ ih
  · intro n
    simp only [ObjC.map, alookup_map]
    exact coversC_opt hρ (h.schemadeps n)

theorem coversC_blind : OrderBlind CoversC where
  empty := fun _ _ _ _ => covers_refl _
  null := fun _ _ _ _ => covers_refl _
  boolean := fun _ _ _ _ _ => covers_refl _
  string := fun _ _ _ _ _ => covers_refl _
  number := fun _ _ _ _ _ => covers_refl _
  integer := fun _ _ _ _ _ => covers_refl _
  enum := fun _ _ _ _ _ => covers_refl _
  ref := fun m n _ _ _ hρ => hρ m n
  combo := fun h => by
    refine ⟨fun ext ρ ρ' hρ => ?_, fun ext ρ ρ' hρ => ?_, fun ext ρ ρ' hρ => ?_⟩ <;> simp only [denote, denoteList_eq]
    · exact ⟨rfl, allLoop_covers (coversC_list hρ h) 0⟩
    · exact ⟨rfl, anyLoop_covers (coversC_list hρ h) 0⟩
    · exact ⟨rfl, oneOfLoop_covers (coversC_list hρ h) 0 0⟩
  not := fun h ext ρ ρ' hρ => ⟨rfl, notV_covers (h ext ρ ρ' hρ)⟩
  array := fun hi hp ha h1 h2 h3 ext ρ ρ' hρ => by
    simp only [denote, denoteArr_eq]
    exact ⟨rfl, arrayV_covers (coversC_opt hρ hi) (coversC_list hρ hp) (coversC_opt hρ ha) h1 h2 h3⟩
  object := coversC_object

theorem refSem_covers {ext : Ext} {env env' : Env} (h : ∀ m n, OptRel CoversC (env m n) (env' m n)) :
    ∀ k m n, Covers (refSem ext env k m n) (refSem ext env' k m n)
  | 0, _, _ => covers_refl _
  | k + 1, m, n => by
    have := h m n
    simp only [refSem]
    generalize env m n = a at this ⊢
    generalize env' m n = a' at this ⊢
    cases this with
    | none => exact covers_refl _
    | some h' => exact h' ext _ _ (refSem_covers h k)

/-- What a built validator does, every other one built from the same schema does as well. -/
theorem built_covers {lib : SchemaLib} {m : Nat} {resolve : Resolver} {s : Schema} (hk : KeyedAll lib.formats resolve s) {fuel fuel' : Nat}
    {σ σ' : Sched} {b b' : Built} (h : BuildWithCtx lib m resolve fuel σ s = .ok b) (h' : BuildWithCtx lib m resolve fuel' σ' s = .ok b')
    (ext : Ext) (k : Nat) : Covers (sem ext (b.env m) k b.root) (sem ext (b'.env m) k b'.root) := by
  have r := built_rel coversC_blind hk h h'
  refine r.1 ext _ _ (refSem_covers (fun m' n => ?_) k)
  simp only [Built.env]
  split_ifs
  · exact r.2 n
  · exact .none

end Jsval
