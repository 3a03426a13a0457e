import Verif.Lemmas.ReportedScalars
/-!
# Which element, branch or property is reported
-/
namespace Jsval

variable {ext : Ext} {env : Env}

/-! ## Arrays -/

theorem runItems_err_iff {c : Sem} {σ : Sched} {e : Err} : ∀ {xs : List GoVal} {i : ℕ}, (runItems c σ i xs).1 = .err e ↔
    ∃ (j : ℕ) (x : GoVal), xs[j]? = some x ∧ (c.val (σ.sub (i + j)) x).1 = .err e ∧
      ∀ (k : ℕ) (y : GoVal), k < j → xs[k]? = some y → (c.val (σ.sub (i + k)) y).1 = .ok
  | [], i => by simp [runItems]
  | x :: xs, i => by
    have ih := runItems_err_iff (c := c) (σ := σ) (e := e) (xs := xs) (i := i + 1)
    rcases hc : c.val (σ.sub i) x with ⟨r, x'⟩
    simp only [runItems, hc]
    constructor
    · intro h
      cases r with
      | ok =>
        obtain ⟨j, y, h1, h2, h3⟩ := ih.1 h
        refine ⟨j + 1, y, h1, by rwa [show i + (j + 1) = i + 1 + j by omega], fun k z hk hz => ?_⟩
        cases k with
        | zero =>
          simp only [List.getElem?_cons_zero, Option.some.injEq] at hz
          subst hz; simp [hc]
        | succ k => rw [show i + (k + 1) = i + 1 + k by omega]; exact h3 k z (by omega) hz
      | err e' => exact ⟨0, x, rfl, by simpa [hc] using h, fun k z hk => by omega⟩
      | abort a => cases h
    · rintro ⟨j, y, h1, h2, h3⟩
      cases j with
      | zero =>
        simp only [List.getElem?_cons_zero, Option.some.injEq] at h1
        subst h1
        rw [Nat.add_zero, hc] at h2
        simp only at h2; subst h2; rfl
      | succ j =>
        have := h3 0 x (by omega) rfl
        rw [Nat.add_zero, hc] at this
        simp only at this; subst this
        refine ih.2 ⟨j, y, h1, by rwa [show i + 1 + j = i + (j + 1) by omega], fun k z hk hz => ?_⟩
        rw [show i + 1 + k = i + (k + 1) by omega]
        exact h3 (k + 1) z (by omega) hz

theorem runPos_err_iff {σ : Sched} {e : Err} : ∀ {cs : List Sem} {xs : List GoVal} {i : ℕ}, (runPos σ i cs xs).1 = .err e ↔
    ∃ (j : ℕ) (c : Sem) (x : GoVal), cs[j]? = some c ∧ xs[j]? = some x ∧ (c.val (σ.sub (i + j)) x).1 = .err e ∧
      ∀ (k : ℕ) (d : Sem) (y : GoVal), k < j → cs[k]? = some d → xs[k]? = some y → (d.val (σ.sub (i + k)) y).1 = .ok
  | [], xs, i => by simp [runPos]
  | _ :: _, [], i => by simp [runPos]
  | c :: cs, x :: xs, i => by
    have ih := runPos_err_iff (σ := σ) (e := e) (cs := cs) (xs := xs) (i := i + 1)
    rcases hc : c.val (σ.sub i) x with ⟨r, x'⟩
    simp only [runPos, hc]
    constructor
    · intro h
      cases r with
      | ok =>
        obtain ⟨j, d, y, h0, h1, h2, h3⟩ := ih.1 h
        refine ⟨j + 1, d, y, h0, h1, by rwa [show i + (j + 1) = i + 1 + j by omega], fun k d' z hk hd hz => ?_⟩
        cases k with
        | zero =>
          simp only [List.getElem?_cons_zero, Option.some.injEq] at hz hd
          subst hz; subst hd; simp [hc]
        | succ k => rw [show i + (k + 1) = i + 1 + k by omega]; exact h3 k d' z (by omega) hd hz
      | err e' => exact ⟨0, c, x, rfl, rfl, by simpa [hc] using h, fun k d z hk => by omega⟩
      | abort a => cases h
    · rintro ⟨j, d, y, h0, h1, h2, h3⟩
      cases j with
      | zero =>
        simp only [List.getElem?_cons_zero, Option.some.injEq] at h1 h0
        subst h1; subst h0
        rw [Nat.add_zero, hc] at h2
        simp only at h2; subst h2; rfl
      | succ j =>
        have := h3 0 c x (by omega) rfl rfl
        rw [Nat.add_zero, hc] at this
        simp only at this; subst this
        refine ih.2 ⟨j, d, y, h0, h1, by rwa [show i + 1 + j = i + (j + 1) by omega], fun k d' z hk hd hz => ?_⟩
        rw [show i + 1 + k = i + (k + 1) by omega]
        exact h3 (k + 1) d' z (by omega) hd hz

theorem unique_false_iff {xs : List GoVal} : uniqueLoop ext [] xs = false ↔ Repeats ext xs := by
  have := uniqueLoop_iff ext xs []
  simp only [List.not_mem_nil, not_false_eq_true, implies_true, true_and] at this
  unfold Repeats
  rw [← not_nodup_map_iff, ← this]
  simp

/-- The schedule with these parts. -/
def Sched.assemble (f : ℕ → Sched) : Sched
  | [] => 0
  | n :: p => f n p

/-- What an array constraint complains about first. -/
inductive ArrFirst (ext : Ext) (a : ArrC Sem) (xs : List GoVal) : Err → Prop where
  | fewItems : 0 ≤ a.minItems → (xs.length : ℤ) < a.minItems → ArrFirst ext a xs .fewItems
  | manyItems : ¬ (0 ≤ a.minItems ∧ (xs.length : ℤ) < a.minItems) → 0 ≤ a.maxItems → a.maxItems < (xs.length : ℤ) → ArrFirst ext a xs .manyItems
  | dupItem : ¬ (0 ≤ a.minItems ∧ (xs.length : ℤ) < a.minItems) → ¬ (0 ≤ a.maxItems ∧ a.maxItems < (xs.length : ℤ)) → a.unique = true →
      Repeats ext xs → ArrFirst ext a xs .dupItem
  | item {j : ℕ} {c x e} : ¬ (0 ≤ a.minItems ∧ (xs.length : ℤ) < a.minItems) → ¬ (0 ≤ a.maxItems ∧ a.maxItems < (xs.length : ℤ)) →
      ¬ (a.unique = true ∧ Repeats ext xs) → a.items = some c → xs[j]? = some x →
      (∀ (i : ℕ) (y : GoVal), i < j → xs[i]? = some y → ∃ τ, (c.val τ y).1 = .ok) → (∃ τ, (c.val τ x).1 = .err e) → ArrFirst ext a xs e
  | positional {j : ℕ} {c x e} : ¬ (0 ≤ a.minItems ∧ (xs.length : ℤ) < a.minItems) → ¬ (0 ≤ a.maxItems ∧ a.maxItems < (xs.length : ℤ)) →
      ¬ (a.unique = true ∧ Repeats ext xs) → a.items = none → a.positional[j]? = some c → xs[j]? = some x →
      (∀ (i : ℕ) (d : Sem) (y : GoVal), i < j → a.positional[i]? = some d → xs[i]? = some y → ∃ τ, (d.val τ y).1 = .ok) →
      (∃ τ, (c.val τ x).1 = .err e) → ArrFirst ext a xs e
  | extra {j : ℕ} {c x e} : ¬ (0 ≤ a.minItems ∧ (xs.length : ℤ) < a.minItems) → ¬ (0 ≤ a.maxItems ∧ a.maxItems < (xs.length : ℤ)) →
      ¬ (a.unique = true ∧ Repeats ext xs) → a.items = none →
      (∀ (i : ℕ) (d : Sem) (y : GoVal), a.positional[i]? = some d → xs[i]? = some y → ∃ τ, (d.val τ y).1 = .ok) →
      a.additional = some c → 0 < a.positional.length → a.positional.length < xs.length → a.positional.length - 1 ≤ j → xs[j]? = some x →
      (∀ (i : ℕ) (y : GoVal), a.positional.length - 1 ≤ i → i < j → xs[i]? = some y → ∃ τ, (c.val τ y).1 = .ok) →
      (∃ τ, (c.val τ x).1 = .err e) → ArrFirst ext a xs e
  | addlItems : ¬ (0 ≤ a.minItems ∧ (xs.length : ℤ) < a.minItems) → ¬ (0 ≤ a.maxItems ∧ a.maxItems < (xs.length : ℤ)) →
      ¬ (a.unique = true ∧ Repeats ext xs) → a.items = none →
      (∀ (i : ℕ) (d : Sem) (y : GoVal), a.positional[i]? = some d → xs[i]? = some y → ∃ τ, (d.val τ y).1 = .ok) →
      a.additional = none → 0 < a.positional.length → a.positional.length < xs.length → ArrFirst ext a xs .addlItems

/-- For each place a schedule, where there is one. -/
theorem choose_sched {P : ℕ → Sched → Prop} : ∃ f : ℕ → Sched, ∀ n, (∃ τ, P n τ) → P n (f n) := by
  classical
  refine ⟨fun n => if h : ∃ τ, P n τ then h.choose else fun _ => 0, fun n h => ?_⟩
  simp only [dif_pos h]
  exact h.choose_spec

theorem arrayV_first {a : ArrC Sem} (hc : ∀ c, a.Child c → c.ReadOnly) {n : Bool} {xs : List GoVal} {e : Err} :
    (∃ σ, (arrayV ext a σ (.slice n xs)).1 = .err e) ↔ ArrFirst ext a xs e := by
  constructor
  · rintro ⟨σ, h⟩
    simp only [arrayV, valueOf] at h
    split at h
    · rename_i h1; cases h; exact .fewItems (by omega) (by omega)
    rename_i h1
    split at h
    · rename_i h2; cases h; exact .manyItems (by omega) (by omega) (by omega)
    rename_i h2
    split at h
    · rename_i h3; cases h; exact .dupItem (by omega) (by omega) h3.1 (unique_false_iff.1 h3.2)
    rename_i h3
    have h3' : ¬ (a.unique = true ∧ Repeats ext xs) := fun h' => h3 ⟨h'.1, unique_false_iff.2 h'.2⟩
    simp only at h
    unfold arrayElems at h
    cases hi : a.items with
    | some c =>
      rw [hi] at h
      obtain ⟨j, x, k1, k2, k3⟩ := runItems_err_iff.1 h
      exact .item (by omega) (by omega) h3' hi k1 (fun i y h1 h2 => ⟨_, k3 i y h1 h2⟩) ⟨_, k2⟩
    | none =>
      rw [hi] at h
      simp only at h
      have hs := runPos_same (σ := σ.sub 1) a.positional xs 0 (fun c h => hc c (.positional h))
      rcases e1 : runPos (σ.sub 1) 0 a.positional xs with ⟨r1, y1⟩
      rw [e1] at h hs
      simp only at hs; subst hs
      cases r1 with
      | abort b => cases h
      | err e' =>
        cases h
        obtain ⟨j, c, x, k0, k1, k2, k3⟩ := runPos_err_iff.1 (show (runPos (σ.sub 1) 0 a.positional y1).1 = .err e by rw [e1])
        exact .positional (by omega) (by omega) h3' hi k0 k1 (fun i d y h1 h2 h3 => ⟨_, k3 i d y h1 h2 h3⟩) ⟨_, k2⟩
      | ok =>
        have hp := (runPos_ok (σ.sub 1) 0 a.positional y1).1 (by rw [e1])
        have hp' : ∀ (i : ℕ) (d : Sem) (y : GoVal), a.positional[i]? = some d → y1[i]? = some y → ∃ τ, (d.val τ y).1 = .ok :=
          fun i d y h1 h2 => ⟨_, hp i d y h1 h2⟩
        simp only [runAdditional] at h
        split at h
        · rename_i hl
          cases ha : a.additional with
          | none =>
            rw [ha] at h
            cases h
            exact .addlItems (by omega) (by omega) h3' hi hp' ha hl.1 hl.2
          | some c =>
            rw [ha] at h
            obtain ⟨j, x, k1, k2, k3⟩ := runItems_err_iff.1 h
            rw [List.getElem?_drop] at k1
            refine .extra (by omega) (by omega) h3' hi hp' ha hl.1 hl.2 (j := a.positional.length - 1 + j) (by omega) k1 (fun i y g1 g2 g3 => ?_) ⟨_, k2⟩
            refine ⟨_, k3 (i - (a.positional.length - 1)) y (by omega) ?_⟩
            rw [List.getElem?_drop, ← g3]
            congr 1
            omega
        · cases h
  · intro h
    have key : ∀ {e : Err} (σ : Sched), ¬ (0 ≤ a.minItems ∧ (xs.length : ℤ) < a.minItems) → ¬ (0 ≤ a.maxItems ∧ a.maxItems < (xs.length : ℤ)) →
        ¬ (a.unique = true ∧ Repeats ext xs) → (arrayElems a σ xs).1 = .err e → (arrayV ext a σ (.slice n xs)).1 = .err e := by
      intro e σ h1 h2 h3 h
      simp only [arrayV, valueOf]
      rw [if_neg (by omega), if_neg (by omega), if_neg (fun h' => h3 ⟨h'.1, unique_false_iff.1 h'.2⟩)]
      exact h
    cases h with
    | fewItems h1 h2 =>
      refine ⟨fun _ => 0, ?_⟩
      simp only [arrayV, valueOf]
      rw [if_pos (by omega)]
    | manyItems h1 h2 h3 =>
      refine ⟨fun _ => 0, ?_⟩
      simp only [arrayV, valueOf]
      rw [if_neg (by omega), if_pos (by omega)]
    | dupItem h1 h2 h3 h4 =>
      refine ⟨fun _ => 0, ?_⟩
      simp only [arrayV, valueOf]
      rw [if_neg (by omega), if_neg (by omega), if_pos ⟨h3, unique_false_iff.2 h4⟩]
    | @item j c x _ h1 h2 h3 hi hx hb he =>
      obtain ⟨f, hf⟩ := choose_sched (P := fun i τ => ∀ y, xs[i]? = some y → (i < j → (c.val τ y).1 = .ok) ∧ (i = j → (c.val τ y).1 = .err e))
      have hf' : ∀ i y, xs[i]? = some y → (i < j → (c.val (f i) y).1 = .ok) ∧ (i = j → (c.val (f i) y).1 = .err e) := by
        intro i y hy
        refine hf i ?_ y hy
        rcases Nat.lt_trichotomy i j with h | h | h
        · obtain ⟨τ, hτ⟩ := hb i y h hy
          exact ⟨τ, fun z hz => by rw [hy] at hz; cases hz; exact ⟨fun _ => hτ, fun h' => by omega⟩⟩
        · obtain ⟨τ, hτ⟩ := he
          subst h
          exact ⟨τ, fun z hz => by rw [hx] at hz; cases hz; exact ⟨fun h' => by omega, fun _ => hτ⟩⟩
        · exact ⟨f 0, fun z hz => ⟨fun h' => by omega, fun h' => by omega⟩⟩
      refine ⟨.assemble fun _ => .assemble f, key _ h1 h2 h3 ?_⟩
      unfold arrayElems
      simp only [hi]
      refine runItems_err_iff.2 ⟨j, x, hx, ?_, fun k y hk hy => ?_⟩
      · rw [Nat.zero_add]; exact (hf' j x hx).2 rfl
      · rw [Nat.zero_add]; exact (hf' k y hy).1 hk
    | @positional j c x _ h1 h2 h3 hi hcj hx hb he =>
      obtain ⟨f, hf⟩ := choose_sched (P := fun i τ => ∀ d y, a.positional[i]? = some d → xs[i]? = some y → (i < j → (d.val τ y).1 = .ok) ∧
        (i = j → (d.val τ y).1 = .err e))
      have hf' : ∀ i d y, a.positional[i]? = some d → xs[i]? = some y → (i < j → (d.val (f i) y).1 = .ok) ∧ (i = j → (d.val (f i) y).1 = .err e) := by
        intro i d y hd hy
        refine hf i ?_ d y hd hy
        rcases Nat.lt_trichotomy i j with h | h | h
        · obtain ⟨τ, hτ⟩ := hb i d y h hd hy
          exact ⟨τ, fun d' z hd' hz => by rw [hy] at hz; rw [hd] at hd'; cases hz; cases hd'; exact ⟨fun _ => hτ, fun h' => by omega⟩⟩
        · obtain ⟨τ, hτ⟩ := he
          subst h
          exact ⟨τ, fun d' z hd' hz => by rw [hx] at hz; rw [hcj] at hd'; cases hz; cases hd'; exact ⟨fun h' => by omega, fun _ => hτ⟩⟩
        · exact ⟨f 0, fun d' z _ hz => ⟨fun h' => by omega, fun h' => by omega⟩⟩
      refine ⟨.assemble fun _ => .assemble f, key _ h1 h2 h3 ?_⟩
      have : (runPos (Sched.assemble f) 0 a.positional xs).1 = .err e := by
        refine runPos_err_iff.2 ⟨j, c, x, hcj, hx, ?_, fun k d y hk hd hy => ?_⟩
        · rw [Nat.zero_add]; exact (hf' j c x hcj hx).2 rfl
        · rw [Nat.zero_add]; exact (hf' k d y hd hy).1 hk
      unfold arrayElems
      simp only [hi]
      rw [show (Sched.assemble fun _ => Sched.assemble f).sub 1 = Sched.assemble f from rfl]
      rcases e1 : runPos (Sched.assemble f) 0 a.positional xs with ⟨r1, y1⟩
      rw [e1] at this
      simp only at this; subst this
      rfl
    | @extra j c x _ h1 h2 h3 hi hp ha l1 l2 hj hx hb he =>
      obtain ⟨g, hg⟩ := choose_sched (P := fun i τ => ∀ (d : Sem) (y : GoVal), a.positional[i]? = some d → xs[i]? = some y → (d.val τ y).1 = .ok)
      have hg' : ∀ (i : ℕ) (d : Sem) (y : GoVal), a.positional[i]? = some d → xs[i]? = some y → (d.val (g i) y).1 = .ok := by
        intro i d y hd hy
        obtain ⟨τ, hτ⟩ := hp i d y hd hy
        exact hg i ⟨τ, fun d' z hd' hz => by rw [hy] at hz; rw [hd] at hd'; cases hz; cases hd'; exact hτ⟩ d y hd hy
      obtain ⟨f, hf⟩ := choose_sched (P := fun i τ => ∀ y, xs[i]? = some y → (a.positional.length - 1 ≤ i → i < j → (c.val τ y).1 = .ok) ∧
        (i = j → (c.val τ y).1 = .err e))
      have hf' : ∀ i y, xs[i]? = some y → (a.positional.length - 1 ≤ i → i < j → (c.val (f i) y).1 = .ok) ∧ (i = j → (c.val (f i) y).1 = .err e) := by
        intro i y hy
        refine hf i ?_ y hy
        rcases Nat.lt_trichotomy i j with h | h | h
        · by_cases hl : a.positional.length - 1 ≤ i
          · obtain ⟨τ, hτ⟩ := hb i y hl h hy
            exact ⟨τ, fun z hz => by rw [hy] at hz; cases hz; exact ⟨fun _ _ => hτ, fun h' => by omega⟩⟩
          · exact ⟨f 0, fun z hz => ⟨fun h' => by omega, fun h' => by omega⟩⟩
        · obtain ⟨τ, hτ⟩ := he
          subst h
          exact ⟨τ, fun z hz => by rw [hx] at hz; cases hz; exact ⟨fun _ h' => by omega, fun _ => hτ⟩⟩
        · exact ⟨f 0, fun z hz => ⟨fun _ h' => by omega, fun h' => by omega⟩⟩
      refine ⟨.assemble fun k => if k = 1 then .assemble g else .assemble f, key _ h1 h2 h3 ?_⟩
      have hrp : (runPos (Sched.assemble g) 0 a.positional xs).1 = .ok :=
        (runPos_ok _ _ _ _).2 fun k d y hd hy => by rw [Nat.zero_add]; exact hg' k d y hd hy
      have hs := runPos_same (σ := Sched.assemble g) a.positional xs 0 (fun c h => hc c (.positional h))
      unfold arrayElems
      simp only [hi]
      rw [show (Sched.assemble fun k => if k = 1 then Sched.assemble g else Sched.assemble f).sub 1 = Sched.assemble g from rfl,
        show (Sched.assemble fun k => if k = 1 then Sched.assemble g else Sched.assemble f).sub 2 = Sched.assemble f from rfl,
        show runPos (Sched.assemble g) 0 a.positional xs = (.ok, xs) from Prod.ext hrp hs]
      simp only [runAdditional]
      rw [if_pos ⟨l1, l2⟩]
      simp only [ha]
      refine runItems_err_iff.2 ⟨j - (a.positional.length - 1), x, ?_, ?_, fun k y hk hy => ?_⟩
      · rw [List.getElem?_drop, ← hx]; congr 1; omega
      · rw [show a.positional.length - 1 + (j - (a.positional.length - 1)) = j by omega]; exact (hf' j x hx).2 rfl
      · rw [List.getElem?_drop] at hy
        exact (hf' _ y hy).1 (by omega) (by omega)
    | addlItems h1 h2 h3 hi hp ha l1 l2 =>
      obtain ⟨g, hg⟩ := choose_sched (P := fun i τ => ∀ (d : Sem) (y : GoVal), a.positional[i]? = some d → xs[i]? = some y → (d.val τ y).1 = .ok)
      have hg' : ∀ (i : ℕ) (d : Sem) (y : GoVal), a.positional[i]? = some d → xs[i]? = some y → (d.val (g i) y).1 = .ok := by
        intro i d y hd hy
        obtain ⟨τ, hτ⟩ := hp i d y hd hy
        exact hg i ⟨τ, fun d' z hd' hz => by rw [hy] at hz; rw [hd] at hd'; cases hz; cases hd'; exact hτ⟩ d y hd hy
      refine ⟨.assemble fun _ => .assemble g, key _ h1 h2 h3 ?_⟩
      have hrp : (runPos (Sched.assemble g) 0 a.positional xs).1 = .ok :=
        (runPos_ok _ _ _ _).2 fun k d y hd hy => by rw [Nat.zero_add]; exact hg' k d y hd hy
      have hs := runPos_same (σ := Sched.assemble g) a.positional xs 0 (fun c h => hc c (.positional h))
      unfold arrayElems
      simp only [hi]
      rw [show (Sched.assemble fun _ => Sched.assemble g).sub 1 = Sched.assemble g from rfl,
        show runPos (Sched.assemble g) 0 a.positional xs = (.ok, xs) from Prod.ext hrp hs]
      simp only [runAdditional]
      rw [if_pos ⟨l1, l2⟩]
      simp only [ha]

/-! ## Combinations -/

theorem anyLoop_first {cs : List Sem} (hc : ∀ c ∈ cs, c.ReadOnly) {v : GoVal} {e : Err} :
    (∃ σ, (anyLoop 0 cs σ v).1 = .err e) ↔ e = .anyNone ∧ ∀ c ∈ cs, ∃ τ e', (c.val τ v).1 = .err e' := by
  constructor
  · rintro ⟨σ, h⟩
    exact any_err hc h
  · rintro ⟨rfl, h⟩
    obtain ⟨f, hf⟩ := choose_sched (P := fun i τ => ∀ c : Sem, cs[i]? = some c → ∃ e', (c.val τ v).1 = .err e')
    refine ⟨.assemble f, (anyLoop_err _ 0 cs v _).2 ⟨rfl, fun k c hk => ?_⟩⟩
    rw [argAt_readOnly _ v 0 cs k (fun c h => hc c h v), Nat.zero_add]
    obtain ⟨τ, hτ⟩ := h c (List.mem_of_getElem? hk)
    exact hf k ⟨τ, fun d hd => by rw [hk] at hd; cases hd; exact hτ⟩ c hk

theorem allLoop_first {cs : List Sem} (hc : ∀ c ∈ cs, c.ReadOnly) {v : GoVal} {e : Err} :
    (∃ σ, (allLoop 0 cs σ v).1 = .err e) ↔ ∃ (j : ℕ) (c : Sem), cs[j]? = some c ∧ (∃ τ, (c.val τ v).1 = .err e) ∧
      ∀ (i : ℕ) (d : Sem), i < j → cs[i]? = some d → ∃ τ, (d.val τ v).1 = .ok := by
  constructor
  · rintro ⟨σ, h⟩
    obtain ⟨j, c, hj, hv, hb⟩ := (allLoop_stop σ 0 cs v (allLoop 0 cs σ v).2 (.err e) (by simp)).1 (Prod.ext h rfl)
    rw [argAt_readOnly σ v 0 cs j (fun c h => hc c h v)] at hv
    refine ⟨j, c, hj, ⟨_, by rw [hv]⟩, fun i d hi hd => ?_⟩
    obtain ⟨d', h1, h2⟩ := hb i hi
    rw [hd] at h1; cases h1
    rw [argAt_readOnly σ v 0 cs i (fun c h => hc c h v)] at h2
    exact ⟨_, h2⟩
  · rintro ⟨j, c, hj, he, hb⟩
    obtain ⟨f, hf⟩ := choose_sched (P := fun i τ => ∀ d : Sem, cs[i]? = some d → (i < j → (d.val τ v).1 = .ok) ∧ (i = j → (d.val τ v).1 = .err e))
    have hf' : ∀ (i : ℕ) (d : Sem), cs[i]? = some d → (i < j → (d.val (f i) v).1 = .ok) ∧ (i = j → (d.val (f i) v).1 = .err e) := by
      intro i d hd
      refine hf i ?_ d hd
      rcases Nat.lt_trichotomy i j with h | h | h
      · obtain ⟨τ, hτ⟩ := hb i d h hd
        exact ⟨τ, fun d' hd' => by rw [hd] at hd'; cases hd'; exact ⟨fun _ => hτ, fun h' => by omega⟩⟩
      · obtain ⟨τ, hτ⟩ := he
        subst h
        exact ⟨τ, fun d' hd' => by rw [hj] at hd'; cases hd'; exact ⟨fun h' => by omega, fun _ => hτ⟩⟩
      · exact ⟨f 0, fun _ _ => ⟨fun h' => by omega, fun h' => by omega⟩⟩
    refine ⟨.assemble f, ?_⟩
    rw [(allLoop_stop (.assemble f) 0 cs v (c.val (f j) v).2 (.err e) (by simp)).2 ⟨j, c, hj, ?_, fun k hk => ?_⟩]
    · rw [argAt_readOnly _ v 0 cs j (fun c h => hc c h v), Nat.zero_add]
      exact Prod.ext ((hf' j c hj).2 rfl) rfl
    · have hl : j < cs.length := (List.getElem?_eq_some_iff.1 hj).1
      refine ⟨cs[k], List.getElem?_eq_getElem (by omega), ?_⟩
      rw [argAt_readOnly _ v 0 cs k (fun c h => hc c h v), Nat.zero_add]
      exact (hf' k _ (List.getElem?_eq_getElem (by omega))).1 hk

theorem oneOfLoop_first {cs : List Sem} (hc : ∀ c ∈ cs, c.ReadOnly) {v : GoVal} {e : Err} :
    (∃ σ, (oneOfLoop 0 0 cs σ v).1 = .err e) ↔ (e = .oneOfNone ∧ ∀ c ∈ cs, ∃ τ e', (c.val τ v).1 = .err e') ∨
      (e = .oneOfMany ∧ (∀ c ∈ cs, ∃ τ, (c.val τ v).1.Normal) ∧ ∃ (i j : ℕ) (c d : Sem), i < j ∧ cs[i]? = some c ∧ cs[j]? = some d ∧
        (∃ τ, (c.val τ v).1 = .ok) ∧ ∃ τ, (d.val τ v).1 = .ok) := by
  constructor
  · rintro ⟨σ, h⟩
    have hn := oneOfLoop_calls σ cs 0 0 v (by rw [h]; simp)
    rcases oneOf_err hc h with ⟨rfl, h'⟩ | ⟨rfl, i, j, c, d, hij, hi, hj, h1, h2⟩
    · refine Or.inl ⟨rfl, fun c hcm => ?_⟩
      obtain ⟨k, hk⟩ := List.getElem?_of_mem hcm
      obtain ⟨e', he⟩ := h' k c hk
      exact ⟨_, e', he⟩
    · refine Or.inr ⟨rfl, fun c hcm => ?_, i, j, c, d, hij, hi, hj, ⟨_, h1⟩, ⟨_, h2⟩⟩
      obtain ⟨k, hk⟩ := List.getElem?_of_mem hcm
      refine ⟨σ.sub k, hn _ (List.mem_of_getElem? (i := k) ?_)⟩
      rw [outcome_at hc, hk]; rfl
  · have hout : ∀ f : ℕ → Sched, ∀ r ∈ outcomes (.assemble f) 0 cs v, ∃ (k : ℕ) (c : Sem), cs[k]? = some c ∧ r = (c.val (f k) v).1 := by
      intro f r hr
      obtain ⟨k, hk⟩ := List.getElem?_of_mem hr
      rw [outcome_at hc] at hk
      obtain ⟨c, h1, h2⟩ := Option.map_eq_some_iff.1 hk
      exact ⟨k, c, h1, h2.symm⟩
    rintro (⟨rfl, h⟩ | ⟨rfl, hn, i, j, c, d, hij, hi, hj, h1, h2⟩)
    · obtain ⟨f, hf⟩ := choose_sched (P := fun i τ => ∀ c : Sem, cs[i]? = some c → ∃ e', (c.val τ v).1 = .err e')
      have hf' : ∀ (k : ℕ) (c : Sem), cs[k]? = some c → ∃ e', (c.val (f k) v).1 = .err e' := by
        intro k c hk
        obtain ⟨τ, hτ⟩ := h c (List.mem_of_getElem? hk)
        exact hf k ⟨τ, fun d hd => by rw [hk] at hd; cases hd; exact hτ⟩ c hk
      refine ⟨.assemble f, ?_⟩
      have ho : ∀ r ∈ outcomes (.assemble f) 0 cs v, ∃ e', r = .err e' := by
        intro r hr
        obtain ⟨k, c, h1, rfl⟩ := hout f r hr
        exact hf' k c h1
      rw [oneOfLoop_eq _ 0 0 cs v (fun r hr a => by obtain ⟨e', rfl⟩ := ho r hr; simp)]
      have : (outcomes (.assemble f) 0 cs v).count .ok = 0 := by
        rw [List.count_eq_zero]
        intro h
        obtain ⟨e', he⟩ := ho _ h
        cases he
      simp [this]
    · obtain ⟨f, hf⟩ := choose_sched (P := fun k τ => ∀ c : Sem, cs[k]? = some c → (c.val τ v).1.Normal ∧ (k = i ∨ k = j → (c.val τ v).1 = .ok))
      have hok : ∀ {r : Res}, r = .ok → r.Normal := by rintro r rfl a; simp
      have hf' : ∀ (k : ℕ) (c : Sem), cs[k]? = some c → (c.val (f k) v).1.Normal ∧ (k = i ∨ k = j → (c.val (f k) v).1 = .ok) := by
        intro k c' hk
        refine hf k ?_ c' hk
        by_cases hki : k = i
        · subst hki
          obtain ⟨τ, hτ⟩ := h1
          exact ⟨τ, fun d hd => by rw [hi] at hd; cases hd; exact ⟨hok hτ, fun _ => hτ⟩⟩
        by_cases hkj : k = j
        · subst hkj
          obtain ⟨τ, hτ⟩ := h2
          exact ⟨τ, fun d hd => by rw [hj] at hd; cases hd; exact ⟨hok hτ, fun _ => hτ⟩⟩
        · obtain ⟨τ, hτ⟩ := hn c' (List.mem_of_getElem? hk)
          exact ⟨τ, fun d hd => by rw [hk] at hd; cases hd; exact ⟨hτ, fun h => by omega⟩⟩
      refine ⟨.assemble f, ?_⟩
      rw [oneOfLoop_eq _ 0 0 cs v (fun r hr => by obtain ⟨k, c, h1, rfl⟩ := hout f r hr; exact (hf' k c h1).1)]
      have : 2 ≤ (outcomes (.assemble f) 0 cs v).count .ok := by
        refine count_of_two hij ?_ ?_
        · rw [outcome_at hc, hi]
          simp only [Option.map_some, Option.some.injEq]
          exact (hf' i c hi).2 (Or.inl rfl)
        · rw [outcome_at hc, hj]
          simp only [Option.map_some, Option.some.injEq]
          exact (hf' j d hj).2 (Or.inr rfl)
      rw [Nat.zero_add, if_neg (by omega), if_pos (by omega)]

end Jsval
