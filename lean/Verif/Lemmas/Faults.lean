import Verif.Spec.Faults
import Verif.Lemmas.Determined
import Verif.Lemmas.Scalar
import Verif.Lemmas.Array
/-!
# Errors name true faults: lemmas
-/
namespace Jsval

/-! ## Scalars -/

theorem Res.andThen_err {r k : Res} {e : Err} (h : r.andThen k = .err e) : r = .err e ∨ r = .ok ∧ k = .err e := by
  cases r with
  | ok => exact Or.inr ⟨rfl, h⟩
  | err e' => exact Or.inl h
  | abort a => cases h

theorem enumCheck_err {v : GoVal} {e : Err} : ∀ {l : List GoVal}, enumCheck l v = .err e → e = .notInEnum ∧ ∀ x ∈ l, ¬ SameGo x v
  | [], h => by simp only [enumCheck, Res.err.injEq] at h; exact ⟨h.symm, by simp⟩
  | y :: l, h => by
    unfold enumCheck at h
    rcases hg : goEq y v with a | b
    · rw [hg] at h; cases h
    · rw [hg] at h
      cases b with
      | true => cases h
      | false =>
        obtain ⟨h1, h2⟩ := enumCheck_err h
        refine ⟨h1, fun x hx => ?_⟩
        rcases List.mem_cons.1 hx with rfl | hx
        · intro hs
          have hsc : Scalar v := by cases hs <;> constructor
          obtain ⟨b, hb, hb'⟩ := goEq_scalar x v hsc
          rw [hg] at hb
          cases hb
          exact absurd (hb'.2 hs) (by simp)
        · exact h2 x hx

theorem enumCheck_same {v : GoVal} : ∀ {l : List GoVal}, enumCheck l v = .ok → ∃ x ∈ l, SameGo x v
  | [], h => by cases h
  | y :: l, h => by
    unfold enumCheck at h
    rcases hg : goEq y v with a | b
    · rw [hg] at h; cases h
    · rw [hg] at h
      cases b with
      | true =>
        refine ⟨y, by simp, ?_⟩
        have hsc : Scalar v := by
          cases y <;> cases v <;> simp [goEq] at hg <;> constructor
        obtain ⟨b, hb, hb'⟩ := goEq_scalar y v hsc
        rw [hg] at hb
        cases hb
        exact hb'.1 rfl
      | false =>
        obtain ⟨x, h1, h2⟩ := enumCheck_same h
        exact ⟨x, by simp [h1], h2⟩

theorem numCheckF_err {c : NumC} {f : F64} {e : Err} (h : numCheckF c f = .err e) : NumFault c f e := by
  unfold numCheckF at h
  rcases Res.andThen_err h with h | ⟨-, h⟩
  · unfold minCheck at h
    cases hm : c.minimum with
    | none => rw [hm] at h; cases h
    | some m =>
      rw [hm] at h
      simp only at h
      split at h
      · rename_i hx
        split at h
        · rename_i hl; cases h; exact .belowMinExcl hm hx ((F64.le_iff f m).1 hl)
        · cases h
      · rename_i hx
        split at h
        · rename_i hl; cases h; exact .belowMin hm (by simpa using hx) ((F64.lt_iff f m).1 hl)
        · cases h
  rcases Res.andThen_err h with h | ⟨-, h⟩
  · unfold maxCheck at h
    cases hm : c.maximum with
    | none => rw [hm] at h; cases h
    | some m =>
      rw [hm] at h
      simp only at h
      split at h
      · rename_i hx
        split at h
        · rename_i hl; cases h; exact .aboveMaxExcl hm hx (((F64.le_iff m f).1 hl).imp_right F64.Eq.symm)
        · cases h
      · rename_i hx
        split at h
        · rename_i hl; cases h; exact .aboveMax hm (by simpa using hx) ((F64.lt_iff m f).1 hl)
        · cases h
  rcases Res.andThen_err h with h | ⟨-, h⟩
  · unfold multCheck at h
    cases hm : c.multipleOf with
    | none => rw [hm] at h; cases h
    | some m =>
      rw [hm] at h
      simp only at h
      split at h
      · rename_i hz
        split at h
        · rename_i hl
          cases h
          have hz' : ¬ m.IsZero := fun h => by rw [(F64.isZero_iff m).2 h] at hz; cases hz
          exact .notMultiple hm hz' (fun h => by rw [(F64.mod_iff f m hz').2 h] at hl; cases hl)
        · cases h
      · cases h
  · unfold enumOptCheck at h
    cases hm : c.enums with
    | none => rw [hm] at h; cases h
    | some l =>
      rw [hm] at h
      obtain ⟨rfl, hl⟩ := enumCheck_err h
      exact .enums hm (fun ⟨g, h1, h2⟩ => hl _ h1 (.float _ _ _ h2))

theorem formatCheck_err {ext : Ext} {c : StrC} {s : GoStr} {e : Err} (h : formatCheck ext c.format s = .err e) : StrFault ext c s e := by
  unfold formatCheck at h
  split at h
  · rename_i hf
    split at h
    · cases h
    · rename_i ht; cases h; exact .datetime hf (by simpa using ht)
  split at h
  · rename_i hf
    split at h
    · cases h
    · rename_i ht; cases h; exact .email hf (by simpa using ht)
  split at h
  · rename_i hf
    split at h
    · cases h
    · rename_i ht; cases h; exact .hostname hf (fun h => ht ((isDomainName_iff s).2 h))
  split at h
  · rename_i hf
    have h4 : ipv4Chars s = true ↔ ∀ c ∈ s, c = 46 ∨ (48 ≤ c ∧ c ≤ 57) := by simp [ipv4Chars, List.all_eq_true]
    split at h
    · rename_i ht
      cases h
      refine .ipv4 hf (Or.inl ?_)
      by_contra hn
      rw [h4.2 (fun x hx => by by_cases h' : x = 46; exact Or.inl h'; exact Or.inr (by_contra fun h'' => hn ⟨x, hx, h', h''⟩))] at ht
      cases ht
    · split at h
      · cases h
      · rename_i ht; cases h; exact .ipv4 hf (Or.inr (by simpa using ht))
  split at h
  · rename_i hf
    have h6 : ipv6Chars s = true ↔ ∀ c ∈ s, c = 58 ∨ (48 ≤ c ∧ c ≤ 57) := by simp [ipv6Chars, List.all_eq_true]
    split at h
    · rename_i ht
      cases h
      refine .ipv6 hf (Or.inl ?_)
      by_contra hn
      rw [h6.2 (fun x hx => by by_cases h' : x = 58; exact Or.inl h'; exact Or.inr (by_contra fun h'' => hn ⟨x, hx, h', h''⟩))] at ht
      cases ht
    · split at h
      · cases h
      · rename_i ht; cases h; exact .ipv6 hf (Or.inr (by simpa using ht))
  split at h
  · rename_i hf
    split at h
    · cases h
    · rename_i ht; cases h; exact .uri hf (by simpa using ht)
  · cases h

theorem strCheckS_err {ext : Ext} {c : StrC} {s : GoStr} {e : Err} (h : strCheckS ext c s = .err e) : StrFault ext c s e := by
  unfold strCheckS at h
  rcases Res.andThen_err h with h | ⟨-, h⟩
  · unfold maxLenCheck at h
    split at h
    · rename_i hl; cases h; exact .tooLong (by omega) (by omega)
    · cases h
  rcases Res.andThen_err h with h | ⟨-, h⟩
  · unfold minLenCheck at h
    split at h
    · rename_i hl; cases h; exact .tooShort (by omega) (by omega)
    · cases h
  rcases Res.andThen_err h with h | ⟨-, h⟩
  · exact formatCheck_err h
  rcases Res.andThen_err h with h | ⟨-, h⟩
  · unfold regexpCheck at h
    cases hm : c.regexp with
    | none => rw [hm] at h; cases h
    | some rx =>
      rw [hm] at h
      simp only at h
      split at h
      · cases h
      · rename_i ht; cases h; exact .regexp hm (by simpa using ht)
  · unfold enumOptCheck at h
    cases hm : c.enums with
    | none => rw [hm] at h; cases h
    | some l =>
      rw [hm] at h
      obtain ⟨rfl, hl⟩ := enumCheck_err h
      exact .enums hm (fun h1 => hl _ h1 (.str s))

/-- A string that has a fault breaks a rule. -/
theorem StrFault.broken {ext : Ext} {c : StrC} {s : GoStr} {e : Err} (h : StrFault ext c s e) : ¬ StrOk ext c s := by
  intro hs
  cases h with
  | tooLong h1 h2 => have := hs.max h1; omega
  | tooShort h1 h2 => have := hs.min h1; omega
  | datetime h1 h2 => obtain ⟨t, ht⟩ := hs.format.1 h1; rw [h2] at ht; cases ht
  | email h1 h2 => have := hs.format.2.1 h1; rw [h2] at this; cases this
  | hostname h1 h2 => exact h2 (hs.format.2.2.1 h1)
  | ipv4 h1 h2 =>
    obtain ⟨a, b⟩ := hs.format.2.2.2.1 h1
    rcases h2 with ⟨x, hx, h3, h4⟩ | h2
    · exact (a x hx).elim h3 h4
    · rw [h2] at b; cases b
  | ipv6 h1 h2 =>
    obtain ⟨a, b⟩ := hs.format.2.2.2.2.1 h1
    rcases h2 with ⟨x, hx, h3, h4⟩ | h2
    · exact (a x hx).elim h3 h4
    · rw [h2] at b; cases b
  | uri h1 h2 => have := hs.format.2.2.2.2.2 h1; rw [h2] at this; cases this
  | regexp h1 h2 => have := hs.regexp _ h1; rw [h2] at this; cases this
  | enums h1 h2 => exact h2 (hs.enums _ h1)

/-- A number that has a fault breaks a rule. -/
theorem NumFault.broken {c : NumC} {f : F64} {e : Err} (h : NumFault c f e) : ¬ NumOk c f := by
  intro hs
  cases h with
  | belowMin h1 _ h2 => exact hs.min _ h1 h2
  | belowMinExcl h1 hx h2 => exact h2.elim (hs.min _ h1) (hs.exclMin _ h1 hx)
  | aboveMax h1 _ h2 => exact hs.max _ h1 h2
  | aboveMaxExcl h1 hx h2 => exact h2.elim (hs.max _ h1) (hs.exclMax _ h1 hx)
  | notMultiple h1 hz h2 => exact h2 (hs.mult _ h1 hz)
  | enums h1 h2 => exact h2 (hs.enums _ h1)

section
variable {ext : Ext} {env : Env}

theorem not_indirect_iff {v x : GoVal} (hx : x ≠ .nil) (hp : ∀ p, x ≠ .ptr p) (hi : ∀ y, x ≠ .iface y)
    (h : (valueOf v).indirect ≠ some x) : ¬ Target v x := fun h' => h ((indirect_iff hx hp hi).2 h')

theorem null_fault {v : GoVal} {e : Err} (h : nullCheck v = .err e) : Fault ext env .null v e := by
  have he : e = .notNull ∧ ¬ NilLike v := by
    refine ⟨?_, fun hn => by cases hn <;> simp [nullCheck, valueOf] at h⟩
    unfold nullCheck at h
    split at h <;> first | cases h; rfl | cases h
  obtain ⟨rfl, hn⟩ := he
  exact .null hn

theorem bool_fault {d : Option GoVal} {v : GoVal} {e : Err} (h : boolCheck v = .err e) : Fault ext env (.boolean d) v e := by
  have he : e = .notBool := by
    unfold boolCheck at h
    split at h <;> cases h
    rfl
  subst he
  exact .boolean (fun b hb => by subst hb; simp [boolCheck, valueOf] at h)

theorem str_fault {c : StrC} {v : GoVal} {e : Err} (h : strCheck ext c v = .err e) : Fault ext env (.string c) v e := by
  unfold strCheck at h
  split at h
  · rename_i s hs
    exact .string ((indirect_iff (by simp) (by simp) (by simp)).1 hs) (strCheckS_err h)
  · rename_i hs
    cases h
    exact .notString (fun s => not_indirect_iff (by simp) (by simp) (by simp) (hs s))

theorem num_fault {c : NumC} {v : GoVal} {e : Err} (h : numCheck c v = .err e) : Fault ext env (.number c) v e := by
  unfold numCheck at h
  split at h
  · rename_i k f hs
    exact .number ((indirect_iff (by simp) (by simp) (by simp)).1 hs) (numCheckF_err h)
  · rename_i hs
    cases h
    exact .notFloat (fun k f => not_indirect_iff (by simp) (by simp) (by simp) (hs k f))

theorem int_fault {c : NumC} {v : GoVal} {e : Err} (h : intCheck c v = .err e) : Fault ext env (.integer c) v e := by
  unfold intCheck at h
  split at h
  · rename_i k n hs
    exact .int ((indirect_iff (by simp) (by simp) (by simp)).1 hs) (numCheckF_err h)
  · rename_i k n hs
    exact .uint ((indirect_iff (by simp) (by simp) (by simp)).1 hs) (numCheckF_err h)
  · rename_i k f hs
    have ht := (indirect_iff (v := v) (by simp) (by simp) (by simp)).1 hs
    split at h
    · rename_i hw
      cases h
      exact .notIntegral ht (fun hw' => by rw [(F64.floor_eq_iff f).2 hw'] at hw; cases hw)
    · rename_i hw
      exact .whole ht ((F64.floor_eq_iff f).1 (by simpa using hw)) (numCheckF_err h)
  · rename_i h1 h2 h3
    cases h
    exact .notNumeric (fun k n => not_indirect_iff (by simp) (by simp) (by simp) (h1 k n))
      (fun k n => not_indirect_iff (by simp) (by simp) (by simp) (h2 k n))
      (fun k n => not_indirect_iff (by simp) (by simp) (by simp) (h3 k n))
end

/-! ## Combinations -/

theorem two_of_count {α : Type} [DecidableEq α] {a : α} : ∀ {l : List α}, 2 ≤ l.count a →
    ∃ i j : ℕ, i < j ∧ l[i]? = some a ∧ l[j]? = some a
  | [], h => by simp at h
  | b :: l, h => by
    by_cases hb : b = a
    · subst hb
      rw [List.count_cons_self] at h
      obtain ⟨j, hj⟩ := List.getElem?_of_mem (List.count_pos_iff.1 (show 0 < l.count b by omega))
      exact ⟨0, j + 1, by omega, by simp, by simpa using hj⟩
    · rw [List.count_cons_of_ne hb] at h
      obtain ⟨i, j, h1, h2, h3⟩ := two_of_count h
      exact ⟨i + 1, j + 1, by omega, by simpa using h2, by simpa using h3⟩

theorem count_of_two {α : Type} [DecidableEq α] {a : α} : ∀ {l : List α} {i j : ℕ}, i < j → l[i]? = some a → l[j]? = some a →
    2 ≤ l.count a
  | [], i, j, _, h, _ => by simp at h
  | b :: l, 0, 0, h, _, _ => by omega
  | b :: l, i + 1, 0, h, _, _ => by omega
  | b :: l, 0, j + 1, _, h1, h2 => by
    simp only [List.getElem?_cons_zero, Option.some.injEq] at h1
    subst h1
    rw [List.count_cons_self]
    have : 0 < l.count b := List.count_pos_iff.2 (List.mem_of_getElem? (by simpa using h2))
    omega
  | b :: l, i + 1, j + 1, h, h1, h2 => by
    have := count_of_two (a := a) (l := l) (show i < j by omega) (by simpa using h1) (by simpa using h2)
    exact this.trans (List.count_le_count_cons ..)

theorem oneOfLoop_calls (σ : Sched) : ∀ (cs : List Sem) (i n : Nat) (v : GoVal), (∀ a, (oneOfLoop i n cs σ v).1 ≠ .abort a) →
    ∀ r ∈ outcomes σ i cs v, r.Normal
  | [], _, _, _, _ => by simp [outcomes]
  | c :: cs, i, n, v, h => by
    rcases hc : c.val (σ.sub i) v with ⟨r, w⟩
    have ih := fun m => oneOfLoop_calls σ cs (i + 1) m w
    intro q hq
    simp only [outcomes, hc, List.mem_cons] at hq
    cases r with
    | abort a => exact absurd (by simp [oneOfLoop, hc]) (h a)
    | ok =>
      simp only [oneOfLoop, hc] at h
      rcases hq with rfl | hq
      · exact Res.Normal_ok
      · exact ih _ h q hq
    | err e =>
      simp only [oneOfLoop, hc] at h
      rcases hq with rfl | hq
      · exact Res.Normal_err e
      · exact ih _ h q hq

/-- The outcomes of branches that change nothing. -/
theorem outcome_at {σ : Sched} {v : GoVal} {cs : List Sem} (hc : ∀ c ∈ cs, c.ReadOnly) {k : ℕ} :
    (outcomes σ 0 cs v)[k]? = cs[k]?.map (fun c => (c.val (σ.sub k) v).1) := by
  rw [outcomes_readOnly σ v 0 cs (fun c h => hc c h v)]
  simp

theorem oneOf_err {σ : Sched} {v : GoVal} {cs : List Sem} (hc : ∀ c ∈ cs, c.ReadOnly) {e : Err} (h : (oneOfLoop 0 0 cs σ v).1 = .err e) :
    (e = .oneOfNone ∧ ∀ (k : ℕ) (c : Sem), cs[k]? = some c → (c.val (σ.sub k) v).1.Rejects) ∨
    (e = .oneOfMany ∧ ∃ (i j : ℕ) (c d : Sem), i < j ∧ cs[i]? = some c ∧ cs[j]? = some d ∧ (c.val (σ.sub i) v).1 = .ok ∧
      (d.val (σ.sub j) v).1 = .ok) := by
  have hn := oneOfLoop_calls σ cs 0 0 v (by rw [h]; simp)
  rw [oneOfLoop_eq σ 0 0 cs v hn, Nat.zero_add] at h
  split at h
  · rename_i h0
    cases h
    refine Or.inl ⟨rfl, fun k c hk => ?_⟩
    have hm : (c.val (σ.sub k) v).1 ∈ outcomes σ 0 cs v := List.mem_of_getElem? (by rw [outcome_at hc, hk]; rfl)
    refine (Res.not_ok_iff (hn _ hm)).1 fun hok => ?_
    rw [hok] at hm
    have := List.count_pos_iff.2 hm
    omega
  · split at h
    · rename_i h1
      cases h
      obtain ⟨i, j, hij, hi, hj⟩ := two_of_count (show 2 ≤ (outcomes σ 0 cs v).count .ok from h1)
      rw [outcome_at hc, Option.map_eq_some_iff] at hi hj
      obtain ⟨c, h1, h2⟩ := hi
      obtain ⟨d, h3, h4⟩ := hj
      exact Or.inr ⟨rfl, i, j, c, d, hij, h1, h3, h2, h4⟩
    · cases h

theorem oneOf_ok {σ : Sched} {v : GoVal} {cs : List Sem} (hc : ∀ c ∈ cs, c.ReadOnly) (h : (oneOfLoop 0 0 cs σ v).1 = .ok) :
    (∀ (k : ℕ) (c : Sem), cs[k]? = some c → (c.val (σ.sub k) v).1.Normal) ∧
    (∃ (k : ℕ) (c : Sem), cs[k]? = some c ∧ (c.val (σ.sub k) v).1 = .ok) ∧
    ∀ (i j : ℕ) (c d : Sem), i < j → cs[i]? = some c → cs[j]? = some d → (c.val (σ.sub i) v).1 = .ok → (d.val (σ.sub j) v).1 ≠ .ok := by
  have hn := oneOfLoop_calls σ cs 0 0 v (by rw [h]; simp)
  rw [oneOfLoop_eq σ 0 0 cs v hn, Nat.zero_add] at h
  split at h
  · cases h
  · rename_i h0
    split at h
    · cases h
    · rename_i h1
      refine ⟨fun k c hk => hn _ (List.mem_of_getElem? (by rw [outcome_at hc, hk]; rfl)), ?_, fun i j c d hij hi hj h2 h3 => ?_⟩
      · obtain ⟨k, hk⟩ := List.getElem?_of_mem (List.count_pos_iff.1 (Nat.pos_of_ne_zero h0))
        rw [outcome_at hc, Option.map_eq_some_iff] at hk
        obtain ⟨c, h1, h2⟩ := hk
        exact ⟨k, c, h1, h2⟩
      · exact h1 (count_of_two hij (by rw [outcome_at hc, hi, Option.map_some, h2]) (by rw [outcome_at hc, hj, Option.map_some, h3]))

/-! ## Arrays -/

theorem runItems_err {c : Sem} {σ : Sched} {e : Err} : ∀ {xs : List GoVal} {i : ℕ}, (runItems c σ i xs).1 = .err e →
    ∃ (j : ℕ) (x : GoVal) (τ : Sched), xs[j]? = some x ∧ (c.val τ x).1 = .err e
  | [], i, h => by simp [runItems] at h
  | x :: xs, i, h => by
    rcases hc : c.val (σ.sub i) x with ⟨r, x'⟩
    simp only [runItems, hc] at h
    cases r with
    | ok =>
      obtain ⟨j, y, τ, h1, h2⟩ := runItems_err h
      exact ⟨j + 1, y, τ, by simpa using h1, h2⟩
    | err e' => exact ⟨0, x, σ.sub i, by simp, by rw [hc]; exact h⟩
    | abort a => cases h

theorem runPos_err {σ : Sched} {e : Err} : ∀ {cs : List Sem} {xs : List GoVal} {i : ℕ}, (runPos σ i cs xs).1 = .err e →
    ∃ (j : ℕ) (c : Sem) (x : GoVal) (τ : Sched), cs[j]? = some c ∧ xs[j]? = some x ∧ (c.val τ x).1 = .err e
  | [], xs, i, h => by simp [runPos] at h
  | _ :: _, [], i, h => by simp [runPos] at h
  | c :: cs, x :: xs, i, h => by
    rcases hc : c.val (σ.sub i) x with ⟨r, x'⟩
    simp only [runPos, hc] at h
    cases r with
    | ok =>
      obtain ⟨j, d, y, τ, h1, h2, h3⟩ := runPos_err h
      exact ⟨j + 1, d, y, τ, by simpa using h1, by simpa using h2, h3⟩
    | err e' => exact ⟨0, c, x, σ.sub i, by simp, by simp, by rw [hc]; exact h⟩
    | abort a => cases h

/-- What an array constraint complains about. -/
theorem arrayV_err {ext : Ext} {a : ArrC Sem} (hc : ∀ c, a.Child c → c.ReadOnly) {σ : Sched} {n : Bool} {xs : List GoVal} {e : Err}
    (h : (arrayV ext a σ (.slice n xs)).1 = .err e) :
    (e = .fewItems ∧ 0 ≤ a.minItems ∧ (xs.length : ℤ) < a.minItems) ∨ (e = .manyItems ∧ 0 ≤ a.maxItems ∧ a.maxItems < (xs.length : ℤ)) ∨
    (e = .dupItem ∧ a.unique = true ∧ Repeats ext xs) ∨
    (∃ c x τ, a.items = some c ∧ x ∈ xs ∧ (c.val τ x).1 = .err e) ∨
    (a.items = none ∧ ∃ (j : ℕ) (c : Sem) (x : GoVal) (τ : Sched), a.positional[j]? = some c ∧ xs[j]? = some x ∧ (c.val τ x).1 = .err e) ∨
    (a.items = none ∧ 0 < a.positional.length ∧ a.positional.length < xs.length ∧
      ((a.additional = none ∧ e = .addlItems) ∨ ∃ (j : ℕ) (c : Sem) (x : GoVal) (τ : Sched), a.additional = some c ∧
        a.positional.length - 1 ≤ j ∧ xs[j]? = some x ∧ (c.val τ x).1 = .err e)) := by
  simp only [arrayV, valueOf] at h
  split at h
  · rename_i h1; cases h; exact Or.inl ⟨rfl, by omega, by omega⟩
  split at h
  · rename_i h1; cases h; exact Or.inr (Or.inl ⟨rfl, by omega, by omega⟩)
  split at h
  · rename_i h1
    cases h
    refine Or.inr (Or.inr (Or.inl ⟨rfl, h1.1, ?_⟩))
    have := uniqueLoop_iff ext xs []
    simp only [List.not_mem_nil, not_false_eq_true, implies_true, true_and] at this
    unfold Repeats
    rw [← not_nodup_map_iff, ← this, h1.2]
    simp
  refine Or.inr (Or.inr (Or.inr ?_))
  simp only [arrayElems] at h
  cases hi : a.items with
  | some c =>
    rw [hi] at h
    obtain ⟨j, x, τ, h1, h2⟩ := runItems_err h
    exact Or.inl ⟨c, x, τ, rfl, List.mem_of_getElem? h1, h2⟩
  | none =>
    rw [hi] at h
    refine Or.inr ?_
    have hs := runPos_same (σ := σ.sub 1) a.positional xs 0 (fun c h => hc c (.positional h))
    rcases e1 : runPos (σ.sub 1) 0 a.positional xs with ⟨r1, y1⟩
    rw [e1] at h hs
    simp only at hs; subst hs
    cases r1 with
    | abort b => cases h
    | err e' =>
      simp only [Res.err.injEq] at h
      subst h
      obtain ⟨j, c, x, τ, h1, h2, h3⟩ := runPos_err (by rw [e1])
      exact Or.inl ⟨rfl, j, c, x, τ, h1, h2, h3⟩
    | ok =>
      simp only at h
      unfold runAdditional at h
      simp only at h
      split at h
      · rename_i hl
        refine Or.inr ⟨rfl, hl.1, hl.2, ?_⟩
        cases ha : a.additional with
        | none => rw [ha] at h; cases h; exact Or.inl ⟨rfl, rfl⟩
        | some c =>
          rw [ha] at h
          obtain ⟨j, x, τ, h1, h2⟩ := runItems_err h
          rw [List.getElem?_drop] at h1
          exact Or.inr ⟨_, c, x, τ, rfl, by omega, h1, h2⟩
      · cases h

/-! ## Objects -/

theorem forLoop_err {α S : Type} {step : Nat → α → S → Res × S} {e : Err} (I : S → Prop) : ∀ {l : List α} {i : Nat} {s : S},
    (∀ i, ∀ a ∈ l, ∀ s, I s → I (step i a s).2) → I s → (forLoop step i l s).1 = .err e →
    ∃ a ∈ l, ∃ j s', I s' ∧ (step j a s').1 = .err e
  | [], i, s, _, _, h => by simp [forLoop] at h
  | a :: l, i, s, hI, hs, h => by
    have h1 := hI i a (by simp) s hs
    rcases hst : step i a s with ⟨r, s'⟩
    rw [hst] at h1
    simp only [forLoop, hst] at h
    cases r with
    | ok =>
      obtain ⟨b, hb, j, s'', h2, h3⟩ := forLoop_err I (fun i b hb => hI i b (by simp [hb])) h1 h
      exact ⟨b, by simp [hb], j, s'', h2, h3⟩
    | err e' => exact ⟨a, by simp, i, s, hs, by rw [hst]; exact h⟩
    | abort x => cases h

theorem seqSt_err {r : Res × ObjSt} {k : ObjSt → Res × ObjSt} {e : Err} (h : (seqSt r k).1 = .err e) :
    r.1 = .err e ∨ r.1 = .ok ∧ (k r.2).1 = .err e := by
  rcases r with ⟨r, s⟩
  cases r with
  | ok => exact Or.inr ⟨rfl, h⟩
  | err e' => exact Or.inl h
  | abort a => cases h

theorem propStep_err {ext : Ext} {o : ObjC Sem} {σ : Sched} {i : Nat} {p : GoStr} {c : Sem} {st : ObjSt} {e : Err}
    (hd : ∀ dv, c.dflt ≠ .some dv) (h : (propStep ext o σ i (p, c) st).1 = .err e) :
    (viewProp (valueOf st.v).indirect p = .ok .absent ∧ p ∈ o.required ∧ e = .required p) ∨
    ∃ x s e', viewProp (valueOf st.v).indirect p = .ok (.present x s) ∧ (c.val (σ.sub i) x).1 = .err e' ∧ e = .prop p e' := by
  unfold propStep at h
  rcases hv : viewProp (valueOf st.v).indirect p with a | pv
  · simp only [hv] at h; cases h
  · cases pv with
    | absent =>
      simp only [hv] at h
      split at h
      · rename_i hr; cases h; exact Or.inl ⟨rfl, hr, rfl⟩
      · split at h
        · cases h
        · cases h
        · rename_i dv hdv; exact absurd hdv (hd dv)
    | present x s =>
      rcases hcv : c.val (σ.sub i) x with ⟨r, x'⟩
      simp only [hv, hcv] at h
      cases r with
      | ok => cases h
      | abort a => cases h
      | err e' => cases h; exact Or.inr ⟨x, s, e', rfl, by rw [hcv], rfl⟩

theorem patStep_err {ext : Ext} {src : GoStr} {σ : Sched} {i : Nat} {k : GoStr} {c : Sem} {st : ObjSt} {e : Err}
    (h : (patStep ext src c σ i k st).1 = .err e) :
    ext.reMatch src k = true ∧ ∃ x e', getProp (valueOf st.v).indirect k = .ok (some x) ∧ (c.val (σ.sub i) x).1 = .err e' ∧ e = .prop k e' := by
  unfold patStep at h
  split at h
  · cases h
  · rename_i hm
    refine ⟨by simpa using hm, ?_⟩
    rcases hg : getProp (valueOf st.v).indirect k with a | w
    · rw [hg] at h; cases h
    · cases w with
      | none => rw [hg] at h; cases h
      | some x =>
        rcases hcv : c.val (σ.sub i) x with ⟨r, x'⟩
        simp only [hg, hcv] at h
        cases r with
        | ok => cases h
        | abort a => cases h
        | err e' => cases h; exact ⟨x, e', rfl, by rw [hcv], rfl⟩

theorem addlStep_err {σ : Sched} {i : Nat} {k : GoStr} {c : Sem} {st : ObjSt} {e : Err}
    (h : (addlStep c σ i k st).1 = .err e) :
    ∃ x e', getProp (valueOf st.v).indirect k = .ok (some x) ∧ (c.val (σ.sub i) x).1 = .err e' ∧ e = .addlProp k e' := by
  unfold addlStep at h
  rcases hg : getProp (valueOf st.v).indirect k with a | w
  · rw [hg] at h; cases h
  · cases w with
    | none => rw [hg] at h; cases h
    | some x =>
      rcases hcv : c.val (σ.sub i) x with ⟨r, x'⟩
      simp only [hg, hcv] at h
      cases r with
      | ok => cases h
      | abort a => cases h
      | err e' => cases h; exact ⟨x, e', rfl, by rw [hcv], rfl⟩

theorem depsCheck_err {ps : List GoStr} {e : Err} : ∀ {ds : List GoStr}, depsCheck ps ds = .err e → ∃ d ∈ ds, d ∉ ps ∧ e = .depMissing d
  | [], h => by cases h
  | d :: ds, h => by
    unfold depsCheck at h
    split at h
    · obtain ⟨x, h1, h2⟩ := depsCheck_err h
      exact ⟨x, by simp [h1], h2⟩
    · rename_i hd; cases h; exact ⟨d, by simp, hd, rfl⟩

/-- What an object constraint complains about, for children that change nothing. -/
inductive ObjComplaint (ext : Ext) (o : ObjC Sem) (v : GoVal) (kvs raws : List (GoStr × GoVal)) : Err → Prop where
  | fewProps : 0 ≤ o.minProps → (kvs.length : ℤ) < o.minProps → ObjComplaint ext o v kvs raws .fewProps
  | manyProps : 0 ≤ o.maxProps → o.maxProps < (kvs.length : ℤ) → ObjComplaint ext o v kvs raws .manyProps
  | required {p} : p ∈ o.required → o.Declares p → ¬ Has kvs p → ObjComplaint ext o v kvs raws (.required p)
  | prop {p c x τ e} : (p, c) ∈ o.props → (p, x) ∈ kvs → (c.val τ x).1 = .err e → ObjComplaint ext o v kvs raws (.prop p e)
  | pattern {k id src c x τ e} : ¬ o.Declares k → (id, src, c) ∈ o.patterns → ext.reMatch src k = true → (k, x) ∈ raws →
      (c.val τ x).1 = .err e → ObjComplaint ext o v kvs raws (.prop k e)
  | addlNotAllowed {k} : ¬ o.Declares k → ¬ o.PatternFor ext k → Has kvs k → o.additional = none →
      ObjComplaint ext o v kvs raws .addlNotAllowed
  | addlProp {k c x τ e} : ¬ o.Declares k → ¬ o.PatternFor ext k → o.additional = some c → (k, x) ∈ raws → (c.val τ x).1 = .err e →
      ObjComplaint ext o v kvs raws (.addlProp k e)
  | depMissing {k d} : Has kvs k → o.Covers ext k → d ∈ o.GetPropDependencies k → ¬ (Has kvs d ∧ o.Covers ext d) →
      ObjComplaint ext o v kvs raws (.depMissing d)
  | dependency {k c τ e} : Has kvs k → o.Covers ext k → o.GetPropDependencies k = [] → o.GetSchemaDependency k = some c →
      (c.val τ v).1 = .err e → ObjComplaint ext o v kvs raws e

theorem objectV_err {ext : Ext} {o : ObjC Sem} {σ : Sched} {v : GoVal} {kvs raws : List (GoStr × GoVal)} {e : Err} (hv : IsObj v kvs raws)
    (hw : o.Wf) (hro : ∀ c, o.Child c → c.ReadOnly) (hd : ∀ p c, (p, c) ∈ o.props → ∀ dv, c.dflt ≠ .some dv)
    (h : (objectV ext o σ v).1 = .err e) : ObjComplaint ext o v kvs raws e := by
  obtain ⟨b, t, ha⟩ := hv.acc
  obtain ⟨fields, hf, hlen, hmem⟩ := ha.names
  have hind : (valueOf v).indirect = some t := by rw [ha.eq, indirect_wrap ha.plain]
  unfold objectV at h
  rw [hind, hf] at h
  simp only [hlen] at h
  split at h
  · rename_i h1; cases h; exact .fewProps (by omega) (by omega)
  split at h
  · rename_i h1; cases h; exact .manyProps (by omega) (by omega)
  have hAll : AllReadOnly o t := allReadOnly_of o ha hro (fun p c hpc _ => hd p c hpc)
  have hview : ∀ {p}, viewProp (some t) p = .ok .absent → ¬ Has kvs p := by
    intro p hp
    rw [← ha.present]; rintro ⟨x, s, hx⟩; rw [hp] at hx; cases hx
  simp only at h
  unfold objLoops at h
  -- declared properties
  rcases seqSt_err h with h1 | ⟨h1, h⟩
  · obtain ⟨⟨p, c⟩, hpc, j, s', hs', hst⟩ := forLoop_err (fun s => s.v = v) (by
      rintro i ⟨p, c⟩ hpc s hs
      rw [propStep_readOnly ext o (hro c (.prop (mem_shuffle.1 hpc))) (fun _ => hd p c (mem_shuffle.1 hpc)), hs]) rfl h1
    have hpc' := mem_shuffle.1 hpc
    rcases propStep_err (hd p c hpc') hst with ⟨h2, h3, rfl⟩ | ⟨x, s, e', h2, h3, rfl⟩
    · rw [hs', hind] at h2
      exact .required h3 ⟨c, hpc'⟩ (hview h2)
    · rw [hs', hind] at h2
      exact .prop hpc' ((ha.view p x).1 ⟨s, h2⟩) h3
  have hnK : ((shuffle (σ.sub 0).key o.props).map (·.1)).Nodup := by
    rw [← shuffle_map]; exact shuffle_nodup.2 hw.props
  have hkey : ∀ {k}, k ∈ (shuffle (σ.sub 0).key o.props).map (·.1) ↔ k ∈ o.props.map (·.1) := by
    intro k; rw [← shuffle_map, mem_shuffle]
  obtain ⟨-, h1'⟩ := propLoop_spec ext o (σ.sub 1) b (shuffle (σ.sub 0).key o.props) 0 t (nameSet fields) [] ha.plain hnK
  rw [← ha.eq] at h1'
  obtain ⟨t1, pm1, ps1, e1, -, -, hpm1, hpmn1, hps1, hpsn1⟩ := h1' h1
  have ht1 : wrap b t1 = v := by
    have := propLoop_readOnly ext o (σ := σ.sub 1) (i := 0) (l := shuffle (σ.sub 0).key o.props)
      (st := ⟨v, nameSet fields, []⟩) (fun pc hpc => hro _ (.prop (mem_shuffle.1 hpc)))
      (fun pc hpc _ => hd pc.1 pc.2 (mem_shuffle.1 hpc))
    rw [e1] at this
    exact this
  rw [e1, ht1] at h
  have hpm1' : ∀ k, k ∈ pm1 ↔ Has kvs k ∧ ¬ o.Declares k := by
    intro k
    rw [hpm1, hkey, mem_nameSet, hmem, ← declares_iff, ha.present]
    constructor
    · rintro ⟨a, c⟩; exact ⟨a, fun h => c ⟨h, a⟩⟩
    · rintro ⟨a, c⟩; exact ⟨a, fun h => c h.1⟩
  have hraw : ∀ {k x}, getProp (some t) k = .ok (some x) → Has kvs k → (k, x) ∈ raws := fun h1 h2 =>
    (ha.raw _ _).1 ⟨h1, ha.present.2 h2⟩
  -- patterns
  rcases seqSt_err h with h2 | ⟨h2, h⟩
  · have hsub : ∀ (s : ObjSt) (id : Nat) (src : GoStr) (c : Sem) (j : Nat), (id, src, c) ∈ o.patterns → (s.v = v ∧ ∀ k ∈ s.premain, k ∈ pm1) →
        ∀ i, ∀ k ∈ shuffle ((σ.sub 3).sub j).key s.premain, ∀ s', (s'.v = v ∧ (∀ k ∈ s'.premain, k ∈ pm1)) →
          (patStep ext src c ((σ.sub 4).sub j) i k s').2.v = v ∧ ∀ k' ∈ (patStep ext src c ((σ.sub 4).sub j) i k s').2.premain, k' ∈ pm1 := by
      intro s id src c j hpc hs i k hk s' hs'
      refine ⟨by rw [patStep_readOnly ext (hro c (.pattern hpc)), hs'.1], fun k' hk' => ?_⟩
      refine hs'.2 k' ?_
      unfold patStep at hk'
      split at hk'
      · exact hk'
      · split at hk'
        · exact hk'
        · exact hk'
        · rename_i x hx
          rcases hcv : c.val (((σ.sub 4).sub j).sub i) x with ⟨r, x'⟩
          simp only [hcv] at hk'
          cases r <;> exact (List.mem_filter.1 hk').1
    obtain ⟨⟨id, src, c⟩, hpc, j, s', hs', hst⟩ := forLoop_err (fun s => s.v = v ∧ ∀ k ∈ s.premain, k ∈ pm1) (by
      rintro j ⟨id, src, c⟩ hpc s hs
      unfold patOuter
      exact forLoop_inv (fun s => s.v = v ∧ ∀ k ∈ s.premain, k ∈ pm1) 0 _ s (hsub s id src c j (mem_shuffle.1 hpc) hs) hs)
      ⟨rfl, fun k hk => hk⟩ h2
    unfold patOuter at hst
    obtain ⟨k, hk, i, s'', hs'', hst⟩ := forLoop_err (fun s => s.v = v ∧ ∀ k ∈ s.premain, k ∈ pm1)
      (hsub s' id src c j (mem_shuffle.1 hpc) hs') hs' hst
    obtain ⟨hm, x, e', h3, h4, rfl⟩ := patStep_err hst
    rw [hs''.1, hind] at h3
    have hk' := (hpm1' k).1 (hs'.2 k (mem_shuffle.1 hk))
    exact .pattern hk'.2 (mem_shuffle.1 hpc) hm (hraw h3 hk'.1) h4
  obtain ⟨-, -, -, h2'⟩ := patLoop_spec ext σ b (shuffle (σ.sub 2).key o.patterns) 0 t pm1 ps1 ha.plain (hpmn1 (nodup_nameSet fields))
  rw [← ha.eq] at h2'
  obtain ⟨t2, pm2, ps2, e2, -, -, hpm2, hpmn2, hps2, hpsn2⟩ := h2' h2
  have ht2 : wrap b t2 = v := by
    have := patLoop_readOnly ext (σ := σ) (i := 0) (l := shuffle (σ.sub 2).key o.patterns) (st := ⟨v, pm1, ps1⟩)
      (fun pc hpc => hro _ (.pattern (mem_shuffle.1 hpc)))
    rw [e2] at this
    exact this
  rw [e2, ht2] at h
  have hpm2' : ∀ k, k ∈ pm2 ↔ Has kvs k ∧ ¬ o.Declares k ∧ ¬ o.PatternFor ext k := by
    intro k; rw [hpm2, hpm1', matched_shuffle, matched_iff, and_assoc]
  -- additional properties
  rcases seqSt_err h with h3 | ⟨h3, h⟩
  · unfold addlPhase at h3
    split at h3
    · rename_i hl
      cases hadd : o.additional with
      | none =>
        rw [hadd] at h3
        cases h3
        obtain ⟨k, hk⟩ := List.exists_mem_of_length_pos hl
        obtain ⟨a1, a2, a3⟩ := (hpm2' k).1 hk
        exact .addlNotAllowed a2 a3 a1 hadd
      | some c =>
        rw [hadd] at h3
        obtain ⟨k, hk, j, s', hs', hst⟩ := forLoop_err (fun s => s.v = v) (by
          intro i k _ s hs
          rw [addlStep_readOnly (hro c (.additional hadd)), hs]) rfl h3
        obtain ⟨x, e', h4, h5, rfl⟩ := addlStep_err hst
        rw [hs', hind] at h4
        obtain ⟨a1, a2, a3⟩ := (hpm2' k).1 (mem_shuffle.1 hk)
        exact .addlProp a2 a3 hadd (hraw h4 a1) h5
    · cases h3
  obtain ⟨-, -, -, h3'⟩ := addlPhase_spec o σ b t pm2 ps2 ha.plain hpmn2
  rw [← ha.eq] at h3'
  obtain ⟨t3, e3, -, -⟩ := h3' h3
  have ht3 : wrap b t3 = v := by
    have := addlPhase_readOnly o (σ := σ) (st := ⟨v, pm2, ps2⟩) hAll.addl
    rw [e3] at this
    exact this
  rw [e3, ht3] at h
  have hps : ∀ k, k ∈ ps2 ↔ Has kvs k ∧ o.Covers ext k := by
    intro k
    rw [hps2, hps1, hpm1', hkey, matched_shuffle, ha.present, declares_iff, matched_iff]
    unfold ObjC.Covers
    simp only [List.not_mem_nil, false_or]
    constructor
    · rintro (⟨a, c⟩ | ⟨⟨a, c⟩, d⟩)
      · exact ⟨c, Or.inl a⟩
      · exact ⟨a, Or.inr d⟩
    · rintro ⟨a, c | c⟩
      · exact Or.inl ⟨c, a⟩
      · by_cases hk : o.Declares k
        · exact Or.inl ⟨hk, a⟩
        · exact Or.inr ⟨⟨a, hk⟩, c⟩
  -- dependencies
  obtain ⟨k, hk, j, s', hs', hst⟩ := forLoop_err (fun s => s.v = v ∧ s.pseen = ps2) (by
    intro i k _ s hs
    refine ⟨by rw [depStep_readOnly o (fun c hc => hro c (.dependency hc)), hs.1], ?_⟩
    unfold depStep
    split
    · exact hs.2
    · split
      · exact hs.2
      · exact hs.2) ⟨rfl, rfl⟩ h
  obtain ⟨a1, a2⟩ := (hps k).1 (mem_shuffle.1 hk)
  unfold depStep at hst
  split at hst
  · obtain ⟨d, h4, h5, rfl⟩ := depsCheck_err hst
    rw [hs'.2, hps] at h5
    exact .depMissing a1 a2 h4 h5
  · rename_i hne
    split at hst
    · cases hst
    · rename_i c hc
      rw [hs'.1] at hst
      exact .dependency a1 a2 (by simpa using hne) hc hst

/-- The same for a time: it has no properties. -/
theorem objectV_time_err {ext : Ext} {o : ObjC Sem} (hd : ∀ p c, (p, c) ∈ o.props → ∀ dv, c.dflt ≠ .some dv) {v : GoVal}
    {t : GoTime} (hv : (valueOf v).indirect = some (.time t)) {σ : Sched} {e : Err} (h : (objectV ext o σ v).1 = .err e) :
    ObjComplaint ext o v [] [] e := by
  have hn : getPropNames (valueOf v).indirect = .ok [] := by rw [hv]; rfl
  have hview : ∀ p, viewProp (valueOf v).indirect p = .ok .absent := by intro p; rw [hv]; rfl
  unfold objectV at h
  simp only [hn, List.length_nil] at h
  split at h
  · rename_i h1; cases h; exact .fewProps (by omega) (by simpa using h1.2)
  split at h
  · rename_i h1; cases h; exact .manyProps (by omega) (by simpa using h1.2)
  simp only at h
  unfold objLoops at h
  have hstep : ∀ i p c (s : ObjSt), (p, c) ∈ o.props → s = ⟨v, [], []⟩ → (propStep ext o (σ.sub 1) i (p, c) s).2 = ⟨v, [], []⟩ := by
    rintro i p c s hpc rfl
    unfold propStep
    simp only [hview]
    split
    · rfl
    · split
      · rfl
      · rfl
      · rename_i dv hdv; exact absurd hdv (hd p c hpc dv)
  rcases seqSt_err h with h1 | ⟨h1, h⟩
  · obtain ⟨⟨p, c⟩, hpc, j, s', hs', hst⟩ := forLoop_err (fun s => s = ⟨v, [], []⟩) (by
      rintro i ⟨p, c⟩ hpc s hs
      exact hstep i p c s (mem_shuffle.1 hpc) hs) rfl h1
    have hpc' := mem_shuffle.1 hpc
    rcases propStep_err (hd p c hpc') hst with ⟨h2, h3, rfl⟩ | ⟨x, s, e', h2, h3, rfl⟩
    · exact .required h3 ⟨c, hpc'⟩ (by rintro ⟨x, hx⟩; cases hx)
    · rw [hs', hview] at h2; cases h2
  · have hs := forLoop_inv (fun s => s = ⟨v, [], []⟩) (step := propStep ext o (σ.sub 1)) 0 (shuffle (σ.sub 0).key o.props) ⟨v, nameSet [], []⟩ (by
      rintro i ⟨p, c⟩ hpc s hs
      exact hstep i p c s (mem_shuffle.1 hpc) hs) rfl
    rw [hs] at h
    have hpat : ∀ (l : List (Nat × GoStr × Sem)) (i : Nat), forLoop (patOuter ext σ) i l ⟨v, [], []⟩ = (.ok, ⟨v, [], []⟩) := by
      intro l
      induction l with
      | nil => intro i; rfl
      | cons x l ih => intro i; simp [forLoop, patOuter, shuffle, ih]
    rw [hpat] at h
    simp [seqSt, addlPhase, shuffle, forLoop] at h

end Jsval
