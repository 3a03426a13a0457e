import Verif.Spec.Array
import Verif.Lemmas.Array
/-!
# C22–C28: arrays
-/
namespace Jsval

variable (ext : Ext) (ρ : RefSem) (σ : Sched)

/-! ## C22 -/

/-- C22: whatever is not a slice (pointers to slices and Go arrays included) is rejected. -/
theorem C22_only_slices (a : ArrC Constraint) (v : GoVal) (h : ∀ n xs, v ≠ .slice n xs) :
    (denote ext ρ (.array a)).val σ v = (.err .notSlice, v) := by
  rw [denote_array]
  cases v <;> first | rfl | exact absurd rfl (h _ _)

/-- C22: a slice whose length breaks a limit is rejected, untouched. -/
theorem C22_length_rejects (a : ArrC Constraint) (n : Bool) (xs : List GoVal) (h : ¬ LenOk a xs) :
    ((denote ext ρ (.array a)).val σ (.slice n xs)).1.Rejects ∧
    ((denote ext ρ (.array a)).val σ (.slice n xs)).2 = .slice n xs := by
  rw [denote_array]
  simp only [arrayV, valueOf]
  replace h : ¬ LenOk (a.map (denote ext ρ)) xs := h
  unfold LenOk at h
  generalize a.map (denote ext ρ) = b at h
  by_cases h1 : b.minItems > -1 ∧ (xs.length : ℤ) < b.minItems
  · rw [if_pos h1]; exact ⟨⟨_, rfl⟩, rfl⟩
  · rw [if_neg h1, if_pos (by omega)]; exact ⟨⟨_, rfl⟩, rfl⟩

/-- Array validation of a slice that respects its limits is the validation of its elements. -/
theorem arrayV_within (a : ArrC Constraint) (n : Bool) (xs : List GoVal) :
    (denote ext ρ (.array a)).AcceptsBy σ (.slice n xs) ↔
      LenOk a xs ∧ UniqOk ext a xs ∧ (arrayElems (a.map (denote ext ρ)) σ xs).1 = .ok := by
  unfold Sem.AcceptsBy
  rw [denote_array]
  have hu : (a.unique = true ∧ uniqueLoop ext [] xs = false) ↔ ¬ UniqOk ext a xs := by
    have := uniqueLoop_iff ext xs []
    simp only [List.not_mem_nil, not_false_eq_true, implies_true, true_and] at this
    rw [← Bool.not_eq_true, this, not_nodup_map_iff]
    unfold UniqOk Repeats
    rw [Classical.not_imp, not_not]
  simp only [arrayV, valueOf]
  change (if a.minItems > -1 ∧ (xs.length : Int) < a.minItems then _ else if a.maxItems > -1 ∧ (xs.length : Int) > a.maxItems
    then _ else if a.unique = true ∧ uniqueLoop ext [] xs = false then _ else _ : Res × GoVal).1 = _ ↔ _
  have hl : LenOk a xs ↔ ¬ (a.minItems > -1 ∧ (xs.length : Int) < a.minItems) ∧
      ¬ (a.maxItems > -1 ∧ (xs.length : Int) > a.maxItems) := by
    unfold LenOk; omega
  rw [hl]
  split
  · simp_all
  · split
    · simp_all
    · rename_i h1 h2
      split
      · rename_i h3
        have := hu.1 h3
        simp [this]
      · rename_i h3
        rw [hu, not_not] at h3
        simp [h1, h2, h3]

example : ¬ LenOk (Array'.MaxItems 1) [.nil, .nil] := by simp [LenOk, ArrC.MaxItems]
example : ((sem0 (.array Array')).val sched0 (.ptr (some (.slice false [])))).1 = .err .notSlice := rfl

/-! ## C23 -/

/-- C23: with `Items(c)`, exactly the slices within limits whose elements `c` accepts pass; positional and
additional rules play no role. -/
theorem C23_items_exact (a : ArrC Constraint) (c : Constraint) (n : Bool) (xs : List GoVal) (h : a.items = some c) :
    (denote ext ρ (.array a)).AcceptsBy σ (.slice n xs) ↔
      LenOk a xs ∧ UniqOk ext a xs ∧
      ∀ (j : Nat) (x : GoVal), xs[j]? = some x → (denote ext ρ c).AcceptsBy ((σ.sub 0).sub j) x := by
  rw [arrayV_within]
  simp only [arrayElems, ArrC.map, h, Option.map_some, runItems_ok, Nat.zero_add, Sem.AcceptsBy]

/-- C23, over all iteration orders. -/
theorem C23_items_all_orders (a : ArrC Constraint) (c : Constraint) (n : Bool) (xs : List GoVal)
    (h : a.items = some c) :
    (denote ext ρ (.array a)).Accepts (.slice n xs) ↔
      LenOk a xs ∧ UniqOk ext a xs ∧ ∀ x ∈ xs, (denote ext ρ c).Accepts x := by
  constructor
  · intro hall
    have h0 := fun σ => (C23_items_exact ext ρ σ a c n xs h).1 (hall σ)
    refine ⟨(h0 sched0).1, (h0 sched0).2.1, ?_⟩
    intro x hx σ'
    obtain ⟨j, hj⟩ := List.getElem?_of_mem hx
    obtain ⟨σ, hσ⟩ := Sched.sub_surj j σ'
    obtain ⟨σ2, hσ2⟩ := Sched.sub_surj 0 σ
    have := (h0 σ2).2.2 j x hj
    rw [hσ2, hσ] at this
    exact this
  · rintro ⟨h1, h2, h3⟩ σ
    exact (C23_items_exact ext ρ σ a c n xs h).2 ⟨h1, h2, fun j x hj => h3 x (List.mem_of_getElem? hj) _⟩

/-- a slice of three strings, bounded length, with positional rules that would reject -/
example : (sem0 (.array (((Array'.Items (some (.string String'))).MaxItems 3).PositionalItems [.null]))).AcceptsBy sched0
    (.slice false [.str (b! "a"), .str (b! "b"), .str (b! "a")]) := rfl
example : ¬ (sem0 (.array (Array'.Items (some (.string String'))))).AcceptsBy sched0
    (.slice false [.str (b! "a"), .bool true]) := by unfold Sem.AcceptsBy; decide

/-! ## C24 -/

/-- What the positional rules leave at index `j` (defaults may have been filled in). -/
def afterPos (σ : Sched) (cs : List Sem) (j : Nat) (x : GoVal) : GoVal :=
  match cs[j]? with
  | none => x
  | some c => (c.val (σ.sub j) x).2

/-- C24: without `Items`, a slice within limits passes iff each positional rule accepts its element (if
any) and, if the slice is longer than the `k ≥ 1` positional rules, an additional rule is set and accepts every
element from index `k-1` on. -/
theorem C24_positional_exact (a : ArrC Constraint) (n : Bool) (xs : List GoVal) (h : a.items = none) :
    (denote ext ρ (.array a)).AcceptsBy σ (.slice n xs) ↔
      LenOk a xs ∧ UniqOk ext a xs ∧
      (∀ (j : Nat) (c : Constraint) (x : GoVal), a.positional[j]? = some c → xs[j]? = some x →
        (denote ext ρ c).AcceptsBy ((σ.sub 1).sub j) x) ∧
      (0 < a.positional.length → a.positional.length < xs.length →
        ∃ cadd, a.additional = some cadd ∧ ∀ (j : Nat) (x : GoVal), a.positional.length - 1 ≤ j → xs[j]? = some x →
          (denote ext ρ cadd).AcceptsBy ((σ.sub 2).sub j) (afterPos (σ.sub 1) (a.positional.map (denote ext ρ)) j x)) := by
  rw [arrayV_within]
  refine and_congr_right fun _ => and_congr_right fun _ => ?_
  simp only [arrayElems, ArrC.map, h, Option.map_none]
  have hpos : (runPos (σ.sub 1) 0 (a.positional.map (denote ext ρ)) xs).1 = .ok ↔
      ∀ (j : Nat) (c : Constraint) (x : GoVal), a.positional[j]? = some c → xs[j]? = some x →
        (denote ext ρ c).AcceptsBy ((σ.sub 1).sub j) x := by
    rw [runPos_ok]
    constructor
    · intro h1 j c x hc hx
      have := h1 j (denote ext ρ c) x (by simp [hc]) hx
      simpa [Sem.AcceptsBy] using this
    · intro h1 j d x hd hx
      rw [List.getElem?_map, Option.map_eq_some_iff] at hd
      obtain ⟨c, hc, rfl⟩ := hd
      simpa [Sem.AcceptsBy] using h1 j c x hc hx
  rw [← hpos]
  rcases hr : runPos (σ.sub 1) 0 (a.positional.map (denote ext ρ)) xs with ⟨r, ys⟩
  cases r with
  | err e => simp
  | abort e => simp
  | ok =>
    have hel := runPos_elems (σ.sub 1) 0 (a.positional.map (denote ext ρ)) xs (by rw [hr])
    rw [hr] at hel
    obtain ⟨hlen, hel⟩ := hel
    simp only at hlen hel
    simp only [true_and]
    simp only [runAdditional, List.length_map, hlen]
    by_cases hk : 0 < a.positional.length ∧ a.positional.length < xs.length
    · simp only [gt_iff_lt, hk, and_self, if_true, forall_const]
      cases ha : a.additional with
      | none => simp
      | some cadd =>
        simp only [Option.map_some, Option.some.injEq, exists_eq_left', runItems_ok, List.getElem?_drop]
        have hget : ∀ (j : Nat) (x : GoVal), xs[j]? = some x →
            ys[j]? = some (afterPos (σ.sub 1) (a.positional.map (denote ext ρ)) j x) := by
          intro j x hx
          rw [hel j x hx, Nat.zero_add]
          rfl
        constructor
        · intro h1 j x hj hx
          have := h1 (j - (a.positional.length - 1)) _ (by
            rw [show a.positional.length - 1 + (j - (a.positional.length - 1)) = j by omega]; exact hget j x hx)
          rwa [show a.positional.length - 1 + (j - (a.positional.length - 1)) = j by omega] at this
        · intro h1 j y hy
          have hlt : a.positional.length - 1 + j < xs.length := by
            rw [← hlen]
            exact (List.getElem?_eq_some_iff.1 hy).1
          have hx : xs[a.positional.length - 1 + j]? = some xs[a.positional.length - 1 + j] := by simp [hlt]
          have := hget _ _ hx
          rw [this] at hy
          cases hy
          exact h1 _ _ (by omega) hx
    · have hk' : ¬ (a.positional.length > 0 ∧ xs.length > a.positional.length) := hk
      rw [if_neg hk']
      simp only [true_iff]
      intro h1 h2
      exact absurd ⟨h1, h2⟩ hk

/-- three elements against two positional rules and an additional one -/
example : (sem0 (.array ((Array'.PositionalItems [.string String', .empty]).AdditionalItems
    (some (.boolean none))))).AcceptsBy sched0
    (.slice false [.str (b! "a"), .bool false, .bool true]) := rfl
/-- shorter slices leave positional rules unused -/
example : (sem0 (.array ((Array'.PositionalItems [.string String', .null]).AdditionalItems none))).AcceptsBy sched0
    (.slice false [.str (b! "a")]) := rfl

/-! ## C25 (false) -/

/-- C25 as stated: elements covered by positional rules are not subject to the additional rule. -/
def C25_statement : Prop :=
  ∀ (cs : List Constraint) (cadd : Constraint) (xs : List GoVal),
    (∀ (j : Nat) (c : Constraint) (x : GoVal), cs[j]? = some c → xs[j]? = some x → (sem0 c).AcceptsBy sched0 x) →
    (∀ (j : Nat) (x : GoVal), cs.length ≤ j → xs[j]? = some x → (sem0 cadd).AcceptsBy sched0 x) →
    (sem0 (.array ((Array'.PositionalItems cs).AdditionalItems (some cadd)))).AcceptsBy sched0 (.slice false xs)

/-- C25 is false: in `["a", true]` the first element is also validated by the additional rule. -/
theorem C25_refuted : ¬ C25_statement := by
  intro h
  have := h [.string String'] (.boolean none) [.str (b! "a"), .bool true]
    (by
      intro j c x hc hx
      rcases j with _ | j
      · simp at hc hx; subst hc; subst hx; rfl
      · simp at hc)
    (by
      intro j x hj hx
      rcases j with _ | _ | j
      · simp at hj
      · simp at hx; subst hx; rfl
      · simp at hx)
  unfold Sem.AcceptsBy at this
  revert this
  decide

/-- C25 holds if the additional rule happens to accept the element at the last positional index as that rule leaves it
(missing: otherwise it is false, by `C24_positional_exact` the slice is then rejected). -/
theorem C25_additional_partial (a : ArrC Constraint) (cadd : Constraint) (n : Bool) (xs : List GoVal)
    (hi : a.items = none) (hadd : a.additional = some cadd) (hlen : LenOk a xs) (hu : UniqOk ext a xs)
    (hpos : ∀ (j : Nat) (c : Constraint) (x : GoVal), a.positional[j]? = some c → xs[j]? = some x →
      (denote ext ρ c).AcceptsBy ((σ.sub 1).sub j) x)
    (hextra : ∀ (j : Nat) (x : GoVal), a.positional.length ≤ j → xs[j]? = some x →
      (denote ext ρ cadd).AcceptsBy ((σ.sub 2).sub j) x)
    (hlast : ∀ (j : Nat) (c : Constraint) (x : GoVal), j + 1 = a.positional.length → a.positional[j]? = some c →
      xs[j]? = some x → (denote ext ρ cadd).AcceptsBy ((σ.sub 2).sub j) ((denote ext ρ c).val ((σ.sub 1).sub j) x).2) :
    (denote ext ρ (.array a)).AcceptsBy σ (.slice n xs) := by
  rw [C24_positional_exact ext ρ σ a n xs hi]
  refine ⟨hlen, hu, hpos, fun h0 h1 => ⟨cadd, hadd, fun j x hj hx => ?_⟩⟩
  by_cases hj' : a.positional.length ≤ j
  · have : (a.positional.map (denote ext ρ))[j]? = none := by simp [hj']
    simp only [afterPos, this]
    exact hextra j x hj' hx
  · have hlt : j < a.positional.length := by omega
    have : (a.positional.map (denote ext ρ))[j]? = some (denote ext ρ a.positional[j]) := by simp [hlt]
    simp only [afterPos, this]
    exact hlast j _ x (by omega) (by simp [hlt]) hx

/-- C25, exactly: a slice passes if and only if it is as the claim says, and, if it has elements beyond the `k ≥ 1` positions, the additional rule
also accepts what the last position's rule leaves of element `k-1`. Without positions the additional rule is never asked. -/
theorem C25_exact (a : ArrC Constraint) (cadd : Constraint) (n : Bool) (xs : List GoVal) (hi : a.items = none) (hadd : a.additional = some cadd) :
    (denote ext ρ (.array a)).AcceptsBy σ (.slice n xs) ↔
      (LenOk a xs ∧ UniqOk ext a xs ∧
        (∀ (j : Nat) (c : Constraint) (x : GoVal), a.positional[j]? = some c → xs[j]? = some x → (denote ext ρ c).AcceptsBy ((σ.sub 1).sub j) x) ∧
        (a.positional ≠ [] → ∀ (j : Nat) (x : GoVal), a.positional.length ≤ j → xs[j]? = some x →
          (denote ext ρ cadd).AcceptsBy ((σ.sub 2).sub j) x)) ∧
      (a.positional.length < xs.length → ∀ (j : Nat) (c : Constraint) (x : GoVal), j + 1 = a.positional.length → a.positional[j]? = some c →
        xs[j]? = some x → (denote ext ρ cadd).AcceptsBy ((σ.sub 2).sub j) ((denote ext ρ c).val ((σ.sub 1).sub j) x).2) := by
  constructor
  · rw [C24_positional_exact ext ρ σ a n xs hi]
    rintro ⟨h1, h2, h3, h4⟩
    refine ⟨⟨h1, h2, h3, fun hk j x hj hx => ?_⟩, fun hlen j c x hj hc hx => ?_⟩
    · have hlt : j < xs.length := by
        by_contra hge
        rw [List.getElem?_eq_none (by omega)] at hx; cases hx
      obtain ⟨d, hd, h5⟩ := h4 (List.length_pos_iff.2 hk) (by omega)
      obtain rfl := Option.some.inj (hadd.symm.trans hd)
      have h6 := h5 j x (by omega) hx
      rwa [afterPos, show (a.positional.map (denote ext ρ))[j]? = none by simp [hj]] at h6
    · obtain ⟨d, hd, h5⟩ := h4 (by omega) hlen
      obtain rfl := Option.some.inj (hadd.symm.trans hd)
      have h6 := h5 j x (by omega) hx
      rwa [afterPos, show (a.positional.map (denote ext ρ))[j]? = some (denote ext ρ c) by simp [hc]] at h6
  · rintro ⟨⟨h1, h2, h3, h4⟩, h5⟩
    rw [C24_positional_exact ext ρ σ a n xs hi]
    refine ⟨h1, h2, h3, fun h0 hlen => ⟨cadd, hadd, fun j x hj hx => ?_⟩⟩
    by_cases hj' : a.positional.length ≤ j
    · rw [afterPos, show (a.positional.map (denote ext ρ))[j]? = none by simp [hj']]
      exact h4 (List.length_pos_iff.1 h0) j x hj' hx
    · have hlt : j < a.positional.length := by omega
      rw [afterPos, show (a.positional.map (denote ext ρ))[j]? = some (denote ext ρ a.positional[j]) by simp [hlt]]
      exact h5 hlen j _ x (by omega) (by simp [hlt]) hx

/-- rejected for the last position only -/
example : ((sem0 (.array ((Array'.PositionalItems [.string String', .string String']).AdditionalItems (some (.boolean none))))).val sched0
    (.slice false [.str (b! "a"), .str (b! "b"), .bool true])).1 = .err .notBool := rfl

/-- the hypotheses met by `[true, "a", false]` -/
example : (sem0 (.array ((Array'.PositionalItems [.boolean none]).AdditionalItems
    (some (.any [.boolean none, .string String']))))).AcceptsBy sched0
    (.slice false [.bool true, .str (b! "a"), .bool false]) := rfl

/-! ## C26 (false) -/

/-- C26 as stated: without a call to `AdditionalItems` longer slices are rejected. -/
def C26_statement : Prop :=
  ∀ (cs : List Constraint) (xs : List GoVal), cs ≠ [] → cs.length < xs.length →
    ¬ (sem0 (.array (Array'.PositionalItems cs))).AcceptsBy sched0 (.slice false xs)

/-- C26 is false: `["a", true]` passes `Array().PositionalItems([String()])`. -/
theorem C26_refuted : ¬ C26_statement := by
  intro h
  exact h [.string String'] [.str (b! "a"), .bool true] (by simp) (by simp) rfl

/-- C26, what happens: without `AdditionalItems` extra elements are never a reason for rejection … -/
theorem C26_default_partial (cs : List Constraint) (n : Bool) (xs : List GoVal) :
    (denote ext ρ (.array (Array'.PositionalItems cs))).AcceptsBy σ (.slice n xs) ↔
      ∀ (j : Nat) (c : Constraint) (x : GoVal), cs[j]? = some c → xs[j]? = some x →
        (denote ext ρ c).AcceptsBy ((σ.sub 1).sub j) x := by
  rw [C24_positional_exact ext ρ σ _ n xs rfl]
  constructor
  · rintro ⟨_, _, h, _⟩; exact h
  · intro h
    refine ⟨by simp [LenOk, Array', ArrC.PositionalItems], by simp [UniqOk, Array', ArrC.PositionalItems], h, ?_⟩
    intro _ _
    exact ⟨.empty, rfl, fun j x _ _ => by simp [Sem.AcceptsBy, denote]⟩

/-- … while an explicit `AdditionalItems(nil)` does reject every longer slice (missing: the same without the
call, which is false). -/
theorem C26_explicit_nil_partial (a : ArrC Constraint) (n : Bool) (xs : List GoVal) (hi : a.items = none)
    (hk : a.positional ≠ []) (hlen : a.positional.length < xs.length) :
    ¬ (denote ext ρ (.array (a.AdditionalItems none))).AcceptsBy σ (.slice n xs) := by
  rw [C24_positional_exact ext ρ σ _ n xs (by simpa [ArrC.AdditionalItems] using hi)]
  rintro ⟨_, _, _, h⟩
  obtain ⟨c, hc, _⟩ := h (List.length_pos_iff.2 hk) hlen
  cases hc

/-- C26, exactly, with `AdditionalItems(nil)`: the slices that pass are those within the limits whose elements obey their positions and that are not
longer than the positions, if there are any. Without the call the length plays no role (`C26_default_partial`). -/
theorem C26_exact (a : ArrC Constraint) (n : Bool) (xs : List GoVal) (hi : a.items = none) :
    (denote ext ρ (.array (a.AdditionalItems none))).AcceptsBy σ (.slice n xs) ↔
      LenOk a xs ∧ UniqOk ext a xs ∧
      (∀ (j : Nat) (c : Constraint) (x : GoVal), a.positional[j]? = some c → xs[j]? = some x → (denote ext ρ c).AcceptsBy ((σ.sub 1).sub j) x) ∧
      (a.positional ≠ [] → xs.length ≤ a.positional.length) := by
  rw [C24_positional_exact ext ρ σ _ n xs (by simpa [ArrC.AdditionalItems] using hi)]
  refine and_congr_right fun _ => and_congr_right fun _ => and_congr_right fun _ => ⟨fun h hk => ?_, fun h h0 h1 => ?_⟩
  · by_contra hlt
    obtain ⟨c, hc, _⟩ := h (List.length_pos_iff.2 hk) (by simpa [ArrC.AdditionalItems] using hlt)
    cases hc
  · have := h (List.length_pos_iff.1 h0)
    simp only [ArrC.AdditionalItems] at h1
    omega

example : ¬ (sem0 (.array ((Array'.PositionalItems [.string String']).AdditionalItems none))).AcceptsBy sched0
    (.slice false [.str (b! "a"), .bool true]) := by unfold Sem.AcceptsBy; decide

/-! ## C27 -/

/-- C27: with `UniqueItems(true)`, a slice within its length limits with a repeated rendering is rejected as a
duplicate; every other slice gets exactly the result it gets with `UniqueItems(false)`. -/
theorem C27_unique_exact (a : ArrC Constraint) (n : Bool) (xs : List GoVal) :
    (LenOk a xs → Repeats ext xs →
      (denote ext ρ (.array (a.UniqueItems true))).val σ (.slice n xs) = (.err .dupItem, .slice n xs)) ∧
    (¬ Repeats ext xs →
      (denote ext ρ (.array (a.UniqueItems true))).val σ (.slice n xs) =
        (denote ext ρ (.array (a.UniqueItems false))).val σ (.slice n xs)) := by
  have hu := uniqueLoop_iff ext xs []
  simp only [List.not_mem_nil, not_false_eq_true, implies_true, true_and] at hu
  have hn := not_nodup_map_iff ext.sprint xs
  rw [denote_array, denote_array]
  simp only [arrayV, valueOf, ArrC.map, ArrC.UniqueItems]
  constructor
  · intro hl hr
    unfold LenOk at hl
    have : uniqueLoop ext [] xs = false := by
      rw [← Bool.not_eq_true, hu, hn]; exact hr
    rw [if_neg (by omega), if_neg (by omega)]
    simp [this]
  · intro hr
    have : uniqueLoop ext [] xs = true := by
      rw [hu]
      by_contra h
      exact hr (hn.1 h)
    simp only [this, Bool.true_eq_false, and_false, if_false, Bool.false_eq_true]
    rfl

/-- C27: equal elements have equal renderings, so they are always found. -/
theorem C27_equal_rejected (a : ArrC Constraint) (n : Bool) (xs : List GoVal) (i j : Nat) (x : GoVal)
    (hij : i < j) (hi : xs[i]? = some x) (hj : xs[j]? = some x) :
    ¬ (denote ext ρ (.array (a.UniqueItems true))).AcceptsBy σ (.slice n xs) := by
  rw [arrayV_within]
  rintro ⟨_, h, _⟩
  exact h rfl ⟨i, j, x, x, hij, hi, hj, rfl⟩

example : ((sem0 (.array (Array'.UniqueItems true))).val sched0 (.slice false [.str (b! "a"), .nil, .str (b! "a")])).1
    = .err .dupItem := by decide

/-! ## C28 (false) -/

/-- C28 as stated, for scalars: pairwise different elements pass. The rendering of nil and of strings is Go's. -/
def C28_statement : Prop :=
  ∀ (ext : Ext), (∀ s, ext.sprint (.str s) = s) → ext.sprint .nil = b! "%!s(<nil>)" →
  ∀ xs : List GoVal, (∀ x ∈ xs, Scalar x) → xs.Pairwise (fun x y => ¬ SameGo x y) →
    (denote ext (fun _ => unresolved) (.array (Array'.UniqueItems true))).AcceptsBy sched0 (.slice false xs)

/-- C28 is false: nil and the string `%!s(<nil>)` look the same. -/
theorem C28_refuted : ¬ C28_statement := by
  intro h
  have := h demoExt (fun _ => rfl) rfl [.nil, .str (b! "%!s(<nil>)")]
    (by intro x hx; simp at hx; rcases hx with rfl | rfl <;> constructor)
    (by
      simp only [List.pairwise_cons, List.mem_singleton, forall_eq, List.not_mem_nil, false_implies, implies_true,
        List.Pairwise.nil, and_true]
      intro h; cases h)
  unfold Sem.AcceptsBy at this
  revert this
  decide

/-- C28 holds for slices on whose elements the rendering is faithful — in particular for slices of strings
(missing: mixed types, where it is false). -/
theorem C28_unique_partial (a : ArrC Constraint) (xs : List GoVal)
    (hinj : ∀ x ∈ xs, ∀ y ∈ xs, ext.sprint x = ext.sprint y → x = y) (hd : xs.Nodup) :
    UniqOk ext a xs := by
  rintro - ⟨i, j, x, y, hij, hi, hj, he⟩
  have hxy := hinj x (List.mem_of_getElem? hi) y (List.mem_of_getElem? hj) he
  subst hxy
  obtain ⟨h1, h2⟩ := List.getElem?_eq_some_iff.1 hi
  obtain ⟨h3, h4⟩ := List.getElem?_eq_some_iff.1 hj
  exact (List.pairwise_iff_getElem.1 hd) i j h1 h3 hij (h2.trans h4.symm)

theorem C28_strings_partial (hs : ∀ s, ext.sprint (.str s) = s) (ss : List GoStr) (hd : ss.Nodup) (n : Bool) :
    (denote ext ρ (.array (Array'.UniqueItems true))).AcceptsBy σ (.slice n (ss.map .str)) := by
  rw [arrayV_within]
  refine ⟨by simp [LenOk, Array', ArrC.UniqueItems], C28_unique_partial ext _ _ ?_ ?_, ?_⟩
  · intro x hx y hy
    simp only [List.mem_map] at hx hy
    obtain ⟨s, -, rfl⟩ := hx
    obtain ⟨t, -, rfl⟩ := hy
    rw [hs, hs]; exact congrArg _
  · exact List.Pairwise.map _ (fun a b h h' => h (by cases h'; rfl)) hd
  · simp [arrayElems, ArrC.map, Array', ArrC.UniqueItems, runPos, runAdditional]

example : (sem0 (.array (Array'.UniqueItems true))).AcceptsBy sched0
    (.slice false [.str (b! "a"), .str (b! "b"), .str (b! "c")]) := rfl

end Jsval
