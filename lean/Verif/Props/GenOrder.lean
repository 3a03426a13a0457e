import Verif.Props.Generator
/-!
# Order of the validators, generating twice, and generating together (C76, C77)
-/
namespace Jsval
variable {isPrint : Nat → Bool}

/-- What is registered under a name is the same everywhere. -/
def Agree (vals : List GenVal) : Prop :=
  ∀ v ∈ vals, ∀ w ∈ vals, ∀ n c d, alookup n v.refs = some c → alookup n w.refs = some d → c = d

/-- The caller's validators after a successful call of `Process`: the unnamed ones have got names (generator.go:49-51) and
the slice is sorted (generator.go:102). -/
def afterProcess (vals : List GenVal) : List GenVal := sortVals (nameVals 0 vals)

theorem firstRef_isSome {n : GoStr} {vals : List GenVal} : (firstRef n vals).isSome ↔ ∃ v ∈ vals, (alookup n v.refs).isSome := by
  unfold firstRef
  rw [List.findSome?_isSome_iff]

theorem firstRef_perm {vals vals' : List GenVal} (h : vals.Perm vals') (ha : Agree vals) (n : GoStr) :
    firstRef n vals = firstRef n vals' := by
  cases h1 : firstRef n vals with
  | none =>
    cases h2 : firstRef n vals' with
    | none => rfl
    | some d =>
      obtain ⟨v, hv, e⟩ := firstRef_mem h2
      have := firstRef_isSome.2 ⟨v, h.mem_iff.2 hv, by rw [e]; rfl⟩
      rw [h1] at this; cases this
  | some c =>
    cases h2 : firstRef n vals' with
    | none =>
      obtain ⟨v, hv, e⟩ := firstRef_mem h1
      have := firstRef_isSome.2 ⟨v, h.mem_iff.1 hv, by rw [e]; rfl⟩
      rw [h2] at this; cases this
    | some d =>
      obtain ⟨v, hv, e⟩ := firstRef_mem h1
      obtain ⟨w, hw, e'⟩ := firstRef_mem h2
      rw [ha v hv w (h.mem_iff.2 hw) n c d e e']

theorem nameVals_named : ∀ {vals : List GenVal} {i : Nat}, (∀ v ∈ vals, v.name ≠ []) → nameVals i vals = vals
  | [], _, _ => rfl
  | v :: vals, i, h => by
    rw [nameVals, if_neg (h v (List.mem_cons_self ..)), nameVals_named (fun w hw => h w (List.mem_cons_of_mem _ hw))]

theorem nameVals_ne : ∀ {vals : List GenVal} {i : Nat} {w : GenVal}, w ∈ nameVals i vals → w.name ≠ []
  | [], _, _, h => by simp [nameVals] at h
  | v :: vals, i, w, h => by
    rw [nameVals, List.mem_cons] at h
    rcases h with rfl | h
    · split
      · simp
      · assumption
    · exact nameVals_ne h

theorem sortVals_sorted (l : List GenVal) : (sortVals l).Pairwise (fun a b => strLe a.name b.name = true) := by
  have : Std.Total (fun a b : GenVal => strLe a.name b.name = true) := ⟨fun a b => strLe_total _ _⟩
  have : IsTrans GenVal (fun a b : GenVal => strLe a.name b.name = true) := ⟨fun a b c => strLe_trans _ _ _⟩
  exact List.pairwise_insertionSort _ l

theorem sortVals_congr {l l' : List GenVal} (h : l.Perm l') (hn : (l.map (·.name)).Nodup) : sortVals l = sortVals l' := by
  have hp : (sortVals l).Perm l := List.perm_insertionSort _ l
  have hp' : (sortVals l').Perm l' := List.perm_insertionSort _ l'
  refine List.Perm.eq_of_pairwise (le := fun a b : GenVal => strLe a.name b.name = true) ?_ (sortVals_sorted l) (sortVals_sorted l')
    ((hp.trans h).trans hp'.symm)
  intro a b ha hb h1 h2
  exact List.inj_on_of_nodup_map hn (hp.mem_iff.1 ha) (h.mem_iff.2 (hp'.mem_iff.1 hb)) (strLe_antisymm _ _ h1 h2)

/-- C76: `Process` writes the same text for the same named validators in any order, under any iteration order of the maps,
if the names are distinct and the validators agree on what they register (and under the conditions of C68). -/
theorem C76_order {vals vals' : List GenVal} (h : vals.Perm vals') (hn : ∀ v ∈ vals, v.name ≠ [])
    (hd : (vals.map (·.name)).Nodup) (ha : Agree vals) (ht : ∀ v ∈ vals, (v.refs.map (·.1)).Nodup)
    (hp : ∀ v ∈ vals, ∀ c, v.Has c → c.Every Constraint.DistinctPats)
    (hs : ∀ v ∈ vals, ∀ n n', v.same n = true → v.same n' = true → (firstRef n vals).isSome → (firstRef n' vals).isSome → n = n')
    (σ σ' : Sched) : process isPrint vals σ = process isPrint vals' σ' := by
  have ht' : ∀ v ∈ vals', (v.refs.map (·.1)).Nodup := fun v hv => ht v (h.mem_iff.2 hv)
  have hlk : ∀ k, alookup k (mergeAll (σ.sub 0) 0 vals []) = alookup k (mergeAll (σ'.sub 0) 0 vals' []) := fun k => by
    rw [merged_lookup ht, merged_lookup ht', firstRef_perm h ha]
  have hperm := perm_of_lookup (mergeAll_nodup (σ.sub 0) vals 0 [] (by simp)) (mergeAll_nodup (σ'.sub 0) vals' 0 [] (by simp)) hlk
  have hl := hperm.length_eq
  have hnames := sortStrings_congr (hperm.map (·.1))
  unfold process
  simp only [hl, hnames]
  rw [nameVals_named hn, nameVals_named (fun v hv => hn v (h.mem_iff.2 hv)), sortStrings_congr (h.map (·.name)), sortVals_congr h hd]
  have hR : ∀ cm vars, genRefAssign isPrint cm (mergeAll (σ.sub 0) 0 vals []) (σ.sub 1) 0 vars =
      genRefAssign isPrint cm (mergeAll (σ'.sub 0) 0 vals' []) (σ'.sub 1) 0 vars := fun cm vars =>
    genRefAssign_indep hlk (fun k c hc => by
      rw [merged_lookup ht] at hc
      obtain ⟨v, hv, hvc⟩ := firstRef_mem hc
      exact hp v hv c (.inr ⟨k, hvc⟩)) _ _ vars 0
  have hV : ∀ cm vars, genValAssign isPrint cm (mergeAll (σ.sub 0) 0 vals []) vars (σ.sub 2) 0 (sortVals vals') =
      genValAssign isPrint cm (mergeAll (σ'.sub 0) 0 vals' []) vars (σ'.sub 2) 0 (sortVals vals') := fun cm vars =>
    genValAssign_indep hperm _ _ _ 0 (fun v hv => by
      rw [mem_sortVals] at hv
      have hv := h.mem_iff.2 hv
      refine ⟨fun c hc => hp v hv c (.inl hc), ?_⟩
      have hnd := mergeAll_nodup (σ.sub 0) vals 0 [] (by simp)
      intro r hr r' hr' h1 h2
      have a1 := alookup_of_mem hnd hr
      have a2 := alookup_of_mem hnd hr'
      have hn := hs v hv r.1 r'.1 h1 h2 (by rw [← merged_lookup ht (σ.sub 0), a1]; rfl)
        (by rw [← merged_lookup ht (σ.sub 0), a2]; rfl)
      rw [← hn, a1, Option.some.injEq] at a2
      exact Prod.ext hn a2)
  simp only [hR, hV]

theorem mergeRefs_nameVals (σ : Sched) : ∀ (vals : List GenVal) (i j : Nat) (refs : List (GoStr × Constraint)),
    mergeAll σ i (nameVals j vals) refs = mergeAll σ i vals refs
  | [], _, _, _ => rfl
  | v :: vals, i, j, refs => by
    rw [nameVals, mergeAll, mergeAll]
    have : (if v.name = [] then { v with name := b! "V" ++ natDec j } else v).refs = v.refs := by split <;> rfl
    rw [this]
    exact mergeRefs_nameVals σ vals (i + 1) (j + 1) _

theorem process_nameVals (vals : List GenVal) (σ : Sched) : process isPrint (nameVals 0 vals) σ = process isPrint vals σ := by
  unfold process
  rw [mergeRefs_nameVals, nameVals_named (fun v hv => nameVals_ne hv)]

theorem firstRef_nameVals (n : GoStr) : ∀ (vals : List GenVal) (i : Nat), firstRef n (nameVals i vals) = firstRef n vals
  | [], _ => rfl
  | v :: vals, i => by
    have : (if v.name = [] then { v with name := b! "V" ++ natDec i } else v).refs = v.refs := by split <;> rfl
    rw [nameVals]
    show List.findSome? _ _ = List.findSome? _ _
    rw [List.findSome?_cons, List.findSome?_cons, this]
    have ih := firstRef_nameVals n vals (i + 1)
    unfold firstRef at ih
    rw [ih]

/-- C76: generating a second time from the validators the first call left behind gives the same text. -/
theorem C76_repeat {vals : List GenVal} (hd : (valNames vals).Nodup) (ha : Agree vals) (ht : ∀ v ∈ vals, (v.refs.map (·.1)).Nodup)
    (hp : ∀ v ∈ vals, ∀ c, v.Has c → c.Every Constraint.DistinctPats)
    (hs : ∀ v ∈ vals, ∀ n n', v.same n = true → v.same n' = true → (firstRef n vals).isSome → (firstRef n' vals).isSome → n = n')
    (σ σ' : Sched) : process isPrint (afterProcess vals) σ' = process isPrint vals σ := by
  rw [← process_nameVals vals σ]
  symm
  refine C76_order (List.perm_insertionSort _ _).symm (fun v hv => nameVals_ne hv) (by rw [nameVals_names]; simpa [valNames] using hd) ?_ ?_ ?_ ?_ σ σ'
  · intro v hv w hw n c d h1 h2
    obtain ⟨v', hv', e1, -, -⟩ := mem_nameVals hv
    obtain ⟨w', hw', e2, -, -⟩ := mem_nameVals hw
    exact ha v' hv' w' hw' n c d (e1 ▸ h1) (e2 ▸ h2)
  · intro v hv
    obtain ⟨v', hv', e1, -, -⟩ := mem_nameVals hv
    rw [e1]; exact ht v' hv'
  · intro v hv c hc
    obtain ⟨v', hv', e1, e2, -⟩ := mem_nameVals hv
    refine hp v' hv' c ?_
    rcases hc with hc | ⟨n, hc⟩
    · exact .inl (e2 ▸ hc)
    · exact .inr ⟨n, e1 ▸ hc⟩
  · intro v hv n n' h1 h2 h3 h4
    obtain ⟨v', hv', -, -, e3⟩ := mem_nameVals hv
    rw [firstRef_nameVals] at h3 h4
    exact hs v' hv' n n' (e3 ▸ h1) (e3 ▸ h2) h3 h4

/-- Twelve unnamed validators (so `V10` comes before `V2` after the first call), two of them with a shared reference. -/
def exTwelve : List GenVal :=
  ⟨[], [(b! "a", .null)], some .empty, fun _ => false⟩ :: ⟨[], [(b! "a", .null), (b! "b", .empty)], some .null, fun n => decide (n = b! "a")⟩ ::
  List.replicate 10 ⟨[], [], some (.boolean none), fun _ => false⟩

theorem exTwelve_cases {v : GenVal} (h : v ∈ exTwelve) : v = ⟨[], [(b! "a", .null)], some .empty, fun _ => false⟩ ∨
    v = ⟨[], [(b! "a", .null), (b! "b", .empty)], some .null, fun n => decide (n = b! "a")⟩ ∨ v = ⟨[], [], some (.boolean none), fun _ => false⟩ := by
  simp only [exTwelve, List.mem_cons, List.mem_replicate] at h
  rcases h with h | h | ⟨-, h⟩
  · exact .inl h
  · exact .inr (.inl h)
  · exact .inr (.inr h)

/-- The example meets the hypotheses, -/
example (σ σ' : Sched) : process isPrint (afterProcess exTwelve) σ' = process isPrint exTwelve σ := by
  refine C76_repeat (by decide +kernel) ?_ ?_ ?_ ?_ σ σ'
  · intro v hv w hw n c d h1 h2
    rcases exTwelve_cases hv with rfl | rfl | rfl <;> rcases exTwelve_cases hw with rfl | rfl | rfl <;>
      simp only [alookup] at h1 h2 <;> (try split_ifs at h1) <;> (try split_ifs at h2) <;> simp_all
  · intro v hv
    rcases exTwelve_cases hv with rfl | rfl | rfl <;> decide
  · intro v hv c hc
    have hl : c = .null ∨ c = .empty ∨ c = .boolean none := by
      rcases exTwelve_cases hv with rfl | rfl | rfl <;> rcases hc with hc | ⟨n, hc⟩ <;> simp only [alookup] at hc <;>
        (try split_ifs at hc) <;> simp_all
    rcases hl with rfl | rfl | rfl <;> exact .intro trivial (by simp [Constraint.kids])
  · intro v hv n n' h1 h2 _ _
    rcases exTwelve_cases hv with rfl | rfl | rfl
    · cases h1
    · simp at h1 h2; rw [h1, h2]
    · cases h1

/-- and its order does change. -/
example : (afterProcess exTwelve).map (·.name) ≠ (nameVals 0 exTwelve).map (·.name) := by decide +kernel

/-- Two validators that register different constraints under `#`. -/
def exClash : List GenVal :=
  [⟨b! "B", [(b! "#", .null)], some (.ref 0 (b! "#")), fun _ => false⟩, ⟨b! "A", [(b! "#", .empty)], some (.ref 1 (b! "#")), fun _ => false⟩]

/-- C76 as worded is false: if validators disagree about a name, then the second text is another one, because the first
call has changed the order of the caller's slice. -/
theorem C76_refuted : ¬ ∀ isPrint vals σ, process isPrint (afterProcess vals) σ = process isPrint vals σ := by
  intro h
  have h1 : G.contains (process (fun _ => true) exClash sched0) (b! "R0 = jsval.Null") = true := by decide +kernel
  have h2 : G.contains (process (fun _ => true) (afterProcess exClash) sched0) (b! "R0 = jsval.Null") = false := by decide +kernel
  rw [← h _ exClash sched0, h2] at h1
  cases h1

/-! ## C77 -/

open Go

/-- C77, where it holds: if the validators agree on what they register, and each registers what it refers to, then every
one of the validators set up by the generated program does with every value what the original does with its own
references. -/
theorem C77_together_partial {vals : List GenVal} (h : Supported vals) (ha : Agree vals) (σ : Sched) :
    ∃ t p mem, process isPrint vals σ = .ok t ∧ parseProg t = some p ∧ p.run = some mem ∧
      ∀ (i : Nat) (v : GenVal) (x : GoStr), vals[i]? = some v → (valNames vals)[i]? = some x →
      ∃ c jv c', v.root = some c ∧ alookup x mem.vars = some (.jv jv) ∧ jv.name = x ∧ jv.root = some c' ∧
        ∀ (ext : Ext) (m : Nat) (env : Env), (∀ n, env m n = alookup n v.refs) →
          (∀ d, v.Has d → d.Every (Constraint.RefsTo m (fun n => (alookup n v.refs).isSome))) →
          SameOutcomes ext env c mem.env c' := by
  obtain ⟨t, p, mem, h1, h2, h3, hs⟩ := C69_program (isPrint := isPrint) h σ
  refine ⟨t, p, mem, h1, h2, h3, fun i v x hv hx => ?_⟩
  obtain ⟨c, jv, c', a1, a2, a3, a4, hsem⟩ := hs i v x hv hx
  refine ⟨c, jv, c', a1, a2, a3, a4, fun ext m env he hr => hsem ext m env he (fun d hd e hin k n hk => ?_)⟩
  obtain ⟨b1, b2⟩ := hr d hd e hin k n hk
  refine ⟨b1, ?_⟩
  obtain ⟨f, hf⟩ := Option.isSome_iff_exists.1 b2
  have hm := List.mem_of_getElem? hv
  obtain ⟨g, hg⟩ := Option.isSome_iff_exists.1 (firstRef_isSome.2 ⟨v, hm, b2⟩)
  obtain ⟨w, hw, e'⟩ := firstRef_mem hg
  rw [hg, hf, ha w hw v hm n g f e' hf]

/-- The validators of `exVals` (Props/Generator.lean), which share the reference `#/node`, meet the hypotheses. -/
example : Supported exVals ∧ Agree exVals ∧
    ∀ v ∈ exVals, ∀ d, v.Has d → d.Every (Constraint.RefsTo 0 (fun n => (alookup n v.refs).isSome)) := by
  refine ⟨exVals_supported, ?_, ?_⟩
  · intro v hv w hw n c d h1 h2
    simp only [exVals, List.mem_cons, List.not_mem_nil, or_false] at hv hw
    rcases hv with rfl | rfl <;> rcases hw with rfl | rfl <;>
      simp only [alookup] at h1 h2 <;> (try split_ifs at h1) <;> (try split_ifs at h2) <;> simp_all
  · intro v hv d hd e he m n hm
    obtain ⟨a, b⟩ := exVals_refs v hv d hd e he m n hm
    refine ⟨a, ?_⟩
    subst b
    simp only [exVals, List.mem_cons, List.not_mem_nil, or_false] at hv
    rcases hv with rfl | rfl <;> rfl

theorem exClash_supported : Supported exClash := by
  have hnames : valNames exClash = [b! "B", b! "A"] := by rfl
  have hc : ∀ v ∈ exClash, ∀ c, v.Has c → c = .null ∨ c = .empty ∨ c = .ref 0 (b! "#") ∨ c = .ref 1 (b! "#") := by
    intro v hv c hc
    simp only [exClash, List.mem_cons, List.not_mem_nil, or_false] at hv
    rcases hv with rfl | rfl <;> rcases hc with hc | ⟨n, hc⟩ <;> simp only [alookup] at hc <;> (try split_ifs at hc) <;> simp_all
  have hgen : ∀ v ∈ exClash, ∀ c, v.Has c → c.Every (Constraint.Gen (hasRefs exClash)) := by
    intro v hv c h
    have : hasRefs exClash = true := by rfl
    rw [this]
    rcases hc v hv c h with rfl | rfl | rfl | rfl
    · exact .intro trivial (by simp [Constraint.kids])
    · exact .intro trivial (by simp [Constraint.kids])
    · exact .intro ⟨rfl, by simp [Plain]⟩ (by simp [Constraint.kids])
    · exact .intro ⟨rfl, by simp [Plain]⟩ (by simp [Constraint.kids])
  refine ⟨by decide, ?_, ?_, ?_, ?_, ?_, ?_⟩
  · rw [hnames]
    intro x hx
    simp only [List.mem_cons, List.not_mem_nil, or_false] at hx
    rcases hx with rfl | rfl
    · exact ⟨⟨_, _, rfl, by decide⟩, by decide, by decide⟩
    · exact ⟨⟨_, _, rfl, by decide⟩, by decide, by decide⟩
  · rw [hnames]; decide
  · rw [hnames]
    intro x hx
    simp only [List.mem_cons, List.not_mem_nil, or_false] at hx
    rcases hx with rfl | rfl <;> exact ⟨by decide, not_own (by decide) (fun k => by simp)⟩
  · intro v hv
    have : ∃ c, v.root = some c := by
      simp only [exClash, List.mem_cons, List.not_mem_nil, or_false] at hv
      rcases hv with rfl | rfl <;> exact ⟨_, rfl⟩
    obtain ⟨c, hc⟩ := this
    exact ⟨c, hc, hgen v hv c (.inl hc)⟩
  · intro v hv n c hc
    exact hgen v hv c (.inr ⟨n, hc⟩)
  · intro v hv n c hf hs
    simp only [exClash, List.mem_cons, List.not_mem_nil, or_false] at hv
    rcases hv with rfl | rfl <;> cases hs

/-- C77 as worded is false. Of `exClash`, the validator `A` refers to `#`, where it registers the constraint that accepts
everything. Generated together with `B`, which registers `NullConstraint` there, it comes out as a validator that rejects
`true`. -/
theorem C77_refuted (ext : Ext) (σ : Sched) : ∃ t p mem jv c', process isPrint exClash σ = .ok t ∧ parseProg t = some p ∧
    p.run = some mem ∧ alookup (b! "A") mem.vars = some (.jv jv) ∧ jv.root = some c' ∧
    (∀ τ, Returns ext (fun _ n => alookup n [(b! "#", .empty)]) (.ref 1 (b! "#")) τ (.bool true) .ok (.bool true)) ∧
    ∀ τ, Returns ext mem.env c' τ (.bool true) (.err .notNull) (.bool true) := by
  obtain ⟨t, p, mem, h1, h2, _, h3, hs⟩ := process_setUp (isPrint := isPrint) exClash_supported σ
  refine ⟨t, p, mem, _, _, h1, h2, h3, hs.roots 1 _ _ rfl rfl (b! "A") rfl, rfl, fun τ => ⟨by simp, 1, rfl⟩, fun τ => ⟨by simp, 1, ?_⟩⟩
  have he : mem.env 0 (b! "#") = some .null := by rw [hs.env]; rfl
  show (refSem ext mem.env 1 0 (b! "#")).val τ (.bool true) = _
  simp only [refSem, he]
  rfl

end Jsval
