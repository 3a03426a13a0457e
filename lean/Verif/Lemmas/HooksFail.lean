import Verif.Lemmas.HooksSim
/-!
# Property methods that fail
-/
namespace Jsval
variable {hk hk' : Hooks} {ext : Ext}

/-- The two sets of methods give the package the same properties. -/
structure HooksAgree (hk hk' : Hooks) : Prop where
  names : ∀ rv, getPropNamesH hk rv = getPropNamesH hk' rv
  get : ∀ rv p, getPropH hk rv p = getPropH hk' rv p
  set : ∀ ext v p x, setPropH hk ext v p x = setPropH hk' ext v p x
  put : ∀ v p x, putPropH hk v p x = putPropH hk' v p x

theorem objectVH_agree (h : HooksAgree hk hk') (o : ObjC Sem) : objectVH hk ext o = objectVH hk' ext o := by
  have hv : viewPropH hk = viewPropH hk' := by
    funext rv p
    unfold viewPropH
    rw [h.get]
  have h1 : propStepH hk ext o = propStepH hk' ext o := by
    funext σ i pc st
    unfold propStepH
    simp only [hv, h.set, h.put]
  have h2 : patOuterH hk ext = patOuterH hk' ext := by
    funext σ j p st
    unfold patOuterH
    have : patStepH hk ext p.2.1 p.2.2 = patStepH hk' ext p.2.1 p.2.2 := by
      funext σ i n st
      unfold patStepH
      simp only [h.get, h.put]
    rw [this]
  have h3 : addlPhaseH hk o = addlPhaseH hk' o := by
    funext σ st
    unfold addlPhaseH
    have : ∀ c, addlStepH hk c = addlStepH hk' c := by
      intro c
      funext σ i n st
      unfold addlStepH
      simp only [h.get, h.put]
    simp only [this]
  funext σ v
  unfold objectVH objLoopsH
  simp only [h.names, h1, h2, h3]

mutual
theorem denoteH_agree (h : HooksAgree hk hk') (ρ : RefSem) : ∀ c, denoteH hk ext ρ c = denoteH hk' ext ρ c
  | .empty => by simp only [denoteH]
  | .null => by simp only [denoteH]
  | .boolean _ => by simp only [denoteH]
  | .string _ => by simp only [denoteH]
  | .number _ => by simp only [denoteH]
  | .integer _ => by simp only [denoteH]
  | .enum _ => by simp only [denoteH]
  | .ref _ _ => by simp only [denoteH]
  | .array ⟨i, p, a, _, _, _⟩ => by
    simp only [denoteH, denoteOptH_agree h ρ i, denoteListH_agree h ρ p, denoteOptH_agree h ρ a]
  | .object ⟨ps, pats, a, _, _, sd, _, _⟩ => by
    simp only [denoteH, denotePropsH_agree h ρ ps, denotePatsH_agree h ρ pats, denoteOptH_agree h ρ a, denotePropsH_agree h ρ sd, objectVH_agree h]
  | .any cs => by simp only [denoteH, denoteListH_agree h ρ cs]
  | .all cs => by simp only [denoteH, denoteListH_agree h ρ cs]
  | .oneOf cs => by simp only [denoteH, denoteListH_agree h ρ cs]
  | .not c => by simp only [denoteH, denoteOptH_agree h ρ c]
theorem denoteOptH_agree (h : HooksAgree hk hk') (ρ : RefSem) : ∀ c, denoteOptH hk ext ρ c = denoteOptH hk' ext ρ c
  | none => rfl
  | some c => by simp only [denoteOptH, denoteH_agree h ρ c]
theorem denoteListH_agree (h : HooksAgree hk hk') (ρ : RefSem) : ∀ cs, denoteListH hk ext ρ cs = denoteListH hk' ext ρ cs
  | [] => rfl
  | c :: cs => by simp only [denoteListH, denoteH_agree h ρ c, denoteListH_agree h ρ cs]
theorem denotePropsH_agree (h : HooksAgree hk hk') (ρ : RefSem) : ∀ cs, denotePropsH hk ext ρ cs = denotePropsH hk' ext ρ cs
  | [] => rfl
  | (n, c) :: cs => by simp only [denotePropsH, denoteH_agree h ρ c, denotePropsH_agree h ρ cs]
theorem denotePatsH_agree (h : HooksAgree hk hk') (ρ : RefSem) : ∀ cs, denotePatsH hk ext ρ cs = denotePatsH hk' ext ρ cs
  | [] => rfl
  | (i, s, c) :: cs => by simp only [denotePatsH, denoteH_agree h ρ c, denotePatsH_agree h ρ cs]
end

theorem refSemH_agree (h : HooksAgree hk hk') (env : Env) : ∀ k, refSemH hk ext env k = refSemH hk' ext env k
  | 0 => rfl
  | k + 1 => by
    funext m n
    simp only [refSemH, refSemH_agree h env k, denoteH_agree h]

theorem semH_agree (h : HooksAgree hk hk') (env : Env) (fuel : Nat) (c : Constraint) : semH hk ext env fuel c = semH hk' ext env fuel c := by
  simp only [semH, refSemH_agree h, denoteH_agree h]

theorem quiet_agree (hk : Hooks) : HooksAgree hk hk.quiet := by
  have hset : ∀ ext ad fs p x, setPropStructH hk ext ad fs p x = setPropStructH hk.quiet ext ad fs p x := by
    intro ext ad fs p x
    simp only [setPropStructH, Hooks.quiet]
    rcases hk.set fs with _ | g
    · rcases hk.value fs p with _ | _ | x <;> rfl
    · rfl
  have hat : ∀ ext ad v p x, setPropAtH hk ext ad v p x = setPropAtH hk.quiet ext ad v p x := by
    intro ext ad v p x
    unfold setPropAtH
    simp only [hset]
  have hrv : ∀ ext ad v p x, setPropRVH hk ext ad v p x = setPropRVH hk.quiet ext ad v p x := by
    intro ext ad v p x
    unfold setPropRVH
    simp only [hat]
  have hput : ∀ v p x, putAtH hk v p x = putAtH hk.quiet v p x := by
    intro v p x
    unfold putAtH
    split
    · rename_i fs
      simp only [Hooks.quiet]
      rcases hk.value fs p with _ | _ | y <;> rfl
    · rfl
  refine ⟨fun rv => ?_, fun rv p => ?_, fun ext v p x => ?_, fun v p x => ?_⟩
  · unfold getPropNamesH
    split
    · rename_i fs _
      simp only [Hooks.quiet]
      rcases hk.names fs with _ | _ | l <;> rfl
    · rfl
  · unfold getPropH
    split
    · rename_i fs
      simp only [Hooks.quiet]
      rcases hk.value fs p with _ | _ | l <;> rfl
    · rfl
  · unfold setPropH
    simp only [hat, hrv]
  · unfold putPropH
    simp only [hput]

/-! ## Values that stay structs -/

/-- A struct or a pointer to one. -/
def StructLike (v : GoVal) : Prop := ∃ fs, v = .struct fs ∨ v = .ptr (some (.struct fs))

theorem StructLike.indirect {v : GoVal} (h : StructLike v) : ∃ fs, (valueOf v).indirect = some (.struct fs) := by
  obtain ⟨fs, rfl | rfl⟩ := h <;> exact ⟨fs, rfl⟩

theorem putAt_structLike (fs : Fields) (p : GoStr) (x : GoVal) : ∃ fs', putAtH hk (.struct fs) p x = .struct fs' := by
  unfold putAtH
  split
  · rename_i e
    cases e
    split
    · exact ⟨_, rfl⟩
    · simp only [putAt]
      split <;> exact ⟨_, rfl⟩
  · rename_i h; exact absurd rfl (h fs)

theorem StructLike.put {v : GoVal} (h : StructLike v) (p : GoStr) (x : GoVal) : StructLike (putPropH hk v p x) := by
  obtain ⟨fs, rfl | rfl⟩ := h
  · obtain ⟨fs', e⟩ := putAt_structLike (hk := hk) fs p x
    exact ⟨fs', Or.inl (by simp [putPropH, e])⟩
  · obtain ⟨fs', e⟩ := putAt_structLike (hk := hk) fs p x
    exact ⟨fs', Or.inr (by simp [putPropH, e])⟩

theorem StructLike.set {v : GoVal} (h : StructLike v) (p : GoStr) (x : GoVal) : StructLike (setPropH hk ext v p x).2 := by
  obtain ⟨fs, rfl | rfl⟩ := h
  · exact ⟨_, Or.inl rfl⟩
  · exact ⟨_, Or.inr rfl⟩

theorem propStepH_structLike {o : ObjC Sem} {σ : Sched} {i : Nat} {pc : GoStr × Sem} {st : ObjSt} (h : StructLike st.v) :
    StructLike (propStepH hk ext o σ i pc st).2.v := by
  unfold propStepH
  split
  · exact h
  · split
    · exact h
    · split
      · exact h
      · exact h
      · rename_i dv _
        have := h.set (hk := hk) (ext := ext) pc.1 dv
        split <;> (rename_i e; rw [e] at this; exact this)
  · rename_i x stored _
    rcases pc.2.val (σ.sub i) x with ⟨r, x'⟩
    have : StructLike (if stored = true then putPropH hk st.v pc.1 x' else st.v) := by
      split
      · exact h.put _ _
      · exact h
    cases r <;> exact this

theorem patStepH_structLike {src : GoStr} {c : Sem} {σ : Sched} {i : Nat} {n : GoStr} {st : ObjSt} (h : StructLike st.v) :
    StructLike (patStepH hk ext src c σ i n st).2.v := by
  unfold patStepH
  split
  · exact h
  · split
    · exact h
    · exact h
    · rename_i x _
      rcases c.val (σ.sub i) x with ⟨r, x'⟩
      have := h.put (hk := hk) n x'
      cases r <;> exact this

/-- If the loop goes through, so did every turn, each from a state of the invariant. -/
theorem forLoop_ok_each {α S : Type} {step : Nat → α → S → Res × S} {I : S → Prop} (hI : ∀ i a st, I st → I (step i a st).2) :
    ∀ (l : List α) (i : Nat) (st : S), I st → (forLoop step i l st).1 = .ok → ∀ a ∈ l, ∃ j st', I st' ∧ (step j a st').1 = .ok
  | [], _, _, _, _, _, ha => by cases ha
  | a :: l, i, st, hs, h, b, hb => by
    rw [forLoop] at h
    have h1 := hI i a st hs
    rcases e : step i a st with ⟨r, u⟩
    rw [e] at h h1
    cases r with
    | ok =>
      rcases List.mem_cons.1 hb with rfl | hb
      · exact ⟨i, st, hs, by rw [e]⟩
      · exact forLoop_ok_each hI l (i + 1) u h1 h b hb
    | err e => cases h
    | abort a => cases h

theorem forLoop_ok_inv {α S : Type} {step : Nat → α → S → Res × S} {I : S → Prop} {l : List α} (hI : ∀ i, ∀ a ∈ l, ∀ st, I st → (step i a st).1 = .ok → I (step i a st).2)
    (i : Nat) (st : S) (hs : I st) (h : (forLoop step i l st).1 = .ok) : I (forLoop step i l st).2 := by
  induction l generalizing i st with
  | nil => exact hs
  | cons a l ih =>
    rw [forLoop] at h ⊢
    have h1 := hI i a (by simp) st hs
    rcases e : step i a st with ⟨r, u⟩
    rw [e] at h h1
    cases r with
    | ok => exact ih (fun i b hb => hI i b (by simp [hb])) (i + 1) u (h1 rfl) h
    | err e => cases h
    | abort a => cases h

/-- What an accepting run of the object constraint went through. -/
theorem objectVH_ok {o : ObjC Sem} {σ : Sched} {v : GoVal} (h : (objectVH hk ext o σ v).1 = .ok) :
    ∃ fields, getPropNamesH hk (valueOf v).indirect = .ok fields ∧
      (objLoopsH hk ext o σ ⟨v, nameSet fields, []⟩).1 = .ok := by
  unfold objectVH at h
  rcases e : getPropNamesH hk (valueOf v).indirect with s | fields
  · rw [e] at h
    cases s <;> cases h
  · rw [e] at h
    simp only at h
    split at h
    · cases h
    · split at h
      · cases h
      · exact ⟨fields, rfl, h⟩

/-- A default that `SetPropValue` refuses, or a nil one, with which it cannot be called. -/
theorem set_refused {o : ObjC Sem} {σ : Sched} {v : GoVal} (hv : StructLike v) {p : GoStr} {c : Sem} (hp : (p, c) ∈ o.props) {dv : GoVal} (hd : c.dflt = .some dv)
    (hget : ∀ fs, hk.value fs p = some (some .nil)) (hset : ∀ fs, ∃ f, hk.set fs = some f ∧ (dv = .nil ∨ (f p dv).1 ≠ none)) :
    (objectVH hk ext o σ v).1 ≠ .ok := by
  intro h
  obtain ⟨fields, -, h⟩ := objectVH_ok h
  unfold objLoopsH at h
  obtain ⟨h1, -⟩ := seqSt_ok.1 h
  obtain ⟨j, st, hs, hok⟩ := forLoop_ok_each (I := fun st : ObjSt => StructLike st.v) (fun i a st hs => propStepH_structLike hs) _ _ _ hv h1 (p, c) (mem_shuffle.2 hp)
  obtain ⟨fs, hi⟩ := hs.indirect
  have hview : viewPropH hk (valueOf st.v).indirect p = .ok .absent := by
    refine viewPropH_absent ?_
    rw [hi]
    simp [getPropH, hget, valueOf]
  unfold propStepH at hok
  simp only [hview, hd] at hok
  split at hok
  · cases hok
  · have key : ∀ ad fs', ∃ s fs'', setPropStructH hk ext ad fs' p dv = (some s, fs'') := by
      intro ad fs'
      obtain ⟨f, h1, h2⟩ := hset fs'
      by_cases hn : dv = .nil
      · subst hn
        exact ⟨.abort .panic, fs', by unfold setPropStructH; rw [h1]⟩
      rcases e : f p dv with ⟨_ | e', fs''⟩
      · rw [e] at h2; exact absurd rfl (h2.resolve_left hn)
      · refine ⟨.err e', fs'', ?_⟩
        unfold setPropStructH
        rw [h1]
        cases dv <;> first | exact absurd rfl hn | simp only [e]
    have : ∃ s v', setPropH hk ext st.v p dv = (some s, v') := by
      obtain ⟨fs', e | e⟩ := hs
      · obtain ⟨s, fs'', e'⟩ := key false fs'
        exact ⟨s, .struct fs'', by rw [e]; simp [setPropH, setPropAtH, e']⟩
      · obtain ⟨s, fs'', e'⟩ := key true fs'
        exact ⟨s, .ptr (some (.struct fs'')), by rw [e]; simp [setPropH, setPropRVH, setPropAtH, e']⟩
    obtain ⟨s, v', e⟩ := this
    rw [e] at hok
    cases s <;> cases hok

/-- Without `SetPropValue`, a default for what `GetPropValue` says is nil or an unset Maybe, handed out by value. -/
theorem set_missing {o : ObjC Sem} {σ : Sched} {v : GoVal} (hv : StructLike v) {p : GoStr} {c : Sem} (hp : (p, c) ∈ o.props) {dv : GoVal} (hd : c.dflt = .some dv)
    {x : GoVal} (hx : x = .nil ∨ ∃ q, x = .maybe false q) (hget : ∀ fs, hk.value fs p = some (some x)) (hset : ∀ fs, hk.set fs = none) :
    (objectVH hk ext o σ v).1 ≠ .ok := by
  intro h
  obtain ⟨fields, -, h⟩ := objectVH_ok h
  unfold objLoopsH at h
  obtain ⟨h1, -⟩ := seqSt_ok.1 h
  obtain ⟨j, st, hs, hok⟩ := forLoop_ok_each (I := fun st : ObjSt => StructLike st.v) (fun i a st hs => propStepH_structLike hs) _ _ _ hv h1 (p, c) (mem_shuffle.2 hp)
  obtain ⟨fs, hi⟩ := hs.indirect
  have hview : viewPropH hk (valueOf st.v).indirect p = .ok .absent := by
    rcases hx with rfl | ⟨q, rfl⟩
    · refine viewPropH_absent ?_
      rw [hi]
      simp [getPropH, hget, valueOf]
    · rw [hi]
      simp [viewPropH, getPropH, hget, valueOf]
  unfold propStepH at hok
  simp only [hview, hd] at hok
  split at hok
  · cases hok
  · have key : ∀ ad fs', ∃ s fs'', setPropStructH hk ext ad fs' p dv = (some s, fs'') := by
      intro ad fs'
      rcases hx with rfl | ⟨q, rfl⟩
      · exact ⟨.err (.noField p), fs', by simp [setPropStructH, hset, hget]⟩
      · exact ⟨.abort .panic, fs', by simp [setPropStructH, hset, hget]⟩
    have : ∃ s v', setPropH hk ext st.v p dv = (some s, v') := by
      obtain ⟨fs', e | e⟩ := hs
      · obtain ⟨s, fs'', e'⟩ := key false fs'
        exact ⟨s, .struct fs'', by rw [e]; simp [setPropH, setPropAtH, e']⟩
      · obtain ⟨s, fs'', e'⟩ := key true fs'
        exact ⟨s, .ptr (some (.struct fs'')), by rw [e]; simp [setPropH, setPropRVH, setPropAtH, e']⟩
    obtain ⟨s, v', e⟩ := this
    rw [e] at hok
    cases s <;> cases hok

/-- A listed property without a value that no declared property takes. -/
theorem listed_nil {o : ObjC Sem} {σ : Sched} {v : GoVal} (hv : StructLike v) {fields : List GoStr} (hf : getPropNamesH hk (valueOf v).indirect = .ok fields)
    {p : GoStr} (hp : p ∈ fields) (hget : ∀ fs, hk.value fs p = some (some .nil)) : (objectVH hk ext o σ v).1 ≠ .ok := by
  intro h
  obtain ⟨fields', e, h⟩ := objectVH_ok h
  rw [hf] at e
  cases e
  have habs : ∀ {st : ObjSt}, StructLike st.v → getPropH hk (valueOf st.v).indirect p = .ok none := by
    intro st hs
    obtain ⟨fs, hi⟩ := hs.indirect
    rw [hi]
    simp [getPropH, hget, valueOf]
  unfold objLoopsH at h
  obtain ⟨h1, h⟩ := seqSt_ok.1 h
  obtain ⟨h2, h⟩ := seqSt_ok.1 h
  obtain ⟨h3, -⟩ := seqSt_ok.1 h
  have i1 := forLoop_ok_inv (I := fun st : ObjSt => StructLike st.v ∧ p ∈ st.premain) (fun i a _ st hs hok => ?_) _ _ ⟨hv, mem_nameSet.2 hp⟩ h1
  have i2 := forLoop_ok_inv (I := fun st : ObjSt => StructLike st.v ∧ p ∈ st.premain) (fun i a _ st hs hok => ?_) _ _ i1 h2
  · -- the additional properties
    unfold addlPhaseH at h3
    split at h3
    · split at h3
      · cases h3
      · rename_i c _
        have hst : ∀ i a (st : ObjSt), StructLike st.v → StructLike (addlStepH hk c (σ.sub 6) i a st).2.v := by
          intro i a st hs
          unfold addlStepH
          split
          · exact hs
          · exact hs
          · rename_i x _
            rcases c.val _ x with ⟨r, x'⟩
            have := hs.put (hk := hk) a x'
            cases r <;> exact this
        obtain ⟨j, st, hs, hok⟩ := forLoop_ok_each (I := fun st : ObjSt => StructLike st.v) hst _ _ _ i2.1 h3 p (mem_shuffle.2 i2.2)
        unfold addlStepH at hok
        simp only [habs hs] at hok
        cases hok
    · rename_i hl
      exact hl (List.length_pos_of_mem i2.2)
  · -- patterns
    unfold patOuterH at hok ⊢
    refine forLoop_ok_inv (I := fun st : ObjSt => StructLike st.v ∧ p ∈ st.premain) (fun i b _ st hs hok => ?_) _ _ hs hok
    refine ⟨patStepH_structLike hs.1, ?_⟩
    by_cases hbp : b = p
    · subst hbp
      unfold patStepH at hok ⊢
      rw [habs hs.1] at hok ⊢
      split
      · exact hs.2
      · exact hs.2
    · unfold patStepH
      split
      · exact hs.2
      · split
        · exact hs.2
        · exact hs.2
        · rename_i x _
          rcases a.2.2.val _ x with ⟨r, x'⟩
          have : p ∈ st.premain.filter (fun k => decide (k ≠ b)) := by
            simp only [List.mem_filter, decide_eq_true_eq]
            exact ⟨hs.2, fun e => hbp e.symm⟩
          cases r <;> exact this
  · -- declared properties: `p` itself is taken to be missing
    refine ⟨propStepH_structLike hs.1, ?_⟩
    by_cases hap : a.1 = p
    · unfold propStepH
      rw [hap, viewPropH_absent (habs hs.1)]
      simp only
      split
      · exact hs.2
      · split
        · exact hs.2
        · exact hs.2
        · split <;> exact hs.2
    · unfold propStepH
      split
      · exact hs.2
      · split
        · exact hs.2
        · split
          · exact hs.2
          · exact hs.2
          · split <;> exact hs.2
      · rename_i x stored _
        rcases a.2.val ((σ.sub 1).sub i) x with ⟨r, x'⟩
        have : p ∈ st.premain.filter (fun k => decide (k ≠ a.1)) := by
          simp only [List.mem_filter, decide_eq_true_eq]
          exact ⟨hs.2, fun e => hap e.symm⟩
        cases r <;> exact this

end Jsval
