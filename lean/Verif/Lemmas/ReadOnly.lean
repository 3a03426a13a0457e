import Verif.Lemmas.Object
/-!
# Storing back what was read changes nothing
-/
namespace Jsval

theorem fieldsSet_nil {fn : GoStr} {y : GoVal} : ∀ (d : Nat) {fs : List (Field × GoVal)}, fieldsAt fn d fs = [] →
    fieldsSet fn y d fs = fs
  | 0, fs, h => by
    simp only [fieldsAt, List.map_eq_nil_iff, List.filter_eq_nil_iff, decide_eq_true_eq] at h
    simp only [fieldsSet]
    conv_rhs => rw [← List.map_id fs]
    apply List.map_congr_left
    intro p hp
    simp [h p hp]
  | d + 1, fs, h => by
    simp only [fieldsAt, List.flatMap_eq_nil_iff] at h
    simp only [fieldsSet]
    conv_rhs => rw [← List.map_id fs]
    apply List.map_congr_left
    rintro ⟨f, v⟩ hp
    have := h (f, v) hp
    cases ha : f.anonymous with
    | false => simp
    | true =>
      cases v <;> simp only [ha, if_true, id] at this ⊢
      rw [fieldsSet_nil d this]

theorem fieldsSet_same {fn : GoStr} {x : GoVal} : ∀ (d : Nat) {fs : List (Field × GoVal)}, fieldsAt fn d fs = [x] →
    fieldsSet fn x d fs = fs
  | 0, fs, h => by
    simp only [fieldsAt] at h
    simp only [fieldsSet]
    conv_rhs => rw [← List.map_id fs]
    apply List.map_congr_left
    rintro ⟨f, v⟩ hp
    by_cases hf : f.name = fn
    · have : v ∈ (fs.filter (fun p => decide (p.1.name = fn))).map (·.2) :=
        List.mem_map.2 ⟨(f, v), List.mem_filter.2 ⟨hp, by simp [hf]⟩, rfl⟩
      rw [h, List.mem_singleton] at this
      simp [hf, this]
    · simp [hf]
  | d + 1, fs, h => by
    simp only [fieldsAt] at h
    simp only [fieldsSet]
    conv_rhs => rw [← List.map_id fs]
    apply List.map_congr_left
    rintro ⟨f, v⟩ hp
    cases ha : f.anonymous with
    | false => simp
    | true =>
      cases v with
      | struct fs' =>
        simp only [if_true, id]
        have hsub : fieldsAt fn d fs' = [] ∨ fieldsAt fn d fs' = [x] := by
          obtain ⟨l1, l2, rfl⟩ := List.append_of_mem hp
          simp only [List.flatMap_append, List.flatMap_cons, ha, if_true] at h
          rcases hl : fieldsAt fn d fs' with _ | ⟨y, ys⟩
          · exact Or.inl rfl
          · right
            rw [hl] at h
            have hlen := congrArg List.length h
            simp only [List.length_append, List.length_cons, List.length_nil] at hlen
            have hys : ys = [] := List.length_eq_zero_iff.1 (by omega)
            subst hys
            have hy : y ∈ [x] := by rw [← h]; simp
            simp at hy
            rw [hy]
        rcases hsub with hs | hs
        · rw [fieldsSet_nil d hs]
        · rw [fieldsSet_same d hs]
      | _ => simp

theorem setField_same {fn : GoStr} {x : GoVal} {fs : List (Field × GoVal)} (h : fieldByName fn fs = some x) :
    setField fn x fs = fs := by
  unfold fieldByName at h
  unfold setField
  cases hd : fieldDepth fn fs with
  | none => rfl
  | some d =>
    rw [hd, Option.bind_some] at h
    have hlen : (fieldsAt fn d fs).length = 1 := by
      unfold fieldDepth at hd
      rw [Option.bind_eq_some_iff] at hd
      obtain ⟨d', _, h2⟩ := hd
      split at h2
      · cases h2; assumption
      · cases h2
    rcases hl : fieldsAt fn d fs with _ | ⟨y, ys⟩
    · rw [hl] at h; simp at h
    · rw [hl] at h hlen
      simp only [List.head?_cons, Option.some.injEq] at h
      subst h
      have : ys = [] := List.length_eq_zero_iff.1 (by simpa using hlen)
      subst this
      exact fieldsSet_same d hl

theorem putAt_same {t : GoVal} {p : GoStr} {x : GoVal} (h : getProp (some t) p = .ok (some x)) : putAt t p x = t := by
  cases t with
  | map n kvs =>
    simp only [getProp, Except.ok.injEq] at h
    simp [putAt, ainsert_same h]
  | struct fs =>
    simp only [getProp] at h
    cases he : extract fs with
    | none => simp [putAt, he]
    | some props =>
      rw [he] at h
      simp only at h
      cases hp : alookup p props with
      | none => simp [putAt, he, hp]
      | some info =>
        rw [hp] at h
        simp only [Except.ok.injEq] at h
        simp [putAt, he, hp, setField_same h]
  | _ => rfl

theorem putProp_same {v : GoVal} {p : GoStr} {x : GoVal} (h : getProp (valueOf v).indirect p = .ok (some x)) :
    putProp v p x = v := by
  cases v with
  | ptr q =>
    cases q with
    | none => rfl
    | some t => simp only [putProp]; rw [putAt_same (by simpa [valueOf, RV.indirect] using h)]
  | iface t =>
    simp only [putProp]
    cases t with
    | nil => rfl
    | _ => rw [putAt_same (by simpa [valueOf, RV.indirect] using h)]
  | nil => rfl
  | _ => exact putAt_same (by simpa [valueOf, RV.indirect] using h)

theorem viewProp_stored {rv : RV} {p : GoStr} {x : GoVal} (h : viewProp rv p = .ok (.present x true)) :
    getProp rv p = .ok (some x) := by
  unfold viewProp at h
  rcases hg : getProp rv p with a | w
  · rw [hg] at h; cases h
  · rw [hg] at h
    cases w with
    | none => cases h
    | some pval =>
      simp only at h
      split at h
      · split at h
        · split at h <;> cases h
        · split at h <;> cases h
        · cases h; rfl
      · cases h; rfl

section
variable (ext : Ext) (o : ObjC Sem)

/-- A child that never modifies anything. -/
def Sem.ReadOnly (s : Sem) : Prop := ∀ v, s.ReadOnlyOn v

theorem propStep_readOnly {σ : Sched} {i : Nat} {p : GoStr} {c : Sem} {st : ObjSt} (hc : c.ReadOnly)
    (hd : viewProp (valueOf st.v).indirect p = .ok .absent → ∀ dv, c.dflt ≠ .some dv) :
    (propStep ext o σ i (p, c) st).2.v = st.v := by
  unfold propStep
  rcases hv : viewProp (valueOf st.v).indirect p with a | pv
  · simp only
  · cases pv with
    | absent =>
      simp only
      split
      · rfl
      · split
        · rfl
        · rfl
        · rename_i dv hdv; exact absurd hdv (hd hv dv)
    | present x s =>
      rcases hcv : c.val (σ.sub i) x with ⟨r, x'⟩
      have hx : x' = x := by
        have h' : (c.val (σ.sub i) x).2 = x := hc x (σ.sub i)
        rw [hcv] at h'; exact h'
      subst hx
      have : (if s = true then putProp st.v p x' else st.v) = st.v := by
        split
        · rename_i hs; subst hs; exact putProp_same (viewProp_stored hv)
        · rfl
      simp only [hcv, this]
      cases r <;> rfl

theorem patStep_readOnly {src : GoStr} {σ : Sched} {i : Nat} {k : GoStr} {c : Sem} {st : ObjSt} (hc : c.ReadOnly) :
    (patStep ext src c σ i k st).2.v = st.v := by
  unfold patStep
  split
  · rfl
  · rcases hg : getProp (valueOf st.v).indirect k with a | w
    · rfl
    · cases w with
      | none => rfl
      | some x =>
        rcases hcv : c.val (σ.sub i) x with ⟨r, x'⟩
        have hx : x' = x := by
          have h' : (c.val (σ.sub i) x).2 = x := hc x (σ.sub i)
          rw [hcv] at h'; exact h'
        subst hx
        simp only [hcv, putProp_same hg]
        cases r <;> rfl

theorem addlStep_readOnly {σ : Sched} {i : Nat} {k : GoStr} {c : Sem} {st : ObjSt} (hc : c.ReadOnly) :
    (addlStep c σ i k st).2.v = st.v := by
  unfold addlStep
  rcases hg : getProp (valueOf st.v).indirect k with a | w
  · rfl
  · cases w with
    | none => rfl
    | some x =>
      rcases hcv : c.val (σ.sub i) x with ⟨r, x'⟩
      have hx : x' = x := by
        have h' : (c.val (σ.sub i) x).2 = x := hc x (σ.sub i)
        rw [hcv] at h'; exact h'
      subst hx
      simp only [hcv, putProp_same hg]
      cases r <;> rfl

theorem depStep_readOnly {σ : Sched} {i : Nat} {k : GoStr} {st : ObjSt}
    (hc : ∀ depc, o.GetSchemaDependency k = some depc → depc.ReadOnly) : (depStep o σ i k st).2.v = st.v := by
  unfold depStep
  split
  · rfl
  · split
    · rfl
    · rename_i depc hs
      rcases hcv : depc.val (σ.sub i) st.v with ⟨r, v'⟩
      have h' : (depc.val (σ.sub i) st.v).2 = st.v := hc depc hs st.v (σ.sub i)
      rw [hcv] at h'
      exact h'

theorem propLoop_readOnly {σ : Sched} {i : Nat} {l : List (GoStr × Sem)} {st : ObjSt}
    (hc : ∀ pc ∈ l, pc.2.ReadOnly)
    (hd : ∀ pc ∈ l, viewProp (valueOf st.v).indirect pc.1 = .ok .absent → ∀ dv, pc.2.dflt ≠ .some dv) :
    (forLoop (propStep ext o σ) i l st).2.v = st.v := by
  apply forLoop_inv (fun s => s.v = st.v) i l st _ rfl
  rintro i ⟨p, c⟩ ha s hs
  rw [propStep_readOnly ext o (hc _ ha) (by rw [hs]; exact hd _ ha), hs]

theorem patLoop_readOnly {σ : Sched} {i : Nat} {l : List (Nat × GoStr × Sem)} {st : ObjSt}
    (hc : ∀ pc ∈ l, pc.2.2.ReadOnly) :
    (forLoop (patOuter ext σ) i l st).2.v = st.v := by
  apply forLoop_inv (fun s => s.v = st.v) i l st _ rfl
  rintro i ⟨id, src, c⟩ ha s hs
  unfold patOuter
  apply forLoop_inv (fun s => s.v = st.v) 0 _ s _ hs
  intro i k _ s' hs'
  rw [patStep_readOnly ext (hc _ ha), hs']

theorem addlPhase_readOnly {σ : Sched} {st : ObjSt}
    (hc : ∀ c, o.additional = some c → c.ReadOnly) : (addlPhase o σ st).2.v = st.v := by
  unfold addlPhase
  split
  · cases ha : o.additional with
    | none => rfl
    | some c =>
      simp only
      apply forLoop_inv (fun s => s.v = st.v) 0 _ st _ rfl
      intro i k _ s' hs'
      rw [addlStep_readOnly (hc c ha), hs']
  · rfl

theorem depLoop_readOnly' {σ : Sched} {i : Nat} {l : List GoStr} {st : ObjSt}
    (hc : ∀ k depc, o.GetSchemaDependency k = some depc → depc.ReadOnly) :
    (forLoop (depStep o σ) i l st).2.v = st.v := by
  apply forLoop_inv (fun s => s.v = st.v) i l st _ rfl
  intro i k _ s' hs'
  rw [depStep_readOnly o (hc k), hs']

end

end Jsval
