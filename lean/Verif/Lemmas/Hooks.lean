import Verif.Spec.Hooks
import Verif.Lemmas.Basic
import Verif.Lemmas.Induct
/-!
# Validation of structs with property methods follows validation of the maps they show
-/
namespace Jsval
variable {hk : Hooks} {ext : Ext}

/-! ## The denotation -/

theorem denoteListH_eq (ext : Ext) (ρ : RefSem) : ∀ cs, denoteListH hk ext ρ cs = cs.map (denoteH hk ext ρ)
  | [] => by simp [denoteListH]
  | c :: cs => by simp [denoteListH, denoteListH_eq ext ρ cs]

theorem denoteOptH_eq (ext : Ext) (ρ : RefSem) : ∀ c, denoteOptH hk ext ρ c = c.map (denoteH hk ext ρ)
  | none => by simp [denoteOptH]
  | some c => by simp [denoteOptH]

theorem denotePropsH_eq (ext : Ext) (ρ : RefSem) :
    ∀ cs, denotePropsH hk ext ρ cs = cs.map (fun p => (p.1, denoteH hk ext ρ p.2))
  | [] => by simp [denotePropsH]
  | (n, c) :: cs => by simp [denotePropsH, denotePropsH_eq ext ρ cs]

theorem denotePatsH_eq (ext : Ext) (ρ : RefSem) :
    ∀ cs, denotePatsH hk ext ρ cs = cs.map (fun p => (p.1, p.2.1, denoteH hk ext ρ p.2.2))
  | [] => by simp [denotePatsH]
  | (i, s, c) :: cs => by simp [denotePatsH, denotePatsH_eq ext ρ cs]

theorem denoteH_array (ext : Ext) (ρ : RefSem) (a : ArrC Constraint) :
    denoteH hk ext ρ (.array a) = ⟨.none, arrayV ext (a.map (denoteH hk ext ρ))⟩ := by
  cases a; simp [denoteH, ArrC.map, denoteOptH_eq, denoteListH_eq]

theorem denoteH_object (ext : Ext) (ρ : RefSem) (o : ObjC Constraint) :
    denoteH hk ext ρ (.object o) = ⟨.none, objectVH hk ext (o.map (denoteH hk ext ρ))⟩ := by
  cases o; simp [denoteH, ObjC.map, denoteOptH_eq, denotePropsH_eq, denotePatsH_eq]

/-! ## Without methods -/

theorem getPropNamesH_noHooks (rv : RV) : getPropNamesH noHooks rv = getPropNames rv := by
  unfold getPropNamesH
  split <;> rfl

theorem getPropH_noHooks (rv : RV) (p : GoStr) : getPropH noHooks rv p = getProp rv p := by
  unfold getPropH
  split <;> rfl

theorem putAtH_noHooks (t : GoVal) (p : GoStr) (x : GoVal) : putAtH noHooks t p x = putAt t p x := by
  unfold putAtH
  split <;> rfl

theorem putPropH_noHooks (v : GoVal) (p : GoStr) (x : GoVal) : putPropH noHooks v p x = putProp v p x := by
  unfold putPropH putProp
  split <;> simp only [putAtH_noHooks]

theorem viewPropH_noHooks (rv : RV) (p : GoStr) : viewPropH noHooks rv p = viewProp rv p := by
  unfold viewPropH viewProp
  rw [getPropH_noHooks]
  rcases getProp rv p with a | (_ | x)
  · rfl
  · rfl
  · rcases rv with _ | v
    · rfl
    · cases v <;> rfl

/-- The result of `setProp` with the state it leaves. -/
def stopState (x : GoVal) : Except Stop GoVal → Option Stop × GoVal
  | .ok x' => (none, x')
  | .error s => (some s, x)

theorem setPropAtH_noHooks (ad : Bool) (x : GoVal) (p : GoStr) (val : GoVal) :
    setPropAtH noHooks ext ad x p val = stopState x (setPropAt ext ad x p val) := by
  unfold setPropAtH
  split
  · rename_i fs
    simp only [setPropStructH, noHooks, setPropAt]
    cases setPropStruct ext ad fs p val <;> rfl
  · cases setPropAt ext ad x p val <;> rfl

theorem setPropRVH_noHooks (ad : Bool) (x : GoVal) (p : GoStr) (val : GoVal) :
    setPropRVH noHooks ext ad x p val = stopState x (setPropRV ext ad x p val) := by
  cases x with
  | ptr o =>
    cases o with
    | none => simp only [setPropRVH, setPropRV]; exact setPropAtH_noHooks ad _ p val
    | some y =>
      simp only [setPropRVH, setPropRV, setPropAtH_noHooks]
      cases setPropAt ext true y p val <;> rfl
  | iface y =>
    simp only [setPropRVH, setPropRV, setPropAtH_noHooks]
    cases setPropAt ext false y p val <;> rfl
  | _ => simp only [setPropRVH, setPropRV]; exact setPropAtH_noHooks ad _ p val

theorem setPropH_noHooks (x : GoVal) (p : GoStr) (val : GoVal) :
    setPropH noHooks ext x p val = stopState x (setProp ext x p val) := by
  cases x with
  | ptr o =>
    cases o with
    | none => simp only [setPropH, setProp]; exact setPropAtH_noHooks false _ p val
    | some y =>
      simp only [setPropH, setProp, setPropRVH_noHooks]
      cases setPropRV ext true y p val <;> rfl
  | iface y =>
    simp only [setPropH, setProp, setPropRVH_noHooks]
    cases setPropRV ext false y p val <;> rfl
  | _ => simp only [setPropH, setProp]; exact setPropAtH_noHooks false _ p val

theorem propStepH_noHooks (o : ObjC Sem) : propStepH noHooks ext o = propStep ext o := by
  funext σ i pc st
  unfold propStepH propStep
  rw [viewPropH_noHooks]
  rcases viewProp (valueOf st.v).indirect pc.1 with a | (_ | ⟨x, b⟩)
  · rfl
  · by_cases hr : pc.1 ∈ o.required
    · simp only [hr, if_true]
    · simp only [hr, if_false]
      cases pc.2.dflt with
      | none => rfl
      | abort a => rfl
      | some dv =>
        simp only [setPropH_noHooks]
        rcases setProp ext st.v pc.1 dv with (e | a) | v' <;> rfl
  · simp only [putPropH_noHooks]
    rcases pc.2.val (σ.sub i) x with ⟨_ | _ | _, x'⟩ <;> rfl

theorem patStepH_noHooks (src : GoStr) (c : Sem) : patStepH noHooks ext src c = patStep ext src c := by
  funext σ i p st
  simp only [patStepH, patStep, getPropH_noHooks, putPropH_noHooks]
  split
  · rfl
  · rcases getProp (valueOf st.v).indirect p with a | (_ | x)
    · rfl
    · rfl
    · rcases hx : c.val (σ.sub i) x with ⟨_ | _ | _, x'⟩ <;> simp only [hx]

theorem addlStepH_noHooks (c : Sem) : addlStepH noHooks c = addlStep c := by
  funext σ i p st
  simp only [addlStepH, addlStep, getPropH_noHooks, putPropH_noHooks]
  rcases getProp (valueOf st.v).indirect p with a | (_ | x)
  · rfl
  · rfl
  · rcases hx : c.val (σ.sub i) x with ⟨_ | _ | _, x'⟩ <;> simp only [hx]

theorem objectVH_noHooks (o : ObjC Sem) : objectVH noHooks ext o = objectV ext o := by
  have h1 : patOuterH noHooks ext = patOuter ext := by
    funext σ j p st
    simp only [patOuterH, patOuter, patStepH_noHooks]
  have h2 : addlPhaseH noHooks o = addlPhase o := by
    funext σ st
    simp only [addlPhaseH, addlPhase, addlStepH_noHooks]
    cases o.additional <;> rfl
  have h3 : objLoopsH noHooks ext o = objLoops ext o := by
    funext σ st
    simp only [objLoopsH, objLoops, propStepH_noHooks, h1, h2]
  funext σ v
  simp only [objectVH, objectV, getPropNamesH_noHooks, h3]
  cases getPropNames (valueOf v).indirect <;> rfl

mutual
theorem denoteH_noHooks (ρ : RefSem) : ∀ c : Constraint, denoteH noHooks ext ρ c = denote ext ρ c
  | .empty => rfl
  | .null => rfl
  | .boolean _ => rfl
  | .string _ => rfl
  | .number _ => rfl
  | .integer _ => rfl
  | .enum _ => rfl
  | .ref _ _ => rfl
  | .array ⟨i, p, a, _, _, _⟩ => by
    simp only [denoteH, denote, denoteArr, optH_noHooks ρ i, listH_noHooks ρ p, optH_noHooks ρ a]
  | .object ⟨ps, pats, a, _, _, sd, _, _⟩ => by
    simp only [denoteH, denote, denoteObj, objectVH_noHooks, propsH_noHooks ρ ps, patsH_noHooks ρ pats, optH_noHooks ρ a, propsH_noHooks ρ sd]
  | .any cs => by simp only [denoteH, denote, listH_noHooks ρ cs]
  | .all cs => by simp only [denoteH, denote, listH_noHooks ρ cs]
  | .oneOf cs => by simp only [denoteH, denote, listH_noHooks ρ cs]
  | .not c => by simp only [denoteH, denote, optH_noHooks ρ c]
theorem optH_noHooks (ρ : RefSem) : ∀ o : Option Constraint, denoteOptH noHooks ext ρ o = denoteOpt ext ρ o
  | none => rfl
  | some c => by simp only [denoteOptH, denoteOpt, denoteH_noHooks ρ c]
theorem listH_noHooks (ρ : RefSem) : ∀ cs : List Constraint, denoteListH noHooks ext ρ cs = denoteList ext ρ cs
  | [] => rfl
  | c :: cs => by simp only [denoteListH, denoteList, denoteH_noHooks ρ c, listH_noHooks ρ cs]
theorem propsH_noHooks (ρ : RefSem) : ∀ cs : List (GoStr × Constraint), denotePropsH noHooks ext ρ cs = denoteProps ext ρ cs
  | [] => rfl
  | (_, c) :: cs => by simp only [denotePropsH, denoteProps, denoteH_noHooks ρ c, propsH_noHooks ρ cs]
theorem patsH_noHooks (ρ : RefSem) : ∀ cs : List (Nat × GoStr × Constraint), denotePatsH noHooks ext ρ cs = denotePats ext ρ cs
  | [] => rfl
  | (_, _, c) :: cs => by simp only [denotePatsH, denotePats, denoteH_noHooks ρ c, patsH_noHooks ρ cs]
end

theorem refSemH_noHooks (env : Env) : ∀ k, refSemH noHooks ext env k = refSem ext env k
  | 0 => rfl
  | k + 1 => by
    funext m n
    simp only [refSemH, refSem]
    cases env m n with
    | none => rfl
    | some c => simp only [refSemH_noHooks env k, denoteH_noHooks]

/-! ## The properties of a value that shows itself as a map -/

theorem ainsert_append {β : Type} {k : GoStr} {x : β} : ∀ {l : List (GoStr × β)}, k ∉ l.map (·.1) → ainsert k x l = l ++ [(k, x)]
  | [], _ => rfl
  | (k', y) :: l, h => by
    simp only [List.map_cons, List.mem_cons, not_or] at h
    rw [ainsert, if_neg (fun e => h.1 e.symm), ainsert_append h.2]
    rfl

theorem ainsert_split {β : Type} {k : GoStr} {x : β} (y : β) : ∀ {l : List (GoStr × β)}, alookup k l = some x →
    ∃ l1 l2, l = l1 ++ (k, x) :: l2 ∧ ainsert k y l = l1 ++ (k, y) :: l2
  | [], h => by cases h
  | (k', z) :: l, h => by
    rw [alookup] at h
    split at h
    · rename_i e
      subst e; cases h
      exact ⟨[], l, rfl, by rw [ainsert, if_pos rfl]; rfl⟩
    · rename_i e
      obtain ⟨l1, l2, h1, h2⟩ := ainsert_split y h
      exact ⟨(k', z) :: l1, l2, by rw [h1]; rfl, by rw [ainsert, if_neg e, h2]; rfl⟩

theorem Looks.nil_iff {v w : GoVal} (h : Looks hk v w) : v = .nil ↔ w = .nil := by
  cases h <;> simp

/-- No field of that name is extracted. -/
theorem extract_lacks {fs : Fields} {k : GoStr} (h : ∀ f ∈ fs, f.1.anonymous = false ∧ (f.1.exported = true → jsonName f.1.name f.1.tag ≠ some k)) :
    ∃ props, extract fs = some props ∧ alookup k props = none := by
  have key : ∀ (fs : Fields) (acc : List (GoStr × PropInfo)), alookup k acc = none →
      (∀ f ∈ fs, f.1.anonymous = false ∧ (f.1.exported = true → jsonName f.1.name f.1.tag ≠ some k)) →
      ∃ props, extractInto acc fs = some props ∧ alookup k props = none := by
    intro fs
    induction fs with
    | nil => intro acc ha _; exact ⟨acc, rfl, ha⟩
    | cons f fs ih =>
      intro acc ha h
      obtain ⟨h1, h2⟩ := h f (by simp)
      obtain ⟨f, v⟩ := f
      simp only at h1 h2
      have hstep : ∃ acc', extractField acc (f, v) = some acc' ∧ alookup k acc' = none := by
        simp only [extractField, h1, Bool.false_eq_true, if_false]
        split
        · rename_i he
          cases hj : jsonName f.name f.tag with
          | none => exact ⟨acc, rfl, ha⟩
          | some n =>
            refine ⟨_, rfl, ?_⟩
            rw [alookup_ainsert_ne, ha]
            rintro rfl
            exact h2 he hj
        · exact ⟨acc, rfl, ha⟩
      obtain ⟨acc', e1, e2⟩ := hstep
      obtain ⟨props, e3, e4⟩ := ih acc' e2 (fun g hg => h g (by simp [hg]))
      exact ⟨props, by rw [extractInto, e1]; exact e3, e4⟩
  exact key fs [] rfl h

theorem Lacks.getProp {fs : Fields} {k : GoStr} (h : Lacks hk fs k) : getPropH hk (some (.struct fs)) k = .ok none := by
  rcases h with h | ⟨h1, h2⟩
  · simp [getPropH, h, valueOf]
  · obtain ⟨props, e1, e2⟩ := extract_lacks h2
    simp [getPropH, h1, Jsval.getProp, e1, e2]

theorem viewPropH_absent {rv : RV} {k : GoStr} (h : getPropH hk rv k = .ok none) : viewPropH hk rv k = .ok .absent := by
  simp [viewPropH, h]

theorem Looks.notMaybe {v w : GoVal} (h : Looks hk v w) (fs : Fields) (k : GoStr) (hg : getPropH hk (some (.struct fs)) k = .ok (some v)) :
    viewPropH hk (some (.struct fs)) k = .ok (.present v true) := by
  unfold viewPropH
  rw [hg]
  cases h with
  | scalar v hs => cases hs <;> rfl
  | _ => rfl

theorem valueOf_ne_nil {v : GoVal} (h : v ≠ .nil) : valueOf v = some v := by
  cases v <;> first | rfl | exact absurd rfl h

variable {v w : GoVal} {n : Bool} {kws : List (GoStr × GoVal)} {k : GoStr}

theorem Looks.struct_names {fs : Fields} (h : Looks hk (.struct fs) (.map n kws)) : n = false ∧ (kws.map (·.1)).Nodup ∧
    hk.names fs = some (some (kws.map (·.1))) ∧ (∀ k, k ∈ kws.map (·.1) → ∃ x, hk.value fs k = some (some x) ∧ x ≠ .nil) ∧
    (∀ k x w, (k, w) ∈ kws → hk.value fs k = some (some x) → Looks hk x w) ∧ (∀ k, k ∉ kws.map (·.1) → Lacks hk fs k) := by
  cases h with
  | struct _ _ h1 h2 h3 h4 h5 => exact ⟨rfl, h1, h2, h3, h4, h5⟩

/-- The forms of a value that shows itself as a map. -/
theorem Looks.forms (h : Looks hk v (.map n kws)) : (∃ kvs, v = .map n kvs) ∨ ∃ fs, (v = .struct fs ∨ v = .ptr (some (.struct fs))) ∧ n = false ∧
    Looks hk (.struct fs) (.map false kws) := by
  cases h with
  | scalar _ h => cases h
  | map _ kvs => exact .inl ⟨kvs, rfl⟩
  | struct fs _ h1 h2 h3 h4 h5 => exact .inr ⟨fs, .inl rfl, rfl, .struct fs kws h1 h2 h3 h4 h5⟩
  | ptr fs _ h => exact .inr ⟨fs, .inr rfl, rfl, h⟩

theorem Looks.indirect {fs : Fields} (h : v = .struct fs ∨ v = .ptr (some (.struct fs))) : (valueOf v).indirect = some (.struct fs) := by
  rcases h with rfl | rfl <;> rfl

theorem Looks.names (h : Looks hk v (.map n kws)) : getPropNamesH hk (valueOf v).indirect = .ok (kws.map (·.1)) := by
  rcases h.forms with ⟨kvs, rfl⟩ | ⟨fs, hv, rfl, hs⟩
  · cases h with
    | scalar _ h => cases h
    | map _ _ _ h1 => simp [getPropNamesH, valueOf, RV.indirect, getPropNames, h1]
  · rw [Looks.indirect hv]
    simp [getPropNamesH, RV.indirect, hs.struct_names.2.2.1]

theorem Looks.nodup (h : Looks hk v (.map n kws)) : (kws.map (·.1)).Nodup := by
  rcases h.forms with ⟨kvs, rfl⟩ | ⟨fs, hv, rfl, hs⟩
  · cases h with
    | scalar _ h => cases h
    | map _ _ _ _ h1 => exact h1
  · exact hs.struct_names.2.1

theorem Looks.absent (h : Looks hk v (.map n kws)) (hk' : alookup k kws = none) : getPropH hk (valueOf v).indirect k = .ok none := by
  rw [alookup_eq_none] at hk'
  rcases h.forms with ⟨kvs, rfl⟩ | ⟨fs, hv, rfl, hs⟩
  · cases h with
    | scalar _ h => cases h
    | map _ _ _ h1 =>
      rw [← h1, ← alookup_eq_none] at hk'
      simp [getPropH, valueOf, RV.indirect, getProp, hk']
  · rw [Looks.indirect hv]
    exact (hs.struct_names.2.2.2.2.2 k hk').getProp

theorem Looks.put_map {kvs : List (GoStr × GoVal)} (h : Looks hk (.map n kvs) (.map n kws)) {x' w' : GoVal} (hx : Looks hk x' w') :
    Looks hk (.map n (ainsert k x' kvs)) (.map n (ainsert k w' kws)) := by
  cases h with
  | scalar _ h => cases h
  | map _ _ _ h1 h2 h3 =>
    have hn : (kvs.map (·.1)).Nodup := h1 ▸ h2
    refine .map n _ _ ?_ (nodup_ainsert h2) (fun p x y hpx hpy => ?_)
    · rw [keys_ainsert, keys_ainsert, h1]
    · rw [← alookup_iff_mem (nodup_ainsert hn)] at hpx
      rw [← alookup_iff_mem (nodup_ainsert h2)] at hpy
      rw [alookup_ainsert] at hpx hpy
      split at hpx
      · rename_i e
        rw [if_pos e] at hpy
        cases hpx; cases hpy
        exact hx
      · rename_i e
        rw [if_neg e] at hpy
        exact h3 p x y (alookup_mem hpx) (alookup_mem hpy)

/-- A property of the map is a property of the value, with a corresponding value, and changing one is changing the other. -/
theorem Looks.present (hf : hk.Faithful) (h : Looks hk v (.map n kws)) (hk' : alookup k kws = some w) :
    ∃ x, Looks hk x w ∧ getPropH hk (valueOf v).indirect k = .ok (some x) ∧ viewPropH hk (valueOf v).indirect k = .ok (.present x true) ∧
      ∀ x' w', Looks hk x' w' → (w ≠ .nil → w' ≠ .nil) → Looks hk (putPropH hk v k x') (.map n (ainsert k w' kws)) := by
  rcases h.forms with ⟨kvs, rfl⟩ | ⟨fs, hv, rfl, hs⟩
  · have h0 := h
    cases h with
    | scalar _ h => cases h
    | map _ _ _ h1 h2 h3 =>
      have : ∃ x, alookup k kvs = some x := by
        rw [alookup_isSome, h1, ← alookup_isSome]; exact ⟨w, hk'⟩
      obtain ⟨x, hx⟩ := this
      refine ⟨x, h3 k x w (alookup_mem hx) (alookup_mem hk'), ?_, ?_, fun x' w' hx' _ => ?_⟩
      · simp [getPropH, valueOf, RV.indirect, getProp, hx]
      · simp [viewPropH, getPropH, valueOf, RV.indirect, getProp, hx]
      · exact h0.put_map hx'
  · obtain ⟨-, s1, s2, s3, s4, s5⟩ := hs.struct_names
    obtain ⟨x, hx, hne⟩ := s3 k (alookup_isSome.1 ⟨w, hk'⟩)
    have hxw := s4 k x w (alookup_mem hk') hx
    have hg : getPropH hk (some (.struct fs)) k = .ok (some x) := by simp [getPropH, hx, valueOf_ne_nil hne]
    refine ⟨x, hxw, ?_, ?_, fun x' w' hx' hw' => ?_⟩
    · rw [Looks.indirect hv]; exact hg
    · rw [Looks.indirect hv]; exact hxw.notMaybe fs k hg
    · have hx'n : x' ≠ .nil := fun e => hw' (fun e' => hne (hxw.nil_iff.2 e')) (hx'.nil_iff.1 e)
      obtain ⟨l, r, e1, e2⟩ := ainsert_split w' hk'
      rw [e2]
      rw [e1] at hs
      have := hf.put fs l r k w x' w' hs hx'n hx'
      rcases hv with rfl | rfl
      · simpa [putPropH, putAtH, hx] using this
      · simpa [putPropH, putAtH, hx] using Looks.ptr _ _ this

/-- Filling in a property the map does not have. -/
theorem Looks.fill (hf : hk.Faithful) (h : Looks hk v (.map n kws)) (hk' : alookup k kws = none) {dv : GoVal} (hs : IsScalar dv) (hn : dv ≠ .nil) :
    (n = true → setPropH hk ext v k dv = (some (.abort .panic), v)) ∧
    (n = false → ∃ v', setPropH hk ext v k dv = (none, v') ∧ Looks hk v' (.map false (ainsert k dv kws))) := by
  rcases h.forms with ⟨kvs, rfl⟩ | ⟨fs, hv, rfl, hst⟩
  · refine ⟨?_, ?_⟩
    · rintro rfl
      cases hs <;> first | exact absurd rfl hn | rfl
    · rintro rfl
      exact ⟨.map false (ainsert k dv kvs), by cases hs <;> first | exact absurd rfl hn | rfl, h.put_map (.scalar dv hs)⟩
  · refine ⟨fun e => (by cases e), fun _ => ?_⟩
    rw [alookup_eq_none] at hk'
    obtain ⟨f, fs', h1, h2, h3⟩ := hf.set fs kws k dv hst hk' hs hn
    rw [ainsert_append hk']
    have hstep : ∀ ad, setPropStructH hk ext ad fs k dv = (none, fs') := by
      intro ad
      unfold setPropStructH
      rw [h1]
      cases hs <;> first | exact absurd rfl hn | simp only [h2]
    rcases hv with rfl | rfl
    · exact ⟨.struct fs', by simp [setPropH, setPropAtH, hstep], h3⟩
    · exact ⟨.ptr (some (.struct fs')), by simp [setPropH, setPropRVH, setPropAtH, hstep], .ptr _ _ h3⟩

end Jsval
