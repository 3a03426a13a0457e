import Verif.Lemmas.Struct
import Verif.Lemmas.Loop
import Verif.Lemmas.Sched
/-!
# Updating one property leaves the others alone
-/
namespace Jsval

/-- Maps with string keys and structs without embedding. -/
inductive PlainT : GoVal → Prop where
  | map (n kvs) : PlainT (.map n kvs)
  | struct (fs) : FlatFields fs → PlainT (.struct fs)

/-- The target itself, or a pointer to it. -/
def wrap : Bool → GoVal → GoVal
  | true, t => .ptr (some t)
  | false, t => t

theorem indirect_wrap {t : GoVal} (h : PlainT t) (b : Bool) : (valueOf (wrap b t)).indirect = some t := by
  cases b <;> cases h <;> rfl

theorem putProp_wrap {t : GoVal} (h : PlainT t) (b : Bool) (q : GoStr) (x : GoVal) :
    putProp (wrap b t) q x = wrap b (putAt t q x) := by
  cases b <;> cases h <;> rfl

theorem setProp_wrap (ext : Ext) {t : GoVal} (h : PlainT t) (b : Bool) (q : GoStr) (dv : GoVal) :
    setProp ext (wrap b t) q dv = (setPropAt ext b t q dv).map (wrap b) := by
  cases b
  · cases h <;> (simp only [wrap, setProp]; cases setPropAt ext false _ q dv <;> rfl)
  · cases h <;> rfl

/-- `t'` is `t` with at most property `q` changed. -/
inductive UpdAt (q : GoStr) : GoVal → GoVal → Prop where
  | map (n kvs kvs') : (∀ p, p ≠ q → alookup p kvs' = alookup p kvs) → UpdAt q (.map n kvs) (.map n kvs')
  | same (fs) : UpdAt q (.struct fs) (.struct fs)
  | struct (fs fn x) : fieldOf q fs = some fn → UpdAt q (.struct fs) (.struct (setF fn x fs))

theorem UpdAt.plain {q : GoStr} {t t' : GoVal} (h : UpdAt q t t') (hp : PlainT t) : PlainT t' := by
  cases h with
  | map => exact .map ..
  | same => exact hp
  | struct fs fn x => cases hp with | struct _ hf => exact .struct _ (flatFields_setF hf)

theorem UpdAt.getProp {q : GoStr} {t t' : GoVal} (h : UpdAt q t t') (hp : PlainT t) {p : GoStr} (hpq : p ≠ q) :
    Jsval.getProp (some t') p = Jsval.getProp (some t) p := by
  cases h with
  | map n kvs kvs' h => simp [Jsval.getProp, h p hpq]
  | same => rfl
  | struct fs fn x hq =>
    cases hp with
    | struct _ hf =>
      rw [getProp_flat hf, getProp_flat (flatFields_setF hf), fieldOf_congr (setF_fields fn x fs)]
      cases hfp : fieldOf p fs with
      | none => rfl
      | some fn' =>
        have : fn' ≠ fn := by rintro rfl; exact hpq (fieldOf_inj hf hfp hq)
        simp [lookupField_setF, this]

theorem UpdAt.viewProp {q : GoStr} {t t' : GoVal} (h : UpdAt q t t') (hp : PlainT t) {p : GoStr} (hpq : p ≠ q) :
    Jsval.viewProp (some t') p = Jsval.viewProp (some t) p := by
  have hg := h.getProp hp hpq
  unfold Jsval.viewProp
  rw [hg]
  cases h <;> rfl

/-- Two structs with the same descriptors. -/
theorem extract_fieldName_congr {fs fs' : List (Field × GoVal)} (h : FlatFields fs) (h' : FlatFields fs')
    (he : fs'.map (·.1) = fs.map (·.1)) (p : GoStr) :
    ∃ props props', extract fs = some props ∧ extract fs' = some props' ∧
      (alookup p props').map (·.fieldName) = (alookup p props).map (·.fieldName) ∧
      (alookup p props).map (·.fieldName) = fieldOf p fs := by
  obtain ⟨props, h1, h2⟩ := extract_flat h
  obtain ⟨props', h3, h4⟩ := extract_flat h'
  exact ⟨props, props', h1, h3, by rw [h2, h4, fieldOf_congr he], h2 p⟩

/-- What `setProp` does on a flat struct depends only on the field behind the name. -/
theorem setPropStruct_flat (ext : Ext) (b : Bool) {fs : List (Field × GoVal)} (h : FlatFields fs) (p : GoStr)
    (dv : GoVal) :
    setPropStruct ext b fs p dv =
      match (fieldOf p fs).bind (fun fn => (lookupField fn fs).map (fn, ·)) with
      | none => .error (.err (.noField p))
      | some (fn, .maybe w m) =>
        match coerce m.kind dv with
        | none => .error (.abort .panic)
        | some dv' =>
          if b then
            match (MaybeSt.mk w m).Set ext dv' with
            | (none, m') => .ok (setF fn (.maybe m'.valid m'.p) fs)
            | (some e, _) => .error (.err e)
          else .error (.abort .panic)
      | some (fn, .ptr (some (.maybe w m))) =>
        match dv with
        | .nil => .error (.abort .panic)
        | dv =>
          match (MaybeSt.mk w m).Set ext dv with
          | (none, m') => .ok (setF fn (.ptr (some (.maybe m'.valid m'.p))) fs)
          | (some e, _) => .error (.err e)
      | some _ => .error (.abort .outside) := by
  obtain ⟨props, h1, h2⟩ := extract_flat h
  have hp := h2 p
  unfold setPropStruct
  simp only [h1]
  have e : ((alookup p props).bind fun info => (fieldByName info.fieldName fs).map fun x => (info.fieldName, x)) =
      (fieldOf p fs).bind (fun fn => (lookupField fn fs).map (fn, ·)) := by
    rw [← hp]
    cases alookup p props <;> simp [fieldByName_flat h]
  rw [e]
  simp only [setField_flat h]
  rfl

/-- The pair `setProp` looks at. -/
theorem UpdAt.field {q : GoStr} {fs fs' : List (Field × GoVal)} (h : UpdAt q (.struct fs) (.struct fs'))
    (hf : FlatFields fs) {p : GoStr} (hpq : p ≠ q) :
    (fieldOf p fs').bind (fun fn => (lookupField fn fs').map (fn, ·)) =
      (fieldOf p fs).bind (fun fn => (lookupField fn fs).map (fn, ·)) := by
  cases h with
  | same => rfl
  | struct _ fn x hq =>
    rw [fieldOf_congr (setF_fields fn x fs)]
    cases hfp : fieldOf p fs with
    | none => rfl
    | some fn' =>
      have : fn' ≠ fn := by rintro rfl; exact hpq (fieldOf_inj hf hfp hq)
      simp [lookupField_setF, this]

theorem putAt_upd {t : GoVal} (h : PlainT t) (q : GoStr) (x : GoVal) : UpdAt q t (putAt t q x) := by
  cases h with
  | map n kvs => exact .map n kvs _ (fun p hp => alookup_ainsert_ne hp x kvs)
  | struct fs hf =>
    rw [putAt_flat hf]
    cases hq : fieldOf q fs with
    | none => exact .same fs
    | some fn => exact .struct fs fn x hq

theorem setPropAt_upd {ext : Ext} {b : Bool} {t t' : GoVal} (h : PlainT t) {q : GoStr} {dv : GoVal}
    (hs : setPropAt ext b t q dv = .ok t') : UpdAt q t t' := by
  cases h with
  | map n kvs =>
    cases dv with
    | nil =>
      simp only [setPropAt, Except.ok.injEq] at hs
      subst hs
      exact .map n kvs _ (fun p hp => alookup_adelete_ne hp kvs)
    | _ =>
      simp only [setPropAt] at hs
      split at hs
      · cases hs
      · simp only [Except.ok.injEq] at hs
        subst hs
        exact .map n kvs _ (fun p hp => alookup_ainsert_ne hp _ kvs)
  | struct fs hf =>
    simp only [setPropAt] at hs
    rcases hr : setPropStruct ext b fs q dv with e | fs'
    · rw [hr] at hs; cases hs
    · rw [hr] at hs
      simp only [Except.map, Except.ok.injEq] at hs
      subst hs
      rw [setPropStruct_flat ext b hf] at hr
      have key : ∀ fn x, (fieldOf q fs).bind (fun fn => (lookupField fn fs).map (fn, ·)) = some (fn, x) →
          fieldOf q fs = some fn := by
        intro fn x hx
        rw [Option.bind_eq_some_iff] at hx
        obtain ⟨fn', h1, h2⟩ := hx
        rw [Option.map_eq_some_iff] at h2
        obtain ⟨_, _, h3⟩ := h2
        cases h3
        exact h1
      split at hr
      · cases hr
      · rename_i fn w m heq
        split at hr
        · cases hr
        · split at hr
          · split at hr
            · simp only [Except.ok.injEq] at hr; subst hr; exact .struct fs fn _ (key _ _ heq)
            · cases hr
          · cases hr
      · rename_i fn w m heq
        split at hr
        · cases hr
        · split at hr
          · simp only [Except.ok.injEq] at hr; subst hr; exact .struct fs fn _ (key _ _ heq)
          · cases hr
      · cases hr

/-- The default can be stored. -/
def CanSet (ext : Ext) (b : Bool) (t : GoVal) (p : GoStr) (dv : GoVal) : Prop :=
  ∃ t', setPropAt ext b t p dv = .ok t'

theorem canSet_map {ext : Ext} {b n : Bool} {kvs} {p : GoStr} {dv : GoVal} :
    CanSet ext b (.map n kvs) p dv ↔ n = false ∨ dv = .nil := by
  unfold CanSet
  cases dv <;> cases n <;> simp [setPropAt]

theorem UpdAt.canSet {ext : Ext} {b : Bool} {q : GoStr} {t t' : GoVal} (h : UpdAt q t t') (hp : PlainT t)
    {p : GoStr} (hpq : p ≠ q) (dv : GoVal) : CanSet ext b t' p dv ↔ CanSet ext b t p dv := by
  have h0 := h
  cases h with
  | map n kvs kvs' => rw [canSet_map, canSet_map]
  | same => rfl
  | struct fs fn x hq =>
    cases hp with
    | struct _ hf =>
      have hf' := flatFields_setF (fn := fn) (x := x) hf
      have hfield := h0.field hf hpq
      unfold CanSet
      simp only [setPropAt, setPropStruct_flat ext b hf, setPropStruct_flat ext b hf', hfield]
      split
      · simp [Except.map]
      · split
        · simp [Except.map]
        · split
          · split <;> simp [Except.map]
          · simp [Except.map]
      · split
        · simp [Except.map]
        · split <;> simp [Except.map]
      · simp [Except.map]

end Jsval
