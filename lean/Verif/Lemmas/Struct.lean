import Verif.Lemmas.Assoc
import Verif.Model.Validate
/-!
# Structs without embedding
-/
namespace Jsval

/-- No embedded fields, and (as Go demands) distinct field names. -/
structure FlatFields (fs : List (Field × GoVal)) : Prop where
  noEmb : ∀ f ∈ fs, f.1.anonymous = false
  nodup : (fs.map (·.1.name)).Nodup

/-- The value of the field with this Go name. -/
def lookupField (fn : GoStr) : List (Field × GoVal) → Option GoVal
  | [] => none
  | (f, v) :: l => if f.name = fn then some v else lookupField fn l

/-- The Go name of the (last) visible field with this JSON name. -/
def fieldOf (p : GoStr) : List (Field × GoVal) → Option GoStr
  | [] => none
  | (f, _) :: rest =>
    match fieldOf p rest with
    | some n => some n
    | none => if f.exported = true ∧ jsonName f.name f.tag = some p then some f.name else none

/-- Overwrite a field. -/
def setF (fn : GoStr) (x : GoVal) (fs : List (Field × GoVal)) : List (Field × GoVal) :=
  fs.map (fun p => if p.1.name = fn then (p.1, x) else p)

theorem lookupField_none {fn : GoStr} : ∀ {fs : List (Field × GoVal)},
    lookupField fn fs = none ↔ fn ∉ fs.map (·.1.name)
  | [] => by simp [lookupField]
  | (f, v) :: fs => by
    have ih := lookupField_none (fn := fn) (fs := fs)
    by_cases h : f.name = fn
    · simp [lookupField, h]
    · simp [lookupField, h, ih, Ne.symm h]

theorem fieldsAt_zero {fn : GoStr} : ∀ {fs : List (Field × GoVal)}, (fs.map (·.1.name)).Nodup →
    fieldsAt fn 0 fs = (lookupField fn fs).toList
  | [], _ => by simp [fieldsAt, lookupField]
  | (f, v) :: fs, h => by
    simp only [List.map_cons, List.nodup_cons] at h
    have ih := fieldsAt_zero (fn := fn) h.2
    simp only [fieldsAt] at ih
    by_cases hf : f.name = fn
    · have hnone : lookupField fn fs = none := by rw [lookupField_none, ← hf]; exact h.1
      rw [hnone] at ih
      simp only [fieldsAt, lookupField, hf, if_true, decide_true, List.filter_cons_of_pos, List.map_cons, ih]
      rfl
    · simp [fieldsAt, lookupField, hf, ih]

theorem fieldsAt_succ {fn : GoStr} {fs : List (Field × GoVal)} (h : ∀ f ∈ fs, f.1.anonymous = false) (d : Nat) :
    fieldsAt fn (d + 1) fs = [] := by
  simp only [fieldsAt, List.flatMap_eq_nil_iff]
  intro p hp
  simp [h p hp]

theorem fieldDepth_flat {fn : GoStr} {fs : List (Field × GoVal)} (h : FlatFields fs) :
    fieldDepth fn fs = (lookupField fn fs).map (fun _ => 0) := by
  unfold fieldDepth
  cases hl : lookupField fn fs with
  | none =>
    have : (List.range (embDepth fs + 1)).find? (fun d => !(fieldsAt fn d fs).isEmpty) = none := by
      rw [List.find?_eq_none]
      intro d _
      cases d with
      | zero => simp [fieldsAt_zero h.nodup, hl]
      | succ d => simp [fieldsAt_succ h.noEmb d]
    simp [this]
  | some v =>
    have : (List.range (embDepth fs + 1)).find? (fun d => !(fieldsAt fn d fs).isEmpty) = some 0 := by
      rw [List.range_succ_eq_map]
      simp [fieldsAt_zero h.nodup, hl]
    rw [this]
    simp [fieldsAt_zero h.nodup, hl]

theorem fieldByName_flat {fn : GoStr} {fs : List (Field × GoVal)} (h : FlatFields fs) :
    fieldByName fn fs = lookupField fn fs := by
  unfold fieldByName
  rw [fieldDepth_flat h]
  cases hl : lookupField fn fs with
  | none => rfl
  | some v => simp [fieldsAt_zero h.nodup, hl]

theorem setF_absent {fn : GoStr} {x : GoVal} {fs : List (Field × GoVal)} (h : lookupField fn fs = none) :
    setF fn x fs = fs := by
  rw [lookupField_none] at h
  unfold setF
  conv_rhs => rw [← List.map_id fs]
  apply List.map_congr_left
  intro p hp
  have : p.1.name ≠ fn := fun h' => h (List.mem_map.2 ⟨p, hp, h'⟩)
  simp [this]

theorem setField_flat {fn : GoStr} {x : GoVal} {fs : List (Field × GoVal)} (h : FlatFields fs) :
    setField fn x fs = setF fn x fs := by
  unfold setField
  rw [fieldDepth_flat h]
  cases hl : lookupField fn fs with
  | none => simp [setF_absent hl]
  | some v => simp [fieldsSet, setF]

theorem setF_fields (fn : GoStr) (x : GoVal) (fs : List (Field × GoVal)) :
    (setF fn x fs).map (·.1) = fs.map (·.1) := by
  unfold setF
  rw [List.map_map]
  apply List.map_congr_left
  intro p _
  simp only [Function.comp]
  split <;> rfl

theorem flatFields_congr {fs fs' : List (Field × GoVal)} (he : fs'.map (·.1) = fs.map (·.1)) (h : FlatFields fs) :
    FlatFields fs' := by
  constructor
  · intro f hf
    have : f.1 ∈ fs'.map (·.1) := List.mem_map.2 ⟨f, hf, rfl⟩
    rw [he] at this
    obtain ⟨g, hg, hge⟩ := List.mem_map.1 this
    rw [← hge]; exact h.noEmb g hg
  · have := h.nodup
    have e1 : fs.map (·.1.name) = (fs.map (·.1)).map (·.name) := by rw [List.map_map]; rfl
    have e2 : fs'.map (·.1.name) = (fs'.map (·.1)).map (·.name) := by rw [List.map_map]; rfl
    rw [e2, he, ← e1]; exact this

theorem flatFields_setF {fn : GoStr} {x : GoVal} {fs : List (Field × GoVal)} (h : FlatFields fs) :
    FlatFields (setF fn x fs) := flatFields_congr (setF_fields fn x fs) h

theorem fieldOf_congr {p : GoStr} : ∀ {fs fs' : List (Field × GoVal)}, fs'.map (·.1) = fs.map (·.1) →
    fieldOf p fs' = fieldOf p fs
  | [], [], _ => rfl
  | [], _ :: _, h => by simp at h
  | _ :: _, [], h => by simp at h
  | (f, v) :: fs, (f', v') :: fs', h => by
    simp only [List.map_cons, List.cons.injEq] at h
    obtain ⟨rfl, h⟩ := h
    simp [fieldOf, fieldOf_congr h]

theorem lookupField_setF {fn fn' : GoStr} {x : GoVal} : ∀ {fs : List (Field × GoVal)},
    lookupField fn (setF fn' x fs) = if fn = fn' then (lookupField fn fs).map (fun _ => x) else lookupField fn fs
  | [] => by simp [lookupField, setF]
  | (f, v) :: fs => by
    have ih := lookupField_setF (fn := fn) (fn' := fn') (x := x) (fs := fs)
    unfold setF at ih ⊢
    simp only [List.map_cons]
    by_cases h1 : f.name = fn'
    · by_cases h2 : fn = fn'
      · subst h2; simp [lookupField, h1]
      · have h3 : f.name ≠ fn := by rintro rfl; exact h2 h1
        simp [lookupField, h1, h2, ih, Ne.symm h2]
    · by_cases h2 : fn = fn'
      · subst h2; simp [lookupField, h1, ih]
      · by_cases h3 : f.name = fn
        · simp only [h1, if_false, lookupField, h3, if_true, h2]
        · simp [lookupField, h1, h2, h3, ih]

theorem extractInto_cons {props : List (GoStr × PropInfo)} {f : Field} {v : GoVal} {rest : List (Field × GoVal)}
    (h : f.anonymous = false) : extractInto props ((f, v) :: rest) =
      if f.exported = true then
        match jsonName f.name f.tag with
        | none => extractInto props rest
        | some n => extractInto (ainsert n ⟨f.name, isMaybeVal v⟩ props) rest
      else extractInto props rest := by
  simp only [extractInto, extractField, h, Bool.false_eq_true, if_false]
  cases f.exported
  · rfl
  · simp only [if_true]
    cases jsonName f.name f.tag <;> rfl

/-- What `extract` records for a flat struct. -/
theorem extractInto_flat : ∀ {fs : List (Field × GoVal)} (props : List (GoStr × PropInfo)),
    (∀ f ∈ fs, f.1.anonymous = false) →
    ∃ props', extractInto props fs = some props' ∧ ∀ p, (alookup p props').map (·.fieldName) =
      match fieldOf p fs with
      | some n => some n
      | none => (alookup p props).map (·.fieldName)
  | [], props, _ => ⟨props, by simp [extractInto], fun p => by simp [fieldOf]⟩
  | (f, v) :: fs, props, h => by
    have hf := h (f, v) (by simp)
    have hrest : ∀ g ∈ fs, g.1.anonymous = false := fun g hg => h g (by simp [hg])
    simp only at hf
    cases he : f.exported with
    | false =>
      obtain ⟨props', h1, h2⟩ := extractInto_flat props hrest
      refine ⟨props', by simp [extractInto_cons hf, he, h1], fun p => ?_⟩
      rw [h2]
      cases hp : fieldOf p fs <;> simp [fieldOf, he, hp]
    | true =>
      cases hj : jsonName f.name f.tag with
      | none =>
        obtain ⟨props', h1, h2⟩ := extractInto_flat props hrest
        refine ⟨props', by simp [extractInto_cons hf, he, hj, h1], fun p => ?_⟩
        rw [h2]
        cases hp : fieldOf p fs <;> simp [fieldOf, he, hj, hp]
      | some n =>
        obtain ⟨props', h1, h2⟩ := extractInto_flat (ainsert n ⟨f.name, isMaybeVal v⟩ props) hrest
        refine ⟨props', by simp [extractInto_cons hf, he, hj, h1], fun p => ?_⟩
        rw [h2]
        cases hp : fieldOf p fs with
        | some m => simp [fieldOf, hp]
        | none =>
          simp only [fieldOf, hp, he, hj, true_and, Option.some.injEq, alookup_ainsert]
          by_cases hnp : p = n
          · subst hnp; simp
          · simp [hnp, Ne.symm hnp]

theorem extract_flat {fs : List (Field × GoVal)} (h : FlatFields fs) :
    ∃ props, extract fs = some props ∧ ∀ p, (alookup p props).map (·.fieldName) = fieldOf p fs := by
  obtain ⟨props, h1, h2⟩ := extractInto_flat [] h.noEmb
  refine ⟨props, h1, fun p => ?_⟩
  rw [h2]
  cases fieldOf p fs <;> simp [alookup]

theorem fieldOf_spec {p : GoStr} : ∀ {fs : List (Field × GoVal)} {fn : GoStr}, fieldOf p fs = some fn →
    ∃ f v, (f, v) ∈ fs ∧ f.name = fn ∧ f.exported = true ∧ jsonName f.name f.tag = some p
  | [], fn, h => by simp [fieldOf] at h
  | (f, v) :: fs, fn, h => by
    simp only [fieldOf] at h
    cases hp : fieldOf p fs with
    | some n =>
      rw [hp] at h
      simp only [Option.some.injEq] at h
      subst h
      obtain ⟨g, w, h1, h2, h3, h4⟩ := fieldOf_spec hp
      exact ⟨g, w, by simp [h1], h2, h3, h4⟩
    | none =>
      rw [hp] at h
      simp only at h
      split at h
      · rename_i hc
        simp only [Option.some.injEq] at h
        exact ⟨f, v, by simp, h, hc.1, hc.2⟩
      · cases h

theorem nodup_field_eq {fs : List (Field × GoVal)} (h : (fs.map (·.1.name)).Nodup) {f g : Field × GoVal}
    (hf : f ∈ fs) (hg : g ∈ fs) (he : f.1.name = g.1.name) : f = g := List.inj_on_of_nodup_map h hf hg he

theorem fieldOf_inj {fs : List (Field × GoVal)} (h : FlatFields fs) {p q fn : GoStr}
    (hp : fieldOf p fs = some fn) (hq : fieldOf q fs = some fn) : p = q := by
  obtain ⟨f, v, h1, h2, _, h4⟩ := fieldOf_spec hp
  obtain ⟨g, w, g1, g2, _, g4⟩ := fieldOf_spec hq
  have := nodup_field_eq h.nodup h1 g1 (by simp [h2, g2])
  cases this
  rw [h4] at g4
  cases g4; rfl

/-- `getProp` on a flat struct. -/
theorem getProp_flat {fs : List (Field × GoVal)} (h : FlatFields fs) (p : GoStr) :
    getProp (some (.struct fs)) p = .ok ((fieldOf p fs).bind (fun fn => lookupField fn fs)) := by
  obtain ⟨props, h1, h2⟩ := extract_flat h
  simp only [getProp, h1]
  have := h2 p
  cases hp : alookup p props with
  | none => rw [hp] at this; simp at this; simp [← this]
  | some info => rw [hp] at this; simp at this; simp [← this, fieldByName_flat h]

/-- `putAt` on a flat struct. -/
theorem putAt_flat {fs : List (Field × GoVal)} (h : FlatFields fs) (p : GoStr) (x : GoVal) :
    putAt (.struct fs) p x = .struct (match fieldOf p fs with | some fn => setF fn x fs | none => fs) := by
  obtain ⟨props, h1, h2⟩ := extract_flat h
  simp only [putAt, h1, Option.bind_some]
  have := h2 p
  cases hp : alookup p props with
  | none => rw [hp] at this; simp at this; simp [← this]
  | some info => rw [hp] at this; simp at this; simp [← this, setField_flat h]

end Jsval

namespace Jsval

/-- Go name and value of the (last) visible field with this JSON name. -/
def fieldVal (p : GoStr) : List (Field × GoVal) → Option (GoStr × GoVal)
  | [] => none
  | (f, v) :: rest =>
    match fieldVal p rest with
    | some n => some n
    | none => if f.exported = true ∧ jsonName f.name f.tag = some p then some (f.name, v) else none

theorem fieldVal_fieldOf {p : GoStr} : ∀ {fs : List (Field × GoVal)}, (fieldVal p fs).map (·.1) = fieldOf p fs
  | [] => rfl
  | (f, v) :: fs => by
    have ih := fieldVal_fieldOf (p := p) (fs := fs)
    simp only [fieldVal, fieldOf]
    cases h : fieldVal p fs with
    | some n => rw [h] at ih; simp [← ih]
    | none =>
      rw [h] at ih
      simp only [Option.map_none] at ih
      rw [← ih]
      simp only
      split <;> rfl

theorem fieldVal_mem {p : GoStr} : ∀ {fs : List (Field × GoVal)} {n v}, fieldVal p fs = some (n, v) →
    ∃ f, (f, v) ∈ fs ∧ f.name = n ∧ f.exported = true ∧ jsonName f.name f.tag = some p
  | [], n, v, h => by simp [fieldVal] at h
  | (f, w) :: fs, n, v, h => by
    simp only [fieldVal] at h
    cases hp : fieldVal p fs with
    | some m =>
      rw [hp] at h
      simp only [Option.some.injEq] at h
      subst h
      obtain ⟨g, h1, h2⟩ := fieldVal_mem hp
      exact ⟨g, by simp [h1], h2⟩
    | none =>
      rw [hp] at h
      simp only at h
      split at h
      · rename_i hc
        simp only [Option.some.injEq, Prod.mk.injEq] at h
        obtain ⟨rfl, rfl⟩ := h
        exact ⟨f, by simp, rfl, hc⟩
      · cases h

theorem lookupField_of_mem {fs : List (Field × GoVal)} : (fs.map (·.1.name)).Nodup → ∀ {f v}, (f, v) ∈ fs →
    lookupField f.name fs = some v := by
  induction fs with
  | nil => intro _ f v h; simp at h
  | cons g fs ih =>
    intro hn f v h
    simp only [List.map_cons, List.nodup_cons] at hn
    rcases List.mem_cons.1 h with h | h
    · cases h; simp [lookupField]
    · have : g.1.name ≠ f.name := by
        intro he
        exact hn.1 (List.mem_map.2 ⟨(f, v), h, he.symm⟩)
      simp only [lookupField, this, if_false]
      exact ih hn.2 h

theorem fieldVal_eq {p : GoStr} {fs : List (Field × GoVal)} (h : FlatFields fs) :
    (fieldOf p fs).bind (fun fn => (lookupField fn fs).map (fn, ·)) = fieldVal p fs := by
  rw [← fieldVal_fieldOf]
  cases hv : fieldVal p fs with
  | none => rfl
  | some nv =>
    obtain ⟨n, v⟩ := nv
    obtain ⟨f, h1, rfl, -⟩ := fieldVal_mem hv
    simp [lookupField_of_mem h.nodup h1]

theorem extractInto_info : ∀ {fs : List (Field × GoVal)} (props : List (GoStr × PropInfo)),
    (∀ f ∈ fs, f.1.anonymous = false) →
    ∃ props', extractInto props fs = some props' ∧ ((props.map (·.1)).Nodup → (props'.map (·.1)).Nodup) ∧
      ∀ p, alookup p props' =
      match fieldVal p fs with
      | some nv => some ⟨nv.1, isMaybeVal nv.2⟩
      | none => alookup p props
  | [], props, _ => ⟨props, by simp [extractInto], fun h => h, fun p => by simp [fieldVal]⟩
  | (f, v) :: fs, props, h => by
    have hf := h (f, v) (by simp)
    have hrest : ∀ g ∈ fs, g.1.anonymous = false := fun g hg => h g (by simp [hg])
    simp only at hf
    cases he : f.exported with
    | false =>
      obtain ⟨props', h1, h2, h3⟩ := extractInto_info props hrest
      refine ⟨props', by simp [extractInto_cons hf, he, h1], h2, fun p => ?_⟩
      rw [h3]
      cases hp : fieldVal p fs <;> simp [fieldVal, he, hp]
    | true =>
      cases hj : jsonName f.name f.tag with
      | none =>
        obtain ⟨props', h1, h2, h3⟩ := extractInto_info props hrest
        refine ⟨props', by simp [extractInto_cons hf, he, hj, h1], h2, fun p => ?_⟩
        rw [h3]
        cases hp : fieldVal p fs <;> simp [fieldVal, he, hj, hp]
      | some n =>
        obtain ⟨props', h1, h2, h3⟩ := extractInto_info (ainsert n ⟨f.name, isMaybeVal v⟩ props) hrest
        refine ⟨props', by simp [extractInto_cons hf, he, hj, h1], fun hn => h2 (nodup_ainsert hn), fun p => ?_⟩
        rw [h3]
        cases hp : fieldVal p fs with
        | some m => simp [fieldVal, hp]
        | none =>
          simp only [fieldVal, hp, he, hj, true_and, Option.some.injEq, alookup_ainsert]
          by_cases hnp : p = n
          · subst hnp; simp
          · simp [hnp, Ne.symm hnp]

theorem maybeValid_of_isMaybe : ∀ {v : GoVal}, isMaybeVal v = true → ∃ w, maybeValid v = some w
  | .maybe b _, _ => ⟨b, rfl⟩
  | .ptr (some (.maybe b _)), _ => ⟨b, rfl⟩

theorem maybeValid_of_not {v : GoVal} (h : ¬ isMaybeVal v = true) : maybeValid v = none := by
  unfold maybeValid
  split
  · exact absurd rfl h
  · exact absurd rfl h
  · rfl

/-- The property names of a flat struct. -/
theorem structPropNames_flat {fs : List (Field × GoVal)} (h : FlatFields fs) :
    ∃ names, structPropNames fs = .ok names ∧ names.Nodup ∧
      ∀ k, k ∈ names ↔ ∃ n v, fieldVal k fs = some (n, v) ∧ maybeValid v ≠ some false := by
  obtain ⟨props, h1, h2, h3⟩ := extractInto_info [] h.noEmb
  have h3' : ∀ p, alookup p props = (fieldVal p fs).map (fun nv => ⟨nv.1, isMaybeVal nv.2⟩) := by
    intro p; rw [h3]; cases fieldVal p fs <;> simp [alookup]
  have hnd : (props.map (·.1)).Nodup := h2 (by simp)
  have hloop : ∀ l : List (GoStr × PropInfo), (∀ q ∈ l, q ∈ props) → (l.map (·.1)).Nodup →
      ∃ names, propNamesLoop fs l = .ok names ∧ names.Nodup ∧ (∀ k ∈ names, k ∈ l.map (·.1)) ∧
        ∀ k, k ∈ names ↔ k ∈ l.map (·.1) ∧ ∃ n v, fieldVal k fs = some (n, v) ∧ maybeValid v ≠ some false := by
    intro l
    induction l with
    | nil => intro _ _; exact ⟨[], by simp [propNamesLoop], by simp, by simp, by simp⟩
    | cons q l ih =>
      intro hsub hn
      obtain ⟨p, info⟩ := q
      simp only [List.map_cons, List.nodup_cons] at hn
      obtain ⟨names, e1, e2, e3, e4⟩ := ih (fun r hr => hsub r (by simp [hr])) hn.2
      have hal : alookup p props = some info := alookup_of_mem hnd (hsub _ (by simp))
      rw [h3'] at hal
      obtain ⟨⟨n, v⟩, hfv, hinfo⟩ := Option.map_eq_some_iff.1 hal
      subst hinfo
      have hlook : fieldByName n fs = some v := by
        rw [fieldByName_flat h]
        obtain ⟨f, g1, rfl, -⟩ := fieldVal_mem hfv
        exact lookupField_of_mem h.nodup g1
      have hpn : p ∉ names := fun hp => hn.1 (e3 p hp)
      have hcons : ∃ names', (propNamesLoop fs l).map (p :: ·) = .ok names' ∧ names' = p :: names := by
        rw [e1]; exact ⟨_, rfl, rfl⟩
      have hmem : ∀ k, (k = p ∨ k ∈ names) ↔ (k = p ∨ k ∈ l.map (·.1)) ∧
          (k = p ∨ ∃ n v, fieldVal k fs = some (n, v) ∧ maybeValid v ≠ some false) := by
        intro k
        rw [e4]
        constructor
        · rintro (rfl | ⟨a, b⟩)
          · exact ⟨Or.inl rfl, Or.inl rfl⟩
          · exact ⟨Or.inr a, Or.inr b⟩
        · rintro ⟨rfl | a, b | b⟩
          · exact Or.inl rfl
          · exact Or.inl rfl
          · exact Or.inl b
          · exact Or.inr ⟨a, b⟩
      by_cases hm : isMaybeVal v = true
      · obtain ⟨w, hw⟩ := maybeValid_of_isMaybe hm
        cases w with
        | false =>
          refine ⟨names, by simp [propNamesLoop, hm, hlook, hw, e1], e2, fun k hk => by simp [e3 k hk], fun k => ?_⟩
          rw [e4]
          constructor
          · rintro ⟨a, b⟩; exact ⟨by simp [a], b⟩
          · rintro ⟨a, b⟩
            simp only [List.map_cons, List.mem_cons] at a
            rcases a with rfl | a
            · obtain ⟨n', v', hb, hb'⟩ := b
              rw [hfv] at hb
              cases hb
              exact absurd hw hb'
            · exact ⟨a, b⟩
        | true =>
          refine ⟨p :: names, by simp [propNamesLoop, hm, hlook, hw, e1, Except.map], by simp [hpn, e2], ?_, ?_⟩
          · intro k hk
            rcases List.mem_cons.1 hk with rfl | hk
            · simp
            · simp [e3 k hk]
          · intro k
            rw [List.mem_cons, hmem]
            simp only [List.map_cons, List.mem_cons]
            refine and_congr_right fun _ => ?_
            constructor
            · rintro (rfl | b)
              · exact ⟨n, v, hfv, by simp [hw]⟩
              · exact b
            · exact Or.inr
      · have hmv := maybeValid_of_not hm
        refine ⟨p :: names, by simp [propNamesLoop, hm, e1, Except.map], by simp [hpn, e2], ?_, ?_⟩
        · intro k hk
          rcases List.mem_cons.1 hk with rfl | hk
          · simp
          · simp [e3 k hk]
        · intro k
          rw [List.mem_cons, hmem]
          simp only [List.map_cons, List.mem_cons]
          refine and_congr_right fun _ => ?_
          constructor
          · rintro (rfl | b)
            · exact ⟨n, v, hfv, by simp [hmv]⟩
            · exact b
          · exact Or.inr
  obtain ⟨names, e1, e2, e3, e4⟩ := hloop props (fun _ h => h) hnd
  refine ⟨names, by simp [structPropNames, extract, h1, e1], e2, fun k => ?_⟩
  rw [e4]
  constructor
  · exact fun h => h.2
  · rintro ⟨n, v, a, b⟩
    refine ⟨?_, n, v, a, b⟩
    rw [← alookup_isSome, h3', a]
    exact ⟨_, rfl⟩

end Jsval
