import Verif.Spec.Typed
import Verif.Lemmas.Basic
import Verif.Lemmas.Induct
/-!
# Typed values and their contents
-/
namespace Jsval
variable {u : Uses} {ext : Ext}

theorem contentList_eq : ∀ xs, contentList xs = xs.map TVal.content
  | [] => by simp [contentList]
  | x :: xs => by simp [contentList, contentList_eq xs]

theorem contentEntries_eq : ∀ l, contentEntries l = l.map fun p => (p.1, p.2.content)
  | [] => by simp [contentEntries]
  | (k, x) :: l => by simp [contentEntries, contentEntries_eq l]

theorem contentFields_eq : ∀ l, contentFields l = l.map fun p => (p.1.toField, p.2.content)
  | [] => by simp [contentFields]
  | (f, x) :: l => by simp [contentFields, contentFields_eq l]

theorem contentOpt_eq (o : Option TVal) : contentOpt o = o.map TVal.content := by cases o <;> simp [contentOpt]

theorem alookup_content (k : GoStr) : ∀ l, alookup k (contentEntries l) = (alookup k l).map TVal.content
  | [] => by simp [contentEntries, alookup]
  | (k', x) :: l => by
    simp only [contentEntries, alookup]
    split
    · simp
    · exact alookup_content k l

theorem ainsert_content (k : GoStr) (x : TVal) : ∀ l, contentEntries (ainsert k x l) = ainsert k x.content (contentEntries l)
  | [] => by simp [contentEntries, ainsert]
  | (k', y) :: l => by
    simp only [contentEntries, ainsert]
    split
    · simp [contentEntries]
    · simp [contentEntries, ainsert_content k x l]

theorem adelete_content (k : GoStr) (l) : contentEntries (adelete k l) = adelete k (contentEntries l) := by
  simp [contentEntries_eq, adelete, List.filter_map, Function.comp_def]

theorem ainsert_mem {β : Type} {k : GoStr} {x : β} {q : GoStr × β} : ∀ {l : List (GoStr × β)}, q ∈ ainsert k x l → q = (k, x) ∨ q ∈ l
  | [], h => by simpa [ainsert] using h
  | (k', y) :: l, h => by
    simp only [ainsert] at h
    split at h
    · rcases List.mem_cons.1 h with h | h
      · exact Or.inl h
      · exact Or.inr (by simp [h])
    · rcases List.mem_cons.1 h with h | h
      · exact Or.inr (by simp [h])
      · rcases ainsert_mem h with h | h
        · exact Or.inl h
        · exact Or.inr (by simp [h])

/-! ## Plain values -/

mutual
theorem content_ofPlain : ∀ v : GoVal, (TVal.ofPlain v).content = v
  | .nil => rfl
  | .bool _ => rfl
  | .int _ _ => rfl
  | .uint _ _ => rfl
  | .float _ _ => rfl
  | .str _ => rfl
  | .slice n xs => by simp [TVal.ofPlain, TVal.content, contentElems_ofPlain xs]
  | .map n kvs => by simp [TVal.ofPlain, TVal.content, contentEntries_ofPlain kvs]
  | .mapOther _ _ => rfl
  | .struct fs => by simp [TVal.ofPlain, TVal.content, contentFields_ofPlain fs]
  | .ptr none => rfl
  | .ptr (some x) => by simp [TVal.ofPlain, plainPtr, TVal.content, contentOpt, content_ofPlain x]
  | .iface v => by simp [TVal.ofPlain, TVal.content, content_ofPlain v]
  | .maybe _ _ => rfl
  | .time _ => rfl
  | .other _ _ => rfl
theorem contentElems_ofPlain : ∀ xs : List GoVal, contentList (plainElems xs) = xs
  | [] => rfl
  | x :: xs => by simp [plainElems, contentList, content_ofPlain x, contentElems_ofPlain xs]
theorem contentEntries_ofPlain : ∀ l : List (GoStr × GoVal), contentEntries (plainEntries l) = l
  | [] => rfl
  | (k, x) :: l => by simp [plainEntries, contentEntries, content_ofPlain x, contentEntries_ofPlain l]
theorem contentFields_ofPlain : ∀ l : List (Field × GoVal), contentFields (plainFields l) = l
  | [] => rfl
  | (f, x) :: l => by simp [plainFields, contentFields, content_ofPlain x, contentFields_ofPlain l]
end

theorem isMaybe_iff (t : GoType) : t.isMaybe = true ↔ t.IsMaybeType := by
  constructor
  · intro h
    unfold GoType.isMaybe at h
    split at h
    · exact ⟨_, Or.inl rfl⟩
    · exact ⟨_, Or.inr rfl⟩
    · cases h
  · rintro ⟨k, rfl | rfl⟩ <;> rfl

theorem not_maybeType {t : GoType} (h : t.isMaybe = false) : ¬ t.IsMaybeType := by
  rw [← isMaybe_iff, h]; simp

theorem takes_iff (t e : GoType) : t.assignable e = true ↔ e.Takes t := by
  have lit : ∀ t : GoType, t.isLiteral = true ↔ (t = .any ∨ (∃ u, t = .slice u) ∨ (∃ k u, t = .map k u) ∨ ∃ u, t = .ptr u) := by
    intro t; cases t <;> simp [GoType.isLiteral]
  simp only [GoType.assignable, Bool.or_eq_true, Bool.and_eq_true, beq_iff_eq, lit]
  constructor
  · rintro ((rfl | h) | ⟨h, h' | h'⟩)
    · exact .same _
    · exact .iface h
    · exact .unnamed h h'
    · exact .unnamedPlace h h'
  · intro h
    cases h with
    | same => exact Or.inl (Or.inl rfl)
    | iface h => exact Or.inl (Or.inr h)
    | unnamed h h' => exact Or.inr ⟨h, Or.inl h'⟩
    | unnamedPlace h h' => exact Or.inr ⟨h, Or.inr h'⟩

theorem fieldOk_iff {f : TField} {v : TVal} : FieldOk f v ↔ f.type.isMaybe = isMaybeVal v.content ∧ (f.type.isMaybe = true → f.type = v.typeOf) ∧
    (f.anonymous = true → f.type = .any → (∀ id, v.typeOf ≠ .struct id) ∧ v.typeOf ≠ .time) := by
  unfold FieldOk
  rw [← isMaybe_iff, ← Bool.eq_iff_iff]

theorem isMaybe_ofPlain (v : GoVal) : (TVal.ofPlain v).typeOf.isMaybe = isMaybeVal v := by
  cases v with
  | ptr p =>
    cases p with
    | none => rfl
    | some x =>
      cases x with
      | ptr p => cases p <;> rfl
      | _ => rfl
  | _ => rfl

mutual
theorem ordinary_ofPlain : ∀ v : GoVal, Ordinary u (TVal.ofPlain v)
  | .nil => .leaf rfl fun _ => nofun
  | .bool _ => .leaf rfl fun _ => nofun
  | .int _ _ => .leaf rfl fun _ => nofun
  | .uint _ _ => .leaf rfl fun _ => nofun
  | .float _ _ => .leaf rfl fun _ => nofun
  | .str _ => .leaf rfl fun _ => nofun
  | .slice n xs => by
    rw [TVal.ofPlain]
    exact .slice (fun _ => ⟨rfl, rfl⟩) (ordinary_elems xs)
  | .map n kvs => by
    rw [TVal.ofPlain]
    exact .map (fun _ => ⟨rfl, rfl⟩) (fun _ => rfl) (by rw [← isMaybe_iff]; simp [GoType.isMaybe]) (ordinary_entries kvs)
  | .mapOther _ _ => .leaf rfl fun _ => nofun
  | .struct fs => by
    rw [TVal.ofPlain]
    exact .struct (fun p hp => (ordinary_fields fs p hp).1) (fun p hp => (ordinary_fields fs p hp).2)
  | .ptr none => .leaf rfl fun _ => nofun
  | .ptr (some x) => by
    rw [TVal.ofPlain, plainPtr]
    exact .ptr (ordinary_ofPlain x)
  | .iface v => by
    rw [TVal.ofPlain]
    exact .iface (ordinary_ofPlain v)
  | .maybe _ _ => .leaf rfl fun _ => nofun
  | .time _ => .leaf rfl fun _ => nofun
  | .other _ _ => .leaf rfl fun _ => nofun
theorem ordinary_elems : ∀ xs : List GoVal, ∀ x ∈ plainElems xs, Ordinary u x
  | [], x, hx => by simp [plainElems] at hx
  | y :: xs, x, hx => by
    have h1 := ordinary_ofPlain y
    have h2 := ordinary_elems xs
    simp only [plainElems, List.mem_cons] at hx
    rcases hx with rfl | hx
    · exact h1
    · exact h2 x hx
theorem ordinary_entries : ∀ l : List (GoStr × GoVal), ∀ p ∈ plainEntries l, Ordinary u p.2
  | [], p, hp => by simp [plainEntries] at hp
  | (k, y) :: l, p, hp => by
    have h1 := ordinary_ofPlain y
    have h2 := ordinary_entries l
    simp only [plainEntries, List.mem_cons] at hp
    rcases hp with rfl | hp
    · exact h1
    · exact h2 p hp
theorem ordinary_fields : ∀ l : List (Field × GoVal), ∀ p ∈ plainFields l, FieldOk p.1 p.2 ∧ Ordinary u p.2
  | [], p, hp => by simp [plainFields] at hp
  | (f, y) :: l, p, hp => by
    have h1 := ordinary_ofPlain y
    have h2 := ordinary_fields l
    simp only [plainFields, List.mem_cons] at hp
    rcases hp with rfl | hp
    · refine ⟨fieldOk_iff.2 ⟨?_, fun _ => rfl, fun _ h => ?_⟩, h1⟩
      · rw [content_ofPlain]; exact isMaybe_ofPlain y
      · simp only at h ⊢
        rw [h]
        exact ⟨fun id h' => (by cases h'), fun h' => (by cases h')⟩
    · exact h2 p hp
end

/-! ## Dereferencing -/

theorem content_nil {v : TVal} : v.content = .nil ↔ v = .nil := by cases v <;> simp [TVal.content]

theorem indirect_content (v : TVal) : (valueOf v.content).indirect = v.indirect.map TVal.content := by
  cases v with
  | ptr e p => cases p <;> simp [TVal.content, valueOf, RV.indirect, TVal.indirect, contentOpt]
  | iface x => cases x <;> simp [TVal.content, valueOf, RV.indirect, TVal.indirect]
  | _ => simp [TVal.content, valueOf, RV.indirect, TVal.indirect]

theorem Ordinary.indirect {v w : TVal} (h : Ordinary u v) (hw : v.indirect = some w) : Ordinary u w := by
  cases v with
  | nil => cases hw
  | ptr e p =>
    simp only [TVal.indirect] at hw
    subst hw
    cases h with
    | leaf h => cases h
    | ptr h => exact h
  | iface x =>
    have hx : Ordinary u x := by
      cases h with
      | leaf h => cases h
      | iface h => exact h
    have : x = w := by
      cases x <;> simp only [TVal.indirect, Option.some.injEq, reduceCtorEq] at hw <;> exact hw
    exact this ▸ hx
  | _ =>
    simp only [TVal.indirect, Option.some.injEq] at hw
    exact hw ▸ h

/-! ## Fields -/

/-- All fields of a struct are as they should be. -/
def OrdFields (u : Uses) (fs : TFields) : Prop := (∀ p ∈ fs, FieldOk p.1 p.2) ∧ ∀ p ∈ fs, Ordinary u p.2

theorem Ordinary.fields {id : GoStr} {fs : TFields} (h : Ordinary u (.struct id fs)) : OrdFields u fs := by
  cases h with
  | leaf h => cases h
  | struct h1 h2 => exact ⟨h1, h2⟩

mutual
theorem extractInto_content : ∀ (fs : TFields) (props : List (GoStr × PropInfo)), OrdFields u fs →
    extractIntoT props fs = extractInto props (contentFields fs)
  | [], props, _ => by simp [extractIntoT, contentFields, extractInto]
  | p :: rest, props, h => by
    have h1 := extractField_content p props (h.1 p (by simp)) (h.2 p (by simp))
    obtain ⟨f, v⟩ := p
    simp only [extractIntoT, contentFields, extractInto, h1]
    cases extractField props (f.toField, v.content) with
    | none => rfl
    | some ps =>
      exact extractInto_content rest ps ⟨fun q hq => h.1 q (by simp [hq]), fun q hq => h.2 q (by simp [hq])⟩
theorem extractField_content : ∀ (p : TField × TVal) (props : List (GoStr × PropInfo)), FieldOk p.1 p.2 → Ordinary u p.2 →
    extractFieldT props p = extractField props (p.1.toField, p.2.content)
  | (f, v), props, hf, hv => by
    have h1 := extractEmb_content v props hv
    simp only [extractFieldT, extractField]
    by_cases ha : f.anonymous = true
    · simp only [ha, if_true]
      by_cases ht : f.type = .any
      · rw [if_pos ht]
        obtain ⟨hs, hti⟩ := hf.2.2 ha ht
        cases v with
        | struct id fs => exact absurd rfl (hs id)
        | time t => exact absurd rfl hti
        | ptr e p => cases p <;> simp [TVal.content, extractEmb, contentOpt]
        | _ => simp [TVal.content, extractEmb]
      · rw [if_neg ht, h1]
    · simp only [ha]
      rw [(fieldOk_iff.1 hf).1]
      rfl
theorem extractEmb_content : ∀ (v : TVal) (props : List (GoStr × PropInfo)), Ordinary u v →
    extractEmbT props v = extractEmb props v.content
  | .struct id fs, props, h => by
    simp only [extractEmbT, TVal.content, extractEmb]
    rw [extractInto_content fs [] h.fields]
  | .time _, props, h => by simp [extractEmbT, TVal.content, extractEmb]
  | .nil, props, h => by simp [extractEmbT, TVal.content, extractEmb]
  | .bool _ _, props, h => by simp [extractEmbT, TVal.content, extractEmb]
  | .int _ _ _, props, h => by simp [extractEmbT, TVal.content, extractEmb]
  | .uint _ _ _, props, h => by simp [extractEmbT, TVal.content, extractEmb]
  | .float _ _ _, props, h => by simp [extractEmbT, TVal.content, extractEmb]
  | .str _ _, props, h => by simp [extractEmbT, TVal.content, extractEmb]
  | .slice _ _ _ _, props, h => by simp [extractEmbT, TVal.content, extractEmb]
  | .map _ _ _ _ _, props, h => by simp [extractEmbT, TVal.content, extractEmb]
  | .mapOther _ _, props, h => by simp [extractEmbT, TVal.content, extractEmb]
  | .ptr _ _, props, h => by simp [extractEmbT, TVal.content, extractEmb]
  | .iface _, props, h => by simp [extractEmbT, TVal.content, extractEmb]
  | .maybe _ _, props, h => by simp [extractEmbT, TVal.content, extractEmb]
  | .other _ _, props, h => by simp [extractEmbT, TVal.content, extractEmb]
end

theorem extract_content {fs : TFields} (h : OrdFields u fs) : extractT fs = extract (contentFields fs) :=
  extractInto_content fs [] h

theorem fieldsAt_content (fn : GoStr) : ∀ (d : Nat) (fs : TFields), fieldsAt fn d (contentFields fs) = (fieldsAtT fn d fs).map (·.2.content)
  | 0, fs => by
    simp [fieldsAt, fieldsAtT, contentFields_eq, List.filter_map, Function.comp_def]
  | d + 1, fs => by
    simp only [fieldsAt, fieldsAtT, contentFields_eq, List.flatMap_map, List.map_flatMap]
    congr 1
    funext p
    by_cases ha : p.1.anonymous = true
    · simp only [ha, if_true]
      obtain ⟨f, v⟩ := p
      cases v with
      | struct id fs' =>
        simp only [TVal.content]
        exact fieldsAt_content fn d fs'
      | _ => simp [TVal.content]
    · simp [ha]

theorem fieldByName_content (fn : GoStr) (fs : TFields) : fieldByName fn (contentFields fs) = (fieldByNameT fn fs).map (·.2.content) := by
  unfold fieldByName fieldByNameT
  cases fieldDepth fn (contentFields fs) with
  | none => rfl
  | some d => simp [fieldsAt_content, List.head?_map]

/-- A field as it should be, given by its type and value. -/
def PairOk (u : Uses) (q : GoType × TVal) : Prop :=
  q.1.isMaybe = isMaybeVal q.2.content ∧ (q.1.isMaybe = true → q.1 = q.2.typeOf) ∧ Ordinary u q.2

theorem fieldsAtT_ok {fn : GoStr} : ∀ {d : Nat} {fs : TFields}, OrdFields u fs → ∀ q ∈ fieldsAtT fn d fs, PairOk u q
  | 0, fs, h, q, hq => by
    simp only [fieldsAtT, List.mem_map, List.mem_filter] at hq
    obtain ⟨p, ⟨hp, -⟩, rfl⟩ := hq
    exact ⟨(fieldOk_iff.1 (h.1 p hp)).1, (fieldOk_iff.1 (h.1 p hp)).2.1, h.2 p hp⟩
  | d + 1, fs, h, q, hq => by
    simp only [fieldsAtT, List.mem_flatMap] at hq
    obtain ⟨p, hp, hq⟩ := hq
    split at hq
    · have ho := h.2 p hp
      split at hq
      · rename_i id fs' e
        rw [e] at ho
        exact fieldsAtT_ok ho.fields q hq
      · simp at hq
    · simp at hq

theorem fieldByNameT_ok {fn : GoStr} {fs : TFields} (h : OrdFields u fs) {q : GoType × TVal} (hq : fieldByNameT fn fs = some q) : PairOk u q := by
  unfold fieldByNameT at hq
  cases hd : fieldDepth fn (contentFields fs) with
  | none => rw [hd] at hq; cases hq
  | some d =>
    rw [hd] at hq
    simp only [Option.bind_some] at hq
    exact fieldsAtT_ok h q (List.mem_of_mem_head? (by rw [hq]; rfl))

/-- The same type, and a Maybe or not as before. -/
def Kin (x y : TVal) : Prop := y.typeOf = x.typeOf ∧ isMaybeVal y.content = isMaybeVal x.content

theorem Kin.refl (x : TVal) : Kin x x := ⟨rfl, rfl⟩
theorem Kin.trans {x y z : TVal} (h : Kin x y) (h' : Kin y z) : Kin x z := ⟨h'.1.trans h.1, h'.2.trans h.2⟩

theorem Kin.field {f : TField} {x y : TVal} (h : Kin x y) (hf : FieldOk f x) : FieldOk f y :=
  ⟨by rw [h.2]; exact hf.1, fun hm => by rw [h.1]; exact hf.2.1 hm, fun ha ht => by rw [h.1]; exact hf.2.2 ha ht⟩

theorem fieldsSet_content (fn : GoStr) (x : TVal) : ∀ (d : Nat) (fs : TFields),
    contentFields (fieldsSetT fn x d fs) = fieldsSet fn x.content d (contentFields fs)
  | 0, fs => by
    simp only [fieldsSetT, fieldsSet, contentFields_eq, List.map_map]
    congr 1
    funext p
    simp only [Function.comp_apply]
    split <;> rfl
  | d + 1, fs => by
    simp only [fieldsSetT, fieldsSet, contentFields_eq, List.map_map]
    congr 1
    funext p
    obtain ⟨f, v⟩ := p
    simp only [Function.comp_apply]
    by_cases ha : f.anonymous = true
    · simp only [ha, if_true]
      cases v with
      | struct id fs' =>
        have := fieldsSet_content fn x d fs'
        simp only [contentFields_eq] at this
        simp [TVal.content, contentFields_eq, this]
      | _ => simp [TVal.content]
    · simp [ha]

theorem setField_content (fn : GoStr) (x : TVal) (fs : TFields) :
    contentFields (setFieldT fn x fs) = setField fn x.content (contentFields fs) := by
  unfold setFieldT setField
  cases fieldDepth fn (contentFields fs) with
  | none => rfl
  | some d => exact fieldsSet_content fn x d fs

theorem fieldsSetT_ok {fn : GoStr} {x : TVal} (hx : Ordinary u x) : ∀ {d : Nat} {fs : TFields}, OrdFields u fs →
    (∀ q ∈ fieldsAtT fn d fs, Kin q.2 x) → OrdFields u (fieldsSetT fn x d fs)
  | 0, fs, h, hk => by
    have key : ∀ p ∈ fieldsSetT fn x 0 fs, FieldOk p.1 p.2 ∧ Ordinary u p.2 := by
      intro p hp
      simp only [fieldsSetT, List.mem_map] at hp
      obtain ⟨q, hq, rfl⟩ := hp
      split
      · rename_i hn
        have : Kin q.2 x := hk (q.1.type, q.2) (by
          simp only [fieldsAtT, List.mem_map, List.mem_filter]
          exact ⟨q, ⟨hq, by simpa using hn⟩, rfl⟩)
        exact ⟨this.field (h.1 q hq), hx⟩
      · exact ⟨h.1 q hq, h.2 q hq⟩
    exact ⟨fun p hp => (key p hp).1, fun p hp => (key p hp).2⟩
  | d + 1, fs, h, hk => by
    have key : ∀ p ∈ fieldsSetT fn x (d + 1) fs, FieldOk p.1 p.2 ∧ Ordinary u p.2 := by
      intro p hp
      simp only [fieldsSetT, List.mem_map] at hp
      obtain ⟨q, hq, rfl⟩ := hp
      obtain ⟨f, v⟩ := q
      by_cases ha : f.anonymous = true
      · simp only [ha, if_true]
        cases v with
        | struct id fs' =>
          have ho := (h.2 _ hq).fields
          have hs := fieldsSetT_ok hx ho (fun q hq' => hk q (by
            simp only [fieldsAtT, List.mem_flatMap]
            exact ⟨_, hq, by simpa [ha] using hq'⟩))
          have hkin : Kin (.struct id fs') (.struct id (fieldsSetT fn x d fs')) := ⟨rfl, rfl⟩
          show FieldOk f (.struct id (fieldsSetT fn x d fs')) ∧ Ordinary u (.struct id (fieldsSetT fn x d fs'))
          exact ⟨hkin.field (h.1 _ hq), .struct hs.1 hs.2⟩
        | _ => exact ⟨h.1 _ hq, h.2 _ hq⟩
      · simp only [ha]
        exact ⟨h.1 _ hq, h.2 _ hq⟩
    exact ⟨fun p hp => (key p hp).1, fun p hp => (key p hp).2⟩

theorem setFieldT_ok {fn : GoStr} {x : TVal} {fs : TFields} {q : GoType × TVal} (hx : Ordinary u x) (h : OrdFields u fs)
    (hq : fieldByNameT fn fs = some q) (hk : Kin q.2 x) : OrdFields u (setFieldT fn x fs) := by
  unfold fieldByNameT at hq
  unfold setFieldT
  cases hd : fieldDepth fn (contentFields fs) with
  | none => rw [hd] at hq; cases hq
  | some d =>
    rw [hd] at hq
    simp only [Option.bind_some] at hq
    have hlen : (fieldsAtT fn d fs).length = 1 := by
      unfold fieldDepth at hd
      rcases hf : (List.range (embDepth (contentFields fs) + 1)).find? (fun d => !(fieldsAt fn d (contentFields fs)).isEmpty) with _ | d'
      · rw [hf] at hd; cases hd
      · rw [hf] at hd
        simp only [Option.bind_some] at hd
        split at hd
        · rename_i hl
          cases hd
          rw [fieldsAt_content, List.length_map] at hl
          exact hl
        · cases hd
    obtain ⟨a, ha⟩ := List.length_eq_one_iff.1 hlen
    refine fieldsSetT_ok hx h (fun r hr => ?_)
    rw [ha] at hr hq
    simp only [List.head?_cons, Option.some.injEq] at hq
    simp only [List.mem_singleton] at hr
    rw [hr, hq]
    exact hk

theorem maybeValid_content (v : TVal) : maybeValid v.content = maybeValidT v := by
  cases v with
  | ptr e p =>
    cases p with
    | none => rfl
    | some x => cases x <;> rfl
  | _ => simp [TVal.content, maybeValid, maybeValidT]

theorem propNamesLoop_content (fs : TFields) : ∀ l, propNamesLoopT fs l = propNamesLoop (contentFields fs) l
  | [] => rfl
  | (k, info) :: l => by
    simp only [propNamesLoopT, propNamesLoop, fieldByName_content, propNamesLoop_content fs l]
    have : ((fieldByNameT info.fieldName fs).map (·.2.content)).bind maybeValid =
        (fieldByNameT info.fieldName fs).bind (fun p => maybeValidT p.2) := by
      cases fieldByNameT info.fieldName fs with
      | none => rfl
      | some q => simp [maybeValid_content]
    rw [this]
    split
    · rcases (fieldByNameT info.fieldName fs).bind (fun p => maybeValidT p.2) with _ | _ | _ <;> rfl
    · rfl

theorem structPropNames_content {fs : TFields} (h : OrdFields u fs) : structPropNamesT fs = structPropNames (contentFields fs) := by
  unfold structPropNamesT structPropNames
  rw [extract_content h]
  cases extract (contentFields fs) with
  | none => rfl
  | some l => exact propNamesLoop_content fs l

/-! ## Objects -/

theorem Ordinary.entries {n : Option GoStr} {k e : GoType} {z : Bool} {kvs : List (GoStr × TVal)} (h : Ordinary u (.map n k e z kvs)) :
    k = .str ∧ (u.enums → n = none ∧ e = .any) ∧ (u.defaults → e.under = .any) ∧ e.isMaybe = false ∧ ∀ p ∈ kvs, Ordinary u p.2 := by
  cases h with
  | leaf h => cases h
  | map h1 h2 h3 h4 => exact ⟨rfl, h1, h2, by rw [← isMaybe_iff] at h3; simpa using h3, h4⟩

theorem getPropNames_content {v : TVal} (h : Ordinary u v) : getPropNamesT v.indirect = getPropNames (valueOf v.content).indirect := by
  rw [indirect_content]
  have key : ∀ w, Ordinary u w → getPropNamesT (some w) = getPropNames (some w.content) := by
    intro w hw
    have hi : RV.indirect (some w.content) = w.indirect.map TVal.content ∨ w = .nil := by
      by_cases hn : w = .nil
      · exact Or.inr hn
      · have := indirect_content w
        rw [show valueOf w.content = some w.content from by
          cases w <;> first | exact absurd rfl hn | rfl] at this
        exact Or.inl this
    rcases hi with hi | rfl
    · unfold getPropNamesT getPropNames
      simp only [Option.bind_some, hi]
      cases hx : w.indirect with
      | none => rfl
      | some x =>
        have hxo := hw.indirect hx
        cases x with
        | map n k e z kvs =>
          obtain ⟨rfl, -⟩ := hxo.entries
          simp [TVal.content, GoType.under, contentEntries_eq]
        | struct id fs =>
          simp only [Option.map_some, TVal.content, structPropNames_content hxo.fields]
          cases structPropNames (contentFields fs) <;> rfl
        | ptr e p => cases p <;> simp [TVal.content]
        | _ => simp [TVal.content]
    · rfl
  cases hx : v.indirect with
  | none => rfl
  | some w => exact key w (h.indirect hx)

/-- Lookup results, by their contents. -/
def contentRV (r : Option (GoType × TVal)) : RV := r.map (·.2.content)

theorem getProp_content {w : TVal} (h : Ordinary u w) (p : GoStr) :
    getProp (some w.content) p = (getPropT (some w) p).map contentRV := by
  cases w with
  | map n k e z kvs =>
    obtain ⟨rfl, -⟩ := h.entries
    have : GoType.str.assignable .str = true := by decide
    simp only [TVal.content, getProp, getPropT, this, if_true, alookup_content, Except.map, contentRV, Option.map_map]
    rfl
  | struct id fs =>
    simp only [TVal.content, getProp, getPropT, extract_content h.fields]
    cases extract (contentFields fs) with
    | none => rfl
    | some l =>
      simp only
      cases alookup p l with
      | none => rfl
      | some info => simp only [fieldByName_content]; rfl
  | ptr e q => cases q <;> rfl
  | _ => rfl

theorem getPropT_ok {w : TVal} (h : Ordinary u w) {p : GoStr} {q : GoType × TVal} (hq : getPropT (some w) p = .ok (some q)) : Ordinary u q.2 := by
  cases w with
  | map n k e z kvs =>
    obtain ⟨rfl, -, -, -, h4⟩ := h.entries
    have : GoType.str.assignable .str = true := by decide
    simp only [getPropT, this, if_true, Except.ok.injEq] at hq
    cases hl : alookup p kvs with
    | none => rw [hl] at hq; cases hq
    | some x =>
      rw [hl] at hq
      simp only [Option.map_some, Option.some.injEq] at hq
      subst hq
      exact h4 _ (alookup_mem hl)
  | struct id fs =>
    simp only [getPropT] at hq
    split at hq
    · cases hq
    · split at hq
      · cases hq
      · simp only [Except.ok.injEq] at hq
        exact (fieldByNameT_ok h.fields hq).2.2
  | _ => simp [getPropT] at hq

/-- What the existence switch sees, by its contents. -/
def PropViewT.content : PropViewT → PropView
  | .absent => .absent
  | .present x s => .present x.content s

theorem viewProp_content {w : TVal} (h : Ordinary u w) (p : GoStr) :
    viewProp (some w.content) p = (viewPropT (some w) p).map PropViewT.content := by
  unfold viewProp viewPropT
  rw [getProp_content h]
  cases hg : getPropT (some w) p with
  | error a => rfl
  | ok r =>
    cases r with
    | none => rfl
    | some q =>
      obtain ⟨t, x⟩ := q
      cases w with
      | map n k e z kvs =>
        obtain ⟨rfl, -, -, hm, -⟩ := h.entries
        have ht : t = e := by
          have : GoType.str.assignable .str = true := by decide
          simp only [getPropT, this, if_true, Except.ok.injEq] at hg
          cases hl : alookup p kvs with
          | none => rw [hl] at hg; cases hg
          | some y => rw [hl] at hg; cases hg; rfl
        subst ht
        simp [Except.map, contentRV, TVal.content, hm, PropViewT.content]
      | struct id fs =>
        have hok : PairOk u (t, x) := by
          simp only [getPropT] at hg
          split at hg
          · cases hg
          · split at hg
            · cases hg
            · simp only [Except.ok.injEq] at hg
              exact fieldByNameT_ok h.fields hg
        simp only [Except.map, contentRV, TVal.content, Option.map_some]
        have h1 := hok.1
        cases x with
        | maybe b q =>
          simp only [TVal.content, isMaybeVal] at h1
          simp only [h1, if_true]
          cases b <;> simp [PropViewT.content, TVal.content, content_ofPlain]
        | ptr e q =>
          cases q with
          | none =>
            simp only [TVal.content, contentOpt, isMaybeVal] at h1
            simp [h1, PropViewT.content, TVal.content, contentOpt]
          | some y =>
            cases y with
            | maybe b q =>
              simp only [TVal.content, contentOpt, isMaybeVal] at h1
              simp only [h1, if_true, TVal.content, contentOpt]
              cases b <;> simp [PropViewT.content, content_ofPlain]
            | _ =>
              simp only [TVal.content, contentOpt, isMaybeVal] at h1
              simp [h1, PropViewT.content, TVal.content, contentOpt]
        | _ =>
          simp only [TVal.content, isMaybeVal] at h1
          simp [h1, PropViewT.content, TVal.content]
      | _ => simp [getPropT] at hg

theorem view_none (p : GoStr) : viewProp none p = .ok .absent ∧ viewPropT none p = .ok .absent := ⟨rfl, rfl⟩

end Jsval
