import Verif.Spec.Struct
import Verif.Lemmas.ObjView
/-!
# Structs with embedded structs
-/
namespace Jsval

theorem foldl_ainsert {β : Type _} (info : List (GoStr × β)) : ∀ (props : List (GoStr × β)), (info.map (·.1)).Nodup →
    ∀ p, alookup p (info.foldl (fun acc kv => ainsert kv.1 kv.2 acc) props) =
      match alookup p info with
      | some x => some x
      | none => alookup p props := by
  induction info with
  | nil => intro props _ p; rfl
  | cons kv info ih =>
    intro props hn p
    simp only [List.map_cons, List.nodup_cons] at hn
    rw [List.foldl_cons, ih _ hn.2]
    obtain ⟨k, x⟩ := kv
    simp only [alookup]
    by_cases hk : k = p
    · subst hk
      have : alookup k info = none := by rw [alookup_eq_none]; exact hn.1
      simp [this, alookup_ainsert]
    · cases h : alookup p info with
      | some y => simp [hk]
      | none => simp [hk, alookup_ainsert, Ne.symm hk]

theorem foldl_ainsert_nodup {β : Type _} (info : List (GoStr × β)) : ∀ (props : List (GoStr × β)),
    (props.map (·.1)).Nodup → ((info.foldl (fun acc kv => ainsert kv.1 kv.2 acc) props).map (·.1)).Nodup := by
  induction info with
  | nil => intro props h; exact h
  | cons kv info ih => intro props h; exact ih _ (nodup_ainsert h)

theorem fieldVal_append {p : GoStr} : ∀ {xs ys : List (Field × GoVal)}, fieldVal p (xs ++ ys) =
    match fieldVal p ys with
    | some n => some n
    | none => fieldVal p xs
  | [], ys => by cases h : fieldVal p ys <;> simp [fieldVal, h]
  | (f, v) :: xs, ys => by
    have ih := fieldVal_append (p := p) (xs := xs) (ys := ys)
    simp only [List.cons_append, fieldVal, ih]
    cases h : fieldVal p ys <;> simp

/-- What the loop has recorded after the fields `us`, in place. -/
def Recorded (props props' : List (GoStr × PropInfo)) (us : List (Field × GoVal)) : Prop :=
  ((props.map (·.1)).Nodup → (props'.map (·.1)).Nodup) ∧ ∀ p, alookup p props' =
    match fieldVal p us with
    | some nv => some ⟨nv.1, isMaybeVal nv.2⟩
    | none => alookup p props

theorem Recorded.nil (props : List (GoStr × PropInfo)) : Recorded props props [] := ⟨fun h => h, fun p => rfl⟩

theorem Recorded.append {a b c : List (GoStr × PropInfo)} {us ws : List (Field × GoVal)} (h : Recorded a b us)
    (h' : Recorded b c ws) : Recorded a c (us ++ ws) := by
  refine ⟨fun hn => h'.1 (h.1 hn), fun p => ?_⟩
  rw [h'.2, fieldVal_append]
  cases fieldVal p ws with
  | some nv => rfl
  | none => exact h.2 p

mutual
theorem extractInto_emb : ∀ (fs : List (Field × GoVal)) (props : List (GoStr × PropInfo)), EmbedsStructs fs →
    ∃ props', extractInto props fs = some props' ∧ Recorded props props' (unembed fs)
  | [], props, _ => ⟨props, by simp [extractInto], by simpa [unembed] using Recorded.nil props⟩
  | p :: rest, props, h => by
    have hp : ∀ q ∈ p :: allFieldsF p, q.1.anonymous = true → (∃ gs, q.2 = .struct gs) ∨ ∃ t, q.2 = .time t :=
      fun q hq => h q (by simp only [allFields]; exact List.mem_append_left _ hq)
    have hr : EmbedsStructs rest := fun q hq => h q (by simp only [allFields]; exact List.mem_append_right _ hq)
    obtain ⟨p1, e1, r1⟩ := extractField_emb p props hp
    obtain ⟨p2, e2, r2⟩ := extractInto_emb rest p1 hr
    refine ⟨p2, by simp [extractInto, e1, e2], ?_⟩
    simp only [unembed]
    exact r1.append r2
theorem extractField_emb : ∀ (p : Field × GoVal) (props : List (GoStr × PropInfo)),
    (∀ q ∈ p :: allFieldsF p, q.1.anonymous = true → (∃ gs, q.2 = .struct gs) ∨ ∃ t, q.2 = .time t) →
    ∃ props', extractField props p = some props' ∧ Recorded props props' (unembedF p)
  | (f, v), props, h => by
    cases ha : f.anonymous with
    | true =>
      have hv := h (f, v) (by simp) ha
      have hin : ∀ q ∈ allFieldsV v, q.1.anonymous = true → (∃ gs, q.2 = .struct gs) ∨ ∃ t, q.2 = .time t :=
        fun q hq => h q (by simp [allFieldsF, ha, hq])
      obtain ⟨p1, e1, r1⟩ := extractEmb_emb v props hv hin
      exact ⟨p1, by simp [extractField, ha, e1], by simpa [unembedF, ha] using r1⟩
    | false =>
      obtain ⟨props', h1, h2, h3⟩ := extractInto_info (fs := [(f, v)]) props (by simpa using ha)
      refine ⟨props', ?_, by simp only [unembedF, ha, Bool.false_eq_true, if_false]; exact ⟨h2, h3⟩⟩
      rw [extractInto] at h1
      obtain ⟨q, e1, e2⟩ := Option.bind_eq_some_iff.1 h1
      simp only [extractInto, Option.some.injEq] at e2
      rw [e1, e2]
theorem extractEmb_emb : ∀ (v : GoVal) (props : List (GoStr × PropInfo)), ((∃ gs, v = .struct gs) ∨ ∃ t, v = .time t) →
    (∀ q ∈ allFieldsV v, q.1.anonymous = true → (∃ gs, q.2 = .struct gs) ∨ ∃ t, q.2 = .time t) →
    ∃ props', extractEmb props v = some props' ∧ Recorded props props' (unembedV v)
  | .struct fs, props, _, h => by
    obtain ⟨info, e1, r1, r2⟩ := extractInto_emb fs [] (fun q hq => h q (by simpa [allFieldsV] using hq))
    refine ⟨info.foldl (fun acc kv => ainsert kv.1 kv.2 acc) props, by simp only [extractEmb, e1, Option.map_some], fun hn => foldl_ainsert_nodup _ _ hn, fun p => ?_⟩
    rw [foldl_ainsert info props (r1 (by simp)), r2]
    simp only [unembedV]
    cases fieldVal p (unembed fs) <;> simp [alookup]
  | .time t, props, _, _ => ⟨props, by simp [extractEmb], by simpa [unembedV] using Recorded.nil props⟩
  | .nil, _, h, _ => by simp at h
  | .bool _, _, h, _ => by simp at h
  | .int _ _, _, h, _ => by simp at h
  | .uint _ _, _, h, _ => by simp at h
  | .float _ _, _, h, _ => by simp at h
  | .str _, _, h, _ => by simp at h
  | .slice _ _, _, h, _ => by simp at h
  | .map _ _, _, h, _ => by simp at h
  | .mapOther _ _, _, h, _ => by simp at h
  | .ptr _, _, h, _ => by simp at h
  | .iface _, _, h, _ => by simp at h
  | .maybe _ _, _, h, _ => by simp at h
  | .other _ _, _, h, _ => by simp at h
end

/-- A field that `extract` can handle: if embedded, then a struct. -/
def OkField (q : Field × GoVal) : Prop := q.1.anonymous = true → (∃ gs, q.2 = .struct gs) ∨ ∃ t, q.2 = .time t

mutual
theorem extractInto_ok : ∀ (fs : List (Field × GoVal)) (props props' : List (GoStr × PropInfo)),
    extractInto props fs = some props' → ∀ q ∈ allFields fs, OkField q
  | [], _, _, _ => by simp [allFields]
  | p :: rest, props, props', h => by
    rw [extractInto] at h
    obtain ⟨p1, e1, e2⟩ := Option.bind_eq_some_iff.1 h
    intro q hq
    simp only [allFields, List.mem_append] at hq
    rcases hq with hq | hq
    · exact extractField_ok p props p1 e1 q hq
    · exact extractInto_ok rest p1 props' e2 q hq
theorem extractField_ok : ∀ (p : Field × GoVal) (props props' : List (GoStr × PropInfo)),
    extractField props p = some props' → ∀ q ∈ p :: allFieldsF p, OkField q
  | (f, v), props, props', h => by
    intro q hq
    cases ha : f.anonymous with
    | true =>
      simp only [extractField, ha, if_true] at h
      obtain ⟨h1, h2⟩ := extractEmb_ok v props props' h
      simp only [allFieldsF, ha, if_true, List.mem_cons] at hq
      rcases hq with rfl | hq
      · exact fun _ => h1
      · exact h2 q hq
    | false =>
      simp only [allFieldsF, ha, Bool.false_eq_true, if_false, List.mem_cons, List.not_mem_nil, or_false] at hq
      subst hq
      intro h'
      simp only [ha] at h'
      cases h'
theorem extractEmb_ok : ∀ (v : GoVal) (props props' : List (GoStr × PropInfo)), extractEmb props v = some props' →
    ((∃ gs, v = .struct gs) ∨ ∃ t, v = .time t) ∧ ∀ q ∈ allFieldsV v, OkField q
  | .struct fs, props, props', h => by
    simp only [extractEmb] at h
    obtain ⟨info, e1, -⟩ := Option.map_eq_some_iff.1 h
    refine ⟨Or.inl ⟨fs, rfl⟩, fun q hq => ?_⟩
    exact extractInto_ok fs [] info e1 q (by simpa [allFieldsV] using hq)
  | .time t, _, _, _ => ⟨Or.inr ⟨t, rfl⟩, by simp [allFieldsV]⟩
  | .nil, _, _, h => by simp [extractEmb] at h
  | .bool _, _, _, h => by simp [extractEmb] at h
  | .int _ _, _, _, h => by simp [extractEmb] at h
  | .uint _ _, _, _, h => by simp [extractEmb] at h
  | .float _ _, _, _, h => by simp [extractEmb] at h
  | .str _, _, _, h => by simp [extractEmb] at h
  | .slice _ _, _, _, h => by simp [extractEmb] at h
  | .map _ _, _, _, h => by simp [extractEmb] at h
  | .mapOther _ _, _, _, h => by simp [extractEmb] at h
  | .ptr _, _, _, h => by simp [extractEmb] at h
  | .iface _, _, _, h => by simp [extractEmb] at h
  | .maybe _ _, _, _, h => by simp [extractEmb] at h
  | .other _ _, _, _, h => by simp [extractEmb] at h
end

/-- `extract` panics exactly when something other than a struct is embedded. -/
theorem extract_isSome {fs : List (Field × GoVal)} : (∃ props, extract fs = some props) ↔ EmbedsStructs fs := by
  constructor
  · rintro ⟨props, h⟩
    exact extractInto_ok fs [] props h
  · intro h
    obtain ⟨props, h, -⟩ := extractInto_emb fs [] h
    exact ⟨props, h⟩

theorem visible_iff (f : Field) (k : GoStr) :
    (f.exported = true ∧ jsonName f.name f.tag = some k) ↔ jsonNameSpec f = some k := by
  constructor
  · rintro ⟨a, b⟩; rw [← jsonName_spec f a]; exact b
  · intro a; exact ⟨jsonNameSpec_exported a, by rw [jsonName_spec f (jsonNameSpec_exported a)]; exact a⟩

theorem fieldVal_none {k : GoStr} : ∀ {us : List (Field × GoVal)},
    fieldVal k us = none ↔ ∀ q ∈ us, jsonNameSpec q.1 ≠ some k
  | [] => by simp [fieldVal]
  | (f, v) :: us => by
    have ih := fieldVal_none (k := k) (us := us)
    simp only [fieldVal]
    cases h : fieldVal k us with
    | some nv =>
      rw [h] at ih
      have : ¬ ∀ q ∈ us, jsonNameSpec q.1 ≠ some k := fun h' => by cases ih.2 h'
      simp only [reduceCtorEq, false_iff]
      exact fun h' => this (fun q hq => h' q (List.mem_cons_of_mem _ hq))
    | none =>
      rw [h] at ih
      simp only [visible_iff]
      have := ih.1 rfl
      by_cases hf : jsonNameSpec f = some k
      · simp [hf]
      · simp [hf]
        exact fun a b hab => this (a, b) hab

theorem fieldVal_designates {k : GoStr} : ∀ {us : List (Field × GoVal)} {n : GoStr} {v : GoVal},
    fieldVal k us = some (n, v) ↔ ∃ pre f post, us = pre ++ (f, v) :: post ∧ f.name = n ∧ jsonNameSpec f = some k ∧
      ∀ q ∈ post, jsonNameSpec q.1 ≠ some k := by
  intro us n v
  constructor
  · intro h
    induction us with
    | nil => simp [fieldVal] at h
    | cons q us ih =>
      obtain ⟨f, w⟩ := q
      simp only [fieldVal] at h
      cases hr : fieldVal k us with
      | some nv =>
        rw [hr] at h
        simp only [Option.some.injEq] at h
        subst h
        obtain ⟨pre, g, post, e, h1, h2, h3⟩ := ih hr
        exact ⟨(f, w) :: pre, g, post, by simp [e], h1, h2, h3⟩
      | none =>
        rw [hr] at h
        simp only [visible_iff] at h
        split at h
        · rename_i hf
          cases h
          exact ⟨[], f, us, rfl, rfl, hf, fieldVal_none.1 hr⟩
        · cases h
  · rintro ⟨pre, f, post, rfl, rfl, h2, h3⟩
    rw [fieldVal_append]
    have : fieldVal k ((f, v) :: post) = some (f.name, v) := by
      simp only [fieldVal, fieldVal_none.2 h3, visible_iff, h2, if_true]
    rw [this]

theorem designates_iff {fs : List (Field × GoVal)} {k n : GoStr} {v : GoVal} :
    fieldVal k (unembed fs) = some (n, v) ↔ ∃ f, Designates fs k f v ∧ f.name = n := by
  rw [fieldVal_designates]
  constructor
  · rintro ⟨pre, f, post, a, b, c, d⟩; exact ⟨f, ⟨pre, post, a, c, d⟩, b⟩
  · rintro ⟨f, ⟨pre, post, a, c, d⟩, b⟩; exact ⟨pre, f, post, a, b, c, d⟩

/-! ## `FieldByName` -/

mutual
theorem unembed_sub : ∀ (fs : List (Field × GoVal)), (unembed fs).Sublist (allFields fs)
  | [] => by simp [unembed, allFields]
  | p :: rest => by
    simp only [unembed, allFields]
    exact (unembedF_sub p).append (unembed_sub rest)
theorem unembedF_sub : ∀ (p : Field × GoVal), (unembedF p).Sublist (p :: allFieldsF p)
  | (f, v) => by
    cases ha : f.anonymous with
    | true => simp only [unembedF, allFieldsF, ha, if_true]; exact (unembedV_sub v).cons _
    | false => simp [unembedF, allFieldsF, ha]
theorem unembedV_sub : ∀ (v : GoVal), (unembedV v).Sublist (allFieldsV v)
  | .struct fs => by simp only [unembedV, allFieldsV]; exact unembed_sub fs
  | .nil => by simp [unembedV]
  | .bool _ => by simp [unembedV]
  | .int _ _ => by simp [unembedV]
  | .uint _ _ => by simp [unembedV]
  | .float _ _ => by simp [unembedV]
  | .str _ => by simp [unembedV]
  | .slice _ _ => by simp [unembedV]
  | .map _ _ => by simp [unembedV]
  | .mapOther _ _ => by simp [unembedV]
  | .ptr _ => by simp [unembedV]
  | .iface _ => by simp [unembedV]
  | .maybe _ _ => by simp [unembedV]
  | .time _ => by simp [unembedV]
  | .other _ _ => by simp [unembedV]
end

/-- The fields found at one depth are among all fields of that name. -/
theorem fieldsAt_sub (fn : GoStr) : ∀ (d : Nat) (fs : List (Field × GoVal)),
    (fieldsAt fn d fs).Sublist (((allFields fs).filter (fun p => decide (p.1.name = fn))).map (·.2))
  | 0, fs => by
    have : fs.Sublist (allFields fs) := by
      induction fs with
      | nil => simp
      | cons p rest ih =>
        simp only [allFields, List.cons_append]
        exact (ih.trans (List.sublist_append_right _ _)).cons₂ p
    exact (this.filter _).map _
  | d + 1, fs => by
    induction fs with
    | nil => simp [fieldsAt]
    | cons p rest ih =>
      obtain ⟨f, v⟩ := p
      simp only [fieldsAt, List.flatMap_cons] at ih ⊢
      simp only [allFields, List.cons_append, List.filter_cons, List.filter_append, List.map_append]
      have hrest : ∀ (l : List GoVal), l.Sublist (((allFieldsF (f, v)).filter (fun p => decide (p.1.name = fn))).map (·.2)) →
          (l ++ rest.flatMap (fun p => if p.1.anonymous then match p.2 with | .struct fs' => fieldsAt fn d fs' | _ => [] else [])).Sublist
          (((allFieldsF (f, v)).filter (fun p => decide (p.1.name = fn))).map (·.2) ++
            ((allFields rest).filter (fun p => decide (p.1.name = fn))).map (·.2)) := fun l hl => hl.append ih
      have hgo : (((allFieldsF (f, v)).filter (fun p => decide (p.1.name = fn))).map (·.2) ++
            ((allFields rest).filter (fun p => decide (p.1.name = fn))).map (·.2)).Sublist
          ((if decide (f.name = fn) = true then
            (f, v) :: (List.filter (fun p => decide (p.1.name = fn)) (allFieldsF (f, v)) ++
              List.filter (fun p => decide (p.1.name = fn)) (allFields rest))
          else List.filter (fun p => decide (p.1.name = fn)) (allFieldsF (f, v)) ++
              List.filter (fun p => decide (p.1.name = fn)) (allFields rest)).map (·.2)) := by
        split
        · simp
        · simp
      refine List.Sublist.trans (hrest _ ?_) hgo
      cases ha : f.anonymous with
      | false => simp
      | true =>
        simp only [if_true]
        cases v with
        | struct gs =>
          simp only [allFieldsF, ha, if_true, allFieldsV]
          exact fieldsAt_sub fn d gs
        | _ => simp

mutual
/-- And every field is found at some depth. -/
theorem fieldsAt_mem : ∀ (fs : List (Field × GoVal)) (f : Field) (v : GoVal), (f, v) ∈ allFields fs →
    ∃ d, d ≤ embDepth fs ∧ v ∈ fieldsAt f.name d fs
  | [], f, v, h => by simp [allFields] at h
  | p :: rest, f, v, h => by
    simp only [allFields, List.mem_append, List.mem_cons] at h
    rcases h with (h | h) | h
    · subst h
      exact ⟨0, Nat.zero_le _, by simp [fieldsAt]⟩
    · obtain ⟨ha, d, hd, hm⟩ := fieldsAtF_mem p f v h
      refine ⟨d + 1, by simp only [embDepth]; omega, ?_⟩
      simp only [fieldsAt, List.flatMap_cons, List.mem_append, ha, if_true]
      exact Or.inl hm
    · obtain ⟨d, hd, hm⟩ := fieldsAt_mem rest f v h
      refine ⟨d, by simp only [embDepth]; omega, ?_⟩
      cases d with
      | zero =>
        simp only [fieldsAt, List.mem_map, List.mem_filter] at hm ⊢
        obtain ⟨q, ⟨h1, h2⟩, h3⟩ := hm
        exact ⟨q, ⟨List.mem_cons_of_mem _ h1, h2⟩, h3⟩
      | succ d =>
        simp only [fieldsAt, List.flatMap_cons, List.mem_append] at hm ⊢
        exact Or.inr hm
theorem fieldsAtF_mem : ∀ (p : Field × GoVal) (f : Field) (v : GoVal), (f, v) ∈ allFieldsF p →
    p.1.anonymous = true ∧ ∃ d, d + 1 ≤ embDepthF p ∧
      v ∈ (match p.2 with | .struct fs' => fieldsAt f.name d fs' | _ => [])
  | (g, w), f, v, h => by
    cases ha : g.anonymous with
    | false => simp [allFieldsF, ha] at h
    | true =>
      simp only [allFieldsF, ha, if_true] at h
      obtain ⟨d, hd, hm⟩ := fieldsAtV_mem w f v h
      exact ⟨rfl, d, by simpa [embDepthF] using hd, hm⟩
theorem fieldsAtV_mem : ∀ (w : GoVal) (f : Field) (v : GoVal), (f, v) ∈ allFieldsV w →
    ∃ d, d + 1 ≤ embDepthV w ∧ v ∈ (match w with | .struct fs' => fieldsAt f.name d fs' | _ => [])
  | .struct fs, f, v, h => by
    simp only [allFieldsV] at h
    obtain ⟨d, hd, hm⟩ := fieldsAt_mem fs f v h
    exact ⟨d, by simp only [embDepthV]; omega, hm⟩
  | .nil, _, _, h => by simp [allFieldsV] at h
  | .bool _, _, _, h => by simp [allFieldsV] at h
  | .int _ _, _, _, h => by simp [allFieldsV] at h
  | .uint _ _, _, _, h => by simp [allFieldsV] at h
  | .float _ _, _, _, h => by simp [allFieldsV] at h
  | .str _, _, _, h => by simp [allFieldsV] at h
  | .slice _ _, _, _, h => by simp [allFieldsV] at h
  | .map _ _, _, _, h => by simp [allFieldsV] at h
  | .mapOther _ _, _, _, h => by simp [allFieldsV] at h
  | .ptr _, _, _, h => by simp [allFieldsV] at h
  | .iface _, _, _, h => by simp [allFieldsV] at h
  | .maybe _ _, _, _, h => by simp [allFieldsV] at h
  | .time _, _, _, h => by simp [allFieldsV] at h
  | .other _ _, _, _, h => by simp [allFieldsV] at h
end

theorem filter_name_unique {l : List (Field × GoVal)} (h : (l.map (·.1.name)).Nodup) {f : Field} {v : GoVal}
    (hm : (f, v) ∈ l) : l.filter (fun p => decide (p.1.name = f.name)) = [(f, v)] := by
  induction l with
  | nil => simp at hm
  | cons q l ih =>
    simp only [List.map_cons, List.nodup_cons, List.mem_map, not_exists, not_and] at h
    rcases List.mem_cons.1 hm with rfl | hm'
    · have : l.filter (fun p => decide (p.1.name = f.name)) = [] := by
        rw [List.filter_eq_nil_iff]
        intro a ha
        simpa using h.1 a ha
      simp [this]
    · have hq : q.1.name ≠ f.name := fun he => h.1 (f, v) hm' he.symm
      simp [hq, ih h.2 hm']

/-- Without shadowing, `FieldByName` finds the field of that name. -/
theorem fieldByName_emb {fs : List (Field × GoVal)} (h : NoShadowing fs) {f : Field} {v : GoVal}
    (hm : (f, v) ∈ allFields fs) : fieldByName f.name fs = some v := by
  have hsub : ∀ d, (fieldsAt f.name d fs).Sublist [v] := by
    intro d
    have := fieldsAt_sub f.name d fs
    rw [filter_name_unique h hm] at this
    exact this
  have hcase : ∀ d, fieldsAt f.name d fs = [] ∨ fieldsAt f.name d fs = [v] := by
    intro d
    have := hsub d
    rw [List.sublist_cons_iff] at this
    rcases this with h1 | ⟨r, h1, h2⟩
    · left; simpa using h1
    · right; rw [h1]; simp only [List.sublist_nil] at h2; rw [h2]
  obtain ⟨d, hd, hdm⟩ := fieldsAt_mem fs f v hm
  unfold fieldByName fieldDepth
  cases hf : (List.range (embDepth fs + 1)).find? (fun d => !(fieldsAt f.name d fs).isEmpty) with
  | none =>
    rw [List.find?_eq_none] at hf
    have := hf d (List.mem_range.2 (by omega))
    rcases hcase d with h1 | h1
    · rw [h1] at hdm; simp at hdm
    · simp [h1] at this
  | some d' =>
    have := List.find?_some hf
    rcases hcase d' with h1 | h1
    · simp [h1] at this
    · simp [h1]

theorem fieldByName_none {fs : List (Field × GoVal)} {fn : GoStr} (h : ∀ q ∈ allFields fs, q.1.name ≠ fn) :
    fieldByName fn fs = none := by
  have hnil : ∀ d, fieldsAt fn d fs = [] := by
    intro d
    have := fieldsAt_sub fn d fs
    have e : (allFields fs).filter (fun p => decide (p.1.name = fn)) = [] := by
      rw [List.filter_eq_nil_iff]; intro a ha; simpa using h a ha
    rw [e] at this
    simpa using this
  unfold fieldByName fieldDepth
  have : (List.range (embDepth fs + 1)).find? (fun d => !(fieldsAt fn d fs).isEmpty) = none := by
    rw [List.find?_eq_none]; intro d _; simp [hnil d]
  simp [this]

/-- `extract`, exactly. -/
theorem extract_emb {fs : List (Field × GoVal)} (h : EmbedsStructs fs) :
    ∃ props, extract fs = some props ∧ (props.map (·.1)).Nodup ∧
      ∀ k, alookup k props = (fieldVal k (unembed fs)).map (fun nv => ⟨nv.1, isMaybeVal nv.2⟩) := by
  obtain ⟨props, h1, h2, h3⟩ := extractInto_emb fs [] h
  refine ⟨props, h1, h2 (by simp), fun k => ?_⟩
  rw [h3]
  cases fieldVal k (unembed fs) <;> simp [alookup]

theorem holdsMaybe_iff {v : GoVal} : isMaybeVal v = true ↔ HoldsMaybe v := by
  constructor
  · intro h
    unfold isMaybeVal at h
    split at h
    · exact .val _ _
    · exact .ptr _ _
    · cases h
  · intro h; cases h <;> rfl

theorem fieldContent_none {v : GoVal} : fieldContent v = none ↔ maybeValid v = some false := by
  unfold fieldContent maybeValid
  split <;> simp

/-- `PropNames`, exactly, when no field is shadowed. -/
theorem structPropNames_emb {fs : List (Field × GoVal)} (he : EmbedsStructs fs) (hs : NoShadowing fs) :
    ∃ names, structPropNames fs = .ok names ∧ names.Nodup ∧
      ∀ k, k ∈ names ↔ ∃ f v, Designates fs k f v ∧ fieldContent v ≠ none := by
  obtain ⟨props, h1, hnd, h3⟩ := extract_emb he
  have hloop : ∀ l : List (GoStr × PropInfo), l.Sublist props →
      ∃ names, propNamesLoop fs l = .ok names ∧ names.Sublist (l.map (·.1)) ∧
        ∀ k, k ∈ names ↔ k ∈ l.map (·.1) ∧ ∃ n v, fieldVal k (unembed fs) = some (n, v) ∧ fieldContent v ≠ none := by
    intro l
    induction l with
    | nil => intro _; exact ⟨[], by simp [propNamesLoop], by simp, by simp⟩
    | cons q l ih =>
      intro hsub
      obtain ⟨p, info⟩ := q
      obtain ⟨names, e1, e2, e4⟩ := ih ((List.sublist_cons_self _ _).trans hsub)
      have hal : alookup p props = some info := alookup_of_mem hnd (hsub.subset (by simp))
      rw [h3] at hal
      obtain ⟨⟨n, v⟩, hfv, hinfo⟩ := Option.map_eq_some_iff.1 hal
      subst hinfo
      obtain ⟨f, ⟨pre, post, hu, -, -⟩, rfl⟩ := designates_iff.1 hfv
      have hlook : fieldByName f.name fs = some v :=
        fieldByName_emb hs ((unembed_sub fs).subset (by rw [hu]; simp))
      have hpn : p ∉ l.map (·.1) := by
        have := hnd.sublist (hsub.map _)
        simp only [List.map_cons, List.nodup_cons] at this
        exact this.1
      have hyes : fieldContent v ≠ none → ∀ k, k ∈ p :: names ↔ k ∈ ((p, PropInfo.mk f.name (isMaybeVal v)) :: l).map (·.1) ∧
          ∃ n v, fieldVal k (unembed fs) = some (n, v) ∧ fieldContent v ≠ none := by
        intro hc k
        rw [List.mem_cons, e4, List.map_cons, List.mem_cons]
        constructor
        · rintro (rfl | ⟨a, b⟩)
          · exact ⟨Or.inl rfl, _, _, hfv, hc⟩
          · exact ⟨Or.inr a, b⟩
        · rintro ⟨a | a, b⟩
          · exact Or.inl a
          · exact Or.inr ⟨a, b⟩
      by_cases hm : isMaybeVal v = true
      · obtain ⟨w, hw⟩ := maybeValid_of_isMaybe hm
        cases w with
        | false =>
          refine ⟨names, by simp [propNamesLoop, hm, hlook, hw, e1], e2.trans (by simp), fun k => ?_⟩
          rw [e4, List.map_cons, List.mem_cons]
          constructor
          · rintro ⟨a, b⟩; exact ⟨Or.inr a, b⟩
          · rintro ⟨rfl | a, b⟩
            · obtain ⟨n', v', hb, hb'⟩ := b
              rw [hfv] at hb
              cases hb
              exact absurd (fieldContent_none.2 hw) hb'
            · exact ⟨a, b⟩
        | true =>
          have hc : fieldContent v ≠ none := by rw [Ne, fieldContent_none, hw]; simp
          exact ⟨p :: names, by simp [propNamesLoop, hm, hlook, hw, e1, Except.map], by simp [e2], hyes hc⟩
      · have hmv := maybeValid_of_not hm
        have hc : fieldContent v ≠ none := by rw [Ne, fieldContent_none, hmv]; simp
        exact ⟨p :: names, by simp [propNamesLoop, hm, e1, Except.map], by simp [e2], hyes hc⟩
  obtain ⟨names, e1, e2, e4⟩ := hloop props (List.Sublist.refl _)
  refine ⟨names, by simp [structPropNames, h1, e1], hnd.sublist e2, fun k => ?_⟩
  rw [e4]
  constructor
  · rintro ⟨-, n, v, a, b⟩
    obtain ⟨f, hd, -⟩ := designates_iff.1 a
    exact ⟨f, v, hd, b⟩
  · rintro ⟨f, v, a, b⟩
    have hf := designates_iff.2 ⟨f, a, rfl⟩
    refine ⟨?_, f.name, v, hf, b⟩
    rw [← alookup_isSome, h3, hf]
    exact ⟨_, rfl⟩

/-- `getProp`, exactly, when no field is shadowed. -/
theorem getProp_emb {fs : List (Field × GoVal)} (he : EmbedsStructs fs) (hs : NoShadowing fs) (k : GoStr) (v : GoVal) :
    getProp (some (.struct fs)) k = .ok (some v) ↔ ∃ f, Designates fs k f v := by
  obtain ⟨props, h1, hnd, h3⟩ := extract_emb he
  simp only [getProp, h1]
  have hk := h3 k
  cases hf : fieldVal k (unembed fs) with
  | none =>
    rw [hf] at hk
    simp only [Option.map_none] at hk
    rw [hk]
    simp only [Except.ok.injEq, reduceCtorEq, false_iff]
    rintro ⟨f, hd⟩
    have := designates_iff.2 ⟨f, hd, rfl⟩
    rw [hf] at this
    cases this
  | some nv =>
    obtain ⟨n, w⟩ := nv
    rw [hf] at hk
    simp only [Option.map_some] at hk
    rw [hk]
    obtain ⟨f, hd, rfl⟩ := designates_iff.1 hf
    have hd' := hd
    obtain ⟨pre, post, hu, -, -⟩ := hd'
    have hfn : fieldByName f.name fs = some w := fieldByName_emb hs ((unembed_sub fs).subset (by rw [hu]; simp))
    simp only [hfn, Except.ok.injEq, Option.some.injEq]
    constructor
    · rintro rfl; exact ⟨f, hd⟩
    · rintro ⟨g, hg⟩
      have := designates_iff.2 ⟨g, hg, rfl⟩
      rw [hf] at this
      simp only [Option.some.injEq, Prod.mk.injEq] at this
      exact this.2

end Jsval
