import Verif.Spec.Selects
import Verif.Props.Structs
/-!
# C57 without the assumption that no field is shadowed

`PropNames` and the property lookup take the JSON name from one field and then ask Go for "the field of that Go name".
The theorems here say exactly what comes out for every struct, in terms of Go's selector rule.
-/
namespace Jsval

/-! ## `FieldByName` is Go's selector rule -/

/-- The fields of Go name `fn` at depth `d`, with their positions. -/
def pathsAt (fn : GoStr) : Nat → List (Field × GoVal) → List (List Nat × GoVal)
  | 0, fs => fs.zipIdx.flatMap (fun q => if q.1.1.name = fn then [([q.2], q.1.2)] else [])
  | d + 1, fs => fs.zipIdx.flatMap (fun q =>
      if q.1.1.anonymous then
        match q.1.2 with
        | .struct gs => (pathsAt fn d gs).map (fun r => (q.2 :: r.1, r.2))
        | _ => []
      else [])

theorem flatMap_zipIdx {α β : Type} (g : α → List β) (l : List α) (n : Nat) :
    (l.zipIdx n).flatMap (fun q => g q.1) = l.flatMap g := by
  induction l generalizing n with
  | nil => rfl
  | cons a l ih => simp [List.zipIdx_cons, ih]

theorem pathsAt_vals (fn : GoStr) : ∀ (d : Nat) (fs : List (Field × GoVal)), (pathsAt fn d fs).map (·.2) = fieldsAt fn d fs
  | 0, fs => by
    have h : fieldsAt fn 0 fs = fs.flatMap (fun q => if q.1.name = fn then [q.2] else []) := by
      simp only [fieldsAt]
      induction fs with
      | nil => rfl
      | cons a l ih => by_cases hn : a.1.name = fn <;> simp [hn, ih]
    rw [h, ← flatMap_zipIdx _ fs 0]
    simp only [pathsAt, List.map_flatMap]
    congr 1
    funext q
    split <;> rfl
  | d + 1, fs => by
    simp only [fieldsAt]
    rw [← flatMap_zipIdx _ fs 0]
    simp only [pathsAt, List.map_flatMap]
    congr 1
    funext q
    obtain ⟨⟨e, v⟩, i⟩ := q
    by_cases he : e.anonymous = true
    · simp only [he, if_true]
      cases v <;> try rfl
      rename_i gs
      simp only [List.map_map]
      rw [← pathsAt_vals fn d gs]
      rfl
    · simp [he]

theorem mem_pathsAt (fn : GoStr) : ∀ (d : Nat) (fs : List (Field × GoVal)) (p : List Nat) (v : GoVal),
    (p, v) ∈ pathsAt fn d fs ↔ ∃ f, FieldPath fs p f v ∧ f.name = fn ∧ p.length = d + 1
  | 0, fs, p, v => by
    simp only [pathsAt, List.mem_flatMap]
    constructor
    · rintro ⟨⟨⟨f, w⟩, i⟩, hm, h⟩
      split at h
      · rename_i hn
        simp only [List.mem_singleton, Prod.mk.injEq] at h
        obtain ⟨rfl, rfl⟩ := h
        exact ⟨f, .here (List.mem_zipIdx_iff_getElem?.1 hm), hn, rfl⟩
      · cases h
    · rintro ⟨f, hp, hn, hl⟩
      cases hp with
      | @here _ i _ _ hi => exact ⟨((f, v), i), List.mem_zipIdx_iff_getElem?.2 hi, by simp [hn]⟩
      | inside hi _ hq =>
        cases hq <;> simp at hl
  | d + 1, fs, p, v => by
    simp only [pathsAt, List.mem_flatMap]
    constructor
    · rintro ⟨⟨⟨e, w⟩, i⟩, hm, h⟩
      by_cases he : e.anonymous = true
      · simp only [he, if_true] at h
        cases w <;> try (cases h; done)
        rename_i gs
        simp only [List.mem_map, Prod.mk.injEq] at h
        obtain ⟨⟨q, u⟩, hq, rfl, rfl⟩ := h
        obtain ⟨f, hf, hn, hl⟩ := (mem_pathsAt fn d gs q u).1 hq
        exact ⟨f, .inside (List.mem_zipIdx_iff_getElem?.1 hm) he hf, hn, by simp [hl]⟩
      · simp [he] at h
    · rintro ⟨f, hp, hn, hl⟩
      cases hp with
      | here hi => simp at hl
      | @inside _ i e gs _ _ _ hi he hq =>
        refine ⟨((e, .struct gs), i), List.mem_zipIdx_iff_getElem?.2 hi, ?_⟩
        simp only [he, if_true, List.mem_map, Prod.mk.injEq]
        exact ⟨(_, v), (mem_pathsAt fn d _ _ v).2 ⟨f, hq, hn, by simpa using hl⟩, rfl, rfl⟩

theorem flatMap_heads_nodup {α : Type} (g : α → Nat → List (List Nat × GoVal))
    (hd : ∀ a i, ((g a i).map (·.1)).Nodup) (hh : ∀ a i q, q ∈ g a i → q.1.head? = some i) (l : List α) (n : Nat) :
    (((l.zipIdx n).flatMap (fun q => g q.1 q.2)).map (·.1)).Nodup := by
  induction l generalizing n with
  | nil => simp
  | cons a l ih =>
    simp only [List.zipIdx_cons, List.flatMap_cons, List.map_append]
    refine List.nodup_append.2 ⟨hd a n, ih (n + 1), ?_⟩
    intro x hx y hy hxy
    subst hxy
    obtain ⟨q, hq, rfl⟩ := List.mem_map.1 hx
    obtain ⟨r, hr, hrq⟩ := List.mem_map.1 hy
    obtain ⟨⟨b, i⟩, hb, hr'⟩ := List.mem_flatMap.1 hr
    have h1 := hh a n q hq
    have h2 := hh b i r hr'
    rw [hrq, h1] at h2
    have := (List.mem_zipIdx hb).1
    cases h2
    omega

theorem pathsAt_nodup (fn : GoStr) : ∀ (d : Nat) (fs : List (Field × GoVal)), ((pathsAt fn d fs).map (·.1)).Nodup
  | 0, fs => by
    simp only [pathsAt]
    refine flatMap_heads_nodup (fun (a : Field × GoVal) i => if a.1.name = fn then [([i], a.2)] else []) ?_ ?_ fs 0
    · intro a i; split <;> simp
    · intro a i q hq
      split at hq
      · simp only [List.mem_singleton] at hq; subst hq; rfl
      · cases hq
  | d + 1, fs => by
    simp only [pathsAt]
    refine flatMap_heads_nodup (fun (a : Field × GoVal) i =>
      if a.1.anonymous then
        match a.2 with
        | .struct gs => (pathsAt fn d gs).map (fun r => (i :: r.1, r.2))
        | _ => []
      else []) ?_ ?_ fs 0
    · rintro ⟨e, v⟩ i
      dsimp only
      split
      · split
        · rename_i gs
          have := pathsAt_nodup fn d gs
          rw [List.map_map]
          have h2 : ((fun r : List Nat × GoVal => r.1) ∘ fun r : List Nat × GoVal => (i :: r.1, r.2)) = (fun l => i :: l) ∘ (·.1) := rfl
          rw [h2, ← List.map_map]
          exact this.map (fun x y h => by simpa using h)
        · simp
      · simp
    · rintro ⟨e, v⟩ i q hq
      dsimp only at hq
      split at hq
      · split at hq
        · obtain ⟨r, -, rfl⟩ := List.mem_map.1 hq
          rfl
        · cases hq
      · cases hq

theorem embDepth_mem {fs : List (Field × GoVal)} {e : Field} {gs : List (Field × GoVal)} (h : (e, GoVal.struct gs) ∈ fs) :
    embDepth gs + 1 ≤ embDepth fs := by
  induction fs with
  | nil => cases h
  | cons p fs ih =>
    simp only [embDepth]
    rcases List.mem_cons.1 h with rfl | h
    · simp [embDepthF, embDepthV]
    · have := ih h
      omega

theorem fieldPath_depth {fs : List (Field × GoVal)} {p : List Nat} {f : Field} {v : GoVal} (h : FieldPath fs p f v) :
    1 ≤ p.length ∧ p.length ≤ embDepth fs + 1 := by
  induction h with
  | here _ => simp
  | inside hi _ _ ih =>
    have := embDepth_mem (List.mem_of_getElem? hi)
    simp only [List.length_cons]
    omega

theorem fieldPath_at {fn : GoStr} {fs : List (Field × GoVal)} {p : List Nat} {f : Field} {v : GoVal}
    (h : FieldPath fs p f v) (hn : f.name = fn) : (p, v) ∈ pathsAt fn (p.length - 1) fs := by
  have := (fieldPath_depth h).1
  exact (mem_pathsAt fn _ fs p v).2 ⟨f, h, hn, by omega⟩

/-- `reflect.Value.FieldByName`, as modelled, is Go's selector rule. -/
theorem fieldByName_selects {fn : GoStr} {fs : List (Field × GoVal)} {v : GoVal} :
    fieldByName fn fs = some v ↔ GoSelects fs fn v := by
  have hlen : ∀ d, (fieldsAt fn d fs).length = (pathsAt fn d fs).length := fun d => by rw [← pathsAt_vals]; simp
  have hemp : ∀ d, (fieldsAt fn d fs).isEmpty = (pathsAt fn d fs).isEmpty := fun d => by rw [← pathsAt_vals]; simp
  constructor
  · intro h
    simp only [fieldByName, fieldDepth, Option.bind_eq_some_iff] at h
    obtain ⟨d, ⟨d', hf, hd⟩, hv⟩ := h
    split at hd
    · rename_i h1
      cases hd
      rw [hlen, List.length_eq_one_iff] at h1
      obtain ⟨⟨p, w⟩, hp⟩ := h1
      rw [← pathsAt_vals, hp] at hv
      cases hv
      obtain ⟨f, hpf, hn, hl⟩ := (mem_pathsAt fn d fs p w).1 (by rw [hp]; simp)
      refine ⟨p, f, hpf, hn, fun p' f' v' hp' hn' => ?_⟩
      have hm := fieldPath_at hp' hn'
      have hdep := fieldPath_depth hp'
      rcases Nat.lt_trichotomy (p'.length - 1) d with hlt | heq | hgt
      · have := (List.find?_range_eq_some.1 hf).2.2 _ hlt
        simp only [hemp, Bool.not_not, List.isEmpty_iff] at this
        rw [this] at hm
        cases hm
      · rw [heq, hp] at hm
        simp only [List.mem_singleton, Prod.mk.injEq] at hm
        exact Or.inl hm.1
      · right; omega
    · cases hd
  · rintro ⟨p, f, hp, hn, hu⟩
    have hdep := fieldPath_depth hp
    have hm := fieldPath_at hp hn
    have hone : pathsAt fn (p.length - 1) fs = [(p, v)] := by
      have hall : ∀ q ∈ pathsAt fn (p.length - 1) fs, q.1 = p := by
        rintro ⟨p', v'⟩ hq
        obtain ⟨f', h1, h2, h3⟩ := (mem_pathsAt fn _ fs p' v').1 hq
        rcases hu p' f' v' h1 h2 with h | h
        · exact h
        · omega
      have hnd := pathsAt_nodup fn (p.length - 1) fs
      generalize pathsAt fn (p.length - 1) fs = l at hm hall hnd
      match l, hm, hall, hnd with
      | [q], hm, _, _ => simp only [List.mem_singleton] at hm; rw [hm]
      | q :: r :: l, _, hall, hnd =>
        simp [hall q (by simp), hall r (by simp)] at hnd
    have hf : (List.range (embDepth fs + 1)).find? (fun d => !(fieldsAt fn d fs).isEmpty) = some (p.length - 1) := by
      rw [List.find?_range_eq_some]
      refine ⟨by simp [hemp, hone], by rw [List.mem_range]; omega, fun j hj => ?_⟩
      simp only [hemp, Bool.not_not, List.isEmpty_iff]
      by_contra hne
      obtain ⟨⟨p', v'⟩, hq⟩ := List.exists_mem_of_ne_nil _ hne
      obtain ⟨f', h1, h2, h3⟩ := (mem_pathsAt fn _ fs p' v').1 hq
      rcases hu p' f' v' h1 h2 with h | h
      · subst h; omega
      · omega
    simp only [fieldByName, fieldDepth, hf, Option.bind_some]
    rw [hlen, hone]
    simp only [List.length_singleton, if_true, Option.bind_some]
    rw [← pathsAt_vals, hone]
    rfl

theorem selects_unique {fs : List (Field × GoVal)} {n : GoStr} {v w : GoVal} (hv : GoSelects fs n v) (hw : GoSelects fs n w) :
    v = w := by
  have h1 := fieldByName_selects.2 hv
  rw [fieldByName_selects.2 hw] at h1
  cases h1
  rfl

/-! ## The theorems -/

theorem maybeValid_set {v : GoVal} : maybeValid v = some true ↔ HoldsSet v := by
  constructor
  · intro h
    unfold maybeValid at h
    split at h
    · cases h; exact .val _
    · cases h; exact .ptr _
    · cases h
  · rintro (_ | _) <;> rfl

theorem maybeValid_isSome {v : GoVal} : (∃ b, maybeValid v = some b) ↔ HoldsMaybe v := by
  constructor
  · rintro ⟨b, h⟩
    unfold maybeValid at h
    split at h
    · exact .val _ _
    · exact .ptr _ _
    · cases h
  · rintro (_ | _) <;> exact ⟨_, rfl⟩

theorem propNamesLoop_spec (fs : List (Field × GoVal)) : ∀ l : List (GoStr × PropInfo),
    (propNamesLoop fs l = .error .panic ∧
        ∃ q ∈ l, q.2.isMaybe = true ∧ ¬ ∃ v, fieldByName q.2.fieldName fs = some v ∧ HoldsMaybe v) ∨
    ((∀ q ∈ l, q.2.isMaybe = true → ∃ v, fieldByName q.2.fieldName fs = some v ∧ HoldsMaybe v) ∧
      ∃ names, propNamesLoop fs l = .ok names ∧ names.Sublist (l.map (·.1)) ∧
        ∀ k, k ∈ names ↔ ∃ info, (k, info) ∈ l ∧
          (info.isMaybe = true → ∃ v, fieldByName info.fieldName fs = some v ∧ HoldsSet v))
  | [] => by right; exact ⟨by simp, [], rfl, by simp, by simp⟩
  | (p, info) :: l => by
    have ih := propNamesLoop_spec fs l
    by_cases hm : info.isMaybe = true
    · cases hb : (fieldByName info.fieldName fs).bind maybeValid with
      | none =>
        left
        refine ⟨by simp [propNamesLoop, hm, hb], (p, info), by simp, hm, ?_⟩
        rintro ⟨v, hv, hh⟩
        obtain ⟨b, hb'⟩ := maybeValid_isSome.2 hh
        rw [hv, Option.bind_some, hb'] at hb
        cases hb
      | some b =>
        obtain ⟨v, hv, hvb⟩ := Option.bind_eq_some_iff.1 hb
        rcases ih with ⟨h1, q, hq, hq'⟩ | ⟨h1, names, h2, h3, h4⟩
        · left
          refine ⟨?_, q, List.mem_cons_of_mem _ hq, hq'⟩
          cases b <;> simp [propNamesLoop, hm, hb, h1, Except.map]
        · right
          refine ⟨?_, ?_⟩
          · intro q hq hqm
            rcases List.mem_cons.1 hq with rfl | hq
            · exact ⟨v, hv, maybeValid_isSome.1 ⟨b, hvb⟩⟩
            · exact h1 q hq hqm
          · cases b with
            | false =>
              refine ⟨names, by simp [propNamesLoop, hm, hb, h2], h3.trans (by simp), fun k => ?_⟩
              rw [h4]
              constructor
              · rintro ⟨i, hi, hh⟩; exact ⟨i, List.mem_cons_of_mem _ hi, hh⟩
              · rintro ⟨i, hi, hh⟩
                rcases List.mem_cons.1 hi with he | hi
                · cases he
                  obtain ⟨w, hw, hs⟩ := hh hm
                  rw [hv] at hw
                  cases hw
                  rw [maybeValid_set.2 hs] at hvb
                  cases hvb
                · exact ⟨i, hi, hh⟩
            | true =>
              refine ⟨p :: names, by simp [propNamesLoop, hm, hb, h2, Except.map], by simp [h3], fun k => ?_⟩
              rw [List.mem_cons, h4]
              constructor
              · rintro (rfl | ⟨i, hi, hh⟩)
                · exact ⟨info, by simp, fun _ => ⟨v, hv, maybeValid_set.1 hvb⟩⟩
                · exact ⟨i, List.mem_cons_of_mem _ hi, hh⟩
              · rintro ⟨i, hi, hh⟩
                rcases List.mem_cons.1 hi with he | hi
                · cases he; exact Or.inl rfl
                · exact Or.inr ⟨i, hi, hh⟩
    · rcases ih with ⟨h1, q, hq, hq'⟩ | ⟨h1, names, h2, h3, h4⟩
      · left
        exact ⟨by simp [propNamesLoop, hm, h1, Except.map], q, List.mem_cons_of_mem _ hq, hq'⟩
      · right
        refine ⟨?_, p :: names, by simp [propNamesLoop, hm, h2, Except.map], by simp [h3], fun k => ?_⟩
        · intro q hq hqm
          rcases List.mem_cons.1 hq with rfl | hq
          · exact absurd hqm hm
          · exact h1 q hq hqm
        · rw [List.mem_cons, h4]
          constructor
          · rintro (rfl | ⟨i, hi, hh⟩)
            · exact ⟨info, by simp, fun h => absurd h hm⟩
            · exact ⟨i, List.mem_cons_of_mem _ hi, hh⟩
          · rintro ⟨i, hi, hh⟩
            rcases List.mem_cons.1 hi with he | hi
            · cases he; exact Or.inl rfl
            · exact Or.inr ⟨i, hi, hh⟩

/-- What the table that `extract` builds holds for a struct. -/
theorem extract_designates {fs : List (Field × GoVal)} (he : EmbedsStructs fs) :
    ∃ props, extract fs = some props ∧ (props.map (·.1)).Nodup ∧
      ∀ k info, (k, info) ∈ props ↔ ∃ f w, Designates fs k f w ∧ info = ⟨f.name, isMaybeVal w⟩ := by
  obtain ⟨props, h1, hnd, h3⟩ := extract_emb he
  refine ⟨props, h1, hnd, fun k info => ?_⟩
  constructor
  · intro hm
    have hal := alookup_of_mem hnd hm
    rw [h3] at hal
    obtain ⟨⟨n, v⟩, hfv, hinfo⟩ := Option.map_eq_some_iff.1 hal
    obtain ⟨f, hd, rfl⟩ := designates_iff.1 hfv
    exact ⟨f, v, hd, hinfo.symm⟩
  · rintro ⟨f, w, hd, rfl⟩
    have := h3 k
    rw [designates_iff.2 ⟨f, hd, rfl⟩] at this
    exact alookup_mem this

/-- C57, exactly, for every struct, shadowed fields included: listing the property names panics exactly when something
that is not a struct is embedded, or some JSON name designates a Maybe whose Go name does not select a Maybe (because a
shallower field of another type hides it, or because it is ambiguous). -/
theorem C57_names_panics_iff (fs : List (Field × GoVal)) :
    structPropNames fs = .error .panic ↔
      ¬ EmbedsStructs fs ∨ ∃ k f w, Designates fs k f w ∧ HoldsMaybe w ∧ ¬ ∃ v, GoSelects fs f.name v ∧ HoldsMaybe v := by
  by_cases he : EmbedsStructs fs
  · obtain ⟨props, h1, hnd, h3⟩ := extract_designates he
    simp only [structPropNames, h1, he, not_true_eq_false, false_or]
    rcases propNamesLoop_spec fs props with ⟨h, q, hq, hm, hn⟩ | ⟨h, names, hk, -, -⟩
    · refine ⟨fun _ => ?_, fun _ => h⟩
      obtain ⟨f, w, hd, hi⟩ := (h3 q.1 q.2).1 hq
      rw [hi] at hm hn
      exact ⟨q.1, f, w, hd, holdsMaybe_iff.1 hm, fun ⟨v, hv, hh⟩ => hn ⟨v, fieldByName_selects.2 hv, hh⟩⟩
    · rw [hk]
      constructor
      · intro hc; cases hc
      · rintro ⟨k, f, w, hd, hw, hn⟩
        obtain ⟨v, hv, hh⟩ := h _ ((h3 k _).2 ⟨f, w, hd, rfl⟩) (holdsMaybe_iff.2 hw)
        exact absurd ⟨v, fieldByName_selects.1 hv, hh⟩ hn
  · have : extract fs = none := (C56_panics fs).2 he
    simp [structPropNames, this, he]

/-- C57, exactly: the names listed are those that designate a field that is not a Maybe, and those that designate a Maybe
where Go's selector of that name finds a Maybe that is set. Each is listed once. -/
theorem C57_names_iff {fs : List (Field × GoVal)} {names : List GoStr} (h : structPropNames fs = .ok names) :
    names.Nodup ∧ ∀ k, k ∈ names ↔ ∃ f w, Designates fs k f w ∧ (HoldsMaybe w → ∃ v, GoSelects fs f.name v ∧ HoldsSet v) := by
  have he : EmbedsStructs fs := by
    by_contra hc
    simp [structPropNames, (C56_panics fs).2 hc] at h
  obtain ⟨props, h1, hnd, h3⟩ := extract_designates he
  simp only [structPropNames, h1] at h
  rcases propNamesLoop_spec fs props with ⟨h', -⟩ | ⟨-, names', hk, hs, hm⟩
  · rw [h] at h'; cases h'
  · rw [h] at hk
    cases hk
    refine ⟨hnd.sublist hs, fun k => ?_⟩
    rw [hm]
    constructor
    · rintro ⟨info, hi, hh⟩
      obtain ⟨f, w, hd, rfl⟩ := (h3 k info).1 hi
      refine ⟨f, w, hd, fun hw => ?_⟩
      obtain ⟨v, hv, hh⟩ := hh (holdsMaybe_iff.2 hw)
      exact ⟨v, fieldByName_selects.1 hv, hh⟩
    · rintro ⟨f, w, hd, hh⟩
      refine ⟨_, (h3 k _).2 ⟨f, w, hd, rfl⟩, fun hw => ?_⟩
      obtain ⟨v, hv, hh⟩ := hh (holdsMaybe_iff.1 hw)
      exact ⟨v, fieldByName_selects.2 hv, hh⟩

/-- C57, exactly: the value found for a name is that of the field which the Go name of the designated field selects — the
designated field itself only when nothing hides it. Nothing is found where the selector is illegal. -/
theorem C57_value_iff {fs : List (Field × GoVal)} (he : EmbedsStructs fs) (k : GoStr) (v : GoVal) :
    getProp (some (.struct fs)) k = .ok (some v) ↔ ∃ f w, Designates fs k f w ∧ GoSelects fs f.name v := by
  obtain ⟨props, h1, hnd, h3⟩ := extract_emb he
  simp only [getProp, h1]
  have hk := h3 k
  cases hf : fieldVal k (unembed fs) with
  | none =>
    rw [hf] at hk
    simp only [Option.map_none] at hk
    rw [hk]
    simp only [Except.ok.injEq, reduceCtorEq, false_iff]
    rintro ⟨f, w, hd, -⟩
    have := designates_iff.2 ⟨f, hd, rfl⟩
    rw [hf] at this
    cases this
  | some nv =>
    obtain ⟨n, w⟩ := nv
    rw [hf] at hk
    simp only [Option.map_some] at hk
    rw [hk]
    simp only [Except.ok.injEq]
    rw [fieldByName_selects]
    constructor
    · intro hs
      obtain ⟨f, hd, rfl⟩ := designates_iff.1 hf
      exact ⟨f, w, hd, hs⟩
    · rintro ⟨f, w', hd, hs⟩
      have := designates_iff.2 ⟨f, hd, rfl⟩
      rw [hf] at this
      cases this
      exact hs

/-- the running example of C57: `x` designates the unset embedded Maybe, the selector `X` finds the outer one, set -/
example : Designates exShadow (b! "x") (fld (b! "X") (b! "x")) (.maybe false (.int 0)) ∧
    GoSelects exShadow (b! "X") (.maybe true (.int 1)) :=
  ⟨⟨[(fld (b! "X") (b! "-"), .maybe true (.int 1))], [], rfl, by decide, by simp⟩, fieldByName_selects.1 rfl⟩

/-- `struct { X string `json:"-"`; Base }` with the same `Base`: the outer `X` is no Maybe -/
def exHidden : List (Field × GoVal) :=
  [(fld (b! "X") (b! "-"), .str (b! "s")),
   (⟨b! "Base", [], true, true⟩, .struct [(fld (b! "X") (b! "x"), .maybe false (.int 0))])]

/-- … so that validating such a struct panics -/
example : structPropNames exHidden = .error .panic :=
  (C57_names_panics_iff exHidden).2 (Or.inr ⟨b! "x", fld (b! "X") (b! "x"), .maybe false (.int 0),
    ⟨[(fld (b! "X") (b! "-"), .str (b! "s"))], [], rfl, by decide, by simp⟩, .val _ _, by
      rintro ⟨v, hv, hh⟩
      cases selects_unique hv (fieldByName_selects.1 (rfl : fieldByName (b! "X") exHidden = some (.str (b! "s"))))
      cases hh⟩)

/-- two structs embedded at one depth, both with an `X`: the selector is illegal, and `x` has no value -/
def exAmbiguous : List (Field × GoVal) :=
  [(⟨b! "A", [], true, true⟩, .struct [(fld (b! "X") (b! "-"), .str (b! "a"))]),
   (⟨b! "B", [], true, true⟩, .struct [(fld (b! "X") (b! "x"), .str (b! "b"))])]

example : structPropNames exAmbiguous = .ok [b! "x"] ∧ getProp (some (.struct exAmbiguous)) (b! "x") = .ok none := ⟨rfl, rfl⟩

example : ¬ ∃ v, GoSelects exAmbiguous (b! "X") v := by
  rintro ⟨v, hv⟩
  have := fieldByName_selects.2 hv
  cases this

end Jsval
