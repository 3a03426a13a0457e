import Verif.Lemmas.StructFill
import Verif.Lemmas.HooksFail
import Verif.Props.Shadowing
/-!
# Structs keep their types, and only unset fields are filled

Every struct, shadowed fields and fields of one JSON name included.
-/
namespace Jsval

/-- Neither a struct nor a Maybe nor a time. -/
def GoVal.Whole : GoVal → Prop
  | .struct _ => False
  | .maybe _ _ => False
  | .time _ => False
  | _ => True

mutual
/-- The value is still of its type, and in structs only fields allowed by `A` are filled: `A n m m'` for a field named `n` that held `m`, unset, and
holds `m'` now. -/
inductive Stays (A : GoStr → MaybeVal → MaybeVal → Prop) : GoVal → GoVal → Prop where
  | refl (v) : Stays A v v
  | struct {fs fs'} : StaysL A fs fs' → Stays A (.struct fs) (.struct fs')
  | whole {v v'} : v.Whole → v'.Whole → isMaybeVal v = isMaybeVal v' → Stays A v v'
/-- The same for fields. -/
inductive StaysL (A : GoStr → MaybeVal → MaybeVal → Prop) : List (Field × GoVal) → List (Field × GoVal) → Prop where
  | nil : StaysL A [] []
  | cons {f x y fs fs'} : Stays A x y → StaysL A fs fs' → StaysL A ((f, x) :: fs) ((f, y) :: fs')
  | fill {f m m' fs fs'} : A f.name m m' → StaysL A fs fs' → StaysL A ((f, .maybe false m) :: fs) ((f, .maybe true m') :: fs')
end

/-- What may become of the field named `n`. -/
def StaysF (A : GoStr → MaybeVal → MaybeVal → Prop) (n : GoStr) (x y : GoVal) : Prop :=
  Stays A x y ∨ ∃ m m', x = .maybe false m ∧ y = .maybe true m' ∧ A n m m'

variable {A B : GoStr → MaybeVal → MaybeVal → Prop}

theorem Stays.maybe {b : Bool} {m : MaybeVal} {y : GoVal} (h : Stays A (.maybe b m) y) : y = .maybe b m := by
  cases h with
  | refl => rfl
  | whole h => exact h.elim

theorem Stays.maybe' {b : Bool} {m : MaybeVal} {x : GoVal} (h : Stays A x (.maybe b m)) : x = .maybe b m := by
  cases h with
  | refl => rfl
  | whole _ h => exact h.elim

theorem StaysL.refl : ∀ fs : List (Field × GoVal), StaysL A fs fs
  | [] => .nil
  | (_, v) :: fs => .cons (.refl v) (StaysL.refl fs)

theorem StaysF.cons {f : Field} {x y : GoVal} {fs fs' : List (Field × GoVal)} (h : StaysF A f.name x y) (t : StaysL A fs fs') :
    StaysL A ((f, x) :: fs) ((f, y) :: fs') := by
  rcases h with h | ⟨m, m', rfl, rfl, h⟩
  · exact .cons h t
  · exact .fill h t

mutual
theorem Stays.trans : ∀ {u v w : GoVal}, Stays A u v → Stays A v w → Stays A u w
  | _, _, _, .refl _, h' => h'
  | _, _, _, .struct hl, h' => by
    cases h' with
    | refl => exact .struct hl
    | struct hl' => exact .struct (StaysL.trans hl hl')
    | whole h => exact h.elim
  | _, _, _, .whole h1 h2 h3, h' => by
    cases h' with
    | refl => exact .whole h1 h2 h3
    | struct hl' => exact h2.elim
    | whole _ h4 h5 => exact .whole h1 h4 (h3.trans h5)
theorem StaysL.trans : ∀ {u v w : List (Field × GoVal)}, StaysL A u v → StaysL A v w → StaysL A u w
  | _, _, _, .nil, h' => h'
  | _, _, _, .cons hx t, h' => by
    cases h' with
    | cons hy t' => exact .cons (Stays.trans hx hy) (StaysL.trans t t')
    | fill a t' =>
      cases hx.maybe'
      exact .fill a (StaysL.trans t t')
  | _, _, _, .fill a t, h' => by
    cases h' with
    | cons hy t' =>
      cases hy.maybe
      exact .fill a (StaysL.trans t t')
end

mutual
theorem Stays.mono (hAB : ∀ n m m', A n m m' → B n m m') : ∀ {u v : GoVal}, Stays A u v → Stays B u v
  | _, _, .refl _ => .refl _
  | _, _, .struct hl => .struct (StaysL.mono hAB hl)
  | _, _, .whole h1 h2 h3 => .whole h1 h2 h3
theorem StaysL.mono (hAB : ∀ n m m', A n m m' → B n m m') : ∀ {u v : List (Field × GoVal)}, StaysL A u v → StaysL B u v
  | _, _, .nil => .nil
  | _, _, .cons hx t => .cons (Stays.mono hAB hx) (StaysL.mono hAB t)
  | _, _, .fill a t => .fill (hAB _ _ _ a) (StaysL.mono hAB t)
end

theorem Stays.isMaybe {u v : GoVal} (h : Stays A u v) : isMaybeVal v = isMaybeVal u := by
  cases h with
  | refl => rfl
  | struct => rfl
  | whole _ _ h => exact h.symm

theorem extractEmb_whole {v : GoVal} (h : v.Whole) (props : List (GoStr × PropInfo)) : extractEmb props v = none := by
  cases v <;> first | exact h.elim | rfl

theorem embDepthV_whole {v : GoVal} (h : v.Whole) : embDepthV v = 0 := by
  cases v <;> first | exact h.elim | rfl

mutual
theorem Stays.extract : ∀ {u v : GoVal}, Stays A u v → ∀ props, extractEmb props v = extractEmb props u
  | _, _, .refl _, _ => rfl
  | _, _, .struct hl, props => by simp only [extractEmb, StaysL.extract hl]
  | _, _, .whole h1 h2 _, props => by rw [extractEmb_whole h1, extractEmb_whole h2]
theorem StaysL.extract : ∀ {u v : List (Field × GoVal)}, StaysL A u v → ∀ props, extractInto props v = extractInto props u
  | _, _, .nil, _ => rfl
  | _, _, .cons hx t, props => by
    simp only [extractInto, extractField, Stays.extract hx, hx.isMaybe]
    refine congrArg _ (funext fun p => StaysL.extract t p)
  | _, _, .fill a t, props => by
    simp only [extractInto, extractField, extractEmb, isMaybeVal]
    refine congrArg _ (funext fun p => StaysL.extract t p)
end

mutual
theorem Stays.embDepth : ∀ {u v : GoVal}, Stays A u v → embDepthV v = embDepthV u
  | _, _, .refl _ => rfl
  | _, _, .struct hl => by simp only [embDepthV, StaysL.embDepth hl]
  | _, _, .whole h1 h2 _ => by rw [embDepthV_whole h1, embDepthV_whole h2]
theorem StaysL.embDepth : ∀ {u v : List (Field × GoVal)}, StaysL A u v → Jsval.embDepth v = Jsval.embDepth u
  | _, _, .nil => rfl
  | _, _, .cons hx t => by simp only [Jsval.embDepth, embDepthF, Stays.embDepth hx, StaysL.embDepth t]
  | _, _, .fill a t => by simp only [Jsval.embDepth, embDepthF, embDepthV, StaysL.embDepth t]
end

theorem fieldsAt_split (n : GoStr) (d : Nat) (q : Field × GoVal) (fs : List (Field × GoVal)) :
    fieldsAt n d (q :: fs) = fieldsAt n d [q] ++ fieldsAt n d fs := by
  cases d with
  | zero => simp only [fieldsAt, ← List.map_append, ← List.filter_append, List.singleton_append]
  | succ d => simp only [fieldsAt, List.flatMap_cons, List.flatMap_nil, List.append_nil]

/-- The fields of one name at one depth. -/
theorem StaysL.fieldsAt (n : GoStr) : ∀ (d : Nat) {u v : List (Field × GoVal)}, StaysL A u v → List.Forall₂ (StaysF A n) (fieldsAt n d u) (fieldsAt n d v)
  | d, _, _, .nil => by cases d <;> exact .nil
  | 0, _, _, @StaysL.cons _ f x y fs fs' hx t => by
    rw [fieldsAt_split n 0 (f, x), fieldsAt_split n 0 (f, y)]
    refine List.rel_append ?_ (StaysL.fieldsAt n 0 t)
    by_cases hf : f.name = n
    · simp only [Jsval.fieldsAt, List.filter_cons, hf, decide_true, if_true, List.filter_nil, List.map_cons, List.map_nil]
      exact .cons (Or.inl hx) .nil
    · simp only [Jsval.fieldsAt, List.filter_cons, hf, decide_false, Bool.false_eq_true, if_false, List.filter_nil, List.map_nil]
      exact .nil
  | 0, _, _, @StaysL.fill _ f m m' fs fs' a t => by
    rw [fieldsAt_split n 0 (f, _), fieldsAt_split n 0 (f, .maybe true m')]
    refine List.rel_append ?_ (StaysL.fieldsAt n 0 t)
    by_cases hf : f.name = n
    · simp only [Jsval.fieldsAt, List.filter_cons, hf, decide_true, if_true, List.filter_nil, List.map_cons, List.map_nil]
      exact .cons (Or.inr ⟨m, m', rfl, rfl, hf ▸ a⟩) .nil
    · simp only [Jsval.fieldsAt, List.filter_cons, hf, decide_false, Bool.false_eq_true, if_false, List.filter_nil, List.map_nil]
      exact .nil
  | d + 1, _, _, @StaysL.cons _ f x y fs fs' hx t => by
    rw [fieldsAt_split n (d + 1) (f, x), fieldsAt_split n (d + 1) (f, y)]
    refine List.rel_append ?_ (StaysL.fieldsAt n (d + 1) t)
    simp only [Jsval.fieldsAt, List.flatMap_cons, List.flatMap_nil, List.append_nil]
    split
    · cases hx with
      | refl =>
        split
        · rename_i fs1
          exact StaysL.fieldsAt n d (StaysL.refl fs1)
        · exact .nil
      | struct hl => exact StaysL.fieldsAt n d hl
      | whole h1 h2 =>
        cases x <;> first | exact h1.elim | (cases y <;> first | exact h2.elim | exact .nil)
    · exact .nil
  | d + 1, _, _, @StaysL.fill _ f m m' fs fs' a t => by
    rw [fieldsAt_split n (d + 1) (f, _), fieldsAt_split n (d + 1) (f, .maybe true m')]
    refine List.rel_append ?_ (StaysL.fieldsAt n (d + 1) t)
    simp only [Jsval.fieldsAt, List.flatMap_cons, List.flatMap_nil, List.append_nil]
    split <;> exact .nil
  termination_by d u v => (d, u.length)

theorem forall₂_isEmpty {α β : Type} {R : α → β → Prop} {l : List α} {l' : List β} (h : List.Forall₂ R l l') : l'.isEmpty = l.isEmpty := by
  cases h <;> rfl

theorem StaysL.fieldDepth {u v : List (Field × GoVal)} (h : StaysL A u v) (n : GoStr) : Jsval.fieldDepth n v = Jsval.fieldDepth n u := by
  unfold Jsval.fieldDepth
  rw [h.embDepth]
  have h1 : (fun d => !(Jsval.fieldsAt n d v).isEmpty) = (fun d => !(Jsval.fieldsAt n d u).isEmpty) := funext fun d => by rw [forall₂_isEmpty (h.fieldsAt n d)]
  have h2 : (fun d => if (Jsval.fieldsAt n d v).length = 1 then some d else none) = (fun d => if (Jsval.fieldsAt n d u).length = 1 then some d else none) :=
    funext fun d => by rw [(h.fieldsAt n d).length_eq]
  rw [h1, h2]

/-- The field that a selector finds. -/
theorem StaysL.fieldByName {u v : List (Field × GoVal)} (h : StaysL A u v) {n : GoStr} {x : GoVal} (hx : fieldByName n u = some x) :
    ∃ y, Jsval.fieldByName n v = some y ∧ StaysF A n x y := by
  unfold Jsval.fieldByName at hx ⊢
  rw [h.fieldDepth]
  cases hd : Jsval.fieldDepth n u with
  | none => rw [hd] at hx; cases hx
  | some d =>
    rw [hd] at hx
    simp only [Option.bind_some] at hx ⊢
    have := h.fieldsAt n d
    cases e : Jsval.fieldsAt n d u with
    | nil => rw [e] at hx; cases hx
    | cons z l =>
      rw [e] at hx this
      cases hx
      generalize Jsval.fieldsAt n d v = l' at this ⊢
      cases this with
      | cons h1 h2 => exact ⟨_, rfl, h1⟩

theorem stays_fieldsSet {n : GoStr} {y : GoVal} : ∀ (d : Nat) (fs : List (Field × GoVal)), (∀ x ∈ fieldsAt n d fs, StaysF A n x y) →
    StaysL A fs (fieldsSet n y d fs)
  | 0, [], _ => .nil
  | _ + 1, [], _ => .nil
  | 0, (f, x) :: fs, h => by
    have ht := stays_fieldsSet 0 fs fun z hz => h z (by rw [fieldsAt_split]; exact List.mem_append_right _ hz)
    simp only [fieldsSet, List.map_cons] at ht ⊢
    by_cases hf : f.name = n
    · simp only [hf, if_true]
      refine StaysF.cons ?_ ht
      rw [hf]
      exact h x (by simp [fieldsAt, hf])
    · simp only [hf, if_false]
      exact .cons (.refl x) ht
  | d + 1, (f, x) :: fs, h => by
    have ht := stays_fieldsSet (d + 1) fs fun z hz => h z (by rw [fieldsAt_split]; exact List.mem_append_right _ hz)
    simp only [fieldsSet, List.map_cons] at ht ⊢
    by_cases ha : f.anonymous = true
    · simp only [ha, if_true]
      cases x with
      | struct gs =>
        refine .cons (.struct (stays_fieldsSet d gs fun z hz => h z ?_)) ht
        simp [fieldsAt, ha, hz]
      | _ => exact .cons (.refl _) ht
    · simp only [ha]
      exact .cons (.refl x) ht
  termination_by d fs => (d, fs.length)

theorem stays_setField {n : GoStr} {x y : GoVal} {fs : List (Field × GoVal)} (h : fieldByName n fs = some x) (hy : StaysF A n x y) :
    StaysL A fs (setField n y fs) := by
  obtain ⟨d, h1, h2⟩ := fieldByName_at h
  simp only [setField, h1]
  refine stays_fieldsSet d fs fun z hz => ?_
  rw [h2] at hz
  simp only [List.mem_singleton] at hz
  rw [hz]; exact hy

theorem fieldsAt_fieldsSet {n : GoStr} {y : GoVal} : ∀ (d : Nat) (fs : List (Field × GoVal)), fieldsAt n d (fieldsSet n y d fs) = (fieldsAt n d fs).map fun _ => y
  | 0, [] => rfl
  | _ + 1, [] => rfl
  | 0, (f, x) :: fs => by
    have ht := fieldsAt_fieldsSet (n := n) (y := y) 0 fs
    simp only [fieldsSet, List.map_cons] at ht ⊢
    rw [fieldsAt_split, ht, fieldsAt_split n 0 (f, x), List.map_append]
    congr 1
    by_cases hf : f.name = n <;> simp [fieldsAt, hf]
  | d + 1, (f, x) :: fs => by
    have ht := fieldsAt_fieldsSet (n := n) (y := y) (d + 1) fs
    simp only [fieldsSet, List.map_cons] at ht ⊢
    rw [fieldsAt_split, ht, fieldsAt_split n (d + 1) (f, x), List.map_append]
    congr 1
    by_cases ha : f.anonymous = true
    · simp only [ha, if_true]
      cases x with
      | struct gs => simp [fieldsAt, ha, fieldsAt_fieldsSet d gs]
      | _ => simp [fieldsAt, ha]
    · simp [fieldsAt, ha]
  termination_by d fs => (d, fs.length)

/-- What was stored in a field is found there. -/
theorem fieldByName_setField {n : GoStr} {x y : GoVal} {fs : List (Field × GoVal)} (h : fieldByName n fs = some x)
    (hy : StaysF (fun _ _ _ => True) n x y) : fieldByName n (setField n y fs) = some y := by
  have hs := stays_setField h hy
  obtain ⟨d, h1, h2⟩ := fieldByName_at h
  unfold fieldByName
  rw [hs.fieldDepth, h1]
  simp only [Option.bind_some, setField, h1, fieldsAt_fieldsSet, h2]
  rfl

/-! ## Reading and storing properties -/

/-- The Go name of the field that stands for property `p`. -/
def fieldNameOf (fs : List (Field × GoVal)) (p : GoStr) : Option GoStr := ((extract fs).bind (alookup p)).map (·.fieldName)

theorem StaysL.fieldNameOf {u v : List (Field × GoVal)} (h : StaysL A u v) (p : GoStr) : Jsval.fieldNameOf v p = Jsval.fieldNameOf u p := by
  unfold Jsval.fieldNameOf Jsval.extract
  rw [h.extract]

theorem getProp_field {fs : List (Field × GoVal)} {p : GoStr} {x : GoVal} :
    getProp (some (.struct fs)) p = .ok (some x) ↔ ∃ n, fieldNameOf fs p = some n ∧ fieldByName n fs = some x := by
  unfold fieldNameOf
  simp only [getProp]
  cases extract fs with
  | none => simp
  | some props =>
    simp only [Option.bind_some]
    cases alookup p props <;> simp

/-- The field that stands for `p` is unset. -/
theorem viewProp_field {fs : List (Field × GoVal)} {p n : GoStr} {x : GoVal} (hn : fieldNameOf fs p = some n) (hx : fieldByName n fs = some x) :
    viewProp (some (.struct fs)) p = .ok .absent ↔ maybeValid x = some false :=
  viewProp_unset (getProp_field.2 ⟨n, hn, hx⟩)

theorem putAt_stays {fs : List (Field × GoVal)} {p : GoStr} {x x' : GoVal} (h : getProp (some (.struct fs)) p = .ok (some x)) (hx : Stays A x x') :
    ∃ fs', putAt (.struct fs) p x' = .struct fs' ∧ StaysL A fs fs' := by
  obtain ⟨n, h1, h2⟩ := getProp_field.1 h
  unfold fieldNameOf at h1
  obtain ⟨info, h3, rfl⟩ := Option.map_eq_some_iff.1 h1
  refine ⟨setField info.fieldName x' fs, ?_, stays_setField h2 (Or.inl hx)⟩
  simp only [putAt, h3]

/-- `setProp` on a struct, in terms of the field. -/
theorem setPropAt_field (ext : Ext) (b : Bool) {fs : List (Field × GoVal)} {p n : GoStr} {x : GoVal} (hn : fieldNameOf fs p = some n)
    (hx : fieldByName n fs = some x) (dv : GoVal) :
    setPropAt ext b (.struct fs) p dv = (stored ext b x dv).map fun y => .struct (setField n y fs) := by
  unfold fieldNameOf at hn
  obtain ⟨info, h3, rfl⟩ := Option.map_eq_some_iff.1 hn
  obtain ⟨props, h4, h5⟩ := Option.bind_eq_some_iff.1 h3
  simp only [setPropAt, setPropStruct, h4, h5, hx, Option.bind_some, Option.map_some]
  unfold stored
  split
  · simp_all
  · rename_i fn w m heq
    simp only [Option.some.injEq, Prod.mk.injEq] at heq
    obtain ⟨rfl, rfl⟩ := heq
    simp only
    cases coerce m.kind dv with
    | none => rfl
    | some dv' =>
      cases b with
      | false => rfl
      | true =>
        simp only [if_true]
        rcases (MaybeSt.mk w m).Set ext dv' with ⟨_ | e, m'⟩ <;> rfl
  · rename_i fn w m heq
    simp only [Option.some.injEq, Prod.mk.injEq] at heq
    obtain ⟨rfl, rfl⟩ := heq
    cases dv <;> first | rfl | (simp only; rcases (MaybeSt.mk w m).Set ext _ with ⟨_ | e, m'⟩ <;> rfl)
  · rename_i q h1 h2 heq
    simp only [Option.some.injEq] at heq
    subst heq
    split
    · rename_i w m
      exact absurd rfl (h1 _ w m)
    · rename_i w m
      exact absurd rfl (h2 _ w m)
    · rfl

/-- … when there is no such field. -/
theorem setPropAt_nowhere (ext : Ext) (b : Bool) {fs : List (Field × GoVal)} {p : GoStr} (h : ∀ n x, fieldNameOf fs p = some n → fieldByName n fs ≠ some x) (dv : GoVal) :
    ∃ e, setPropAt ext b (.struct fs) p dv = .error e := by
  unfold fieldNameOf at h
  simp only [setPropAt, setPropStruct]
  cases he : extract fs with
  | none => exact ⟨_, rfl⟩
  | some props =>
    rw [he] at h
    simp only [Option.bind_some] at h ⊢
    cases ha : alookup p props with
    | none => exact ⟨_, rfl⟩
    | some info =>
      rw [ha] at h
      simp only [Option.bind_some]
      cases hf : fieldByName info.fieldName fs with
      | none => exact ⟨_, rfl⟩
      | some x => exact absurd hf (h _ x rfl)

theorem set_ok {ext : Ext} {w : Bool} {m : MaybeVal} {x : GoVal} {m' : MaybeSt} (h : (MaybeSt.mk w m).Set ext x = (none, m')) :
    m'.valid = true ∧ m'.p.kind = m.kind := by
  have hs : Settable ext m.kind x := (C52_succeeds_iff ext ⟨w, m⟩ x).1 (by rw [h])
  obtain ⟨m'', h1, h2, h3⟩ := C52_valid ext ⟨w, m⟩ x hs
  rw [h] at h1
  cases h1
  exact ⟨h2, h3⟩

/-- What is stored is a valid Maybe of the type of the field. -/
theorem stored_ok {ext : Ext} {b : Bool} {x dv y : GoVal} (h : stored ext b x dv = .ok y) :
    (b = true ∧ ∃ w m m', x = .maybe w m ∧ y = .maybe true m' ∧ m'.kind = m.kind) ∨
    ∃ w m m', x = .ptr (some (.maybe w m)) ∧ y = .ptr (some (.maybe true m')) := by
  unfold stored at h
  split at h
  · rename_i w m
    split at h
    · cases h
    · rename_i dv' _
      split at h
      · rename_i hb
        rcases e : (MaybeSt.mk w m).Set ext dv' with ⟨_ | e', m'⟩
        · rw [e] at h
          cases h
          obtain ⟨h1, h2⟩ := set_ok e
          exact Or.inl ⟨hb, w, m, m'.p, rfl, by rw [h1], h2⟩
        · rw [e] at h; cases h
      · cases h
  · rename_i w m
    split at h
    · cases h
    · rcases e : (MaybeSt.mk w m).Set ext dv with ⟨_ | e', m'⟩
      · rw [e] at h
        cases h
        obtain ⟨h1, h2⟩ := set_ok e
        exact Or.inr ⟨w, m, m'.p, rfl, by rw [h1]⟩
      · rw [e] at h; cases h
  · cases h

/-- Filling a field that is unset. -/
theorem setPropAt_stays {ext : Ext} {b : Bool} {fs : List (Field × GoVal)} {p : GoStr} {dv t : GoVal} (hv : viewProp (some (.struct fs)) p = .ok .absent)
    (h : setPropAt ext b (.struct fs) p dv = .ok t) :
    ∃ n x y, fieldNameOf fs p = some n ∧ fieldByName n fs = some x ∧ stored ext b x dv = .ok y ∧ t = .struct (setField n y fs) ∧
      StaysL (fun k m m' => b = true ∧ k = n ∧ stored ext true (.maybe false m) dv = .ok (.maybe true m') ∧ m'.kind = m.kind) fs (setField n y fs) := by
  by_cases hx : ∃ n x, fieldNameOf fs p = some n ∧ fieldByName n fs = some x
  · obtain ⟨n, x, h1, h2⟩ := hx
    rw [setPropAt_field ext b h1 h2] at h
    cases hs : stored ext b x dv with
    | error e => rw [hs] at h; cases h
    | ok y =>
      rw [hs] at h
      cases h
      refine ⟨n, x, y, h1, h2, hs, rfl, stays_setField h2 ?_⟩
      have hu := (viewProp_field h1 h2).1 hv
      rcases stored_ok hs with ⟨rfl, w, m, m', rfl, rfl, hk⟩ | ⟨w, m, m', rfl, rfl⟩
      · simp only [maybeValid, Option.some.injEq] at hu
        subst hu
        exact Or.inr ⟨m, m', rfl, rfl, rfl, rfl, hs, hk⟩
      · exact Or.inl (.whole trivial trivial rfl)
  · obtain ⟨e, he⟩ := setPropAt_nowhere ext b (fs := fs) (p := p) (fun n x h1 h2 => hx ⟨n, x, h1, h2⟩) dv
    rw [he] at h
    cases h

/-! ## Whole values -/

/-- Nothing may be filled. -/
def NoFill : GoStr → MaybeVal → MaybeVal → Prop := fun _ _ _ => False
/-- Everything may be filled. -/
def AnyFill : GoStr → MaybeVal → MaybeVal → Prop := fun _ _ _ => True

theorem StaysL.any {u v : List (Field × GoVal)} (h : StaysL A u v) : StaysL AnyFill u v := h.mono fun _ _ _ _ => trivial

/-- Validation keeps types; it fills fields of structs only through pointers. -/
def StaysR (v v' : GoVal) : Prop :=
  Stays NoFill v v' ∧ ∀ fs, v = .ptr (some (.struct fs)) → ∃ fs', v' = .ptr (some (.struct fs')) ∧ StaysL AnyFill fs fs'

theorem StaysR.refl (v : GoVal) : StaysR v v := ⟨.refl v, fun fs h => ⟨fs, h, StaysL.refl fs⟩⟩

theorem isMaybeVal_ptr {t : GoVal} : isMaybeVal (.ptr (some t)) = match t with | .maybe _ _ => true | _ => false := by
  cases t <;> rfl

theorem StaysR.whole {v v' : GoVal} (h : v.Whole) (h' : v'.Whole) (hm : isMaybeVal v = isMaybeVal v') (hp : ∀ fs, v ≠ .ptr (some (.struct fs))) : StaysR v v' :=
  ⟨.whole h h' hm, fun fs e => absurd e (hp fs)⟩

theorem putAt_kind (t : GoVal) (p : GoStr) (x : GoVal) : isMaybeVal (.ptr (some t)) = isMaybeVal (.ptr (some (putAt t p x))) := by
  cases t with
  | struct fs => simp only [putAt]; split <;> rfl
  | _ => rfl

theorem setPropAt_kind {ext : Ext} {b : Bool} {t t' : GoVal} {p : GoStr} {dv : GoVal} (h : setPropAt ext b t p dv = .ok t') :
    isMaybeVal (.ptr (some t)) = isMaybeVal (.ptr (some t')) := by
  cases t with
  | struct fs =>
    simp only [setPropAt] at h
    cases e : setPropStruct ext b fs p dv with
    | error e' => rw [e] at h; cases h
    | ok fs' => rw [e] at h; cases h; rfl
  | map n kvs =>
    simp only [setPropAt] at h
    split at h
    · cases h; rfl
    · split at h <;> cases h
      rfl
  | _ => cases h

/-- The policy. -/
def stayPolicy (ext : Ext) : Policy ext where
  I := fun _ => True
  J := fun _ => True
  R := StaysR
  A := fun _ => True
  D := fun _ => True
  K := fun _ _ => True
  refl := StaysR.refl
  trans := fun {u v w} h h' => by
    refine ⟨h.1.trans h'.1, fun fs e => ?_⟩
    obtain ⟨fs1, e1, k1⟩ := h.2 fs e
    obtain ⟨fs2, e2, k2⟩ := h'.2 fs1 e1
    exact ⟨fs2, e2, k1.trans k2⟩
  scalar := fun _ _ _ => trivial
  slice := fun _ _ _ => trivial
  sliceR := fun _ _ => ⟨trivial, StaysR.whole trivial trivial rfl (by simp)⟩
  names := fun _ _ _ _ => trivial
  namesA := fun _ _ => trivial
  getA := fun _ _ => trivial
  getI := fun _ _ => trivial
  getK := fun _ _ _ => trivial
  put := by
    intro v p x x' _ hg _ hR
    refine ⟨trivial, ?_, fun _ _ => trivial⟩
    cases v with
    | struct fs =>
      obtain ⟨fs', h1, h2⟩ := putAt_stays hg hR.1
      rw [putProp, h1]
      exact ⟨.struct h2, fun _ e => (by cases e)⟩
      all_goals simp
    | ptr t =>
      cases t with
      | none => exact StaysR.refl _
      | some t =>
        refine ⟨.whole trivial trivial (putAt_kind t p x'), ?_⟩
        rintro fs e
        cases e
        obtain ⟨fs', h1, h2⟩ := putAt_stays (fs := fs) hg hR.1
        exact ⟨fs', by rw [putProp, h1], h2.any⟩
    | iface t => exact StaysR.whole trivial trivial rfl (by simp)
    | map n kvs => exact StaysR.whole trivial trivial rfl (by simp)
    | _ => exact StaysR.refl _
  set := by
    intro v p dv v' _ _ hv hs
    refine ⟨trivial, ?_, fun _ _ => trivial⟩
    cases v with
    | struct fs =>
      obtain ⟨n, x, y, -, -, -, rfl, h⟩ := setPropAt_stays (b := false) hv hs
      exact ⟨.struct (h.mono fun _ _ _ hh => by cases hh.1), fun _ e => (by cases e)⟩
    | ptr t =>
      cases t with
      | none => cases hs
      | some t =>
        simp only [setProp] at hs
        cases e : setPropRV ext true t p dv with
        | error e' => rw [e] at hs; cases hs
        | ok t' =>
          rw [e] at hs
          cases hs
          have hk : isMaybeVal (.ptr (some t)) = isMaybeVal (.ptr (some t')) := by
            cases t with
            | ptr q =>
              cases q with
              | none => cases e
              | some y =>
                simp only [setPropRV] at e
                cases e1 : setPropAt ext true y p dv with
                | error _ => rw [e1] at e; cases e
                | ok y' => rw [e1] at e; cases e; rfl
            | iface y =>
              simp only [setPropRV] at e
              cases e1 : setPropAt ext false y p dv with
              | error _ => rw [e1] at e; cases e
              | ok y' => rw [e1] at e; cases e; rfl
            | _ => exact setPropAt_kind (ext := ext) (b := true) (p := p) (dv := dv) e
          refine ⟨.whole trivial trivial hk, ?_⟩
          rintro fs e2
          cases e2
          obtain ⟨n, x, y, -, -, -, rfl, h⟩ := setPropAt_stays (b := true) (fs := fs) hv e
          exact ⟨_, rfl, h.any⟩
    | iface t =>
      simp only [setProp] at hs
      cases e : setPropRV ext false t p dv with
      | error e' => rw [e] at hs; cases hs
      | ok t' => rw [e] at hs; cases hs; exact StaysR.whole trivial trivial rfl (by simp)
    | map n kvs =>
      simp only [setProp, setPropAt] at hs
      split at hs
      · cases hs; exact StaysR.whole trivial trivial rfl (by simp)
      · split at hs <;> cases hs
        exact StaysR.whole trivial trivial rfl (by simp)
    | _ => cases hs
  setA := fun _ _ _ _ => trivial

/-- Every constraint keeps types. -/
theorem stays_sem {ext : Ext} {env : Env} (c : Constraint) (fuel : Nat) : (stayPolicy ext).Good (sem ext env fuel c) :=
  Policy.good_sem (stayPolicy ext) rfl trivial (fun _ _ _ _ d _ => local_of_true _ (fun _ => trivial) fun _ _ => trivial)
    (fun d _ => local_of_true _ (fun _ => trivial) fun _ _ => trivial) fuel

/-! ## Objects -/

section
variable {ext : Ext} {o o' : ObjC Sem} {p n : GoStr} {c d : Sem} {dv : GoVal} {m : MaybeVal} {fs : List (Field × GoVal)}

theorem StaysR.struct {v : GoVal} (h : StaysR (.struct fs) v) : ∃ fs', v = .struct fs' ∧ StaysL NoFill fs fs' := by
  cases h.1 with
  | refl => exact ⟨fs, rfl, StaysL.refl fs⟩
  | struct hl => exact ⟨_, rfl, hl⟩
  | whole h => exact h.elim

/-- A struct passed by value: nothing gets into a field that is a Maybe. -/
theorem StaysR.unset {v : GoVal} (h : StaysR (.struct fs) v) (hn : fieldNameOf fs p = some n) (hf : fieldByName n fs = some (.maybe false m)) :
    ∃ fs', v = .struct fs' ∧ fieldNameOf fs' p = some n ∧ fieldByName n fs' = some (.maybe false m) := by
  obtain ⟨fs', rfl, hl⟩ := h.struct
  refine ⟨fs', rfl, by rw [hl.fieldNameOf, hn], ?_⟩
  obtain ⟨y, h1, h2 | ⟨_, _, _, _, h2⟩⟩ := hl.fieldByName hf
  · rw [h1, h2.maybe]
  · exact h2.elim

/-- The turn of `p` then does not go through. -/
theorem propStep_byValue {v : GoVal} (h : StaysR (.struct fs) v) (hn : fieldNameOf fs p = some n) (hf : fieldByName n fs = some (.maybe false m))
    (hc : c.dflt = .some dv) {σ : Sched} {i : Nat} {pm ps : List GoStr} :
    (propStep ext o σ i (p, c) ⟨v, pm, ps⟩).1 = if p ∈ o.required then .err (.required p) else .abort .panic := by
  obtain ⟨fs', rfl, h1, h2⟩ := h.unset hn hf
  have hv : viewProp (valueOf (.struct fs')).indirect p = .ok .absent := (viewProp_field h1 h2).2 rfl
  have hs : setProp ext (.struct fs') p dv = .error (.abort .panic) := by
    show setPropAt ext false (.struct fs') p dv = _
    rw [setPropAt_field ext false h1 h2]
    cases hco : coerce m.kind dv <;> simp only [stored, hco] <;> rfl
  unfold propStep
  simp only [hv, hc, hs]
  split <;> rfl

/-- The loop over declared properties on a struct passed by value. -/
theorem propLoop_byValue (hn : fieldNameOf fs p = some n) (hf : fieldByName n fs = some (.maybe false m)) (hc : c.dflt = .some dv) (hreq : o.required = o'.required)
    {σ : Sched} : ∀ (l : List (GoStr × Sem)) (i : Nat) {st : ObjSt}, (∀ q e, (q, e) ∈ l → (stayPolicy ext).Good e) → (l.map (·.1)).Nodup → (p, c) ∈ l →
      StaysR (.struct fs) st.v →
      (forLoop (propStep ext o σ) i l st).1 ≠ .ok ∧
      ((forLoop (propStep ext o' σ) i (l.map (substProp p d)) st).1 = .ok → (forLoop (propStep ext o σ) i l st).1 = .abort .panic)
  | [], _, _, _, _, hl, _ => by simp at hl
  | (q, e) :: l, i, st, hg, hnd, hl, hst => by
    simp only [List.map_cons, List.nodup_cons] at hnd
    by_cases hqp : q = p
    · subst hqp
      have : (q, c) = (q, e) := by
        rcases List.mem_cons.1 hl with h | h
        · exact h
        · exact absurd (List.mem_map.2 ⟨_, h, rfl⟩) hnd.1
      cases this
      obtain ⟨v, pm, ps⟩ := st
      have h1 := propStep_byValue (ext := ext) (o := o) hst hn hf hc (σ := σ) (i := i) (pm := pm) (ps := ps)
      simp only [List.map_cons, substProp, if_true, forLoop]
      rcases e1 : propStep ext o σ i (q, c) ⟨v, pm, ps⟩ with ⟨r, u⟩
      rw [e1] at h1
      simp only at h1
      by_cases hr : q ∈ o.required
      · rw [if_pos hr] at h1
        subst h1
        refine ⟨by simp, fun hh => ?_⟩
        obtain ⟨fs', hv', h3, h4⟩ := hst.unset hn hf
        simp only at hv'
        subst hv'
        have hv : viewProp (valueOf (.struct fs')).indirect q = .ok .absent := (viewProp_field h3 h4).2 rfl
        have : propStep ext o' σ i (q, d) ⟨.struct fs', pm, ps⟩ = (.err (.required q), ⟨.struct fs', pm, ps⟩) := by
          unfold propStep
          simp only [hv, ← hreq, if_pos hr]
        rw [this] at hh
        cases hh
      · rw [if_neg hr] at h1
        subst h1
        exact ⟨by simp, fun _ => rfl⟩
    · have hsub : substProp p d (q, e) = (q, e) := by simp [substProp, hqp]
      have hl' : (p, c) ∈ l := by
        rcases List.mem_cons.1 hl with h | h
        · cases h; exact absurd rfl hqp
        · exact h
      have heq : propStep ext o' σ i (q, e) st = propStep ext o σ i (q, e) st := by unfold propStep; rw [hreq]
      have hs := (Policy.propStep_step (stayPolicy ext) (o := o) (σ := σ) (i := i) (p := q) (v₀ := .struct fs) (hg q e (by simp)) (st := st)
        ⟨trivial, hst, fun _ _ => trivial⟩).1.2.1
      simp only [List.map_cons, hsub, forLoop, heq]
      rcases e1 : propStep ext o σ i (q, e) st with ⟨r, u⟩
      rw [e1] at hs
      cases r with
      | err e => exact ⟨by simp, fun h => by cases h⟩
      | abort a => exact ⟨by simp, fun h => by cases h⟩
      | ok => exact propLoop_byValue hn hf hc hreq l (i + 1) (fun q e h => hg q e (List.mem_cons_of_mem _ h)) hnd.2 hl' hs

/-- Whole objects: a struct passed by value. -/
theorem objectV_byValue (hg : ∀ c, o.Child c → (stayPolicy ext).Good c) (hn : fieldNameOf fs p = some n) (hf : fieldByName n fs = some (.maybe false m))
    (ho : Alters p c d o o') (hc : c.dflt = .some dv) (σ : Sched) :
    (objectV ext o σ (.struct fs)).1 ≠ .ok ∧ ((objectV ext o' σ (.struct fs)).1 = .ok → (objectV ext o σ (.struct fs)).1 = .abort .panic) := by
  unfold objectV
  rcases getPropNames (valueOf (.struct fs)).indirect with e | names
  · cases e with
    | err e => exact ⟨by simp [Stop.toRes], fun h => by cases h⟩
    | abort a => exact ⟨by simp [Stop.toRes], fun h => by cases h⟩
  simp only [ho.minProps, ho.maxProps]
  split
  · exact ⟨by simp, fun h => by cases h⟩
  split
  · exact ⟨by simp, fun h => by cases h⟩
  have hnd : ((shuffle (σ.sub 0).key o.props).map (·.1)).Nodup := by rw [← shuffle_map]; exact shuffle_nodup.2 ho.nodup
  obtain ⟨k1, k2⟩ := propLoop_byValue (ext := ext) (o := o) (o' := o') (d := d) hn hf hc ho.required (σ := σ.sub 1) (shuffle (σ.sub 0).key o.props) 0
    (st := ⟨.struct fs, nameSet names, []⟩) (fun q e h => hg e (.prop (mem_shuffle.1 h))) hnd (mem_shuffle.2 ho.prop) (StaysR.refl _)
  unfold objLoops
  rw [ho.props, shuffle_map]
  constructor
  · intro hh
    exact k1 (seqSt_ok.1 hh).1
  · intro hh
    have := k2 (seqSt_ok.1 hh).1
    rcases e : forLoop (propStep ext o (σ.sub 1)) 0 (shuffle (σ.sub 0).key o.props) ⟨.struct fs, nameSet names, []⟩ with ⟨r, u⟩
    rw [e] at this
    simp only at this
    subst this
    rfl

/-- What declared properties can put into a field: the default of one whose field has that name. -/
def FromDefault (ext : Ext) (o : ObjC Sem) (fs : List (Field × GoVal)) (k : GoStr) (m m' : MaybeVal) : Prop :=
  ∃ q e dq, (q, e) ∈ o.props ∧ e.dflt = .some dq ∧ fieldNameOf fs q = some k ∧ stored ext true (.maybe false m) dq = .ok (.maybe true m') ∧ m'.kind = m.kind

/-- One turn of the loop over declared properties, on a struct passed by pointer. -/
theorem propStep_fromDefault {fs1 : List (Field × GoVal)} {q : GoStr} {e : Sem} (he : (q, e) ∈ o.props) (hg : (stayPolicy ext).Good e)
    (h : StaysL (FromDefault ext o fs) fs fs1) {σ : Sched} {i : Nat} {pm ps : List GoStr} :
    ∃ fs2, (propStep ext o σ i (q, e) ⟨.ptr (some (.struct fs1)), pm, ps⟩).2.v = .ptr (some (.struct fs2)) ∧ StaysL (FromDefault ext o fs) fs fs2 ∧
      StaysL (FromDefault ext o fs) fs1 fs2 ∧
      ∀ {k : GoStr} {m : MaybeVal} {dv : GoVal}, fieldNameOf fs q = some k → fieldByName k fs = some (.maybe false m) → e.dflt = .some dv →
        (propStep ext o σ i (q, e) ⟨.ptr (some (.struct fs1)), pm, ps⟩).1 = .ok → ∃ m', fieldByName k fs2 = some (.maybe true m') := by
  have hsame : ∀ {P : Prop}, (P → False) → ∃ fs2, GoVal.ptr (some (.struct fs1)) = .ptr (some (.struct fs2)) ∧ StaysL (FromDefault ext o fs) fs fs2 ∧
      StaysL (FromDefault ext o fs) fs1 fs2 ∧
      ∀ {k : GoStr} {m : MaybeVal} {dv : GoVal}, fieldNameOf fs q = some k → fieldByName k fs = some (.maybe false m) → e.dflt = .some dv →
        P → ∃ m', fieldByName k fs2 = some (.maybe true m') :=
    fun hP => ⟨fs1, rfl, h, StaysL.refl _, fun _ _ _ hp => (hP hp).elim⟩
  unfold propStep
  have hi : (valueOf (.ptr (some (.struct fs1)))).indirect = some (.struct fs1) := rfl
  simp only [hi]
  cases hv : viewProp (some (.struct fs1)) q with
  | error a => exact hsame (by simp)
  | ok pv =>
    cases pv with
    | absent =>
      simp only
      split
      · exact hsame (by simp)
      · cases hd : e.dflt with
        | abort a => exact ⟨fs1, rfl, h, StaysL.refl _, fun _ _ h => by cases h⟩
        | none => exact ⟨fs1, rfl, h, StaysL.refl _, fun _ _ h => by cases h⟩
        | some dq =>
          simp only
          cases hs : setProp ext (.ptr (some (.struct fs1))) q dq with
          | error s => cases s <;> exact ⟨fs1, rfl, h, StaysL.refl _, fun _ _ _ h => by cases h⟩
          | ok v' =>
            simp only
            have hs' : (setPropAt ext true (.struct fs1) q dq).map (fun t => GoVal.ptr (some t)) = .ok v' := hs
            cases ha : setPropAt ext true (.struct fs1) q dq with
            | error s => rw [ha] at hs'; cases hs'
            | ok t =>
              rw [ha] at hs'
              cases hs'
              obtain ⟨k, x, y, g1, g2, g3, rfl, g5⟩ := setPropAt_stays hv ha
              have g6 : StaysL (FromDefault ext o fs) fs1 (setField k y fs1) := g5.mono fun _ m m' hh => by
                obtain ⟨-, rfl, h3, h4⟩ := hh
                exact ⟨q, e, dq, he, hd, by rw [← h.fieldNameOf, g1], h3, h4⟩
              refine ⟨_, rfl, h.trans g6, g6, fun {k' m _} h1 h2 _ _ => ?_⟩
              rw [← h.fieldNameOf, g1] at h1
              cases h1
              obtain ⟨z, z1, z2⟩ := h.fieldByName h2
              rw [g2] at z1
              cases z1
              have hx : ∃ w m0, x = .maybe w m0 := by
                rcases z2 with z2 | ⟨_, m0, -, rfl, -⟩
                · exact ⟨_, _, z2.maybe⟩
                · exact ⟨_, _, rfl⟩
              obtain ⟨w, m0, rfl⟩ := hx
              rcases stored_ok g3 with ⟨-, w', m1, m', e1, rfl, -⟩ | ⟨_, _, _, e1, _⟩
              · cases e1
                have hu := (viewProp_field g1 g2).1 hv
                simp only [maybeValid, Option.some.injEq] at hu
                subst hu
                exact ⟨m', fieldByName_setField g2 (Or.inr ⟨_, _, rfl, rfl, trivial⟩)⟩
              · cases e1
    | present x s =>
      rcases ed : e.val (σ.sub i) x with ⟨r, x'⟩
      simp only [ed]
      have hx : getProp (some (.struct fs1)) q = .ok (some x) → s = true → ∃ fs2, putProp (.ptr (some (.struct fs1))) q x' = .ptr (some (.struct fs2)) ∧
          StaysL (FromDefault ext o fs) fs1 fs2 := fun hgp _ => by
        have hR : StaysR x x' := by
          have := (hg.val (σ.sub i) x trivial).2.1
          rw [ed] at this
          exact this
        obtain ⟨fs2, e1, e2⟩ := putAt_stays hgp hR.1
        exact ⟨fs2, by rw [putProp, e1], e2.mono fun _ _ _ h => h.elim⟩
      have hval : ∀ {k : GoStr} {m : MaybeVal}, fieldNameOf fs q = some k → fieldByName k fs = some (.maybe false m) →
          s = false ∧ ∃ m', fieldByName k fs1 = some (.maybe true m') := fun {k m} h1 h2 => by
        obtain ⟨z, z1, z2⟩ := h.fieldByName h2
        have hz : ∃ w m0, z = .maybe w m0 := by
          rcases z2 with z2 | ⟨_, m0, -, rfl, -⟩
          · exact ⟨_, _, z2.maybe⟩
          · exact ⟨_, _, rfl⟩
        obtain ⟨w, m0, rfl⟩ := hz
        have hgp := getProp_field.2 ⟨k, by rw [h.fieldNameOf, h1], z1⟩
        simp only [viewProp, hgp] at hv
        cases w with
        | false => simp at hv
        | true =>
          simp only [if_true, Except.ok.injEq, PropView.present.injEq] at hv
          exact ⟨hv.2.symm, m0, z1⟩
      cases s with
      | false =>
        have : ∃ fs2, GoVal.ptr (some (.struct fs1)) = .ptr (some (.struct fs2)) ∧ StaysL (FromDefault ext o fs) fs fs2 ∧ StaysL (FromDefault ext o fs) fs1 fs2 ∧
            ∀ {k : GoStr} {m : MaybeVal} {dv : GoVal}, fieldNameOf fs q = some k → fieldByName k fs = some (.maybe false m) → e.dflt = .some dv →
              ∃ m', fieldByName k fs2 = some (.maybe true m') := ⟨fs1, rfl, h, StaysL.refl _, fun h1 h2 _ => (hval h1 h2).2⟩
        obtain ⟨fs2, a1, a2, a3, a4⟩ := this
        cases r <;> exact ⟨fs2, a1, a2, a3, fun h1 h2 h3 _ => a4 h1 h2 h3⟩
      | true =>
        have hgp : getProp (some (.struct fs1)) q = .ok (some x) := by
          unfold viewProp at hv
          split at hv
          · cases hv
          · cases hv
          · rename_i pval hgp
            simp only at hv
            split at hv
            · split at hv <;> cases hv
            · split at hv <;> cases hv
            · cases hv; exact hgp
        obtain ⟨fs2, e1, e2⟩ := hx hgp rfl
        simp only [e1, if_true]
        have : ∀ {k : GoStr} {m : MaybeVal} {dv : GoVal}, fieldNameOf fs q = some k → fieldByName k fs = some (.maybe false m) → e.dflt = .some dv →
              ∃ m', fieldByName k fs2 = some (.maybe true m') := fun h1 h2 _ => absurd (hval h1 h2).1 (by simp)
        cases r <;> exact ⟨fs2, rfl, h.trans e2, e2, fun h1 h2 h3 _ => this h1 h2 h3⟩

/-- The loop over declared properties on a struct passed by pointer. -/
theorem propLoop_fromDefault (hn : fieldNameOf fs p = some n) (hf : fieldByName n fs = some (.maybe false m)) (hc : c.dflt = .some dv) {σ : Sched} :
    ∀ (l : List (GoStr × Sem)) (i : Nat) {fs1 : List (Field × GoVal)} {pm ps : List GoStr}, (∀ q e, (q, e) ∈ l → (q, e) ∈ o.props ∧ (stayPolicy ext).Good e) →
      StaysL (FromDefault ext o fs) fs fs1 → ((p, c) ∈ l ∨ ∃ m', fieldByName n fs1 = some (.maybe true m')) →
      (forLoop (propStep ext o σ) i l ⟨.ptr (some (.struct fs1)), pm, ps⟩).1 = .ok →
      ∃ fs2 m', (forLoop (propStep ext o σ) i l ⟨.ptr (some (.struct fs1)), pm, ps⟩).2.v = .ptr (some (.struct fs2)) ∧
        fieldByName n fs2 = some (.maybe true m') ∧ FromDefault ext o fs n m m'
  | [], i, fs1, pm, ps, _, hs, h, _ => by
    rcases h with h | ⟨m', hm⟩
    · cases h
    · obtain ⟨y, h1, h2 | ⟨_, _, e1, e2, h2⟩⟩ := hs.fieldByName hf
      · rw [hm] at h1
        cases h1
        cases h2.maybe
      · cases e1
        rw [hm] at h1
        cases h1
        cases e2
        exact ⟨fs1, m', rfl, hm, h2⟩
  | (q, e) :: l, i, fs1, pm, ps, hl, hs, h, hok => by
    obtain ⟨he, hg⟩ := hl q e (by simp)
    obtain ⟨fs2, a1, a2, a3, a4⟩ := propStep_fromDefault (ext := ext) he hg hs (σ := σ) (i := i) (pm := pm) (ps := ps)
    rw [forLoop] at hok ⊢
    rcases e1 : propStep ext o σ i (q, e) ⟨.ptr (some (.struct fs1)), pm, ps⟩ with ⟨r, v, pm', ps'⟩
    rw [e1] at hok a1 a4
    simp only at a1 a4
    subst a1
    cases r with
    | err e => cases hok
    | abort a => cases hok
    | ok =>
      refine propLoop_fromDefault hn hf hc l (i + 1) (fun q e h => hl q e (List.mem_cons_of_mem _ h)) a2 ?_ hok
      rcases h with h | ⟨m', hm⟩
      · rcases List.mem_cons.1 h with h | h
        · cases h
          exact Or.inr (a4 hn hf hc rfl)
        · exact Or.inl h
      · right
        obtain ⟨y, h1, h2 | ⟨_, _, e1, _⟩⟩ := a3.fieldByName hm
        · exact ⟨m', by rw [h1, h2.maybe]⟩
        · cases e1

/-- Whole objects: a struct passed by pointer that is accepted. -/
theorem objectV_fromDefault (hg : ∀ c, o.Child c → (stayPolicy ext).Good c) (hn : fieldNameOf fs p = some n) (hf : fieldByName n fs = some (.maybe false m))
    (hp : (p, c) ∈ o.props) (hc : c.dflt = .some dv) {σ : Sched} (hok : (objectV ext o σ (.ptr (some (.struct fs)))).1 = .ok) :
    ∃ fs' m', (objectV ext o σ (.ptr (some (.struct fs)))).2 = .ptr (some (.struct fs')) ∧ fieldByName n fs' = some (.maybe true m') ∧ FromDefault ext o fs n m m' := by
  unfold objectV at hok ⊢
  rcases hnm : getPropNames (valueOf (.ptr (some (.struct fs)))).indirect with e | names
  · rw [hnm] at hok
    cases e <;> cases hok
  rw [hnm] at hok
  simp only at hok ⊢
  split at hok
  · cases hok
  split at hok
  · cases hok
  rename_i c1 c2
  simp only [c1, c2, if_false]
  have hloop := propLoop_fromDefault (ext := ext) (o := o) hn hf hc (σ := σ.sub 1) (shuffle (σ.sub 0).key o.props) 0 (fs1 := fs) (pm := nameSet names) (ps := [])
    (fun q e h => ⟨mem_shuffle.1 h, hg e (.prop (mem_shuffle.1 h))⟩) (StaysL.refl _) (Or.inl (mem_shuffle.2 hp)) (seqSt_ok.1 hok).1
  have hk : (objLoops ext o σ ⟨.ptr (some (.struct fs)), nameSet names, []⟩).2 =
      (objLoops ext { o with props := [] } σ (forLoop (propStep ext o (σ.sub 1)) 0 (shuffle (σ.sub 0).key o.props) ⟨.ptr (some (.struct fs)), nameSet names, []⟩).2).2 := by
    have h1 := (seqSt_ok.1 hok).1
    rcases e : forLoop (propStep ext o (σ.sub 1)) 0 (shuffle (σ.sub 0).key o.props) ⟨.ptr (some (.struct fs)), nameSet names, []⟩ with ⟨r, u⟩
    rw [e] at h1
    simp only at h1
    subst h1
    unfold objLoops
    rw [e]
    have hsh : shuffle (σ.sub 0).key ([] : List (GoStr × Sem)) = [] := List.eq_nil_iff_forall_not_mem.2 fun a ha => by have := mem_shuffle.1 ha; cases this
    simp only [hsh, forLoop]
    rfl
  obtain ⟨fs2, m', e1, e2, e3⟩ := hloop
  have hR := (Policy.objLoops_step (stayPolicy ext) (o := { o with props := [] }) (σ := σ)
    (st := (forLoop (propStep ext o (σ.sub 1)) 0 (shuffle (σ.sub 0).key o.props) ⟨.ptr (some (.struct fs)), nameSet names, []⟩).2) (v₀ := .ptr (some (.struct fs2)))
    (fun c h => by
      cases h with
      | prop h => cases h
      | pattern h => exact hg _ (.pattern h)
      | additional h => exact hg _ (.additional h))
    (fun q e h => hg _ (.dependency h)) ⟨trivial, by rw [e1]; exact StaysR.refl _, fun _ _ => trivial⟩).1.2
  rw [← hk] at hR
  obtain ⟨fs3, e4, e5⟩ := hR.2 fs2 rfl
  refine ⟨fs3, m', e4, ?_, e3⟩
  obtain ⟨y, h1, h2 | ⟨_, _, h2, _⟩⟩ := e5.fieldByName e2
  · rw [h1, h2.maybe]
  · cases h2

end

end Jsval
