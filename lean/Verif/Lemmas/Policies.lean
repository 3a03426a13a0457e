import Verif.Lemmas.Preserve
import Verif.Spec.Defaults
/-!
# Instances of the generic invariant
-/
namespace Jsval

/-! ## Read-only -/

/-- Nothing changes when there are no defaults. -/
def readOnlyPolicy (ext : Ext) : Policy ext where
  I := fun _ => True
  J := fun _ => True
  R := fun v v' => v' = v
  A := fun _ => True
  D := fun _ => False
  K := fun _ _ => True
  refl := fun _ => rfl
  trans := fun h h' => h'.trans h
  scalar := fun _ _ _ => trivial
  slice := fun _ _ _ => trivial
  sliceR := by
    intro n xs xs' _ h
    refine ⟨trivial, ?_⟩
    have : xs' = xs := by
      induction h with
      | nil => rfl
      | cons h _ ih => rw [h.2, ih]
    rw [this]
  names := fun _ _ _ _ => trivial
  namesA := fun _ _ => trivial
  getA := fun _ _ => trivial
  getI := fun _ _ => trivial
  getK := fun _ _ _ => trivial
  put := by
    intro v p x x' _ hg _ hx
    rw [hx]
    exact ⟨trivial, putProp_same hg, fun _ _ => trivial⟩
  set := fun _ h => h.elim
  setA := fun _ h => h.elim

/-! ## Extension -/

theorem forall₂_right {I : GoVal → Prop} {R : GoVal → GoVal → Prop} : ∀ {xs xs' : List GoVal},
    List.Forall₂ (fun x x' => I x' ∧ R x x') xs xs' → ∀ x ∈ xs', I x
  | _, _, .nil, x, hx => by simp at hx
  | _, _, .cons h t, x, hx => by
    rcases List.mem_cons.1 hx with rfl | hx
    · exact h.1
    · exact forall₂_right t x hx

theorem forall₂_get {I : GoVal → Prop} {R : GoVal → GoVal → Prop} : ∀ {xs xs' : List GoVal},
    List.Forall₂ (fun x x' => I x' ∧ R x x') xs xs' → ∀ (i : Nat) (x x' : GoVal), xs[i]? = some x → xs'[i]? = some x' →
      R x x'
  | _, _, .nil, i, x, x', h, _ => by simp at h
  | _, _, .cons h t, 0, x, x', h1, h2 => by
    simp only [List.getElem?_cons_zero, Option.some.injEq] at h1 h2
    rw [← h1, ← h2]; exact h.2
  | _, _, .cons h t, i + 1, x, x', h1, h2 => by
    simp only [List.getElem?_cons_succ] at h1 h2
    exact forall₂_get t i x x' h1 h2

theorem Extends.trans {a b c : GoVal} (h : Extends a b) (h' : Extends b c) : Extends a c := by
  induction h generalizing c with
  | refl => exact h'
  | slice n xs xs' hl hx ih =>
    cases h' with
    | refl => exact .slice n xs xs' hl hx
    | slice _ _ xs'' hl' hx' =>
      refine .slice n xs xs'' (hl'.trans hl) (fun i x x'' h1 h3 => ?_)
      have : i < xs'.length := by rw [hl]; exact (List.getElem?_eq_some_iff.1 h1).1
      exact ih i x xs'[i] h1 (List.getElem?_eq_getElem this) (hx' i xs'[i] x'' (List.getElem?_eq_getElem this) h3)
  | map n kvs kvs' g h1 h2 hn ih =>
    cases h' with
    | refl => exact .map n kvs kvs' g h1 h2 hn
    | map _ _ kvs'' g' h1' h2' hn' =>
      exact .map n kvs kvs'' (fun k x => g' k (g k x)) (fun k x hk => h1' k _ (h1 k x hk))
        (fun k x hk => ih k x hk (h2' k _ (h1 k x hk))) (fun h => hn' (hn h))
  | struct fs fs' hl hx ih =>
    cases h' with
    | refl => exact .struct fs fs' hl hx
    | struct _ fs'' hl' hx' =>
      refine .struct fs fs'' (hl'.trans hl) (fun i x x'' h1 h3 => ?_)
      have hlen : fs'.length = fs.length := by simpa using congrArg List.length hl
      have : i < fs'.length := by rw [hlen]; exact (List.getElem?_eq_some_iff.1 h1).1
      exact ih i x fs'[i] h1 (List.getElem?_eq_getElem this) (hx' i fs'[i] x'' (List.getElem?_eq_getElem this) h3)
  | ptr x x' _ ih =>
    cases h' with
    | refl => rename_i h; exact .ptr x x' h
    | ptr _ x'' h' => exact .ptr x x'' (ih h')
  | iface x x' _ ih =>
    cases h' with
    | refl => rename_i h; exact .iface x x' h
    | iface _ x'' h' => exact .iface x x'' (ih h')
  | maybe p p' hk =>
    cases h' with
    | refl => exact .maybe p p' hk

theorem extends_ainsert {n : Bool} {kvs : List (GoStr × GoVal)} {p : GoStr} {x' : GoVal}
    (h : ∀ x, alookup p kvs = some x → Extends x x') : Extends (.map n kvs) (.map n (ainsert p x' kvs)) := by
  classical
  refine .map n kvs _ (fun k x => if k = p ∧ alookup p kvs = some x then x' else x) ?_ ?_ nodup_ainsert
  · intro k x hk
    by_cases hc : k = p ∧ alookup p kvs = some x
    · simp only [hc, and_self, if_true]
      exact alookup_mem (alookup_ainsert_self p x' kvs)
    · simp only [hc, if_false]
      clear h
      induction kvs with
      | nil => simp at hk
      | cons q l ih =>
        obtain ⟨k', y⟩ := q
        by_cases hq : k' = p
        · simp only [ainsert, hq, if_true, List.mem_cons]
          right
          rcases List.mem_cons.1 hk with hk | hk
          · simp only [Prod.mk.injEq] at hk
            obtain ⟨rfl, rfl⟩ := hk
            exact absurd ⟨hq, by simp [alookup, hq]⟩ hc
          · exact hk
        · simp only [ainsert, hq, if_false, List.mem_cons]
          rcases List.mem_cons.1 hk with hk | hk
          · exact Or.inl hk
          · refine Or.inr (ih hk ?_)
            simpa [alookup, hq] using hc
  · intro k x hk
    by_cases hc : k = p ∧ alookup p kvs = some x
    · simp only [hc, and_self, if_true]; exact h x hc.2
    · simp only [hc, if_false]; exact .refl x

/-! ### Fields at depth -/

theorem fieldsSet_fst (fn : GoStr) (y : GoVal) (d : Nat) (fs : List (Field × GoVal)) :
    (fieldsSet fn y d fs).map (·.1) = fs.map (·.1) := by
  cases d with
  | zero =>
    simp only [fieldsSet, List.map_map]
    apply List.map_congr_left
    intro p _
    simp only [Function.comp]
    split <;> rfl
  | succ d =>
    simp only [fieldsSet, List.map_map]
    apply List.map_congr_left
    intro p _
    simp only [Function.comp]
    split
    · split <;> rfl
    · rfl

theorem extends_fieldsSet {fn : GoStr} {y : GoVal} : ∀ (d : Nat) {fs : List (Field × GoVal)},
    (∀ x ∈ fieldsAt fn d fs, Extends x y) → Extends (.struct fs) (.struct (fieldsSet fn y d fs))
  | 0, fs, h => by
    refine .struct _ _ (fieldsSet_fst ..) ?_
    intro i p p' hi hi'
    simp only [fieldsSet, List.getElem?_map, hi, Option.map_some, Option.some.injEq] at hi'
    subst hi'
    by_cases hf : p.1.name = fn
    · simp only [hf, if_true]
      exact h _ (List.mem_map.2 ⟨p, List.mem_filter.2 ⟨List.mem_of_getElem? hi, by simp [hf]⟩, rfl⟩)
    · simp only [hf, if_false]; exact .refl _
  | d + 1, fs, h => by
    refine .struct _ _ (fieldsSet_fst ..) ?_
    intro i p p' hi hi'
    simp only [fieldsSet, List.getElem?_map, hi, Option.map_some, Option.some.injEq] at hi'
    subst hi'
    obtain ⟨f, v⟩ := p
    cases ha : f.anonymous with
    | false => simp only [ha]; exact .refl _
    | true =>
      simp only [ha, if_true]
      cases v with
      | struct fs' =>
        simp only
        apply extends_fieldsSet d
        intro x hx
        apply h x
        simp only [fieldsAt, List.mem_flatMap]
        exact ⟨(f, .struct fs'), List.mem_of_getElem? hi, by simpa [ha] using hx⟩
      | _ => exact .refl _

theorem direct_fieldsAt {fn : GoStr} {x : GoVal} : ∀ (d : Nat) {fs : List (Field × GoVal)}, Direct (.struct fs) →
    x ∈ fieldsAt fn d fs → Direct x
  | 0, fs, h, hx => by
    cases h with
    | struct _ h =>
      simp only [fieldsAt, List.mem_map, List.mem_filter] at hx
      obtain ⟨⟨f, y⟩, ⟨h1, -⟩, rfl⟩ := hx
      exact h f y h1
  | d + 1, fs, h, hx => by
    cases h with
    | struct _ h =>
      simp only [fieldsAt, List.mem_flatMap] at hx
      obtain ⟨⟨f, v⟩, h1, h2⟩ := hx
      split at h2
      · cases v with
        | struct fs' => exact direct_fieldsAt d (h f _ h1) h2
        | _ => simp at h2
      · simp at h2

theorem direct_fieldsSet {fn : GoStr} {y : GoVal} (hy : Direct y) : ∀ (d : Nat) {fs : List (Field × GoVal)},
    Direct (.struct fs) → Direct (.struct (fieldsSet fn y d fs))
  | 0, fs, h => by
    cases h with
    | struct _ h =>
      refine .struct _ (fun f x hx => ?_)
      simp only [fieldsSet, List.mem_map] at hx
      obtain ⟨⟨f', x'⟩, h1, h2⟩ := hx
      split at h2
      · cases h2; exact hy
      · cases h2; exact h _ _ h1
  | d + 1, fs, h => by
    cases h with
    | struct _ h =>
      refine .struct _ (fun f x hx => ?_)
      simp only [fieldsSet, List.mem_map] at hx
      obtain ⟨⟨f', x'⟩, h1, h2⟩ := hx
      split at h2
      · cases x' with
        | struct fs' =>
          simp only [Prod.mk.injEq] at h2
          obtain ⟨rfl, rfl⟩ := h2
          exact direct_fieldsSet hy d (h _ _ h1)
        | _ => cases h2; exact h _ _ h1
      · cases h2; exact h _ _ h1

theorem fieldByName_at {fn : GoStr} {x : GoVal} {fs : List (Field × GoVal)} (h : fieldByName fn fs = some x) :
    ∃ d, fieldDepth fn fs = some d ∧ fieldsAt fn d fs = [x] := by
  unfold fieldByName at h
  cases hd : fieldDepth fn fs with
  | none => rw [hd] at h; cases h
  | some d =>
    rw [hd, Option.bind_some] at h
    refine ⟨d, rfl, ?_⟩
    have hlen : (fieldsAt fn d fs).length = 1 := by
      unfold fieldDepth at hd
      rw [Option.bind_eq_some_iff] at hd
      obtain ⟨d', _, h2⟩ := hd
      split at h2
      · cases h2; assumption
      · cases h2
    rcases hl : fieldsAt fn d fs with _ | ⟨y, ys⟩
    · rw [hl] at h; simp at h
    · rw [hl] at h hlen
      simp only [List.head?_cons, Option.some.injEq] at h
      subst h
      have : ys = [] := List.length_eq_zero_iff.1 (by simpa using hlen)
      rw [this]

theorem extends_setField {fn : GoStr} {x y : GoVal} {fs : List (Field × GoVal)} (h : fieldByName fn fs = some x)
    (hy : Extends x y) : Extends (.struct fs) (.struct (setField fn y fs)) := by
  obtain ⟨d, h1, h2⟩ := fieldByName_at h
  simp only [setField, h1]
  apply extends_fieldsSet d
  rw [h2]
  intro z hz
  simp at hz
  rw [hz]; exact hy

theorem direct_setField {fn : GoStr} {y : GoVal} {fs : List (Field × GoVal)} (hf : Direct (.struct fs))
    (hy : Direct y) : Direct (.struct (setField fn y fs)) := by
  unfold setField
  split
  · exact hf
  · exact direct_fieldsSet hy _ hf

theorem direct_fieldByName {fn : GoStr} {x : GoVal} {fs : List (Field × GoVal)} (hf : Direct (.struct fs))
    (h : fieldByName fn fs = some x) : Direct x := by
  obtain ⟨d, h1, h2⟩ := fieldByName_at h
  exact direct_fieldsAt d hf (x := x) (by rw [h2]; simp)

theorem direct_ainsert {p : GoStr} {y : GoVal} : ∀ {kvs : List (GoStr × GoVal)}, (∀ k x, (k, x) ∈ kvs → Direct x) →
    Direct y → ∀ k x, (k, x) ∈ ainsert p y kvs → Direct x
  | [], _, hy, k, x, hx => by simp only [ainsert, List.mem_singleton, Prod.mk.injEq] at hx; rw [hx.2]; exact hy
  | (k', y') :: l, h, hy, k, x, hx => by
    unfold ainsert at hx
    split at hx
    · rcases List.mem_cons.1 hx with hx | hx
      · cases hx; exact hy
      · exact h k x (by simp [hx])
    · rcases List.mem_cons.1 hx with hx | hx
      · cases hx; exact h k' y' (List.mem_cons_self ..)
      · exact direct_ainsert (fun k x hk => h k x (by simp [hk])) hy k x hx

/-! ### Reading and writing properties -/

/-- The object a direct value denotes for `Validate`. -/
theorem direct_getProp {t : GoVal} {p : GoStr} {x : GoVal} (ht : Direct t) (h : getProp (some t) p = .ok (some x)) :
    Direct x := by
  cases ht with
  | map n kvs hk =>
    simp only [getProp, Except.ok.injEq] at h
    exact hk _ _ (alookup_mem h)
  | struct fs hf =>
    simp only [getProp] at h
    split at h
    · cases h
    · split at h
      · cases h
      · simp only [Except.ok.injEq] at h
        exact direct_fieldByName (.struct fs hf) h
  | _ => cases h

theorem direct_indirect {v t : GoVal} (hv : Direct v) (h : (valueOf v).indirect = some t) :
    Direct t ∧ NotIndirect t ∧ (v = t ∨ v = .ptr (some t)) := by
  cases hv with
  | ptr x hn hx => cases h; exact ⟨hx, hn, Or.inr rfl⟩
  | ptrNil => cases h
  | nil => cases h
  | slice n xs hs => cases h; exact ⟨.slice n xs hs, trivial, Or.inl rfl⟩
  | map n kvs hs => cases h; exact ⟨.map n kvs hs, trivial, Or.inl rfl⟩
  | struct fs hs => cases h; exact ⟨.struct fs hs, trivial, Or.inl rfl⟩
  | _ => cases h; exact ⟨by constructor, trivial, Or.inl rfl⟩

theorem extends_putAt {t : GoVal} {p : GoStr} {x y : GoVal} (h : getProp (some t) p = .ok (some x)) (hy : Extends x y) :
    Extends t (putAt t p y) := by
  cases t with
  | map n kvs =>
    simp only [getProp, Except.ok.injEq] at h
    exact extends_ainsert (fun x' hx' => by rw [h] at hx'; cases hx'; exact hy)
  | struct fs =>
    simp only [getProp] at h
    cases he : extract fs with
    | none => rw [he] at h; cases h
    | some props =>
      rw [he] at h
      simp only at h
      cases hp : alookup p props with
      | none => rw [hp] at h; cases h
      | some info =>
        rw [hp] at h
        simp only [Except.ok.injEq] at h
        simp only [putAt, he, Option.bind_some, hp]
        exact extends_setField h hy
  | _ => exact .refl _

theorem direct_putAt {t : GoVal} {p : GoStr} {y : GoVal} (ht : Direct t) (hy : Direct y) : Direct (putAt t p y) := by
  cases ht with
  | map n kvs hk => exact .map n _ (direct_ainsert hk hy)
  | struct fs hf =>
    simp only [putAt]
    split
    · exact direct_setField (.struct fs hf) hy
    · exact .struct fs hf
  | ptr x hn hx => exact .ptr x hn hx
  | slice n xs hx => exact .slice n xs hx
  | _ => constructor

theorem notIndirect_putAt {t : GoVal} {p : GoStr} {y : GoVal} (h : NotIndirect t) : NotIndirect (putAt t p y) := by
  cases t with
  | struct fs => simp only [putAt]; split <;> trivial
  | _ => exact h

theorem putProp_notIndirect {t : GoVal} {p : GoStr} {y : GoVal} (h : NotIndirect t) : putProp t p y = putAt t p y := by
  cases t with
  | ptr q => exact h.elim
  | iface q => exact h.elim
  | _ => rfl

theorem getProp_some_target {v : GoVal} {p : GoStr} {x : GoVal} (h : getProp (valueOf v).indirect p = .ok (some x)) :
    ∃ t, (valueOf v).indirect = some t := by
  rcases hi : (valueOf v).indirect with _ | t
  · rw [hi] at h; cases h
  · exact ⟨t, rfl⟩

theorem maybeConv_kind {ext : Ext} {k : MaybeKind} {x : GoVal} {p : MaybeVal} (h : maybeConv ext k x = .ok p) :
    p.kind = k := by
  unfold maybeConv at h
  split at h <;> first
    | (cases h; rfl)
    | (cases h; done)
    | skip
  split at h
  · cases h; rfl
  · cases h

theorem set_valid {ext : Ext} {m m' : MaybeSt} {x : GoVal} (h : m.Set ext x = (none, m')) :
    m'.valid = true ∧ m'.p.kind = m.p.kind := by
  unfold MaybeSt.Set at h
  split at h
  · rename_i p hp
    simp only [Prod.mk.injEq, true_and] at h
    subst h
    exact ⟨rfl, maybeConv_kind hp⟩
  · cases h

/-- The field behind an absent property of a struct. -/
theorem viewProp_absent_struct {fs : List (Field × GoVal)} {p : GoStr} {props : List (GoStr × PropInfo)} {fn : GoStr}
    {x : GoVal} (hv : viewProp (some (.struct fs)) p = .ok .absent) (he : extract fs = some props)
    (hx : ((alookup p props).bind fun info => (fieldByName info.fieldName fs).map (info.fieldName, ·)) = some (fn, x)) :
    fieldByName fn fs = some x ∧ maybeValid x = some false := by
  unfold viewProp getProp at hv
  simp only [he] at hv
  cases hp : alookup p props with
  | none => rw [hp] at hx; cases hx
  | some info =>
    rw [hp] at hx hv
    rw [Option.bind_some, Option.map_eq_some_iff] at hx
    obtain ⟨y, hy, h'⟩ := hx
    cases h'
    refine ⟨hy, ?_⟩
    simp only [hy] at hv
    split at hv
    · rename_i b m
      cases b with
      | true => cases hv
      | false => rfl
    · rename_i b m
      cases b with
      | true => cases hv
      | false => rfl
    · cases hv

theorem extends_setPropStruct {ext : Ext} {b : Bool} {fs fs' : List (Field × GoVal)} {p : GoStr} {dv : GoVal}
    (hv : viewProp (some (.struct fs)) p = .ok .absent) (h : setPropStruct ext b fs p dv = .ok fs')
    (hd : Direct (.struct fs)) : Extends (.struct fs) (.struct fs') ∧ Direct (.struct fs') := by
  unfold setPropStruct at h
  cases he : extract fs with
  | none => rw [he] at h; cases h
  | some props =>
    rw [he] at h
    simp only at h
    split at h
    · cases h
    · rename_i fn w m heq
      obtain ⟨h1, h2⟩ := viewProp_absent_struct hv he heq
      have : w = false := by simpa [maybeValid] using h2
      subst this
      split at h
      · cases h
      · split at h
        · split at h
          · rename_i m' hm
            simp only [Except.ok.injEq] at h
            subst h
            obtain ⟨a1, a2⟩ := set_valid hm
            rw [a1]
            exact ⟨extends_setField h1 (.maybe _ _ a2), direct_setField hd (.maybe _ _)⟩
          · cases h
        · cases h
    · rename_i fn w m heq
      obtain ⟨h1, h2⟩ := viewProp_absent_struct hv he heq
      have : w = false := by simpa [maybeValid] using h2
      subst this
      split at h
      · cases h
      · split at h
        · rename_i m' hm
          simp only [Except.ok.injEq] at h
          subst h
          obtain ⟨a1, a2⟩ := set_valid hm
          rw [a1]
          exact ⟨extends_setField h1 (.ptr _ _ (.maybe _ _ a2)), direct_setField hd (.ptr _ trivial (.maybe _ _))⟩
        · cases h
    · cases h

theorem extends_setPropAt {ext : Ext} {b : Bool} {t t' : GoVal} {p : GoStr} {dv : GoVal}
    (hv : viewProp (some t) p = .ok .absent) (h : setPropAt ext b t p dv = .ok t') (hd : Direct t) (hdv : Direct dv) :
    Extends t t' ∧ Direct t' ∧ NotIndirect t' := by
  cases t with
  | map n kvs =>
    have hab : alookup p kvs = none := by
      unfold viewProp at hv
      simp only [getProp] at hv
      cases hl : alookup p kvs with
      | none => rfl
      | some x => rw [hl] at hv; cases hv
    cases hd with
    | map _ _ hk =>
      by_cases hnil : dv = .nil
      · subst hnil
        simp only [setPropAt, Except.ok.injEq] at h
        subst h
        rw [adelete_absent hab]
        exact ⟨.refl _, .map n kvs hk, trivial⟩
      · have : setPropAt ext b (.map n kvs) p dv =
            if n then .error (.abort .panic) else .ok (.map n (ainsert p dv kvs)) := by
          cases dv <;> first | exact absurd rfl hnil | rfl
        rw [this] at h
        split at h
        · cases h
        · simp only [Except.ok.injEq] at h
          subst h
          exact ⟨extends_ainsert (fun x hx => by rw [hab] at hx; cases hx), .map n _ (direct_ainsert hk hdv), trivial⟩
  | struct fs =>
    simp only [setPropAt] at h
    rcases hs : setPropStruct ext b fs p dv with e | fs'
    · rw [hs] at h; cases h
    · rw [hs] at h
      cases h
      obtain ⟨h1, h2⟩ := extends_setPropStruct hv hs hd
      exact ⟨h1, h2, trivial⟩
  | _ => cases h

theorem setProp_notIndirect {ext : Ext} {t : GoVal} {p : GoStr} {dv : GoVal} (h : NotIndirect t) :
    setProp ext t p dv = setPropAt ext false t p dv := by
  cases t with
  | ptr q => exact h.elim
  | iface q => exact h.elim
  | _ => rfl

theorem setPropRV_notIndirect {ext : Ext} {b : Bool} {t : GoVal} {p : GoStr} {dv : GoVal} (h : NotIndirect t) :
    setPropRV ext b t p dv = setPropAt ext b t p dv := by
  cases t with
  | ptr q => exact h.elim
  | iface q => exact h.elim
  | _ => rfl

theorem setProp_target {ext : Ext} {v v' : GoVal} {p : GoStr} {dv : GoVal} (hv : Direct v)
    (h : setProp ext v p dv = .ok v') : ∃ t, (valueOf v).indirect = some t := by
  cases hv with
  | nil => cases h
  | ptrNil => cases h
  | ptr x hn hx => exact ⟨x, rfl⟩
  | _ => exact ⟨_, rfl⟩

/-- Values only grow, and stay direct. -/
def extendPolicy (ext : Ext) : Policy ext where
  I := Direct
  J := Direct
  R := Extends
  A := fun _ => True
  D := Direct
  K := fun _ _ => True
  refl := .refl
  trans := Extends.trans
  scalar := fun m _ _ => by cases m <;> constructor
  slice := fun h x hx => by cases h with | slice _ _ h => exact h x hx
  sliceR := by
    intro n xs xs' _ h
    constructor
    · exact .slice _ _ (forall₂_right h)
    · refine .slice _ _ _ h.length_eq.symm (fun i x x' hx hx' => ?_)
      exact forall₂_get h i x x' hx hx'
  names := fun _ _ _ _ => trivial
  namesA := fun _ _ => trivial
  getA := fun _ _ => trivial
  getI := by
    intro v p x hv h
    obtain ⟨t, ht⟩ := getProp_some_target h
    rw [ht] at h
    exact direct_getProp (direct_indirect hv ht).1 h
  getK := fun _ _ _ => trivial
  put := by
    intro v p x x' hv h hx' hR
    obtain ⟨t, ht⟩ := getProp_some_target h
    rw [ht] at h
    obtain ⟨h1, h2, h3⟩ := direct_indirect hv ht
    refine ⟨?_, ?_, fun _ _ => trivial⟩
    · rcases h3 with rfl | rfl
      · rw [putProp_notIndirect h2]; exact direct_putAt h1 hx'
      · exact .ptr _ (notIndirect_putAt h2) (direct_putAt h1 hx')
    · rcases h3 with rfl | rfl
      · rw [putProp_notIndirect h2]; exact extends_putAt h hR
      · exact .ptr _ _ (extends_putAt h hR)
  set := by
    intro v p dv v' hv hdv hab h
    obtain ⟨t, ht⟩ := setProp_target hv h
    rw [ht] at hab
    obtain ⟨h1, h2, h3⟩ := direct_indirect hv ht
    rcases h3 with rfl | rfl
    · rw [setProp_notIndirect h2] at h
      obtain ⟨a1, a2, a3⟩ := extends_setPropAt hab h h1 hdv
      exact ⟨a2, a1, fun _ _ => trivial⟩
    · simp only [setProp, setPropRV_notIndirect h2] at h
      rcases hs : setPropAt ext true t p dv with e | t'
      · rw [hs] at h; cases h
      · rw [hs] at h
        cases h
        obtain ⟨a1, a2, a3⟩ := extends_setPropAt hab hs h1 hdv
        exact ⟨.ptr _ a3 a2, .ptr _ _ a1, fun _ _ => trivial⟩
  setA := fun _ _ _ _ => trivial

/-! ## Plain data: no panics -/

theorem data_ainsert {q : Bool} {p : GoStr} {y : GoVal} : ∀ {kvs : List (GoStr × GoVal)},
    (∀ k x, (k, x) ∈ kvs → Data q x) → Data q y → ∀ k x, (k, x) ∈ ainsert p y kvs → Data q x
  | [], _, hy, k, x, hx => by simp only [ainsert, List.mem_singleton, Prod.mk.injEq] at hx; rw [hx.2]; exact hy
  | (k', y') :: l, h, hy, k, x, hx => by
    unfold ainsert at hx
    split at hx
    · rcases List.mem_cons.1 hx with hx | hx
      · cases hx; exact hy
      · exact h k x (by simp [hx])
    · rcases List.mem_cons.1 hx with hx | hx
      · cases hx; exact h k' y' (List.mem_cons_self ..)
      · exact data_ainsert (fun k x hk => h k x (by simp [hk])) hy k x hx

theorem data_indirect {q : Bool} {v : GoVal} (hv : Data q v) : (valueOf v).indirect = valueOf v := by
  cases hv <;> rfl

/-- On plain data nothing panics; defaults must be plain data, and are only allowed when no map is nil. -/
def dataPolicy (ext : Ext) (q : Bool) : Policy ext where
  I := Data q
  J := Data q
  R := fun _ _ => True
  A := fun a => a = .diverge
  D := fun dv => q = false ∧ Data q dv
  K := fun v k => ∃ x, getProp (valueOf v).indirect k = .ok (some x)
  refl := fun _ => trivial
  trans := fun _ _ => trivial
  scalar := fun m _ _ => by cases m <;> constructor
  slice := fun h x hx => by cases h with | slice _ _ h => exact h x hx
  sliceR := by
    intro n xs xs' _ h
    exact ⟨.slice _ _ (forall₂_right h), trivial⟩
  names := by
    intro v l hv h k hk
    cases hv <;> first
      | (cases h; done)
      | (cases h; simp at hk; done)
      | skip
    rename_i n kvs _ _
    simp only [valueOf, RV.indirect, getPropNames, Except.ok.injEq] at h
    subst h
    obtain ⟨x, hx⟩ := alookup_isSome.2 hk
    exact ⟨x, by simp [valueOf, RV.indirect, getProp, hx]⟩
  namesA := by
    intro v a hv h
    cases hv <;> cases h
  getA := by
    intro v p a hv h
    cases hv <;> cases h
  getI := by
    intro v p x hv h
    cases hv <;> try (cases h; done)
    rename_i n kvs hn hk
    simp only [valueOf, RV.indirect, getProp, Except.ok.injEq] at h
    exact hk _ _ (alookup_mem h)
  getK := by
    rintro v p _ ⟨x, hx⟩ h
    rw [hx] at h; cases h
  put := by
    intro v p x x' hv h hx' _
    cases hv <;> try (cases h; done)
    rename_i n kvs hn hk
    refine ⟨.map n _ hn (data_ainsert hk hx'), trivial, ?_⟩
    rintro k ⟨y, hy⟩
    simp only [putProp, putAt, valueOf, RV.indirect, getProp, Except.ok.injEq] at hy ⊢
    rw [alookup_ainsert]
    split
    · exact ⟨_, rfl⟩
    · exact ⟨y, hy⟩
  set := by
    intro v p dv v' hv hdv hab h
    cases hv <;> try (cases h; done)
    rename_i n kvs hn hk
    by_cases hnil : dv = .nil
    · subst hnil
      simp only [setProp, setPropAt, Except.ok.injEq] at h
      subst h
      refine ⟨.map n _ hn (fun k x hx => hk k x (List.mem_filter.1 hx).1), trivial, ?_⟩
      rintro k ⟨y, hy⟩
      simp only [valueOf, RV.indirect, getProp, Except.ok.injEq] at hy ⊢
      have hpn : alookup p kvs = none := by
        unfold viewProp at hab
        simp only [valueOf, RV.indirect, getProp] at hab
        cases hl : alookup p kvs with
        | none => rfl
        | some x => rw [hl] at hab; cases hab
      rw [adelete_absent hpn]
      exact ⟨y, hy⟩
    · have : setProp ext (.map n kvs) p dv =
          if n then .error (.abort .panic) else .ok (.map n (ainsert p dv kvs)) := by
        cases dv <;> first | exact absurd rfl hnil | rfl
      rw [this] at h
      split at h
      · cases h
      · simp only [Except.ok.injEq] at h
        subst h
        refine ⟨.map n _ hn (data_ainsert hk hdv.2), trivial, ?_⟩
        rintro k ⟨y, hy⟩
        simp only [valueOf, RV.indirect, getProp, Except.ok.injEq] at hy ⊢
        rw [alookup_ainsert]
        split
        · exact ⟨_, rfl⟩
        · exact ⟨y, hy⟩
  setA := by
    intro v p dv a hv hdv hab h
    cases hv <;> try (cases h; done)
    rename_i n kvs hn hk
    have hn' : n = false := by
      cases n with
      | false => rfl
      | true => have := hn rfl; rw [hdv.1] at this; cases this
    subst hn'
    cases dv <;> cases h

theorem goEq_of_isScalar {e v : GoVal} (he : IsScalar e) : ∃ b, goEq e v = .ok b := by
  cases he <;> cases v <;> exact ⟨_, rfl⟩

theorem enumCheck_of_isScalar : ∀ {l : List GoVal}, (∀ x ∈ l, IsScalar x) → ∀ v a, enumCheck l v ≠ .abort a
  | [], _, v, a => by simp [enumCheck]
  | e :: es, h, v, a => by
    obtain ⟨b, hb⟩ := goEq_of_isScalar (v := v) (h e (by simp))
    unfold enumCheck
    rw [hb]
    cases b with
    | true => simp
    | false => exact enumCheck_of_isScalar (fun x hx => h x (by simp [hx])) v a

theorem local_of {ext : Ext} (P : Policy ext) {c : Constraint} (hd : DefaultIn P.D c) (he : ScalarEnum c) : P.Local c := by
  refine ⟨hd, ?_, ?_, ?_⟩
  · rintro vals rfl v _ a h
    exact absurd h (enumCheck_of_isScalar he v a)
  · rintro s rfl l hl x a h
    refine absurd h (enumCheck_of_isScalar (fun y hy => he y ?_) _ a)
    simpa [Constraint.enumOf, hl] using hy
  · rintro s (rfl | rfl) l hl k x a h
    · refine absurd h (enumCheck_of_isScalar (fun y hy => he y ?_) _ a)
      simpa [Constraint.enumOf, hl] using hy
    · refine absurd h (enumCheck_of_isScalar (fun y hy => he y ?_) _ a)
      simpa [Constraint.enumOf, hl] using hy

theorem local_of_true {ext : Ext} (P : Policy ext) (hA : ∀ a, P.A a) {c : Constraint} (hd : DefaultIn P.D c) : P.Local c :=
  ⟨hd, fun _ _ _ _ a _ => hA a, fun _ _ _ _ _ a _ => hA a, fun _ _ _ _ _ _ a _ => hA a⟩

theorem Constraint.Every.imp {L L' : Constraint → Prop} (h : ∀ c, L c → L' c) {c : Constraint} (hc : c.Every L) :
    c.Every L' := fun d hd => h d (hc d hd)

theorem Env.Every.imp {L L' : Constraint → Prop} (h : ∀ c, L c → L' c) {env : Env} (hc : env.Every L) : env.Every L' :=
  fun m n c hm => (hc m n c hm).imp h

end Jsval
