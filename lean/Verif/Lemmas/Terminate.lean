import Verif.Lemmas.Refine
import Verif.Lemmas.Policies
import Verif.Spec.Reference
/-!
# Termination
-/
namespace Jsval

/-- Not deeper than. -/
def Shallower (v v' : GoVal) : Prop := ∀ n, DepthLe n v → DepthLe n v'

theorem Shallower.refl (v : GoVal) : Shallower v v := fun _ h => h

theorem DepthLe.succ {n : Nat} {v : GoVal} (h : DepthLe n v) : DepthLe (n + 1) v := by
  induction h with
  | ptr x _ ih => exact .ptr x ih
  | iface x _ ih => exact .iface x ih
  | slice n xs _ ih => exact .slice n xs ih
  | map n kvs _ ih => exact .map n kvs ih
  | struct fs _ ih => exact .struct fs ih
  | _ => constructor

theorem DepthLe.mono {n m : Nat} {v : GoVal} (h : DepthLe n v) (hm : n ≤ m) : DepthLe m v := by
  induction m with
  | zero => cases Nat.le_zero.1 hm; exact h
  | succ m ih =>
    rcases Nat.lt_or_ge n (m + 1) with h' | h'
    · exact (ih (by omega)).succ
    · have : n = m + 1 := by omega
      rw [← this]; exact h

mutual
theorem exists_depth : ∀ v : GoVal, ∃ n, DepthLe n v
  | .nil => ⟨0, .nil⟩
  | .bool _ => ⟨0, .bool _⟩
  | .int _ _ => ⟨0, .int _ _⟩
  | .uint _ _ => ⟨0, .uint _ _⟩
  | .float _ _ => ⟨0, .float _ _⟩
  | .str _ => ⟨0, .str _⟩
  | .slice n xs => by
    obtain ⟨d, h⟩ := exists_depthL xs
    exact ⟨d + 1, .slice n xs h⟩
  | .map n kvs => by
    obtain ⟨d, h⟩ := exists_depthM kvs
    exact ⟨d + 1, .map n kvs h⟩
  | .mapOther _ _ => ⟨0, .mapOther _ _⟩
  | .struct fs => by
    obtain ⟨d, h⟩ := exists_depthF fs
    exact ⟨d + 1, .struct fs h⟩
  | .ptr none => ⟨0, .ptrNil⟩
  | .ptr (some x) => by
    obtain ⟨d, h⟩ := exists_depth x
    exact ⟨d, .ptr x h⟩
  | .iface x => by
    obtain ⟨d, h⟩ := exists_depth x
    exact ⟨d, .iface x h⟩
  | .maybe _ _ => ⟨0, .maybe _ _⟩
  | .time _ => ⟨0, .time _⟩
  | .other _ _ => ⟨0, .other _ _⟩
theorem exists_depthL : ∀ xs : List GoVal, ∃ n, ∀ x, x ∈ xs → DepthLe n x
  | [] => ⟨0, fun x h => by cases h⟩
  | x :: xs => by
    obtain ⟨d, h⟩ := exists_depth x
    obtain ⟨e, h'⟩ := exists_depthL xs
    refine ⟨max d e, fun y hy => ?_⟩
    rcases List.mem_cons.1 hy with rfl | hy
    · exact h.mono (Nat.le_max_left ..)
    · exact (h' y hy).mono (Nat.le_max_right ..)
theorem exists_depthM : ∀ kvs : List (GoStr × GoVal), ∃ n, ∀ k x, (k, x) ∈ kvs → DepthLe n x
  | [] => ⟨0, fun k x h => by cases h⟩
  | (k, x) :: kvs => by
    obtain ⟨d, h⟩ := exists_depth x
    obtain ⟨e, h'⟩ := exists_depthM kvs
    refine ⟨max d e, fun l y hy => ?_⟩
    rcases List.mem_cons.1 hy with hy | hy
    · cases hy; exact h.mono (Nat.le_max_left ..)
    · exact (h' l y hy).mono (Nat.le_max_right ..)
theorem exists_depthF : ∀ kvs : List (Field × GoVal), ∃ n, ∀ k x, (k, x) ∈ kvs → DepthLe n x
  | [] => ⟨0, fun k x h => by cases h⟩
  | (k, x) :: kvs => by
    obtain ⟨d, h⟩ := exists_depth x
    obtain ⟨e, h'⟩ := exists_depthF kvs
    refine ⟨max d e, fun l y hy => ?_⟩
    rcases List.mem_cons.1 hy with hy | hy
    · cases hy; exact h.mono (Nat.le_max_left ..)
    · exact (h' l y hy).mono (Nat.le_max_right ..)
end

/-! ## How the accessors change depth -/

theorem mem_ainsert {k p : GoStr} {x y : GoVal} : ∀ {kvs : List (GoStr × GoVal)}, (k, x) ∈ ainsert p y kvs →
    x = y ∨ (k, x) ∈ kvs
  | [], h => by simp only [ainsert, List.mem_singleton, Prod.mk.injEq] at h; exact .inl h.2
  | (k', y') :: l, h => by
    unfold ainsert at h
    split at h
    · rcases List.mem_cons.1 h with h | h
      · cases h; exact .inl rfl
      · exact .inr (by simp [h])
    · rcases List.mem_cons.1 h with h | h
      · cases h; exact .inr (by simp)
      · rcases mem_ainsert h with h | h
        · exact .inl h
        · exact .inr (by simp [h])

theorem shallower_fieldsSet {fn : GoStr} {y : GoVal} : ∀ (d : Nat) {fs : List (Field × GoVal)},
    (∀ x ∈ fieldsAt fn d fs, Shallower x y) → Shallower (.struct fs) (.struct (fieldsSet fn y d fs))
  | 0, fs, h, n, hn => by
    cases hn with
    | struct _ hf =>
      refine .struct _ (fun f x hx => ?_)
      simp only [fieldsSet, List.mem_map] at hx
      obtain ⟨⟨f', x'⟩, h1, h2⟩ := hx
      split at h2
      · rename_i hname
        cases h2
        exact h x' (List.mem_map.2 ⟨(f', x'), List.mem_filter.2 ⟨h1, by simpa using hname⟩, rfl⟩) _ (hf _ _ h1)
      · cases h2; exact hf _ _ h1
  | d + 1, fs, h, n, hn => by
    cases hn with
    | struct _ hf =>
      refine .struct _ (fun f x hx => ?_)
      simp only [fieldsSet, List.mem_map] at hx
      obtain ⟨⟨f', x'⟩, h1, h2⟩ := hx
      split at h2
      · rename_i ha
        cases x' with
        | struct fs' =>
          simp only [Prod.mk.injEq] at h2
          obtain ⟨rfl, rfl⟩ := h2
          refine shallower_fieldsSet d (fun x hx => h x ?_) _ (hf _ _ h1)
          simp only [fieldsAt, List.mem_flatMap]
          exact ⟨(f', .struct fs'), h1, by rw [if_pos (by simpa using ha)]; exact hx⟩
        | _ => cases h2; exact hf _ _ h1
      · cases h2; exact hf _ _ h1

theorem depth_fieldsAt {fn : GoStr} {x : GoVal} : ∀ (d : Nat) {n : Nat} {fs : List (Field × GoVal)}, DepthLe n (.struct fs) →
    x ∈ fieldsAt fn d fs → ∃ e, n = e + 1 ∧ DepthLe e x
  | 0, n, fs, h, hx => by
    cases h with
    | struct _ h =>
      simp only [fieldsAt, List.mem_map, List.mem_filter] at hx
      obtain ⟨⟨f, y⟩, ⟨h1, -⟩, rfl⟩ := hx
      exact ⟨_, rfl, h f y h1⟩
  | d + 1, n, fs, h, hx => by
    cases h with
    | struct _ h =>
      simp only [fieldsAt, List.mem_flatMap] at hx
      obtain ⟨⟨f, v⟩, h1, h2⟩ := hx
      split at h2
      · cases v with
        | struct fs' =>
          obtain ⟨e, rfl, he⟩ := depth_fieldsAt d (h f _ h1) h2
          exact ⟨_, rfl, he.succ⟩
        | _ => simp at h2
      · simp at h2

theorem shallower_setField {fn : GoStr} {x y : GoVal} {fs : List (Field × GoVal)} (h : fieldByName fn fs = some x)
    (hy : Shallower x y) : Shallower (.struct fs) (.struct (setField fn y fs)) := by
  obtain ⟨d, h1, h2⟩ := fieldByName_at h
  simp only [setField, h1]
  apply shallower_fieldsSet d
  rw [h2]
  intro z hz
  simp at hz
  rw [hz]; exact hy

theorem Flat.depth {y : GoVal} (h : Flat y) (n : Nat) : DepthLe n y := DepthLe.mono h (Nat.zero_le n)

theorem Flat.shallower {y : GoVal} (h : Flat y) (x : GoVal) : Shallower x y := fun n _ => h.depth n

theorem depth_getProp {n : Nat} {t : GoVal} {p : GoStr} {x : GoVal} (ht : DepthLe n t) (h : getProp (some t) p = .ok (some x)) :
    ∃ e, n = e + 1 ∧ DepthLe e x := by
  cases ht with
  | map m kvs hk =>
    simp only [getProp, Except.ok.injEq] at h
    exact ⟨_, rfl, hk _ _ (alookup_mem h)⟩
  | struct fs hf =>
    simp only [getProp] at h
    split at h
    · cases h
    · split at h
      · cases h
      · simp only [Except.ok.injEq] at h
        obtain ⟨d, h1, h2⟩ := fieldByName_at h
        exact depth_fieldsAt d (.struct fs hf) (x := x) (by rw [h2]; simp)
  | _ => cases h

theorem depth_indirect {n : Nat} {v t : GoVal} (hv : DepthLe n v) (h : (valueOf v).indirect = some t) : DepthLe n t := by
  cases hv with
  | nil => cases h
  | ptrNil => cases h
  | ptr x hx => cases h; exact hx
  | iface x hx => cases x <;> cases h <;> exact hx
  | slice n xs hx => cases h; exact .slice n xs hx
  | map n xs hx => cases h; exact .map n xs hx
  | struct xs hx => cases h; exact .struct xs hx
  | _ => cases h; constructor

theorem shallower_putAt {t : GoVal} {p : GoStr} {x y : GoVal} (h : getProp (some t) p = .ok (some x)) (hy : Shallower x y) :
    Shallower t (putAt t p y) := by
  cases t with
  | map n kvs =>
    simp only [getProp, Except.ok.injEq] at h
    intro d hd
    cases hd with
    | map _ _ hk =>
      refine .map _ _ (fun k z hz => ?_)
      rcases mem_ainsert hz with rfl | hz
      · exact hy _ (hk _ _ (alookup_mem h))
      · exact hk _ _ hz
  | struct fs =>
    simp only [getProp] at h
    cases he : extract fs with
    | none => rw [he] at h; cases h
    | some props =>
      rw [he] at h
      simp only at h
      cases hp : alookup p props with
      | none => rw [hp] at h; cases h
      | some info =>
        rw [hp] at h
        simp only [Except.ok.injEq] at h
        simp only [putAt, he, Option.bind_some, hp]
        exact shallower_setField h hy
  | _ => exact .refl _

theorem shallower_putProp {v : GoVal} {p : GoStr} {x y : GoVal} (h : getProp (valueOf v).indirect p = .ok (some x))
    (hy : Shallower x y) : Shallower v (putProp v p y) := by
  cases v with
  | nil => cases h
  | ptr q =>
    cases q with
    | none => cases h
    | some t =>
      intro n hn
      cases hn with
      | ptr _ ht => exact .ptr _ (shallower_putAt h hy n ht)
  | iface t =>
    intro n hn
    cases hn with
    | iface _ ht => exact .iface _ (shallower_putAt (by cases t <;> first | cases h | exact h) hy n ht)
  | _ => exact shallower_putAt h hy

theorem shallower_setPropStruct {ext : Ext} {b : Bool} {fs fs' : List (Field × GoVal)} {p : GoStr} {dv : GoVal}
    (h : setPropStruct ext b fs p dv = .ok fs') : Shallower (.struct fs) (.struct fs') := by
  unfold setPropStruct at h
  cases he : extract fs with
  | none => rw [he] at h; cases h
  | some props =>
    rw [he] at h
    simp only at h
    have key : ∀ {fn : GoStr} {w : GoVal}, ((alookup p props).bind fun info =>
        Option.map (fun x => (info.fieldName, x)) (fieldByName info.fieldName fs)) = some (fn, w) → fieldByName fn fs = some w := by
      intro fn w h
      rw [Option.bind_eq_some_iff] at h
      obtain ⟨info, -, h⟩ := h
      obtain ⟨y, hy, h⟩ := Option.map_eq_some_iff.1 h
      cases h; exact hy
    split at h
    · cases h
    · rename_i fn w m heq
      split at h
      · cases h
      · split at h
        · split at h
          · simp only [Except.ok.injEq] at h
            subst h
            exact shallower_setField (key heq) (Flat.shallower (.maybe _ _) _)
          · cases h
        · cases h
    · rename_i fn w m heq
      split at h
      · cases h
      · split at h
        · simp only [Except.ok.injEq] at h
          subst h
          exact shallower_setField (key heq) (Flat.shallower (.ptr _ (.maybe _ _)) _)
        · cases h
    · cases h

theorem shallower_setPropAt {ext : Ext} {b : Bool} {t t' : GoVal} {p : GoStr} {dv : GoVal}
    (h : setPropAt ext b t p dv = .ok t') (hdv : Flat dv) : Shallower t t' := by
  cases t with
  | map n kvs =>
    by_cases hnil : dv = .nil
    · subst hnil
      simp only [setPropAt, Except.ok.injEq] at h
      subst h
      intro d hd
      cases hd with
      | map _ _ hk => exact .map _ _ (fun k x hx => hk k x (List.mem_filter.1 hx).1)
    · have : setPropAt ext b (.map n kvs) p dv =
          if n then .error (.abort .panic) else .ok (.map n (ainsert p dv kvs)) := by
        cases dv <;> first | exact absurd rfl hnil | rfl
      rw [this] at h
      split at h
      · cases h
      · simp only [Except.ok.injEq] at h
        subst h
        intro d hd
        cases hd with
        | map _ _ hk =>
          refine .map _ _ (fun k x hx => ?_)
          rcases mem_ainsert hx with rfl | hx
          · exact hdv.depth _
          · exact hk _ _ hx
  | struct fs =>
    simp only [setPropAt] at h
    rcases hs : setPropStruct ext b fs p dv with e | fs'
    · rw [hs] at h; cases h
    · rw [hs] at h
      cases h
      exact shallower_setPropStruct hs
  | _ => cases h

theorem shallower_ptr {x x' : GoVal} (h : Shallower x x') : Shallower (.ptr (some x)) (.ptr (some x')) := by
  intro n hn
  cases hn with
  | ptr _ hx => exact .ptr _ (h n hx)

theorem shallower_iface {x x' : GoVal} (h : Shallower x x') : Shallower (.iface x) (.iface x') := by
  intro n hn
  cases hn with
  | iface _ hx => exact .iface _ (h n hx)

theorem exMap_ok {α β ε : Type} {f : α → β} {e : Except ε α} {b : β} (h : e.map f = .ok b) : ∃ a, e = .ok a ∧ f a = b := by
  cases e with
  | error e => cases h
  | ok a => cases h; exact ⟨a, rfl, rfl⟩

theorem exMap_error {α β ε : Type} {f : α → β} {e : Except ε α} {b : ε} (h : e.map f = .error b) : e = .error b := by
  cases e with
  | error e => cases h; rfl
  | ok a => cases h

theorem shallower_setPropRV {ext : Ext} {b : Bool} {t t' : GoVal} {p : GoStr} {dv : GoVal}
    (h : setPropRV ext b t p dv = .ok t') (hdv : Flat dv) : Shallower t t' := by
  unfold setPropRV at h
  split at h
  · obtain ⟨y, h1, rfl⟩ := exMap_ok h
    exact shallower_ptr (shallower_setPropAt h1 hdv)
  · obtain ⟨y, h1, rfl⟩ := exMap_ok h
    exact shallower_iface (shallower_setPropAt h1 hdv)
  · exact shallower_setPropAt h hdv

theorem shallower_setProp {ext : Ext} {t t' : GoVal} {p : GoStr} {dv : GoVal}
    (h : setProp ext t p dv = .ok t') (hdv : Flat dv) : Shallower t t' := by
  unfold setProp at h
  split at h
  · obtain ⟨y, h1, rfl⟩ := exMap_ok h
    exact shallower_ptr (shallower_setPropRV h1 hdv)
  · obtain ⟨y, h1, rfl⟩ := exMap_ok h
    exact shallower_iface (shallower_setPropRV h1 hdv)
  · exact shallower_setPropAt h hdv

/-! ## No accessor diverges -/

theorem getProp_total {rv : RV} {p : GoStr} {a : Abort} (h : getProp rv p = .error a) : a ≠ .diverge := by
  unfold getProp at h
  split at h
  · cases h
  · cases h; simp
  · split at h
    · cases h; simp
    · split at h <;> cases h
  · cases h; simp
  · cases h

theorem propNamesLoop_total {fs : List (Field × GoVal)} {a : Abort} : ∀ {l : List (GoStr × PropInfo)},
    propNamesLoop fs l = .error a → a ≠ .diverge
  | [], h => by cases h
  | (p, info) :: l, h => by
    unfold propNamesLoop at h
    split at h
    · split at h
      · cases h; simp
      · exact propNamesLoop_total h
      · exact propNamesLoop_total (exMap_error h)
    · exact propNamesLoop_total (exMap_error h)

theorem getPropNames_total {rv : RV} {a : Abort} (h : getPropNames rv = .error (.abort a)) : a ≠ .diverge := by
  unfold getPropNames at h
  split at h
  · cases h
  · split at h <;> cases h
  · split at h
    · cases h
    · rename_i hs
      cases h
      unfold structPropNames at hs
      split at hs
      · cases hs; simp
      · exact propNamesLoop_total hs
  · cases h
  · cases h; simp
  · cases h

theorem setPropStruct_total {ext : Ext} {b : Bool} {fs : List (Field × GoVal)} {p : GoStr} {dv : GoVal} {a : Abort}
    (h : setPropStruct ext b fs p dv = .error (.abort a)) : a ≠ .diverge := by
  unfold setPropStruct at h
  split at h
  · cases h; simp
  · split at h
    · cases h
    · split at h
      · cases h; simp
      · split at h
        · split at h <;> cases h
        · cases h; simp
    · split at h
      · cases h; simp
      · split at h <;> cases h
    · cases h; simp

theorem setPropAt_total {ext : Ext} {b : Bool} {t : GoVal} {p : GoStr} {dv : GoVal} {a : Abort}
    (h : setPropAt ext b t p dv = .error (.abort a)) : a ≠ .diverge := by
  unfold setPropAt at h
  split at h
  · split at h
    · cases h
    · split at h
      · cases h; simp
      · cases h
  · cases h; simp
  · exact setPropStruct_total (exMap_error h)
  · cases h
  · cases h; simp
  · cases h

theorem setPropRV_total {ext : Ext} {b : Bool} {t : GoVal} {p : GoStr} {dv : GoVal} {a : Abort}
    (h : setPropRV ext b t p dv = .error (.abort a)) : a ≠ .diverge := by
  unfold setPropRV at h
  split at h
  · exact setPropAt_total (exMap_error h)
  · exact setPropAt_total (exMap_error h)
  · exact setPropAt_total h

theorem setProp_total {ext : Ext} {t : GoVal} {p : GoStr} {dv : GoVal} {a : Abort}
    (h : setProp ext t p dv = .error (.abort a)) : a ≠ .diverge := by
  unfold setProp at h
  split at h
  · exact setPropRV_total (exMap_error h)
  · exact setPropRV_total (exMap_error h)
  · exact setPropAt_total h

theorem goEq_total {x y : GoVal} {a : Abort} (h : goEq x y = .error a) : a ≠ .diverge := by
  unfold goEq at h
  split at h <;> cases h <;> simp

theorem enumCheck_total {v : GoVal} {a : Abort} : ∀ {l : List GoVal}, enumCheck l v = .abort a → a ≠ .diverge
  | [], h => by cases h
  | e :: es, h => by
    unfold enumCheck at h
    split at h
    · rename_i hg; cases h; exact goEq_total hg
    · cases h
    · exact enumCheck_total h

/-! ## The policies -/

/-- Nothing diverges. -/
def totalPolicy (ext : Ext) : Policy ext where
  I := fun _ => True
  J := fun _ => True
  R := fun _ _ => True
  A := fun a => a ≠ .diverge
  D := fun _ => True
  K := fun _ _ => True
  refl := fun _ => trivial
  trans := fun _ _ => trivial
  scalar := fun _ _ _ => trivial
  slice := fun _ _ _ => trivial
  sliceR := fun _ _ => ⟨trivial, trivial⟩
  names := fun _ _ _ _ => trivial
  namesA := fun _ h => getPropNames_total h
  getA := fun _ h => getProp_total h
  getI := fun _ _ => trivial
  getK := fun _ _ _ => by simp
  put := fun _ _ _ _ => ⟨trivial, trivial, fun _ _ => trivial⟩
  set := fun _ _ _ _ => ⟨trivial, trivial, fun _ _ => trivial⟩
  setA := fun _ _ _ h => setProp_total h

/-- Values at most `d` deep stay so, and nothing diverges. -/
def depthPolicy (ext : Ext) (d : Nat) : Policy ext where
  I := DepthLe d
  J := fun v => ∃ e, d = e + 1 ∧ DepthLe e v
  R := Shallower
  A := fun a => a ≠ .diverge
  D := Flat
  K := fun _ _ => True
  refl := .refl
  trans := fun h h' n hn => h' n (h n hn)
  scalar := by
    intro v p x m hv h
    obtain ⟨t, ht⟩ := getProp_some_target h
    rw [ht] at h
    obtain ⟨e, rfl, -⟩ := depth_getProp (depth_indirect hv ht) h
    exact ⟨e, rfl, by cases m <;> constructor⟩
  slice := fun h x hx => by cases h with | slice _ _ h => exact ⟨_, rfl, h x hx⟩
  sliceR := by
    intro n xs xs' hv h
    have hR : Shallower (.slice n xs) (.slice n xs') := by
      intro m hm
      cases hm with
      | slice _ _ hx =>
        rename_i m
        refine .slice _ _ ?_
        clear hv
        induction h with
        | nil => simp
        | cons h1 _ ih =>
          intro x hx'
          rcases List.mem_cons.1 hx' with rfl | hx'
          · exact h1.2 _ (hx _ (by simp))
          · exact ih (fun y hy => hx y (by simp [hy])) x hx'
    exact ⟨hR d hv, hR⟩
  names := fun _ _ _ _ => trivial
  namesA := fun _ h => getPropNames_total h
  getA := fun _ h => getProp_total h
  getI := by
    intro v p x hv h
    obtain ⟨t, ht⟩ := getProp_some_target h
    rw [ht] at h
    exact depth_getProp (depth_indirect hv ht) h
  getK := fun _ _ _ => by simp
  put := fun hv h _ hR => ⟨shallower_putProp h hR d hv, shallower_putProp h hR, fun _ _ => trivial⟩
  set := fun hv hd _ h => ⟨shallower_setProp h hd d hv, shallower_setProp h hd, fun _ _ => trivial⟩
  setA := fun _ _ _ h => setProp_total h

theorem local_total {ext : Ext} {P : Policy ext} (hA : P.A = fun a => a ≠ .diverge) {c : Constraint} (hd : DefaultIn P.D c) :
    P.Local c :=
  ⟨hd, fun vals _ v _ a h => (by rw [hA]; exact enumCheck_total h), fun s _ l _ x a h => (by rw [hA]; exact enumCheck_total h),
    fun s _ l _ k x a h => (by rw [hA]; exact enumCheck_total h)⟩

/-! ## Without references -/

theorem total_sem {ext : Ext} (ρ : RefSem) (c : Constraint) (hc : c.Every NotRef) : (totalPolicy ext).Good (denote ext ρ c) := by
  induction c using Constraint.ind with
  | h c ih =>
    refine (totalPolicy ext).good_step' ρ c (fun m n h => absurd h (hc.self m n)) (local_total rfl fun _ _ => trivial)
      (fun d hd => ih d hd.child (hc.child hd.child)) (fun d hd => ih d hd.child (hc.child hd.child))

/-! ## With references -/

theorem exists_bound {α : Type} {Q : Nat → α → Prop} : ∀ l : List α, (∀ a ∈ l, ∃ N, ∀ k, N ≤ k → Q k a) →
    ∃ N, ∀ k, N ≤ k → ∀ a ∈ l, Q k a
  | [], _ => ⟨0, fun k _ a h => by cases h⟩
  | a :: l, h => by
    obtain ⟨N, hN⟩ := h a (by simp)
    obtain ⟨M, hM⟩ := exists_bound l (fun b hb => h b (by simp [hb]))
    refine ⟨max N M, fun k hk b hb => ?_⟩
    rcases List.mem_cons.1 hb with rfl | hb
    · exact hN k (by omega)
    · exact hM k (by omega) b hb

variable {ext : Ext} {env : Env}

theorem dflt_of_notRef {ρ : RefSem} {c : Constraint} (h : NotRef c) (hd : DefaultIn Flat c) :
    (∀ dv, (denote ext ρ c).dflt = .some dv → Flat dv) ∧ ∀ a, (denote ext ρ c).dflt = .abort a → a ≠ .diverge := by
  have key : ∀ d : Option GoVal, (∀ dv, d = some dv → Flat dv) →
      (∀ dv, Dflt.ofOption d = .some dv → Flat dv) ∧ ∀ a, Dflt.ofOption d = .abort a → a ≠ .diverge := by
    intro d h
    cases d with
    | none => exact ⟨fun dv h => (by cases h), fun a h => (by cases h)⟩
    | some d => exact ⟨fun dv h' => (by cases h'; exact h _ rfl), fun a h => (by cases h)⟩
  cases c with
  | boolean d => exact key d hd
  | string s => exact key s.dflt hd
  | number s => exact key s.dflt hd
  | integer s => exact key s.dflt hd
  | ref m n => exact absurd rfl (h m n)
  | _ => exact key none (fun dv h => by cases h)

/-- Following reference chains for defaults comes to an end. -/
theorem dflt_total (hg : Guarded env) (henv : env.Every (DefaultIn Flat)) (c : Constraint) (hc : DefaultIn Flat c) :
    ∃ N, ∀ k, N ≤ k → (∀ dv, (sem ext env k c).dflt = .some dv → Flat dv) ∧
      ∀ a, (sem ext env k c).dflt = .abort a → a ≠ .diverge := by
  have href : ∀ p : Nat × GoStr, ∃ N, ∀ k, N ≤ k → (∀ dv, (refSem ext env k p.1 p.2).dflt = .some dv → Flat dv) ∧
      ∀ a, (refSem ext env k p.1 p.2).dflt = .abort a → a ≠ .diverge := by
    intro p
    induction p using hg.induction with
    | h p ih =>
      cases he : env p.1 p.2 with
      | none =>
        refine ⟨1, fun k hk => ?_⟩
        obtain ⟨k, rfl⟩ : ∃ j, k = j + 1 := ⟨k - 1, by omega⟩
        simp only [refSem, he, unresolved]
        exact ⟨fun dv h => (by cases h), fun a h => (by cases h)⟩
      | some c =>
        by_cases hr : NotRef c
        · refine ⟨1, fun k hk => ?_⟩
          obtain ⟨k, rfl⟩ : ∃ j, k = j + 1 := ⟨k - 1, by omega⟩
          simp only [refSem, he]
          exact dflt_of_notRef hr (henv _ _ _ he).self
        · unfold NotRef at hr
          push Not at hr
          obtain ⟨m, n, rfl⟩ := hr
          obtain ⟨N, hN⟩ := ih (m, n) ⟨_, he, .refl _⟩
          refine ⟨N + 1, fun k hk => ?_⟩
          obtain ⟨k, rfl⟩ : ∃ j, k = j + 1 := ⟨k - 1, by omega⟩
          simp only [refSem, he, denote]
          exact hN k (by omega)
  by_cases hr : NotRef c
  · exact ⟨0, fun k _ => dflt_of_notRef hr hc⟩
  · unfold NotRef at hr
    push Not at hr
    obtain ⟨m, n, rfl⟩ := hr
    obtain ⟨N, hN⟩ := href (m, n)
    exact ⟨N, fun k hk => hN k hk⟩

theorem goodJ_zero {s : Sem} (h : (∀ dv, s.dflt = .some dv → Flat dv) ∧ ∀ a, s.dflt = .abort a → a ≠ .diverge) :
    (depthPolicy ext 0).GoodJ s :=
  ⟨h.1, h.2, fun σ v ⟨e, he, _⟩ => by omega⟩

theorem goodJ_succ {s : Sem} {d : Nat} (h : (depthPolicy ext d).Good s) : (depthPolicy ext (d + 1)).GoodJ s := by
  refine ⟨h.dflt, h.dfltA, fun σ v ⟨e, he, hv⟩ => ?_⟩
  obtain rfl : d = e := by omega
  have := h.val σ v hv
  exact ⟨⟨d, rfl, this.1⟩, this.2.1, this.2.2⟩

theorem tree_bound {d : Nat} (hE : ∀ c : Constraint, c.Every (DefaultIn Flat) → ∃ N, ∀ k, N ≤ k → (depthPolicy ext d).GoodJ (sem ext env k c))
    (c : Constraint) (hc : c.Every (DefaultIn Flat))
    (hR : ∀ m n, (Constraint.ref m n).Here c → ∃ N, ∀ k, N ≤ k → (depthPolicy ext d).Good (refSem ext env k m n)) :
    ∃ N, ∀ k, N ≤ k → (depthPolicy ext d).Good (sem ext env k c) := by
  induction c using Constraint.ind with
  | h c ih =>
    have h1 := exists_bound (Q := fun k a => (depthPolicy ext d).GoodJ (sem ext env k a) ∧ (c.Same a → (depthPolicy ext d).Good (sem ext env k a)))
      (c.kids.filter (fun a => by classical exact decide (c.Child a))) (by
        intro a ha
        have ha : c.Child a := by simpa using (List.mem_filter.1 ha).2
        obtain ⟨N, hN⟩ := hE a (hc.child ha)
        by_cases hs : c.Same a
        · obtain ⟨M, hM⟩ := ih a ha (hc.child ha) (fun m n h => hR m n (.same hs h))
          exact ⟨max N M, fun k hk => ⟨hN k (by omega), fun _ => hM k (by omega)⟩⟩
        · exact ⟨N, fun k hk => ⟨hN k hk, fun h => absurd h hs⟩⟩)
    obtain ⟨N, hN⟩ := h1
    have hmem : ∀ a, c.Child a → a ∈ c.kids.filter (fun a => by classical exact decide (c.Child a)) := fun a ha =>
      List.mem_filter.2 ⟨ha.mem, by simpa using ha⟩
    have h2 : ∃ M, ∀ k, M ≤ k → ∀ m n, c = .ref m n → (depthPolicy ext d).Good (refSem ext env k m n) := by
      by_cases hr : NotRef c
      · exact ⟨0, fun k _ m n h => absurd h (hr m n)⟩
      · unfold NotRef at hr
        push Not at hr
        obtain ⟨m, n, rfl⟩ := hr
        obtain ⟨M, hM⟩ := hR m n (.refl _)
        exact ⟨M, fun k hk m' n' h => by cases h; exact hM k hk⟩
    obtain ⟨M, hM⟩ := h2
    refine ⟨max N M, fun k hk => ?_⟩
    exact (depthPolicy ext d).good_step' (refSem ext env k) c (hM k (by omega)) (local_total rfl hc.self)
      (fun a ha => (hN k (by omega) a (hmem a ha.child)).1) (fun a ha => (hN k (by omega) a (hmem a ha.child)).2 ha)

/-- Enough fuel for all values at most `d` deep. -/
theorem depth_bound (hg : Guarded env) (henv : env.Every (DefaultIn Flat)) : ∀ (d : Nat) (c : Constraint),
    c.Every (DefaultIn Flat) → ∃ N, ∀ k, N ≤ k → (depthPolicy ext d).Good (sem ext env k c) := by
  have step : ∀ d, (∀ c : Constraint, c.Every (DefaultIn Flat) → ∃ N, ∀ k, N ≤ k → (depthPolicy ext d).GoodJ (sem ext env k c)) →
      ∀ c : Constraint, c.Every (DefaultIn Flat) → ∃ N, ∀ k, N ≤ k → (depthPolicy ext d).Good (sem ext env k c) := by
    intro d hE
    have hR : ∀ p : Nat × GoStr, ∃ N, ∀ k, N ≤ k → (depthPolicy ext d).Good (refSem ext env k p.1 p.2) := by
      intro p
      induction p using hg.induction with
      | h p ih =>
        cases he : env p.1 p.2 with
        | none =>
          refine ⟨1, fun k hk => ?_⟩
          obtain ⟨k, rfl⟩ : ∃ j, k = j + 1 := ⟨k - 1, by omega⟩
          simp only [refSem, he]
          exact ⟨fun dv h => (by cases h), fun a h => (by cases h),
            fun σ v hv => ⟨hv, .refl v, fun a h => by cases h⟩⟩
        | some c =>
          obtain ⟨N, hN⟩ := tree_bound hE c (henv _ _ _ he) (fun m n h => ih (m, n) ⟨c, he, h⟩)
          refine ⟨N + 1, fun k hk => ?_⟩
          obtain ⟨k, rfl⟩ : ∃ j, k = j + 1 := ⟨k - 1, by omega⟩
          simp only [refSem, he]
          exact hN k (by omega)
    exact fun c hc => tree_bound hE c hc (fun m n _ => hR (m, n))
  intro d
  induction d with
  | zero =>
    refine step 0 (fun c hc => ?_)
    obtain ⟨N, hN⟩ := dflt_total hg henv c hc.self
    exact ⟨N, fun k hk => goodJ_zero (hN k hk)⟩
  | succ d ih =>
    refine step (d + 1) (fun c hc => ?_)
    obtain ⟨N, hN⟩ := ih c hc
    exact ⟨N, fun k hk => goodJ_succ (hN k hk)⟩

end Jsval
