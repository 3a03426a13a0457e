import Verif.Lemmas.SchemaTypes
import Verif.Lemmas.UniqueWords
/-!
# The constraint built for `type: array` decides the array keywords
-/
namespace Jsval
open Tracks
variable {ext : Ext} {cls : DocClass} {ρ : RefSem} {D : GoVal → Prop}

theorem runItems_res {c : Sem} {p : GoVal → Prop} (h : Tracks ext D c p) (σ : Sched) : ∀ (xs : List GoVal) (i : Nat),
    (∀ x ∈ xs, D x) → ((runItems c σ i xs).1 = .ok → ∀ x ∈ xs, p x) ∧
      (∀ e, (runItems c σ i xs).1 = .err e → ∃ x ∈ xs, ¬ p x)
  | [], i, _ => by simp [runItems]
  | x :: xs, i, hx => by
    obtain ⟨i1, i2⟩ := runItems_res h σ xs (i + 1) (fun y hy => hx y (by simp [hy]))
    have hok := h.ok (σ.sub i) x (hx x (by simp))
    have herr := fun e => h.err (σ.sub i) x e (hx x (by simp))
    simp only [runItems]
    rcases hcv : c.val (σ.sub i) x with ⟨r, v'⟩
    rw [hcv] at hok herr
    cases r with
    | abort a => exact ⟨fun h => by simp at h, fun e h => by simp at h⟩
    | err e => exact ⟨fun h => by simp at h, fun _ _ => ⟨x, by simp, herr e rfl⟩⟩
    | ok =>
      refine ⟨fun h y hy => ?_, fun e h => ?_⟩
      · rcases List.mem_cons.1 hy with rfl | hy
        · exact hok rfl
        · exact i1 h y hy
      · obtain ⟨y, hy, hn⟩ := i2 e h
        exact ⟨y, by simp [hy], hn⟩

theorem runPos_res {cs : List Sem} {ps : List (GoVal → Prop)} (h : Tracks.All ext D cs ps) (σ : Sched) :
    ∀ (xs : List GoVal) (i : Nat), (∀ x ∈ xs, D x) →
      ((runPos σ i cs xs).1 = .ok → ∀ (j : Nat) p x, ps[j]? = some p → xs[j]? = some x → p x) ∧
      (∀ e, (runPos σ i cs xs).1 = .err e → ∃ (j : Nat) (p : GoVal → Prop) (x : GoVal), ps[j]? = some p ∧ xs[j]? = some x ∧ ¬ p x) := by
  induction h with
  | nil => intro xs i _; simp [runPos]
  | @cons c p cs ps hc hl ih =>
    intro xs i hx
    cases xs with
    | nil => simp [runPos]
    | cons x xs =>
      obtain ⟨i1, i2⟩ := ih xs (i + 1) (fun y hy => hx y (by simp [hy]))
      have hok := hc.ok (σ.sub i) x (hx x (by simp))
      have herr := fun e => hc.err (σ.sub i) x e (hx x (by simp))
      simp only [runPos]
      rcases hcv : c.val (σ.sub i) x with ⟨r, v'⟩
      rw [hcv] at hok herr
      cases r with
      | abort a => exact ⟨fun h => by simp at h, fun e h => by simp at h⟩
      | err e => exact ⟨fun h => by simp at h, fun _ _ => ⟨0, p, x, by simp, by simp, herr e rfl⟩⟩
      | ok =>
        refine ⟨fun h j q y hq hy => ?_, fun e h => ?_⟩
        · cases j with
          | zero =>
            simp only [List.getElem?_cons_zero, Option.some.injEq] at hq hy
            rw [← hq, ← hy]; exact hok rfl
          | succ j =>
            simp only [List.getElem?_cons_succ] at hq hy
            exact i1 h j q y hq hy
        · obtain ⟨j, q, y, hq, hy, hn⟩ := i2 e h
          exact ⟨j + 1, q, y, by simpa using hq, by simpa using hy, hn⟩

/-- The element rules of a built array constraint. -/
inductive ElemTracks (ext : Ext) (D : GoVal → Prop) (ρ : RefSem) : ArrC Constraint → (List GoVal → Prop) → Prop
  | none {a : ArrC Constraint} : a.items = none → a.positional = [] → ElemTracks ext D ρ a (fun _ => True)
  | items {a : ArrC Constraint} {c p} : a.items = some c → Tracks ext D (denote ext ρ c) p →
      ElemTracks ext D ρ a (fun xs => ∀ x ∈ xs, p x)
  | closed {a : ArrC Constraint} {ps} : a.items = none → Each ext D ρ a.positional ps → a.positional ≠ [] →
      a.additional = none → ElemTracks ext D ρ a (fun xs =>
        (∀ (j : Nat) p x, ps[j]? = some p → xs[j]? = some x → p x) ∧ xs.length ≤ ps.length)
  | opened {a : ArrC Constraint} {ps} : a.items = none → Each ext D ρ a.positional ps → a.additional = some .empty →
      ElemTracks ext D ρ a (fun xs => ∀ (j : Nat) p x, ps[j]? = some p → xs[j]? = some x → p x)

theorem runItems_empty (σ : Sched) : ∀ (xs : List GoVal) (i : Nat), runItems (denote ext ρ .empty) σ i xs = (.ok, xs)
  | [], i => rfl
  | x :: xs, i => by
    have := runItems_empty σ xs (i + 1)
    simp only [runItems, C07_empty, this]

theorem elems_res {a : ArrC Constraint} {E : List GoVal → Prop} (h : ElemTracks ext D ρ a E) (σ : Sched)
    {xs : List GoVal} (hx : ∀ x ∈ xs, D x) : ((arrayElems (a.map (denote ext ρ)) σ xs).1 = .ok → E xs) ∧
      (∀ e, (arrayElems (a.map (denote ext ρ)) σ xs).1 = .err e → ¬ E xs) := by
  cases h with
  | none h1 h2 =>
    simp [arrayElems, ArrC.map, h1, h2, runPos, runAdditional]
  | items h1 h2 =>
    simp only [arrayElems, ArrC.map, h1, Option.map_some]
    obtain ⟨i1, i2⟩ := runItems_res h2 (σ.sub 0) xs 0 hx
    refine ⟨i1, fun e he hE => ?_⟩
    obtain ⟨x, hx, hn⟩ := i2 e he
    exact hn (hE x hx)
  | @closed ps h1 h2 h3 h4 =>
    simp only [arrayElems, ArrC.map, h1, Option.map_none]
    obtain ⟨i1, i2⟩ := runPos_res h2.all (σ.sub 1) xs 0 hx
    have hs := runPos_same (σ := σ.sub 1) (a.positional.map (denote ext ρ)) xs 0 (fun c hc => by
      obtain ⟨d, hd, rfl⟩ := List.mem_map.1 hc
      obtain ⟨Q, hQ⟩ := h2.mem d hd
      exact hQ.readOnly)
    have hl : a.positional.length = ps.length := h2.length_eq
    rcases hr : runPos (σ.sub 1) 0 (a.positional.map (denote ext ρ)) xs with ⟨r, ys⟩
    rw [hr] at i1 i2 hs
    simp only at hs; subst hs
    cases r with
    | abort b => exact ⟨fun h => by simp at h, fun e h => by simp at h⟩
    | err e =>
      refine ⟨fun h => by simp at h, fun _ _ hE => ?_⟩
      obtain ⟨j, p, x, hp, hx, hn⟩ := i2 e rfl
      exact hn (hE.1 j p x hp hx)
    | ok =>
      simp only [runAdditional, List.length_map, h4, Option.map_none]
      have hpos : 0 < a.positional.length := List.length_pos_iff.2 h3
      split
      · rename_i hc
        exact ⟨fun h => by simp at h, fun _ _ hE => by have := hE.2; omega⟩
      · rename_i hc
        exact ⟨fun _ => ⟨i1 rfl, by omega⟩, fun e h => by simp at h⟩
  | @opened ps h1 h2 h4 =>
    simp only [arrayElems, ArrC.map, h1, Option.map_none]
    obtain ⟨i1, i2⟩ := runPos_res h2.all (σ.sub 1) xs 0 hx
    have hs := runPos_same (σ := σ.sub 1) (a.positional.map (denote ext ρ)) xs 0 (fun c hc => by
      obtain ⟨d, hd, rfl⟩ := List.mem_map.1 hc
      obtain ⟨Q, hQ⟩ := h2.mem d hd
      exact hQ.readOnly)
    rcases hr : runPos (σ.sub 1) 0 (a.positional.map (denote ext ρ)) xs with ⟨r, ys⟩
    rw [hr] at i1 i2 hs
    simp only at hs; subst hs
    cases r with
    | abort b => exact ⟨fun h => by simp at h, fun e h => by simp at h⟩
    | err e =>
      refine ⟨fun h => by simp at h, fun _ _ hE => ?_⟩
      obtain ⟨j, p, x, hp, hx, hn⟩ := i2 e rfl
      exact hn (hE j p x hp hx)
    | ok =>
      simp only [runAdditional, List.length_map, h4, Option.map_some, runItems_empty]
      split
      · exact ⟨fun _ => i1 rfl, fun e h => by simp at h⟩
      · exact ⟨fun _ => i1 rfl, fun e h => by simp at h⟩

theorem empty_tracks (D : GoVal → Prop) : Tracks ext D (denote ext ρ .empty) (fun _ => True) :=
  of_step (by simp) ⟨rfl, fun x hx => by simp [Constraint.enumOf] at hx⟩ (fun d hd => by cases hd) (fun _ _ _ _ => trivial)
    (fun σ v e _ he => by rw [C07_empty] at he; cases he)

theorem ElemTracks.child {a : ArrC Constraint} {E : List GoVal → Prop} (h : ElemTracks ext D ρ a E)
    (ha : a.additional = Option.none ∨ a.additional = some .empty) (hn : a.items ≠ Option.none → a.positional = []) :
    ∀ d, a.Child d → ∃ Q, Tracks ext D (denote ext ρ d) Q := by
  intro d hd
  cases hd with
  | additional hd =>
    rcases ha with ha | ha
    · rw [ha] at hd; cases hd
    · rw [ha] at hd; cases hd; exact ⟨_, empty_tracks D⟩
  | items hd =>
    cases h with
    | none h1 h2 => rw [h1] at hd; cases hd
    | items h1 h2 => rw [h1] at hd; cases hd; exact ⟨_, h2⟩
    | closed h1 => rw [h1] at hd; cases hd
    | opened h1 => rw [h1] at hd; cases hd
  | positional hd =>
    cases h with
    | none h1 h2 => rw [h2] at hd; simp at hd
    | items h1 h2 => rw [hn (by rw [h1]; simp)] at hd; simp at hd
    | closed h1 h2 => exact h2.mem d hd
    | opened h1 h2 => exact h2.mem d hd

/-- Strings that print as themselves repeat when two of them are equal. -/
theorem not_repeats_strings {xs : List GoVal} (hp : ∀ t, ext.sprint (.str t) = t) (hx : ∀ x ∈ xs, ∃ t, x = .str t) :
    ¬ Repeats ext xs ↔ ∀ (i j : Nat) x y, i < j → xs[i]? = some x → xs[j]? = some y → ¬ JsonEq x y := by
  constructor
  · intro h i j x y hij h1 h2 he
    refine h ⟨i, j, x, y, hij, h1, h2, ?_⟩
    obtain ⟨t, rfl⟩ := hx x (List.mem_of_getElem? h1)
    cases he; rfl
  · rintro h ⟨i, j, x, y, hij, h1, h2, he⟩
    obtain ⟨t, rfl⟩ := hx x (List.mem_of_getElem? h1)
    obtain ⟨t', rfl⟩ := hx y (List.mem_of_getElem? h2)
    rw [hp, hp] at he
    subst he
    exact h i j _ _ hij h1 h2 (.str t)

theorem Doc.toWordy {cls : DocClass} (hw : cls.wordy) {v : GoVal} (h : Doc cls v) : Wordy v := by
  induction h with
  | null => exact .null
  | bool b => exact .bool b
  | num n m h => exact .num n m (h hw)
  | str s _ h _ => exact .str s (h hw)
  | arr xs _ ih => exact .arr xs ih
  | obj kvs hn hk _ ih => exact .obj kvs hn (fun k x h => hk k x h hw) ih

theorem not_repeats_words {cls : DocClass} (hw : cls.wordy) {L : FmtLib} (hL : L.Good) (hP : PrintsJson ext L) {xs : List GoVal} (hx : ∀ x ∈ xs, Doc cls x) :
    ¬ Repeats ext xs ↔ ∀ (i j : Nat) x y, i < j → xs[i]? = some x → xs[j]? = some y → ¬ JsonEq x y := by
  have key : ∀ {i j : Nat} {x y : GoVal}, xs[i]? = some x → xs[j]? = some y → (ext.sprint x = ext.sprint y ↔ JsonEq x y) := fun h1 h2 =>
    print_iff hP hL ((hx _ (List.mem_of_getElem? h1)).toWordy hw) ((hx _ (List.mem_of_getElem? h2)).toWordy hw)
  constructor
  · intro h i j x y hij h1 h2 he
    exact h ⟨i, j, x, y, hij, h1, h2, (key h1 h2).2 he⟩
  · rintro h ⟨i, j, x, y, hij, h1, h2, he⟩
    exact h i j x y hij h1 h2 ((key h1 h2).1 he)

/-- An array constraint; on arrays of valid items its uniqueness rule says `U`. -/
theorem array_tracks {a : ArrC Constraint} {E U : List GoVal → Prop} (h : ElemTracks ext (Doc cls) ρ a E)
    (ha : a.additional = none ∨ a.additional = some .empty) (hn : a.items ≠ none → a.positional = [])
    (hu : a.unique = true → ∀ xs, (∀ x ∈ xs, Doc cls x) → E xs → (¬ Repeats ext xs ↔ U xs)) : Tracks ext (Doc cls) (denote ext ρ (.array a))
      (fun v => ∃ xs, v = .slice false xs ∧ LenOk a xs ∧ (a.unique = true → U xs) ∧ E xs) := by
  refine of_step (by simp) ⟨rfl, fun x hx => by simp [Constraint.enumOf] at hx⟩ (fun d hd => ?_) ?_ ?_
  · cases hd with | array hd => exact h.child ha hn d hd
  · intro σ v hv ho
    by_cases hs : ∃ n xs, v = .slice n xs
    · obtain ⟨n, xs, rfl⟩ := hs
      cases hv with
      | arr _ hx =>
        obtain ⟨h1, h2, h3⟩ := (arrayV_within ext ρ σ a false xs).1 ho
        have hE := (elems_res h σ hx).1 h3
        exact ⟨xs, rfl, h1, fun hq => (hu hq xs hx hE).1 (h2 hq), hE⟩
    · rw [C22_only_slices ext ρ σ a v (fun n xs h => hs ⟨n, xs, h⟩)] at ho
      cases ho
  · rintro σ v e hv he ⟨xs, rfl, hl, hU, hE⟩
    cases hv with
    | arr _ hx =>
      rw [denote_array] at he
      simp only [arrayV, valueOf] at he
      obtain ⟨l1, l2⟩ := hl
      have n1 : ¬ ((a.map (denote ext ρ)).minItems > -1 ∧ (xs.length : Int) < (a.map (denote ext ρ)).minItems) := by
        simp only [ArrC.map]; omega
      have n2 : ¬ ((a.map (denote ext ρ)).maxItems > -1 ∧ (xs.length : Int) > (a.map (denote ext ρ)).maxItems) := by
        simp only [ArrC.map]; omega
      have n3 : ¬ ((a.map (denote ext ρ)).unique = true ∧ uniqueLoop ext [] xs = false) := by
        rintro ⟨hq, hl⟩
        have hq : a.unique = true := hq
        have : uniqueLoop ext [] xs = true := (uniqueLoop_iff ext xs []).2 ⟨by simp, by
          by_contra hn
          exact (hu hq xs hx hE).2 (hU hq) ((not_nodup_map_iff _ _).1 hn)⟩
        rw [this] at hl; cases hl
      rw [if_neg n1, if_neg n2, if_neg n3] at he
      exact (elems_res h σ hx).2 e he hE

/-- A limit that counts from 0 on, absent when -1. -/
theorem bound_iff {m : Option Int} (h : ∀ n, m = some n → 0 ≤ n) (P : Int → Prop) :
    ((0 : Int) ≤ m.getD (-1) → P (m.getD (-1))) ↔ ∀ n, m = some n → P n := by
  cases m with
  | none => simp
  | some n => have := h n rfl; simp [this]

theorem arrayEnd_fields {S : Type} (s : SchemaF S) (a : ArrC Constraint) : arrayEnd s a =
    { a with minItems := s.minItems.getD a.minItems, maxItems := s.maxItems.getD a.maxItems,
             unique := s.uniqueItems.getD a.unique } := by
  unfold arrayEnd applyIf
  cases s.minItems <;> cases s.maxItems <;> cases s.uniqueItems <;> rfl

variable {lib : SchemaLib} {m : Nat} {formats : List GoStr}

theorem built_each {l : List Schema} {cs : List Constraint} {V : Schema → GoVal → Prop}
    (ih : ∀ x ∈ l, ∀ c ∈ cs, BuiltFrom lib m x c → Tracks ext D (denote ext ρ c) (V x))
    (h : List.Forall₂ (fun a c => BuiltBy a c) (l.map (build lib m)) cs) : Each ext D ρ cs (l.map V) := by
  induction l generalizing cs with
  | nil => cases h; exact .nil
  | cons x l il =>
    cases h with
    | cons h t =>
      exact .cons (ih x (by simp) _ (by simp) h) (il (fun y hy c hc => ih y (by simp [hy]) c (by simp [hc])) t)

theorem arrayType_tracks {s : SchemaF Schema} (h : s.Conforming ext formats cls) (ht : .array ∈ s.type)
    {V : Schema → GoVal → Prop} (hV : ∀ p : SchemaF Schema, p.StringsOnly → ∀ v, V (.mk p) v → ∃ t, v = .str t)
    {R : List GoStr} {a : ArrC Constraint}
    (hb : ItemsBuilt (fun a _ c => BuiltBy a c) R (s.map (build lib m)) a)
    (ih : ∀ x, s.Child x → ∀ c, (Constraint.array (arrayEnd (s.map (build lib m)) a)).Child c → BuiltFrom lib m x c →
      Tracks ext (Doc cls) (denote ext ρ c) (V x)) :
    Tracks ext (Doc cls) (denote ext ρ (.array (arrayEnd (s.map (build lib m)) a)))
      (fun v => HasType .array v ∧ (s.map V).ValueRules ext v) := by
  have hen : s.enum = [] := by
    by_contra he
    have := h.enumTyped he _ ht
    simp at this
  have hw : ∀ (E : List GoVal → Prop), ElemTracks ext (Doc cls) ρ a E →
      (a.additional = none ∨ a.additional = some .empty) → (a.items ≠ none → a.positional = []) →
      a.unique = false → a.minItems = -1 → a.maxItems = -1 →
      (∀ xs, E xs ↔ ((∀ p, (s.map V).items = .list [p] → ∀ x ∈ xs, p x) ∧
        (∀ l, (s.map V).items = .tuple l → ∀ (i : Nat) p x, l[i]? = some p → xs[i]? = some x → p x) ∧
        (∀ l, (s.map V).items = .tuple l → (s.map V).additionalItems = .nil → xs.length ≤ l.length))) →
      Tracks ext (Doc cls) (denote ext ρ (.array (arrayEnd (s.map (build lib m)) a)))
        (fun v => HasType .array v ∧ (s.map V).ValueRules ext v) := by
    intro E hE h1 h2 h3 h4 h5 h6
    have huq : (arrayEnd (s.map (build lib m)) a).unique = true ↔ s.uniqueItems = some true := by
      rw [arrayEnd_fields, h3]
      show s.uniqueItems.getD false = true ↔ _
      cases s.uniqueItems <;> simp
    have huni : s.uniqueItems = some true → ∀ xs, (∀ x ∈ xs, Doc cls x) → E xs →
        (¬ Repeats ext xs ↔ ∀ (i j : Nat) x y, i < j → xs[i]? = some x → xs[j]? = some y → ¬ JsonEq x y) := by
      intro hu xs hx he
      rcases h.unique hu with ⟨h7, p, h8, h9⟩ | ⟨hw, L, hL, hP⟩
      · exact not_repeats_strings h7 fun x hx => hV p h9 x (((h6 xs).1 he).1 (V (.mk p)) (by simp [SchemaF.map, h8, ItemSpec.map]) x hx)
      · exact not_repeats_words hw hL hP hx
    have hE' : ElemTracks ext (Doc cls) ρ (arrayEnd (s.map (build lib m)) a) E := by
      rw [arrayEnd_fields]
      cases hE with
      | none h1 h2 => exact .none h1 h2
      | items h1 h2 => exact .items h1 h2
      | closed h1 h2 h3 h4 => exact .closed h1 h2 h3 h4
      | opened h1 h2 h3 => exact .opened h1 h2 h3
    refine (array_tracks (U := fun xs => ∀ (i j : Nat) x y, i < j → xs[i]? = some x → xs[j]? = some y → ¬ JsonEq x y) hE'
      (by rw [arrayEnd_fields]; exact h1) (by rw [arrayEnd_fields]; exact h2)
      (fun hu xs hx he => huni (huq.1 hu) xs hx he)).congr ?_
    intro v hv
    have hlen : ∀ xs, LenOk (arrayEnd (s.map (build lib m)) a) xs ↔ (∀ n, s.minItems = some n → n ≤ (xs.length : Int)) ∧
        (∀ n, s.maxItems = some n → (xs.length : Int) ≤ n) := by
      intro xs
      rw [arrayEnd_fields, h4, h5]
      unfold LenOk
      show ((0 : Int) ≤ s.minItems.getD (-1) → _) ∧ ((0 : Int) ≤ s.maxItems.getD (-1) → _) ↔ _
      refine and_congr (bound_iff (fun n h' => (h.minItems n h')) (fun n => n ≤ (xs.length : Int)))
        (bound_iff (fun n h' => (h.maxItems n h')) (fun n => (xs.length : Int) ≤ n))
    constructor
    · rintro ⟨xs, rfl, hl, hu, he⟩
      refine ⟨.array xs, valueRules_arr.2 ⟨fun hh => absurd hen hh, ?_⟩⟩
      obtain ⟨q1, q2, q3⟩ := (h6 xs).1 he
      refine ⟨((hlen xs).1 hl).1, ((hlen xs).1 hl).2, fun h' => hu (huq.2 h'), q1, q2, q3, ?_⟩
      intro l p hl hp
      exfalso
      simp only [SchemaF.map] at hl hp
      cases hi : s.items with
      | nil => rw [hi] at hl; cases hl
      | list l' => rw [hi] at hl; cases hl
      | tuple l' =>
        have := (h.tuple l' hi).1
        cases ha : s.additionalItems with
        | nil => rw [ha] at hp; cases hp
        | allow => rw [ha] at hp; cases hp
        | schema x => exact this x ha
    · rintro ⟨ht, hr⟩
      cases ht with
      | array xs =>
        obtain ⟨-, hr⟩ := valueRules_arr.1 hr
        exact ⟨xs, rfl, (hlen xs).2 ⟨hr.minItems, hr.maxItems⟩, fun hu => hr.unique (huq.1 hu), (h6 xs).2 ⟨hr.items, hr.tuple, hr.additionalNone⟩⟩
  cases hb with
  | nil hi =>
    have hi' : s.items = .nil := by
      simp only [SchemaF.map] at hi
      cases hh : s.items with
      | nil => rfl
      | _ => rw [hh] at hi; cases hi
    refine hw _ (.none rfl rfl) (Or.inr rfl) (fun _ => rfl) rfl rfl rfl (fun xs => ?_)
    simp [SchemaF.map, hi', ItemSpec.map]
  | @list b l c hi hc =>
    simp only [SchemaF.map] at hi
    cases hh : s.items with
    | nil => rw [hh] at hi; cases hi
    | tuple l' => rw [hh] at hi; cases hi
    | list l' =>
      obtain ⟨x, rfl⟩ := List.length_eq_one_iff.1 (h.items l' hh)
      rw [hh] at hi
      simp only [ItemSpec.map, List.map_cons, List.map_nil, ItemSpec.list.injEq, List.cons.injEq] at hi
      obtain ⟨rfl, -⟩ := hi
      refine hw _ (.items rfl (ih x (.list hh (by simp)) c (.array (.items (by rw [arrayEnd_fields]; rfl))) hc)) (Or.inr rfl) (fun _ => rfl) rfl rfl rfl (fun xs => ?_)
      simp [SchemaF.map, hh, ItemSpec.map]
  | @tuple l cs x hi hc hx =>
    simp only [SchemaF.map] at hi
    cases hh : s.items with
    | nil => rw [hh] at hi; cases hi
    | list l' => rw [hh] at hi; cases hi
    | tuple l' =>
      rw [hh] at hi
      simp only [ItemSpec.map, ItemSpec.tuple.injEq] at hi
      subst hi
      have hE := built_each (D := Doc cls) (fun x hx c hc' => ih x (.tuple hh hx) c (.array (.positional (by rw [arrayEnd_fields]; exact hc')))) hc
      obtain ⟨t1, t2⟩ := h.tuple l' hh
      cases ha : s.additionalItems with
      | schema y => exact absurd ha (t1 y)
      | nil =>
        have hx' : x = none := by
          simp only [SchemaF.map, ha, Extra.map] at hx
          cases hx; rfl
        subst hx'
        have hne : cs ≠ [] := by
          rintro rfl
          cases hE' : l' with
          | nil => exact t2 hE' ha
          | cons y l'' => rw [hE'] at hc; cases hc
        refine hw _ (.closed rfl hE hne rfl) (Or.inl rfl) (fun hh => absurd rfl hh) rfl rfl rfl (fun xs => ?_)
        simp [SchemaF.map, hh, ItemSpec.map, ha, Extra.map]
      | allow =>
        have hx' : x = some .empty := by
          simp only [SchemaF.map, ha, Extra.map] at hx
          cases hx; rfl
        subst hx'
        refine hw _ (.opened rfl hE rfl) (Or.inr rfl) (fun hh => absurd rfl hh) rfl rfl rfl (fun xs => ?_)
        simp [SchemaF.map, hh, ItemSpec.map, ha, Extra.map]

end Jsval
