import Verif.Spec.Unique
import Verif.Lemmas.GenBuild

/-!
What fmt prints for a decoded document can be read back if its strings are words (C125).
-/

namespace Jsval

variable {L : FmtLib}

theorem fmtElems_eq (xs : List GoVal) : fmtElems L xs = xs.map (fmtIn L) := by
  induction xs with
  | nil => rfl
  | cons x xs ih => simp only [fmtElems, List.map_cons, ih]

theorem fmtEntries_eq (kvs : List (GoStr × GoVal)) : fmtEntries L kvs = kvs.map (fun p => (p.1, fmtIn L p.2)) := by
  induction kvs with
  | nil => rfl
  | cons p kvs ih => obtain ⟨k, x⟩ := p; simp only [fmtEntries, List.map_cons, ih]

/-- The text of a boolean. -/
def boolText (b : Bool) : GoStr := if b then b! "%!s(bool=true)" else b! "%!s(bool=false)"

theorem fmtIn_bool (b : Bool) : fmtIn L (.bool b) = boolText b := by cases b <;> rfl

/-! ## Sorting by key -/

theorem byKey_perm {α : Type} (l : List (GoStr × α)) : (byKey l).Perm l := List.perm_insertionSort _ l

theorem byKey_map {α β : Type} (f : α → β) (l : List (GoStr × α)) :
    byKey (l.map (fun p => (p.1, f p.2))) = (byKey l).map (fun p => (p.1, f p.2)) :=
  (List.map_insertionSort (fun a b : GoStr × α => strLe a.1 b.1 = true) (fun a b : GoStr × β => strLe a.1 b.1 = true)
    (fun p : GoStr × α => (p.1, f p.2)) l (fun _ _ _ _ => Iff.rfl)).symm

instance {α : Type} : Std.Total (fun a b : GoStr × α => strLe a.1 b.1 = true) := ⟨fun a b => strLe_total a.1 b.1⟩
instance {α : Type} : IsTrans (GoStr × α) (fun a b => strLe a.1 b.1 = true) := ⟨fun a b c => strLe_trans a.1 b.1 c.1⟩

theorem byKey_sorted {α : Type} (l : List (GoStr × α)) : (byKey l).Pairwise (fun a b => strLe a.1 b.1 = true) :=
  List.pairwise_insertionSort _ l

theorem nodup_keys_eq {α : Type} {l : List (GoStr × α)} (h : (l.map (·.1)).Nodup) {k : GoStr} {x y : α} (hx : (k, x) ∈ l)
    (hy : (k, y) ∈ l) : x = y := by
  induction l with
  | nil => cases hx
  | cons p l ih =>
    simp only [List.map_cons, List.nodup_cons] at h
    rcases List.mem_cons.1 hx with hx1 | hx1 <;> rcases List.mem_cons.1 hy with hy1 | hy1
    · exact (Prod.mk.inj (hx1.trans hy1.symm)).2
    · subst hx1; exact absurd (List.mem_map.2 ⟨_, hy1, rfl⟩) h.1
    · subst hy1; exact absurd (List.mem_map.2 ⟨_, hx1, rfl⟩) h.1
    · exact ih h.2 hx1 hy1

theorem byKey_congr {α : Type} {l l' : List (GoStr × α)} (hn : (l.map (·.1)).Nodup) (h : l.Perm l') : byKey l = byKey l' := by
  refine List.Perm.eq_of_pairwise (le := fun a b : GoStr × α => strLe a.1 b.1 = true) ?_ (byKey_sorted l) (byKey_sorted l') ?_
  · rintro ⟨k, x⟩ ⟨k', y⟩ ha hb h1 h2
    have hk : k = k' := strLe_antisymm k k' h1 h2
    subst hk
    have ha := (byKey_perm l).mem_iff.1 ha
    have hb := h.mem_iff.2 ((byKey_perm l').mem_iff.1 hb)
    rw [nodup_keys_eq hn ha hb]
  · exact ((byKey_perm l).trans h).trans (byKey_perm l').symm

/-! ## Equal documents are printed alike -/

theorem forall_map_eq {xs ys : List GoVal} (hl : xs.length = ys.length)
    (h : ∀ (i : Nat) x y, xs[i]? = some x → ys[i]? = some y → fmtIn L x = fmtIn L y) : xs.map (fmtIn L) = ys.map (fmtIn L) := by
  refine List.ext_getElem? fun i => ?_
  rw [List.getElem?_map, List.getElem?_map]
  by_cases hi : i < xs.length
  · rw [List.getElem?_eq_getElem hi, List.getElem?_eq_getElem (hl ▸ hi)]
    exact congrArg some (h i _ _ (List.getElem?_eq_getElem hi) (List.getElem?_eq_getElem (hl ▸ hi)))
  · rw [List.getElem?_eq_none (by omega), List.getElem?_eq_none (by omega)]

theorem entries_same {xs ys : List (GoStr × GoVal)} (hx : (xs.map (·.1)).Nodup) (hy : (ys.map (·.1)).Nodup)
    (hk : ∀ k, Has xs k ↔ Has ys k) (h : ∀ k x y, (k, x) ∈ xs → (k, y) ∈ ys → fmtIn L x = fmtIn L y) :
    byKey (fmtEntries L xs) = byKey (fmtEntries L ys) := by
  have keys : ∀ l : List (GoStr × GoVal), (fmtEntries L l).map (·.1) = l.map (·.1) := by
    intro l; rw [fmtEntries_eq, List.map_map]; rfl
  have hx' : ((fmtEntries L xs).map (·.1)).Nodup := by rw [keys]; exact hx
  have hy' : ((fmtEntries L ys).map (·.1)).Nodup := by rw [keys]; exact hy
  refine byKey_congr hx' ((List.perm_ext_iff_of_nodup hx'.of_map hy'.of_map).2 ?_)
  rintro ⟨k, t⟩
  rw [fmtEntries_eq, fmtEntries_eq]
  simp only [List.mem_map, Prod.exists, Prod.mk.injEq]
  constructor
  · rintro ⟨k', x, hm, rfl, rfl⟩
    obtain ⟨y, hy⟩ := (hk k').1 ⟨x, hm⟩
    exact ⟨k', y, hy, rfl, (h k' x y hm hy).symm⟩
  · rintro ⟨k', y, hm, rfl, rfl⟩
    obtain ⟨x, hx⟩ := (hk k').2 ⟨y, hm⟩
    exact ⟨k', x, hx, rfl, h k' x y hx hm⟩

theorem fmtIn_alike {v w : GoVal} (h : Alike v w) : IsJson v → IsJson w → fmtIn L v = fmtIn L w := by
  induction h with
  | refl v => intros; rfl
  | slice n xs ys hl h ih =>
    intro hv hw
    cases hv with
    | arr _ hv =>
      cases hw with
      | arr _ hw =>
        simp only [fmtIn, fmtElems_eq]
        rw [forall_map_eq hl (fun i x y hx hy => ih i x y hx hy (hv x (List.mem_of_getElem? hx)) (hw y (List.mem_of_getElem? hy)))]
  | map n xs ys hk h ih =>
    intro hv hw
    cases hv with
    | obj _ hn hv =>
      cases hw with
      | obj _ hn' hw =>
        simp only [fmtIn]
        rw [entries_same hn hn' hk (fun k x y hx hy => ih k x y hx hy (hv k x hx) (hw k y hy))]

theorem eq_of_F64Eq {n n' : Bool} {m m' : Nat} (h : F64.Eq (.fin n m) (.fin n' m')) (hm : m = 0 → n = false)
    (hm' : m' = 0 → n' = false) : F64.fin n m = .fin n' m' := by
  obtain ⟨x, h1, h2⟩ := h
  simp only [F64.num, Option.some.injEq] at h1 h2
  have h : (if n then -(m : ℤ) else m) = (if n' then -(m' : ℤ) else m') :=
    WithTop.coe_injective (WithBot.coe_injective (h1.trans h2.symm))
  cases n <;> cases n'
  · simp only [Bool.false_eq_true, if_false] at h
    rw [show m = m' by omega]
  · simp only [Bool.false_eq_true, if_false, if_true] at h
    exact absurd (hm' (by omega)) (by decide)
  · simp only [Bool.false_eq_true, if_false, if_true] at h
    exact absurd (hm (by omega)) (by decide)
  · simp only [if_true] at h
    rw [show m = m' by omega]

theorem fmtIn_jsonEq {v w : GoVal} (h : JsonEq v w) : NoNegZero v → NoNegZero w → fmtIn L v = fmtIn L w := by
  induction h with
  | null => intros; rfl
  | bool b => intros; rfl
  | str s => intros; rfl
  | num a b h =>
    intro hv hw
    cases hv with
    | num n m hm =>
      cases hw with
      | num n' m' hm' => rw [eq_of_F64Eq h hm hm']
  | arr xs ys hl h ih =>
    intro hv hw
    cases hv with
    | arr _ hv =>
      cases hw with
      | arr _ hw =>
        simp only [fmtIn, fmtElems_eq]
        rw [forall_map_eq hl (fun i x y hx hy => ih i x y hx hy (hv x (List.mem_of_getElem? hx)) (hw y (List.mem_of_getElem? hy)))]
  | obj xs ys hk h ih =>
    intro hv hw
    cases hv with
    | obj _ hn hv =>
      cases hw with
      | obj _ hn' hw =>
        simp only [fmtIn]
        rw [entries_same hn hn' hk (fun k x y hx hy => ih k x y hx hy (hv k x hx) (hw k y hy))]

/-! ## Reading back -/

/-- A text without separators. -/
def Solid (s : GoStr) : Prop := ∀ c ∈ s, c ∉ separators

/-- Nothing more, or a separator. -/
def Stops (r : GoStr) : Prop := ∀ c, r.head? = some c → c ∈ separators

/-- Nothing more, or a blank or closing bracket: what follows a value. -/
def Ends (r : GoStr) : Prop := ∀ c, r.head? = some c → c = 32 ∨ c = 93

theorem Ends.stops {r : GoStr} (h : Ends r) : Stops r := fun c hc => by
  rcases h c hc with rfl | rfl <;> decide

theorem solid_read : ∀ {a b r r' : GoStr}, Solid a → Solid b → Stops r → Stops r' → a ++ r = b ++ r' → a = b ∧ r = r'
  | [], [], _, _, _, _, _, _, h => ⟨rfl, h⟩
  | [], c :: b, r, r', _, hb, hr, _, h => by
    simp only [List.nil_append, List.cons_append] at h
    subst h
    exact absurd (hr c rfl) (hb c (by simp))
  | c :: a, [], r, r', ha, _, _, hr', h => by
    simp only [List.nil_append, List.cons_append] at h
    subst h
    exact absurd (hr' c rfl) (ha c (by simp))
  | c :: a, d :: b, r, r', ha, hb, hr, hr', h => by
    simp only [List.cons_append, List.cons.injEq] at h
    obtain ⟨rfl, h⟩ := h
    obtain ⟨rfl, rfl⟩ := solid_read (fun x hx => ha x (by simp [hx])) (fun x hx => hb x (by simp [hx])) hr hr' h
    exact ⟨rfl, rfl⟩

/-- The value is not a container. -/
def Atomic (v : GoVal) : Prop := (∀ n xs, v ≠ .slice n xs) ∧ ∀ n kvs, v ≠ .map n kvs

theorem Word.solid {s : GoStr} (h : Word s) : Solid s := fun c hc => (h.2 c hc).1

theorem atomic_solid (hL : L.Good) {v : GoVal} (hw : Wordy v) (ha : Atomic v) : Solid (fmtIn L v) ∧ fmtIn L v ≠ [] := by
  cases hw with
  | null =>
    simp only [fmtIn]
    rcases hL.nilIn with h | h <;> rw [h] <;> exact ⟨by unfold Solid; decide, by decide⟩
  | bool b => rw [fmtIn_bool]; cases b <;> exact ⟨by unfold Solid; decide, by decide⟩
  | num n m _ =>
    refine ⟨fun c hc => ?_, by simp [fmtIn]⟩
    simp only [fmtIn, List.mem_append] at hc
    rcases hc with (hc | hc) | hc
    · revert c; decide
    · exact hL.solid n m c hc
    · revert c; decide
  | str s h => exact ⟨h.solid, h.1⟩
  | arr xs _ => exact absurd rfl (ha.1 _ _)
  | obj kvs _ _ _ => exact absurd rfl (ha.2 _ _)

theorem atomic_inj (hL : L.Good) {v w : GoVal} (hv : Wordy v) (hw : Wordy w) (ha : Atomic v) (hb : Atomic w)
    (h : fmtIn L v = fmtIn L w) : v = w := by
  have hpc : ∀ {s : GoStr} {t : GoStr}, Word s → s = t → (37 : UInt8) ∉ t ∧ (60 : UInt8) ∉ t := by
    rintro s t hs rfl
    exact ⟨fun hc => (hs.2 _ hc).2.1 rfl, fun hc => (hs.2 _ hc).2.2 rfl⟩
  have hnil : ¬ ((37 : UInt8) ∉ L.nilIn ∧ (60 : UInt8) ∉ L.nilIn) := by
    rcases hL.nilIn with e | e <;> rw [e] <;> decide
  have hbool : ∀ b, fmtIn L (.bool b) ≠ L.nilIn := by
    intro b; rw [fmtIn_bool]; rcases hL.nilIn with e | e <;> rw [e] <;> cases b <;> decide
  have hnum : ∀ f t, (b! "%!s(float64=" ++ L.num f ++ b! ")" : GoStr) = t → t.take 12 = b! "%!s(float64=" := by
    rintro f t rfl
    rfl
  cases hv with
  | null =>
    cases hw with
    | null => rfl
    | bool b => exact absurd h.symm (hbool b)
    | num n m _ =>
      have := hnum _ _ h.symm
      simp only [fmtIn] at this
      exfalso
      clear h
      rcases hL.nilIn with e | e <;> rw [e] at this <;> revert this <;> decide
    | str s hs => exact absurd (hpc hs h.symm) hnil
    | arr xs _ => exact absurd rfl (hb.1 _ _)
    | obj kvs _ _ _ => exact absurd rfl (hb.2 _ _)
  | bool b =>
    cases hw with
    | null => exact absurd h (hbool b)
    | bool b' =>
      rw [fmtIn_bool, fmtIn_bool] at h
      cases b <;> cases b' <;> first | rfl | (exfalso; revert h; decide)
    | num n m _ =>
      have := hnum _ _ h.symm
      exfalso
      rw [fmtIn_bool] at this
      cases b <;> revert this <;> decide
    | str s hs => exact absurd (by simp [fmtIn]) (hpc hs h.symm).1
    | arr xs _ => exact absurd rfl (hb.1 _ _)
    | obj kvs _ _ _ => exact absurd rfl (hb.2 _ _)
  | num n m _ =>
    cases hw with
    | null =>
      have := hnum _ _ h
      simp only [fmtIn] at this
      exfalso
      clear h
      rcases hL.nilIn with e | e <;> rw [e] at this <;> revert this <;> decide
    | bool b' =>
      have := hnum _ _ h
      exfalso
      rw [fmtIn_bool] at this
      cases b' <;> revert this <;> decide
    | num n' m' _ =>
      simp only [fmtIn] at h
      have := List.append_cancel_left (List.append_cancel_right h)
      rw [hL.inj _ _ _ _ this]
    | str s hs => exact absurd (by simp [fmtIn]) (hpc hs h.symm).1
    | arr xs _ => exact absurd rfl (hb.1 _ _)
    | obj kvs _ _ _ => exact absurd rfl (hb.2 _ _)
  | str s hs =>
    cases hw with
    | null => exact absurd (hpc hs h) hnil
    | bool b => exact absurd (by simp [fmtIn]) (hpc hs h).1
    | num n m _ => exact absurd (by simp [fmtIn]) (hpc hs h).1
    | str s' _ => exact congrArg _ h
    | arr xs _ => exact absurd rfl (hb.1 _ _)
    | obj kvs _ _ _ => exact absurd rfl (hb.2 _ _)
  | arr xs _ => exact absurd rfl (ha.1 _ _)
  | obj kvs _ _ _ => exact absurd rfl (ha.2 _ _)

/-! ### Lists -/

/-- The rest of a list: further elements after a blank, then the bracket. -/
def tailText : List GoStr → GoStr → GoStr
  | [], r => 93 :: r
  | t :: l, r => 32 :: (t ++ tailText l r)

/-- A list after its opening bracket. -/
def listText : List GoStr → GoStr → GoStr
  | [], r => 93 :: r
  | t :: l, r => t ++ tailText l r

theorem spaceSep_text : ∀ (l : List GoStr) (r : GoStr), spaceSep l ++ 93 :: r = listText l r
  | [], r => rfl
  | [t], r => rfl
  | t :: u :: l, r => by
    have := spaceSep_text (u :: l) r
    simp only [listText] at this
    simp only [spaceSep, listText, tailText, List.append_assoc, List.cons_append, this]

theorem tailText_ends : ∀ (l : List GoStr) (r : GoStr), Ends (tailText l r)
  | [], r => fun c h => by cases h; exact .inr rfl
  | t :: l, r => fun c h => by cases h; exact .inl rfl

/-- The text of an entry can be told from what follows it, and is not empty nor begins with a closing bracket. -/
structure ReadsBack {α : Type} (f : α → GoStr) (R : α → α → Prop) (x : α) (y : α) : Prop where
  back : ∀ r r', Ends r → Ends r' → f x ++ r = f y ++ r' → R x y ∧ r = r'

/-- Not empty, and does not begin with a closing bracket. -/
def BeginsOpen (t : GoStr) : Prop := ∃ c t', t = c :: t' ∧ c ≠ 93

theorem tail_read {α : Type} {f : α → GoStr} {R : α → α → Prop} : ∀ (xs ys : List α) (r r' : GoStr),
    (∀ x ∈ xs, ∀ y ∈ ys, ReadsBack f R x y) → tailText (xs.map f) r = tailText (ys.map f) r' → List.Forall₂ R xs ys ∧ r = r'
  | [], [], r, r', _, h => ⟨.nil, by simpa [tailText] using h⟩
  | [], y :: ys, r, r', _, h => by simp [tailText] at h
  | x :: xs, [], r, r', _, h => by simp [tailText] at h
  | x :: xs, y :: ys, r, r', hR, h => by
    simp only [List.map_cons, tailText, List.cons.injEq, true_and] at h
    obtain ⟨h1, h2⟩ := (hR x (by simp) y (by simp)).back _ _ (tailText_ends _ _) (tailText_ends _ _) h
    obtain ⟨h3, h4⟩ := tail_read xs ys r r' (fun a ha b hb => hR a (by simp [ha]) b (by simp [hb])) h2
    exact ⟨.cons h1 h3, h4⟩

theorem list_read {α : Type} {f : α → GoStr} {R : α → α → Prop} (xs ys : List α) (r r' : GoStr)
    (hx : ∀ x ∈ xs, BeginsOpen (f x)) (hy : ∀ y ∈ ys, BeginsOpen (f y)) (hR : ∀ x ∈ xs, ∀ y ∈ ys, ReadsBack f R x y)
    (h : spaceSep (xs.map f) ++ 93 :: r = spaceSep (ys.map f) ++ 93 :: r') : List.Forall₂ R xs ys ∧ r = r' := by
  rw [spaceSep_text, spaceSep_text] at h
  cases xs with
  | nil =>
    cases ys with
    | nil => exact ⟨.nil, by simpa [listText] using h⟩
    | cons y ys =>
      obtain ⟨c, t, e, hc⟩ := hy y (by simp)
      simp only [List.map_nil, List.map_cons, listText, e, List.cons_append, List.cons.injEq] at h
      exact absurd h.1.symm hc
  | cons x xs =>
    cases ys with
    | nil =>
      obtain ⟨c, t, e, hc⟩ := hx x (by simp)
      simp only [List.map_nil, List.map_cons, listText, e, List.cons_append, List.cons.injEq] at h
      exact absurd h.1 hc
    | cons y ys =>
      simp only [List.map_cons, listText] at h
      obtain ⟨h1, h2⟩ := (hR x (by simp) y (by simp)).back _ _ (tailText_ends _ _) (tailText_ends _ _) h
      obtain ⟨h3, h4⟩ := tail_read xs ys r r' (fun a ha b hb => hR a (by simp [ha]) b (by simp [hb])) h2
      exact ⟨.cons h1 h3, h4⟩

/-! ### Documents -/

theorem Solid.begins {t : GoStr} (h : Solid t) (hne : t ≠ []) : BeginsOpen t := by
  cases t with
  | nil => exact absurd rfl hne
  | cons c t => exact ⟨c, t, rfl, fun e => h c (by simp) (by subst e; decide)⟩

theorem wordy_cases {v : GoVal} (hv : Wordy v) : Atomic v ∨ (∃ xs, v = .slice false xs) ∨ ∃ kvs, v = .map false kvs := by
  cases hv with
  | arr xs _ => exact .inr (.inl ⟨xs, rfl⟩)
  | obj kvs _ _ _ => exact .inr (.inr ⟨kvs, rfl⟩)
  | _ => exact .inl ⟨fun _ _ h => (by cases h), fun _ _ h => (by cases h)⟩

theorem fmtIn_slice (n : Bool) (xs : List GoVal) (r : GoStr) :
    fmtIn L (.slice n xs) ++ r = 91 :: (spaceSep (xs.map (fmtIn L)) ++ 93 :: r) := by
  simp [fmtIn, fmtElems_eq]

/-- The text of an entry of a map. -/
def entryText (L : FmtLib) (p : GoStr × GoVal) : GoStr := p.1 ++ 58 :: fmtIn L p.2

theorem fmtIn_map (n : Bool) (kvs : List (GoStr × GoVal)) (r : GoStr) :
    fmtIn L (.map n kvs) ++ r = b! "map" ++ 91 :: (spaceSep ((byKey kvs).map (entryText L)) ++ 93 :: r) := by
  have e : (byKey (fmtEntries L kvs)).map (fun p => p.1 ++ 58 :: p.2) = (byKey kvs).map (entryText L) := by
    rw [fmtEntries_eq, byKey_map, List.map_map]
    rfl
  simp only [fmtIn, e]
  simp

theorem wordy_begins (hL : L.Good) {v : GoVal} (hv : Wordy v) : BeginsOpen (fmtIn L v) := by
  rcases wordy_cases hv with h | ⟨xs, rfl⟩ | ⟨kvs, rfl⟩
  · obtain ⟨h1, h2⟩ := atomic_solid hL hv h
    exact h1.begins h2
  · exact ⟨91, _, rfl, by decide⟩
  · exact ⟨109, _, rfl, by decide⟩

theorem solid_ne_bracket {t r u : GoStr} (h : Solid t) (hne : t ≠ []) : t ++ r ≠ 91 :: u := by
  cases t with
  | nil => exact absurd rfl hne
  | cons c t =>
    intro e
    simp only [List.cons_append, List.cons.injEq] at e
    exact h c (by simp) (by rw [e.1]; decide)

theorem solid_ne_map {t r u : GoStr} (h : Solid t) (hr : Ends r) : t ++ r ≠ b! "map" ++ 91 :: u := by
  intro e
  obtain ⟨_, rfl⟩ := solid_read h (by unfold Solid; decide) hr.stops (fun c hc => by cases hc; decide) e
  rcases hr 91 rfl with h | h <;> revert h <;> decide

theorem atomic_refl {v : GoVal} (hv : Wordy v) (ha : Atomic v) : JsonEq v v := by
  cases hv with
  | null => exact .null
  | bool b => exact .bool b
  | num n m _ => exact .num _ _ ⟨_, rfl, rfl⟩
  | str s _ => exact .str s
  | arr xs _ => exact absurd rfl (ha.1 _ _)
  | obj kvs _ _ _ => exact absurd rfl (ha.2 _ _)

theorem atomic_reads (hL : L.Good) {v w : GoVal} (hv : Wordy v) (ha : Atomic v) (hw : Wordy w) : ReadsBack (fmtIn L) JsonEq v w := by
  obtain ⟨h1, h2⟩ := atomic_solid hL hv ha
  refine ⟨fun r r' hr hr' h => ?_⟩
  rcases wordy_cases hw with hb | ⟨xs, rfl⟩ | ⟨kvs, rfl⟩
  · obtain ⟨e, hrr⟩ := solid_read h1 (atomic_solid hL hw hb).1 hr.stops hr'.stops h
    have := atomic_inj hL hv hw ha hb e
    subst this
    exact ⟨atomic_refl hv ha, hrr⟩
  · rw [fmtIn_slice] at h
    exact absurd h (solid_ne_bracket h1 h2)
  · rw [fmtIn_map] at h
    exact absurd h (solid_ne_map h1 hr)

theorem doc_read (hL : L.Good) : ∀ {v : GoVal}, Wordy v → ∀ w, Wordy w → ReadsBack (fmtIn L) JsonEq v w := by
  intro v hv
  induction hv with
  | arr xs hxs ih =>
    intro w hw
    refine ⟨fun r r' hr hr' h => ?_⟩
    rcases wordy_cases hw with ha | ⟨ys, rfl⟩ | ⟨kvs, rfl⟩
    · obtain ⟨h1, h2⟩ := atomic_solid hL hw ha
      rw [fmtIn_slice] at h
      exact absurd h.symm (solid_ne_bracket h1 h2)
    · cases hw with
      | arr _ hys =>
        rw [fmtIn_slice, fmtIn_slice] at h
        simp only [List.cons.injEq, true_and] at h
        obtain ⟨h1, h2⟩ := list_read (R := JsonEq) xs ys r r' (fun x hx => wordy_begins hL (hxs x hx)) (fun y hy => wordy_begins hL (hys y hy))
          (fun x hx y hy => ih x hx y (hys y hy)) h
        refine ⟨.arr xs ys h1.length_eq (fun i x y hx hy => ?_), h2⟩
        obtain ⟨i1, i2⟩ := List.getElem?_eq_some_iff.1 hx
        obtain ⟨j1, j2⟩ := List.getElem?_eq_some_iff.1 hy
        have := h1.get i1 j1
        rw [List.get_eq_getElem, List.get_eq_getElem, i2, j2] at this
        exact this
    · rw [fmtIn_slice, fmtIn_map] at h
      simp at h
  | obj kvs hn hk hkvs ih =>
    intro w hw
    refine ⟨fun r r' hr hr' h => ?_⟩
    rcases wordy_cases hw with ha | ⟨ys, rfl⟩ | ⟨kws, rfl⟩
    · obtain ⟨h1, h2⟩ := atomic_solid hL hw ha
      rw [fmtIn_map] at h
      exact absurd h.symm (solid_ne_map h1 hr')
    · rw [fmtIn_slice, fmtIn_map] at h
      simp at h
    · cases hw with
      | obj _ hn' hk' hkws =>
        rw [fmtIn_map, fmtIn_map] at h
        have h := (List.cons.inj (List.append_cancel_left h)).2
        have memx : ∀ p, p ∈ byKey kvs → p ∈ kvs := fun p hp => (byKey_perm kvs).mem_iff.1 hp
        have memy : ∀ p, p ∈ byKey kws → p ∈ kws := fun p hp => (byKey_perm kws).mem_iff.1 hp
        have hb : ∀ (k : GoStr) (x : GoVal), Word k → BeginsOpen (entryText L (k, x)) := by
          intro k x hk
          obtain ⟨c, t, e, hc⟩ := hk.solid.begins hk.1
          exact ⟨c, t ++ 58 :: fmtIn L x, by simp only [entryText, e, List.cons_append], hc⟩
        obtain ⟨h1, h2⟩ := list_read (R := fun p q => p.1 = q.1 ∧ JsonEq p.2 q.2) (byKey kvs) (byKey kws) r r'
          (fun p hp => hb p.1 p.2 (hk _ _ (memx p hp))) (fun p hp => hb p.1 p.2 (hk' _ _ (memy p hp)))
          (fun p hp q hq => ⟨fun s s' hs hs' e => by
            simp only [entryText, List.append_assoc, List.cons_append] at e
            obtain ⟨e1, e2⟩ := solid_read (hk _ _ (memx p hp)).solid (hk' _ _ (memy q hq)).solid
              (fun c hc => by cases hc; decide) (fun c hc => by cases hc; decide) e
            obtain ⟨e3, e4⟩ := (ih p.1 p.2 (memx p hp) q.2 (hkws _ _ (memy q hq))).back s s' hs hs' (List.cons.inj e2).2
            exact ⟨⟨e1, e3⟩, e4⟩⟩) h
        have fwd : ∀ {l l' : List (GoStr × GoVal)}, List.Forall₂ (fun p q => p.1 = q.1 ∧ JsonEq p.2 q.2) l l' →
            (∀ k x, (k, x) ∈ l → ∃ y, (k, y) ∈ l' ∧ JsonEq x y) ∧ ∀ k y, (k, y) ∈ l' → ∃ x, (k, x) ∈ l := by
          intro l l' hf
          induction hf with
          | nil => exact ⟨fun k x h => (by cases h), fun k x h => (by cases h)⟩
          | @cons p q l l' hpq _ ihf =>
            obtain ⟨k1, x1⟩ := p
            obtain ⟨k2, y1⟩ := q
            obtain ⟨e, hj⟩ := hpq
            simp only at e hj
            subst e
            refine ⟨fun k x hm => ?_, fun k y hm => ?_⟩
            · rcases List.mem_cons.1 hm with hm | hm
              · cases hm; exact ⟨y1, by simp, hj⟩
              · obtain ⟨y, a, b⟩ := ihf.1 k x hm
                exact ⟨y, by simp [a], b⟩
            · rcases List.mem_cons.1 hm with hm | hm
              · cases hm; exact ⟨x1, by simp⟩
              · obtain ⟨x, a⟩ := ihf.2 k y hm
                exact ⟨x, by simp [a]⟩
        obtain ⟨f1, f2⟩ := fwd h1
        refine ⟨.obj kvs kws (fun k => ⟨fun ⟨x, hx⟩ => ?_, fun ⟨y, hy⟩ => ?_⟩) (fun k x y hx hy => ?_), h2⟩
        · obtain ⟨y, hy, _⟩ := f1 k x ((byKey_perm kvs).mem_iff.2 hx)
          exact ⟨y, memy _ hy⟩
        · obtain ⟨x, hx⟩ := f2 k y ((byKey_perm kws).mem_iff.2 hy)
          exact ⟨x, memx _ hx⟩
        · obtain ⟨y', hy', hj⟩ := f1 k x ((byKey_perm kvs).mem_iff.2 hx)
          rw [nodup_keys_eq hn' hy (memy _ hy')]
          exact hj
  | null => exact fun w hw => atomic_reads hL .null ⟨fun _ _ h => (by cases h), fun _ _ h => (by cases h)⟩ hw
  | bool b => exact fun w hw => atomic_reads hL (.bool b) ⟨fun _ _ h => (by cases h), fun _ _ h => (by cases h)⟩ hw
  | num n m hm => exact fun w hw => atomic_reads hL (.num n m hm) ⟨fun _ _ h => (by cases h), fun _ _ h => (by cases h)⟩ hw
  | str s hs => exact fun w hw => atomic_reads hL (.str s hs) ⟨fun _ _ h => (by cases h), fun _ _ h => (by cases h)⟩ hw

end Jsval
