import Verif.Lemmas.ShowsSim
import Verif.Props.Defaults
/-!
# Validation of structs follows validation of the maps they stand for: whole constraints
-/
namespace Jsval
variable {ext : Ext} {env : Env} {K : Role} {d : Bool}

/-- The parts of a schedule that the loops of an object constraint use. -/
abbrev Parts := (Sched × Sched) × (Sched × Sched × Sched) × (Sched × Sched) × (Sched × Sched)

/-- The schedule with these parts. -/
def Parts.sched (t : Parts) : Sched := Sched.mk' 0 fun i =>
  match i with
  | 0 => t.1.1 | 1 => t.1.2
  | 2 => t.2.1.1 | 3 => t.2.1.2.1 | 4 => t.2.1.2.2
  | 5 => t.2.2.1.1 | 6 => t.2.2.1.2
  | 7 => t.2.2.2.1 | 8 => t.2.2.2.2
  | _ => t.1.1

/-- Its parts. -/
def Sched.parts (σ : Sched) : Parts :=
  ((σ.sub 0, σ.sub 1), (σ.sub 2, σ.sub 3, σ.sub 4), (σ.sub 5, σ.sub 6), (σ.sub 7, σ.sub 8))

theorem objLoops_parts (ext : Ext) (o : ObjC Sem) (σ : Sched) (st : ObjSt) : objLoops ext o σ st = objLoops ext o σ.parts.sched st := rfl

section
variable {o : ObjC Constraint} {f : Constraint → Sem}

theorem objLoops_even (h : ObjFair ext env K d o f) {st st' : ObjSt} (hs : ObjEven ext env K st st') (τ : Sched) :
    ∃ τ', Paced (EndEven ext env K) (EndEven ext env K) (objLoops ext (o.map f) (sel d τ τ') st) (objLoops ext (o.map f) (sel d τ' τ) st') := by
  let A1 := fun (t : Sched × Sched) (st : ObjSt) => forLoop (propStep ext (o.map f) t.2) 0 (shuffle t.1.key (o.map f).props) st
  let A2 := fun (t : Sched × Sched × Sched) (st : ObjSt) =>
    forLoop (patOuter ext (Parts.sched ((t.1, t.1), t, (t.1, t.1), (t.1, t.1)))) 0 (shuffle t.1.key (o.map f).patterns) st
  let A3 := fun (t : Sched × Sched) (st : ObjSt) => addlPhase (o.map f) (Parts.sched (t, (t.1, t.1, t.1), t, t)) st
  let A4 := fun (t : Sched × Sched) (st : ObjSt) => forLoop (depStep (o.map f) t.2) 0 (shuffle t.1.key st.pseen) st
  have h34 : ∀ st st', NamesEven ext env K o [] st st' → ∀ t : (Sched × Sched) × (Sched × Sched), ∃ t', Paced (EndEven ext env K) (EndEven ext env K)
      (seqSt (A3 (sel d t t').1 st) (A4 (sel d t t').2)) (seqSt (A3 (sel d t' t).1 st') (A4 (sel d t' t).2)) := fun st st' hs t => by
    refine seqSt_paced (A := A3) (B := A4) (Rel0 := NamesEven ext env K o []) (Rel := EndEven ext env K) (fun st st' hs t => ?_) (fun st st' hs t => ?_) hs t
    · obtain ⟨t', ht⟩ := addlPhase_even h hs t
      exact ⟨t', ht _ _ rfl rfl rfl rfl⟩
    · obtain ⟨t', ht⟩ := depLoop_even h hs t
      refine ⟨t', ?_⟩
      have := ht (Parts.sched ((t.1, t.1), (t.1, t.1, t.1), (t.1, t.1), sel d t t')) (Parts.sched ((t.1, t.1), (t.1, t.1, t.1), (t.1, t.1), sel d t' t)) rfl rfl rfl rfl
      exact this
  have h234 : ∀ st st', NamesEven ext env K o [] st st' → ∀ t : (Sched × Sched × Sched) × (Sched × Sched) × (Sched × Sched), ∃ t',
      Paced (EndEven ext env K) (EndEven ext env K)
      (seqSt (A2 (sel d t t').1 st) fun st => seqSt (A3 (sel d t t').2.1 st) (A4 (sel d t t').2.2))
      (seqSt (A2 (sel d t' t).1 st') fun st => seqSt (A3 (sel d t' t).2.1 st) (A4 (sel d t' t).2.2)) := fun st st' hs t => by
    refine seqSt_paced (A := A2) (B := fun t st => seqSt (A3 t.1 st) (A4 t.2)) (Rel0 := NamesEven ext env K o []) (Rel := NamesEven ext env K o [])
      (fun st st' hs t => ?_) h34 hs t
    obtain ⟨t', ht⟩ := patLoop_even h hs t
    exact ⟨t', ht _ _ rfl rfl rfl rfl rfl rfl⟩
  obtain ⟨t', ht⟩ := seqSt_paced (A := A1) (B := fun t st => seqSt (A2 t.1 st) fun st => seqSt (A3 t.2.1 st) (A4 t.2.2)) (Rel0 := ObjEven ext env K)
    (Rel := NamesEven ext env K o []) (fun st st' hs t => propLoop_even h hs t) h234 hs τ.parts
  refine ⟨Parts.sched t', ?_⟩
  have e1 : objLoops ext (o.map f) (sel d τ (Parts.sched t')) st = seqSt (A1 (sel d τ.parts t').1 st) fun st =>
      seqSt (A2 (sel d τ.parts t').2.1 st) fun st => seqSt (A3 (sel d τ.parts t').2.2.1 st) (A4 (sel d τ.parts t').2.2.2) := by cases d <;> rfl
  have e2 : objLoops ext (o.map f) (sel d (Parts.sched t') τ) st' = seqSt (A1 (sel d t' τ.parts).1 st') fun st =>
      seqSt (A2 (sel d t' τ.parts).2.1 st) fun st => seqSt (A3 (sel d t' τ.parts).2.2.1 st) (A4 (sel d t' τ.parts).2.2.2) := by cases d <;> rfl
  rw [e1, e2]
  exact ht

/-- What is not an object is left as it is, with the same verdict. -/
theorem leaf_even {p : Validator} (hp : ∀ σ v w, LeafFor K v w → v = w ∨ ∃ r, p σ v = (r, v) ∧ p σ w = (r, w)) (hkeep : ∀ σ v, IsLeaf v → (p σ v).2 = v) {v w : GoVal}
    (h : LeafFor K v w) (τ : Sched) : ∃ τ', SameEnd ext env K w (p (sel d τ τ') v) (p (sel d τ' τ) w) := by
  refine ⟨τ, ?_⟩
  have e : sel d τ τ = τ := by cases d <;> rfl
  rw [e]
  rcases hp τ v w h with rfl | ⟨r, h1, h2⟩
  · have := hkeep τ v h.right
    exact ⟨rfl, by rw [this]; exact .leaf _ _ _ h, fun _ => this⟩
  · rw [h1, h2]
    exact ⟨rfl, .leaf _ _ _ h, fun _ => rfl⟩

theorem LeafFor.cases_eq {v w : GoVal} (h : LeafFor K v w) : v = w ∨ ((IsNumber v ∨ IsText v ∨ v = .ptr none ∨ ∃ x, v = .ptr (some x) ∧ (IsNumber x ∨ IsText x)) ∧
    (IsNumber w ∨ IsText w ∨ w = .nil)) := by
  induction h with
  | same => exact Or.inl rfl
  | int => exact Or.inr ⟨Or.inl trivial, Or.inl trivial⟩
  | uint => exact Or.inr ⟨Or.inl trivial, Or.inl trivial⟩
  | single => exact Or.inr ⟨Or.inl trivial, Or.inl trivial⟩
  | null => exact Or.inr ⟨Or.inr (Or.inr (Or.inl rfl)), Or.inr (Or.inr rfl)⟩
  | behind x y _ hx _ ih =>
    refine Or.inr ⟨Or.inr (Or.inr (Or.inr ⟨x, rfl, hx⟩)), ?_⟩
    rcases ih with rfl | ih
    · exact hx.imp id Or.inl
    · exact ih.2

theorem objectV_leaf {o : ObjC Sem} (σ : Sched) (v w : GoVal) (h : LeafFor K v w) : v = w ∨ ∃ r, objectV ext o σ v = (r, v) ∧ objectV ext o σ w = (r, w) := by
  refine h.cases_eq.imp id fun h => ⟨.err .noPropNames, ?_, ?_⟩
  · rcases h.1 with h | h | rfl | ⟨x, rfl, h | h⟩
    · cases v <;> first | rfl | cases h
    · cases v <;> first | rfl | cases h
    · rfl
    · cases x <;> first | rfl | cases h
    · cases x <;> first | rfl | cases h
  · rcases h.2 with h | h | rfl
    · cases w <;> first | rfl | cases h
    · cases w <;> first | rfl | cases h
    · rfl

theorem objectV_even (h : ObjFair ext env K d o f) (hkeep : ∀ σ v, IsLeaf v → (objectV ext (o.map f) σ v).2 = v) : Evenly ext env K d (objectV ext (o.map f)) := by
  intro v w hl τ
  by_cases hm : ∃ n kws, w = .map n kws
  · obtain ⟨n, kws, rfl⟩ := hm
    have hgp : getPropNames (valueOf (.map n kws)).indirect = .ok (kws.map (·.1)) := by simp [getPropNames, valueOf, RV.indirect]
    obtain ⟨l, hl1, hl2⟩ := hl.names
    unfold objectV
    rw [hgp, hl1]
    simp only [hl2.length_eq]
    split
    · exact ⟨τ, rfl, hl, fun h => h.notMap.elim⟩
    · split
      · exact ⟨τ, rfl, hl, fun h => h.notMap.elim⟩
      · have hst : ObjEven ext env K ⟨v, nameSet l, []⟩ ⟨.map n kws, nameSet (kws.map (·.1)), []⟩ :=
          ⟨⟨n, kws, rfl, hl, fun k hk => mem_nameSet.1 hk⟩, (List.perm_ext_iff_of_nodup (nodup_nameSet _) (nodup_nameSet _)).2 fun k => by
            rw [mem_nameSet, mem_nameSet, hl2.mem_iff], rfl⟩
        obtain ⟨τ', h1⟩ := objLoops_even h hst τ
        exact ⟨τ', h1.res, h1.fin.val, fun h => h.notMap.elim⟩
  · cases hl with
    | leaf _ _ _ hs => exact leaf_even objectV_leaf hkeep hs τ
    | slice _ n xs ys h1 h2 h3 => exact ⟨τ, rfl, .slice _ n xs ys h1 h2 h3, fun _ => rfl⟩
    | _ => exact absurd ⟨_, _, rfl⟩ hm

end

/-! ## Arrays -/

/-- Lists related item by item, where the relation depends on the position. -/
inductive Lined (R : Nat → GoVal → GoVal → Prop) : Nat → List GoVal → List GoVal → Prop where
  | nil (i) : Lined R i [] []
  | cons {i x y xs ys} : R i x y → Lined R (i + 1) xs ys → Lined R i (x :: xs) (y :: ys)

theorem lined_iff {R : Nat → GoVal → GoVal → Prop} : ∀ {i : Nat} {xs ys : List GoVal}, Lined R i xs ys ↔ xs.length = ys.length ∧
    ∀ (j : Nat) x y, xs[j]? = some x → ys[j]? = some y → R (i + j) x y
  | i, [], [] => ⟨fun _ => ⟨rfl, fun j x y h => by simp at h⟩, fun _ => .nil i⟩
  | i, x :: xs, [] => ⟨fun h => (by cases h), fun h => by simp at h⟩
  | i, [], y :: ys => ⟨fun h => (by cases h), fun h => by simp at h⟩
  | i, x :: xs, y :: ys => by
    constructor
    · rintro (_ | ⟨h1, h2⟩)
      obtain ⟨h3, h4⟩ := lined_iff.1 h2
      refine ⟨by simp [h3], fun j a b ha hb => ?_⟩
      cases j with
      | zero => simp at ha hb; subst ha; subst hb; exact h1
      | succ j =>
        simp only [List.getElem?_cons_succ] at ha hb
        have := h4 j a b ha hb
        rwa [show i + 1 + j = i + (j + 1) by omega] at this
    · rintro ⟨h1, h2⟩
      refine .cons (h2 0 x y rfl rfl) (lined_iff.2 ⟨by simpa using h1, fun j a b ha hb => ?_⟩)
      have := h2 (j + 1) a b (by simpa using ha) (by simpa using hb)
      rwa [show i + (j + 1) = i + 1 + j by omega] at this

theorem Lined.length_eq {R : Nat → GoVal → GoVal → Prop} {i : Nat} {xs ys : List GoVal} (h : Lined R i xs ys) : xs.length = ys.length :=
  (lined_iff.1 h).1

theorem Lined.drop {R : Nat → GoVal → GoVal → Prop} {i : Nat} {xs ys : List GoVal} (h : Lined R i xs ys) (n : Nat) :
    Lined R (i + n) (xs.drop n) (ys.drop n) := by
  rw [lined_iff] at h ⊢
  refine ⟨by simp [h.1], fun j x y hx hy => ?_⟩
  rw [List.getElem?_drop] at hx hy
  rw [Nat.add_assoc]
  exact h.2 (n + j) x y hx hy

theorem Lined.splice {R : Nat → GoVal → GoVal → Prop} : ∀ {n i : Nat} {xs ys zs ws : List GoVal}, Lined R i xs ys → n ≤ xs.length →
    Lined R (i + n) zs ws → Lined R i (xs.take n ++ zs) (ys.take n ++ ws)
  | 0, _, _, _, _, _, _, _, h => by simpa using h
  | n + 1, _, _, _, _, _, .nil _, hn, _ => by simp at hn
  | n + 1, i, _, _, _, _, .cons h1 h2, hn, h => by
    simp only [List.take_succ_cons, List.cons_append]
    exact .cons h1 (h2.splice (by simpa using hn) (by rwa [show i + 1 + n = i + (n + 1) by omega]))

theorem slice_lined {n : Bool} {xs ys : List GoVal} (h : StandsFor ext env K (.slice n xs) (.slice n ys)) :
    Lined (fun i => StandsFor ext env (K.item env i)) 0 xs ys ∧ ∀ a, K (.array a) → a.unique = true → xs = ys ∧ ∀ x ∈ xs, IsLeaf x := by
  cases h with
  | leaf _ _ _ h => exact h.right.notSlice.elim
  | slice _ _ _ _ h1 h2 h3 =>
    refine ⟨lined_iff.2 ⟨h1, fun j x y hx hy => ?_⟩, h3⟩
    rw [Nat.zero_add]
    exact h2 j x y hx hy

theorem lined_slice {n : Bool} {xs ys : List GoVal} (h : Lined (fun i => StandsFor ext env (K.item env i)) 0 xs ys)
    (hu : ∀ a, K (.array a) → a.unique = true → xs = ys ∧ ∀ x ∈ xs, IsLeaf x) : StandsFor ext env K (.slice n xs) (.slice n ys) := by
  rw [lined_iff] at h
  refine .slice K n xs ys h.1 (fun i x y hx hy => ?_) hu
  have := h.2 i x y hx hy
  rwa [Nat.zero_add] at this

theorem runItems_from {s : Sem} {σ σ' : Sched} : ∀ (xs : List GoVal) (i : Nat), (∀ j, i ≤ j → σ.sub j = σ'.sub j) →
    runItems s σ i xs = runItems s σ' i xs
  | [], _, _ => rfl
  | x :: xs, i, h => by
    rw [runItems, runItems, h i (Nat.le_refl i), runItems_from xs (i + 1) fun j hj => h j (by omega)]

theorem sel_patch_here (τ t u : Sched) (i : Nat) : (sel d τ (patch i t u)).sub i = sel d (τ.sub i) t ∧ (sel d (patch i t u) τ).sub i = sel d t (τ.sub i) := by
  rw [sel_sub, sel_sub, patch_here]
  exact ⟨rfl, rfl⟩

theorem sel_patch_later (τ t u : Sched) {i j : Nat} (h : i < j) :
    (sel d τ (patch i t u)).sub j = (sel d τ u).sub j ∧ (sel d (patch i t u) τ).sub j = (sel d u τ).sub j := by
  rw [sel_sub, sel_sub, sel_sub, sel_sub, patch_later _ _ h]
  exact ⟨rfl, rfl⟩

section
variable {L : Nat → Role}

theorem runItems_even {s : Sem} (τ : Sched) : ∀ {xs ys : List GoVal} (i : Nat), (∀ j, i ≤ j → Evenly ext env (L j) d s.val) →
    Lined (fun i => StandsFor ext env (L i)) i xs ys →
    ∃ τ', (runItems s (sel d τ τ') i xs).1 = (runItems s (sel d τ' τ) i ys).1 ∧
      Lined (fun i => StandsFor ext env (L i)) i (runItems s (sel d τ τ') i xs).2 (runItems s (sel d τ' τ) i ys).2
  | _, _, _, _, .nil i => ⟨τ, rfl, .nil i⟩
  | _, _, i, h, .cons (x := x) (y := w) (xs := xs) (ys := ys) hx hxs => by
    obtain ⟨u, hu⟩ := runItems_even τ (i + 1) (fun j hj => h j (by omega)) hxs
    obtain ⟨t, ht⟩ := h i (Nat.le_refl i) x w hx (τ.sub i)
    refine ⟨patch i t u, ?_⟩
    have l1 := runItems_from (s := s) xs (i + 1) fun j hj => (sel_patch_later (d := d) τ t u (i := i) hj).1
    have l2 := runItems_from (s := s) ys (i + 1) fun j hj => (sel_patch_later (d := d) τ t u (i := i) hj).2
    rw [runItems, runItems, (sel_patch_here τ t u i).1, (sel_patch_here τ t u i).2, l1, l2]
    rcases e1 : s.val (sel d (τ.sub i) t) x with ⟨r, y⟩
    rcases e2 : s.val (sel d t (τ.sub i)) w with ⟨r', y'⟩
    rw [e1, e2] at ht
    obtain ⟨hr1, hr2, -⟩ := ht
    simp only at hr1 hr2
    subst hr1
    cases r with
    | ok => exact ⟨hu.1, .cons hr2 hu.2⟩
    | err e => exact ⟨rfl, .cons hr2 hxs⟩
    | abort a => exact ⟨rfl, .cons hr2 hxs⟩

theorem runPos_from {σ σ' : Sched} : ∀ (cs : List Sem) (xs : List GoVal) (i : Nat), (∀ j, i ≤ j → σ.sub j = σ'.sub j) →
    runPos σ i cs xs = runPos σ' i cs xs
  | [], _, _, _ => rfl
  | _ :: _, [], _, _ => rfl
  | c :: cs, x :: xs, i, h => by
    rw [runPos, runPos, h i (Nat.le_refl i), runPos_from cs xs (i + 1) fun j hj => h j (by omega)]

theorem runPos_even {f : Constraint → Sem} (τ : Sched) : ∀ (cs : List Constraint) {xs ys : List GoVal} (i : Nat),
    (∀ j c, cs[j]? = some c → Evenly ext env (L (i + j)) d (f c).val) → Lined (fun i => StandsFor ext env (L i)) i xs ys →
    ∃ τ', (runPos (sel d τ τ') i (cs.map f) xs).1 = (runPos (sel d τ' τ) i (cs.map f) ys).1 ∧
      Lined (fun i => StandsFor ext env (L i)) i (runPos (sel d τ τ') i (cs.map f) xs).2 (runPos (sel d τ' τ) i (cs.map f) ys).2
  | [], _, _, _, _, h => ⟨τ, rfl, h⟩
  | c :: cs, _, _, _, _, .nil i => ⟨τ, rfl, .nil i⟩
  | c :: cs, _, _, i, h, .cons (x := x) (y := w) (xs := xs) (ys := ys) hx hxs => by
    obtain ⟨u, hu⟩ := runPos_even τ cs (i + 1) (fun j e he => by
      rw [show i + 1 + j = i + (j + 1) by omega]
      exact h (j + 1) e (by simpa using he)) hxs
    obtain ⟨t, ht⟩ := h 0 c rfl x w hx (τ.sub i)
    refine ⟨patch i t u, ?_⟩
    have l1 := runPos_from (cs.map f) xs (i + 1) fun j hj => (sel_patch_later (d := d) τ t u (i := i) hj).1
    have l2 := runPos_from (cs.map f) ys (i + 1) fun j hj => (sel_patch_later (d := d) τ t u (i := i) hj).2
    rw [List.map_cons, runPos, runPos, (sel_patch_here τ t u i).1, (sel_patch_here τ t u i).2, l1, l2]
    rcases e1 : (f c).val (sel d (τ.sub i) t) x with ⟨r, y⟩
    rcases e2 : (f c).val (sel d t (τ.sub i)) w with ⟨r', y'⟩
    rw [e1, e2] at ht
    obtain ⟨hr1, hr2, -⟩ := ht
    simp only at hr1 hr2
    subst hr1
    cases r with
    | ok => exact ⟨hu.1, .cons hr2 hu.2⟩
    | err e => exact ⟨rfl, .cons hr2 hxs⟩
    | abort a => exact ⟨rfl, .cons hr2 hxs⟩

end

/-- The schedule with these three parts. -/
def three (a b c : Sched) : Sched := Sched.mk' 0 fun i => match i with | 0 => a | 1 => b | _ => c

theorem arrayElems_even {a : ArrC Constraint} {f : Constraint → Sem} (hc : ∀ i c, a.Asks i c → Evenly ext env (K.item env i) d (f c).val) (τ : Sched)
    {xs ys : List GoVal} (hx : Lined (fun i => StandsFor ext env (K.item env i)) 0 xs ys) :
    ∃ τ', (arrayElems (a.map f) (sel d τ τ') xs).1 = (arrayElems (a.map f) (sel d τ' τ) ys).1 ∧
      Lined (fun i => StandsFor ext env (K.item env i)) 0 (arrayElems (a.map f) (sel d τ τ') xs).2 (arrayElems (a.map f) (sel d τ' τ) ys).2 := by
  obtain ⟨items, pos, add, mn, mx, u⟩ := a
  simp only [arrayElems, ArrC.map, sel_sub]
  cases items with
  | some c =>
    obtain ⟨t, ht⟩ := runItems_even (L := fun i => K.item env i) (τ.sub 0) 0 (fun i _ => hc i c (.items rfl)) hx
    exact ⟨three t t t, ht⟩
  | none =>
    simp only [Option.map_none]
    obtain ⟨t, h1⟩ := runPos_even (L := fun i => K.item env i) (f := f) (τ.sub 1) pos 0 (fun j c h => by rw [Nat.zero_add]; exact hc j c (.positional rfl h)) hx
    have e1 : ∀ q, (three t t q).sub 1 = t := fun q => rfl
    rcases e2 : runPos (sel d (τ.sub 1) t) 0 (pos.map f) xs with ⟨r, us⟩
    rcases e3 : runPos (sel d t (τ.sub 1)) 0 (pos.map f) ys with ⟨r', us'⟩
    rw [e2, e3] at h1
    obtain ⟨hr, hu⟩ := h1
    simp only at hr hu
    subst hr
    cases r with
    | err e => exact ⟨three t t t, by simp only [e1, e2, e3]; exact ⟨trivial, hu⟩⟩
    | abort e => exact ⟨three t t t, by simp only [e1, e2, e3]; exact ⟨trivial, hu⟩⟩
    | ok =>
      cases add with
      | none =>
        refine ⟨three t t t, ?_⟩
        simp only [e1, e2, e3, runAdditional, List.length_map, hu.length_eq, Option.map_none]
        split <;> exact ⟨rfl, hu⟩
      | some c =>
        obtain ⟨q, hq⟩ := runItems_even (L := fun i => K.item env i) (τ.sub 2) (pos.length - 1) (fun i hi => hc i c (.additional rfl hi rfl))
          (by have := hu.drop (pos.length - 1); rwa [Nat.zero_add] at this)
        have e4 : (three t t q).sub 2 = q := rfl
        refine ⟨three t t q, ?_⟩
        simp only [e1, e2, e3, e4, runAdditional, List.length_map, hu.length_eq, Option.map_some]
        split
        · rename_i hlen
          exact ⟨hq.1, hu.splice (by have := hu.length_eq; omega) (by rw [Nat.zero_add]; exact hq.2)⟩
        · exact ⟨rfl, hu⟩

theorem runItems_leaves {s : Sem} {σ : Sched} (h : ∀ σ v, IsLeaf v → (s.val σ v).2 = v) : ∀ (xs : List GoVal) (i : Nat), (∀ x ∈ xs, IsLeaf x) →
    (runItems s σ i xs).2 = xs
  | [], _, _ => rfl
  | x :: xs, i, hx => by
    rw [runItems]
    have h1 := h (σ.sub i) x (hx x (by simp))
    rcases e : s.val (σ.sub i) x with ⟨r, y⟩
    rw [e] at h1
    simp only at h1
    subst h1
    cases r with
    | ok => simp only [runItems_leaves h xs (i + 1) fun z hz => hx z (by simp [hz])]
    | _ => rfl

theorem runPos_leaves {σ : Sched} : ∀ (cs : List Sem) (xs : List GoVal) (i : Nat), (∀ s ∈ cs, ∀ σ v, IsLeaf v → (s.val σ v).2 = v) →
    (∀ x ∈ xs, IsLeaf x) → (runPos σ i cs xs).2 = xs
  | [], _, _, _, _ => rfl
  | _ :: _, [], _, _, _ => rfl
  | s :: cs, x :: xs, i, h, hx => by
    rw [runPos]
    have h1 := h s (by simp) (σ.sub i) x (hx x (by simp))
    rcases e : s.val (σ.sub i) x with ⟨r, y⟩
    rw [e] at h1
    simp only at h1
    subst h1
    cases r with
    | ok => simp only [runPos_leaves cs xs (i + 1) (fun z hz => h z (by simp [hz])) fun z hz => hx z (by simp [hz])]
    | _ => rfl

theorem arrayElems_leaves {a : ArrC Constraint} {f : Constraint → Sem} (hc : ∀ c, a.Child c → ∀ σ v, IsLeaf v → ((f c).val σ v).2 = v) (σ : Sched)
    {xs : List GoVal} (hx : ∀ x ∈ xs, IsLeaf x) : (arrayElems (a.map f) σ xs).2 = xs := by
  obtain ⟨items, pos, add, mn, mx, u⟩ := a
  simp only [arrayElems, ArrC.map]
  cases items with
  | some c => exact runItems_leaves (hc c (.items rfl)) xs 0 hx
  | none =>
    simp only [Option.map_none]
    have h1 := runPos_leaves (σ := σ.sub 1) (pos.map f) xs 0 (fun s hs => by
      obtain ⟨c, hc', rfl⟩ := List.mem_map.1 hs
      exact hc c (.positional hc')) hx
    rcases e : runPos (σ.sub 1) 0 (pos.map f) xs with ⟨r, ys⟩
    rw [e] at h1
    simp only at h1
    subst h1
    cases r with
    | ok =>
      simp only [runAdditional, List.length_map]
      split
      · cases add with
        | none => rfl
        | some c =>
          simp only [Option.map_some]
          rw [runItems_leaves (hc c (.additional rfl)) _ _ fun x h => hx x (List.mem_of_mem_drop h), List.take_append_drop]
      · rfl
    | _ => rfl

theorem arrayV_leaf {a : ArrC Sem} {v : GoVal} (σ : Sched) (h : IsLeaf v) : arrayV ext a σ v = (.err .notSlice, v) := by
  cases h with
  | scalar h => cases h <;> rfl
  | _ => rfl

theorem arrayV_even {a : ArrC Constraint} {f : Constraint → Sem} (hk : K (.array a)) (hc : ∀ i c, a.Asks i c → Evenly ext env (K.item env i) d (f c).val)
    (hkeep : ∀ c, a.Child c → ∀ σ v, IsLeaf v → ((f c).val σ v).2 = v) : Evenly ext env K d (arrayV ext (a.map f)) := by
  intro v w h τ
  have h0 := h
  have e1 : (a.map f).unique = a.unique := rfl
  cases h with
  | leaf _ _ _ hs =>
    refine leaf_even (fun σ v w h => ?_) (fun σ v h => by rw [arrayV_leaf σ h]) hs τ
    refine h.cases_eq.imp id fun h' => ⟨.err .notSlice, ?_, arrayV_leaf σ h.right⟩
    rcases h'.1 with h | h | rfl | ⟨x, rfl, h | h⟩
    · cases v <;> first | rfl | cases h
    · cases v <;> first | rfl | cases h
    · rfl
    · cases x <;> first | rfl | cases h
    · cases x <;> first | rfl | cases h
  | slice _ n xs ys hl hx hq =>
    obtain ⟨hxs, -⟩ := slice_lined h0
    obtain ⟨τ', h⟩ := arrayElems_even hc τ hxs
    have hs : StandsFor ext env K (.slice n (arrayElems (a.map f) (sel d τ τ') xs).2) (.slice n (arrayElems (a.map f) (sel d τ' τ) ys).2) := by
      refine lined_slice h.2 fun a' ha' hu' => ?_
      obtain ⟨rfl, hsc⟩ := hq a' ha' hu'
      rw [arrayElems_leaves hkeep _ hsc, arrayElems_leaves hkeep _ hsc]
      exact ⟨rfl, hsc⟩
    have hun : (a.unique = true ∧ uniqueLoop ext [] xs = false) ↔ (a.unique = true ∧ uniqueLoop ext [] ys = false) := by
      constructor <;> rintro ⟨h1, h2⟩
      · obtain ⟨rfl, -⟩ := hq a hk h1; exact ⟨h1, h2⟩
      · obtain ⟨rfl, -⟩ := hq a hk h1; exact ⟨h1, h2⟩
    refine ⟨τ', ?_⟩
    simp only [arrayV, valueOf, hl, e1, hun]
    split
    · exact ⟨rfl, h0, fun _ => rfl⟩
    · split
      · exact ⟨rfl, h0, fun _ => rfl⟩
      · split
        · exact ⟨rfl, h0, fun _ => rfl⟩
        · exact ⟨h.1, hs, fun h => h.notSlice.elim⟩
  | _ => exact ⟨τ, rfl, h0, fun _ => rfl⟩

/-! ## Combinators -/

section
variable {f : Constraint → Sem}

theorem anyLoop_from {σ σ' : Sched} : ∀ (cs : List Sem) (i : Nat) (v : GoVal), (∀ j, i ≤ j → σ.sub j = σ'.sub j) → anyLoop i cs σ v = anyLoop i cs σ' v
  | [], _, _, _ => rfl
  | c :: cs, i, v, h => by
    simp only [anyLoop, h i (Nat.le_refl i)]
    rcases c.val (σ'.sub i) v with ⟨r, y⟩
    cases r with
    | ok => rfl
    | err e => exact anyLoop_from cs (i + 1) y fun j hj => h j (by omega)
    | abort a => rfl

theorem allLoop_from {σ σ' : Sched} : ∀ (cs : List Sem) (i : Nat) (v : GoVal), (∀ j, i ≤ j → σ.sub j = σ'.sub j) → allLoop i cs σ v = allLoop i cs σ' v
  | [], _, _, _ => rfl
  | c :: cs, i, v, h => by
    simp only [allLoop, h i (Nat.le_refl i)]
    rcases c.val (σ'.sub i) v with ⟨r, y⟩
    cases r with
    | ok => exact allLoop_from cs (i + 1) y fun j hj => h j (by omega)
    | err e => rfl
    | abort a => rfl

theorem oneOfLoop_from {σ σ' : Sched} : ∀ (cs : List Sem) (i n : Nat) (v : GoVal), (∀ j, i ≤ j → σ.sub j = σ'.sub j) →
    oneOfLoop i n cs σ v = oneOfLoop i n cs σ' v
  | [], _, _, _, _ => rfl
  | c :: cs, i, n, v, h => by
    simp only [oneOfLoop, h i (Nat.le_refl i)]
    rcases c.val (σ'.sub i) v with ⟨r, y⟩
    cases r with
    | ok => exact oneOfLoop_from cs (i + 1) (n + 1) y fun j hj => h j (by omega)
    | err e => exact oneOfLoop_from cs (i + 1) n y fun j hj => h j (by omega)
    | abort a => rfl

theorem anyLoop_even : ∀ (cs : List Constraint), (∀ c ∈ cs, Evenly ext env K d (f c).val) → ∀ (i : Nat), Evenly ext env K d (anyLoop i (cs.map f))
  | [], _, _, _, _, h, τ => ⟨τ, rfl, h, fun _ => rfl⟩
  | c :: cs, hc, i, v, w, h, τ => by
    obtain ⟨t, ht⟩ := hc c (by simp) v w h (τ.sub i)
    rcases e1 : (f c).val (sel d (τ.sub i) t) v with ⟨r, y⟩
    rcases e2 : (f c).val (sel d t (τ.sub i)) w with ⟨r', y'⟩
    rw [e1, e2] at ht
    obtain ⟨hr1, hr2, hr3⟩ := ht
    simp only at hr1 hr2 hr3
    subst hr1
    obtain ⟨u, hu⟩ := anyLoop_even cs (fun d hd => hc d (by simp [hd])) (i + 1) y y' hr2 τ
    refine ⟨patch i t u, ?_⟩
    have l1 := anyLoop_from (cs.map f) (i + 1) y fun j hj => (sel_patch_later (d := d) τ t u (i := i) hj).1
    have l2 := anyLoop_from (cs.map f) (i + 1) y' fun j hj => (sel_patch_later (d := d) τ t u (i := i) hj).2
    rw [List.map_cons, anyLoop]
    simp only
    rw [(sel_patch_here τ t u i).1, (sel_patch_here τ t u i).2]
    simp only [e1, e2]
    cases r with
    | ok => exact ⟨rfl, hr2, hr3⟩
    | err e =>
      simp only [l1, l2]
      exact ⟨hu.res, hu.val, fun hw => (hu.keep (by rw [hr3 hw]; exact hw)).trans (hr3 hw)⟩
    | abort a => exact ⟨rfl, hr2, hr3⟩

theorem allLoop_even : ∀ (cs : List Constraint), (∀ c ∈ cs, Evenly ext env K d (f c).val) → ∀ (i : Nat), Evenly ext env K d (allLoop i (cs.map f))
  | [], _, _, _, _, h, τ => ⟨τ, rfl, h, fun _ => rfl⟩
  | c :: cs, hc, i, v, w, h, τ => by
    obtain ⟨t, ht⟩ := hc c (by simp) v w h (τ.sub i)
    rcases e1 : (f c).val (sel d (τ.sub i) t) v with ⟨r, y⟩
    rcases e2 : (f c).val (sel d t (τ.sub i)) w with ⟨r', y'⟩
    rw [e1, e2] at ht
    obtain ⟨hr1, hr2, hr3⟩ := ht
    simp only at hr1 hr2 hr3
    subst hr1
    obtain ⟨u, hu⟩ := allLoop_even cs (fun d hd => hc d (by simp [hd])) (i + 1) y y' hr2 τ
    refine ⟨patch i t u, ?_⟩
    have l1 := allLoop_from (cs.map f) (i + 1) y fun j hj => (sel_patch_later (d := d) τ t u (i := i) hj).1
    have l2 := allLoop_from (cs.map f) (i + 1) y' fun j hj => (sel_patch_later (d := d) τ t u (i := i) hj).2
    rw [List.map_cons, allLoop]
    simp only
    rw [(sel_patch_here τ t u i).1, (sel_patch_here τ t u i).2]
    simp only [e1, e2]
    cases r with
    | ok =>
      simp only [l1, l2]
      exact ⟨hu.res, hu.val, fun hw => (hu.keep (by rw [hr3 hw]; exact hw)).trans (hr3 hw)⟩
    | err e => exact ⟨rfl, hr2, hr3⟩
    | abort a => exact ⟨rfl, hr2, hr3⟩

theorem oneOfLoop_even : ∀ (cs : List Constraint), (∀ c ∈ cs, Evenly ext env K d (f c).val) → ∀ (i n : Nat), Evenly ext env K d (oneOfLoop i n (cs.map f))
  | [], _, _, n, _, _, h, τ => by
    refine ⟨τ, ?_⟩
    simp only [List.map_nil, oneOfLoop]
    split
    · exact ⟨rfl, h, fun _ => rfl⟩
    · split <;> exact ⟨rfl, h, fun _ => rfl⟩
  | c :: cs, hc, i, n, v, w, h, τ => by
    obtain ⟨t, ht⟩ := hc c (by simp) v w h (τ.sub i)
    rcases e1 : (f c).val (sel d (τ.sub i) t) v with ⟨r, y⟩
    rcases e2 : (f c).val (sel d t (τ.sub i)) w with ⟨r', y'⟩
    rw [e1, e2] at ht
    obtain ⟨hr1, hr2, hr3⟩ := ht
    simp only at hr1 hr2 hr3
    subst hr1
    have step : ∀ m, ∃ u, SameEnd ext env K w (oneOfLoop (i + 1) m (cs.map f) (sel d τ (patch i t u)) y) (oneOfLoop (i + 1) m (cs.map f) (sel d (patch i t u) τ) y') := by
      intro m
      obtain ⟨u, hu⟩ := oneOfLoop_even cs (fun d hd => hc d (by simp [hd])) (i + 1) m y y' hr2 τ
      have l1 := oneOfLoop_from (cs.map f) (i + 1) m y fun j hj => (sel_patch_later (d := d) τ t u (i := i) hj).1
      have l2 := oneOfLoop_from (cs.map f) (i + 1) m y' fun j hj => (sel_patch_later (d := d) τ t u (i := i) hj).2
      refine ⟨u, ?_⟩
      rw [l1, l2]
      exact ⟨hu.res, hu.val, fun hw => (hu.keep (by rw [hr3 hw]; exact hw)).trans (hr3 hw)⟩
    cases r with
    | ok =>
      obtain ⟨u, hu⟩ := step (n + 1)
      refine ⟨patch i t u, ?_⟩
      rw [List.map_cons, oneOfLoop]
      simp only
      rw [(sel_patch_here τ t u i).1, (sel_patch_here τ t u i).2]
      simp only [e1, e2]
      exact hu
    | err e =>
      obtain ⟨u, hu⟩ := step n
      refine ⟨patch i t u, ?_⟩
      rw [List.map_cons, oneOfLoop]
      simp only
      rw [(sel_patch_here τ t u i).1, (sel_patch_here τ t u i).2]
      simp only [e1, e2]
      exact hu
    | abort a =>
      refine ⟨patch i t t, ?_⟩
      rw [List.map_cons, oneOfLoop]
      simp only
      rw [(sel_patch_here τ t t i).1, (sel_patch_here τ t t i).2]
      simp only [e1, e2]
      exact ⟨rfl, hr2, hr3⟩

theorem notV_even {c : Option Constraint} (hc : ∀ e, c = some e → Evenly ext env K d (f e).val) : Evenly ext env K d (notV (c.map f)) := by
  intro v w h τ
  cases c with
  | none => exact ⟨τ, rfl, h, fun _ => rfl⟩
  | some e =>
    obtain ⟨t, ht⟩ := hc e rfl v w h (τ.sub 0)
    refine ⟨three t t t, ?_⟩
    have e0 : (three t t t).sub 0 = t := rfl
    simp only [notV, Option.map_some, sel_sub, e0]
    rcases e1 : (f e).val (sel d (τ.sub 0) t) v with ⟨r, y⟩
    rcases e2 : (f e).val (sel d t (τ.sub 0)) w with ⟨r', y'⟩
    rw [e1, e2] at ht
    obtain ⟨hr1, hr2, hr3⟩ := ht
    simp only at hr1 hr2 hr3
    subst hr1
    cases r <;> exact ⟨rfl, hr2, hr3⟩

end

/-! ## Trees -/

theorem enumCheck_even : ∀ {vals : List GoVal}, (∀ e ∈ vals, IsScalar e) → (K.TakesSingles → ∀ e ∈ vals, ¬ IsNumber e) →
    (K.TakesNull → .nil ∉ vals) → (K.TakesPointers → ∀ e ∈ vals, ¬ IsNumber e ∧ ¬ IsText e) →
    ∀ {v w : GoVal}, StandsFor ext env K v w → enumCheck vals v = enumCheck vals w
  | [], _, _, _, _, _, _, _ => rfl
  | e :: es, he, hn, hnull, hptr, v, w, h => by
    have hg : goEq e v = goEq e w := by
      have hs := he e (by simp)
      have num : K.TakesSingles → ¬ IsNumber e := fun h => hn h e (by simp)
      have nul : K.TakesNull → .nil ≠ e := fun h he => hnull h (by simp [← he])
      have ptr : K.TakesPointers → ¬ IsNumber e ∧ ¬ IsText e := fun h => hptr h e (by simp)
      cases h with
      | leaf _ _ _ h =>
        cases h with
        | same => rfl
        | int k n hi =>
          have := num hi.2
          cases hs <;> first | rfl | exact absurd trivial this
        | uint k n hi =>
          have := num hi.2
          cases hs <;> first | rfl | exact absurd trivial this
        | single f hi =>
          have := num hi
          cases hs <;> first | rfl | exact absurd trivial this
        | null hi =>
          have := nul hi
          cases hs <;> first | rfl | exact absurd rfl this
        | behind x _ hi hx h =>
          obtain ⟨h1, h2⟩ := ptr hi
          have hw : IsNumber w ∨ IsText w := by
            cases h with
            | same => exact hx
            | null => rcases hx with h | h <;> cases h
            | behind => rcases hx with h | h <;> cases h
            | _ => exact Or.inl trivial
          cases hs <;> first | exact absurd trivial h1 | exact absurd trivial h2 | skip
          all_goals cases w <;> first | rfl | (rcases hw with h | h <;> cases h)
      | _ => cases hs <;> rfl
    rw [enumCheck, enumCheck, hg, enumCheck_even (fun d hd => he d (by simp [hd])) (fun h d hd => hn h d (by simp [hd])) (fun h hd => hnull h (by simp [hd]))
      (fun h d hd => hptr h d (by simp [hd])) h]

/-- Checks that look behind pointers, and take a nil pointer for nil. -/
structure Behind (p : GoVal → Res) : Prop where
  null : p (.ptr none) = p .nil
  num : ∀ x, IsNumber x → p (.ptr (some x)) = p x
  text : ∀ x, IsText x → p (.ptr (some x)) = p x

theorem Behind.of {p : GoVal → Res} (h0 : p (.ptr none) = p .nil) (h1 : ∀ k n, p (.ptr (some (.int k n))) = p (.int k n))
    (h2 : ∀ k n, p (.ptr (some (.uint k n))) = p (.uint k n)) (h3 : ∀ k f, p (.ptr (some (.float k f))) = p (.float k f))
    (h4 : ∀ s, p (.ptr (some (.str s))) = p (.str s)) : Behind p := by
  refine ⟨h0, fun x hx => ?_, fun x hx => ?_⟩
  · cases x <;> first | exact h1 _ _ | exact h2 _ _ | exact h3 _ _ | cases hx
  · cases x <;> first | exact h4 _ | cases hx

/-- Integer constraints convert what they are given to `float64`. -/
theorem intCheck_even {n : NumC} {v w : GoVal} (h : StandsFor ext env K v w) : intCheck n v = intCheck n w := by
  have whole : ∀ k : Int, intCheck n (.float .f64 (F64.ofInt k)) = numCheck n (.float .f64 (F64.ofInt k)) := fun k => by
    simp only [intCheck, valueOf, RV.indirect, (F64.floor_eq_iff _).2 (F64.whole_ofInt k)]
    rfl
  have hb : Behind (intCheck n) := .of rfl (fun _ _ => rfl) (fun _ _ => rfl) (fun _ _ => rfl) fun _ => rfl
  cases h with
  | leaf _ _ _ h =>
    induction h with
    | same => rfl
    | int k m => rw [whole]; rfl
    | uint k m => rw [whole]; rfl
    | single => rfl
    | null => exact hb.null
    | behind x y _ hx _ ih => exact (hx.elim (hb.num x) (hb.text x)).trans ih
  | _ => rfl

/-- A leaf that stands for another passes the same checks of other kinds. -/
theorem even_leaf {p : GoVal → Res} (hp : ∀ k n k' f, p (.int k n) = p (.float k' f)) (hp' : ∀ k n k' f, p (.uint k n) = p (.float k' f))
    (hp'' : ∀ f, p (.float .f32 f) = p (.float .f64 f)) (hb : Behind p) {v w : GoVal} (h : LeafFor K v w) : p v = p w := by
  induction h with
  | same => rfl
  | int => exact hp _ _ _ _
  | uint => exact hp' _ _ _ _
  | single => exact hp'' _
  | null => exact hb.null
  | behind x y _ hx _ ih => exact (hx.elim (hb.num x) (hb.text x)).trans ih

theorem even_pure {p : GoVal → Res} (hp : ∀ v w, StandsFor ext env K v w → p v = p w) : Evenly ext env K d (pureV p) :=
  fun v w h τ => ⟨τ, hp v w h, h, fun _ => rfl⟩

/-- What is validated by a constraint of this role is validated by all the others, too. -/
def Role.Closed (env : Env) (K : Role) : Prop := ∀ c e, K c → c.Alongside env e → K e

theorem Constraint.Alongside.trans {c d e : Constraint} (h : c.Alongside env d) (h' : d.Alongside env e) : c.Alongside env e := by
  induction h with
  | refl => exact h'
  | same h1 _ ih => exact .same h1 (ih h')
  | ref h1 _ ih => exact .ref h1 (ih h')

theorem prop_closed (k : GoStr) : (K.prop ext env k).Closed env := by
  rintro c e ⟨o, d, h1, h2, h3⟩ h
  exact ⟨o, d, h1, h2, h3.trans h⟩

theorem item_closed (i : Nat) : (K.item env i).Closed env := by
  rintro c e ⟨a, d, h1, h2, h3⟩ h
  exact ⟨a, d, h1, h2, h3.trans h⟩

theorem Role.Closed.kid (h : K.Closed env) {c e : Constraint} (hc : K c) (he : c.Same e) : K e := h c e hc (.same he (.refl e))

/-- Behaves alike, and its default is a scalar. -/
structure EvenSem (ext : Ext) (env : Env) (d : Bool) (c : Constraint) (s : Sem) : Prop where
  run : ∀ K : Role, K.Closed env → K c → Evenly ext env K d s.val
  scalar : ∀ dv, s.dflt = .some dv → IsScalar dv ∧ dv ≠ .nil

theorem even_node {ρ : RefSem} {c : Constraint} (hb : c.Fair)
    (hdf : ∀ o p e dv, c = .object o → (p, e) ∈ o.props → (denote ext ρ e).dflt = .some dv → DefaultReturns ext env e (.some dv))
    (hself : ∀ σ v, IsLeaf v → ((denote ext ρ c).val σ v).2 = v) (hkeep : ∀ e, c.Child e → ∀ σ v, IsLeaf v → ((denote ext ρ e).val σ v).2 = v)
    (hρ : ∀ m n, c = .ref m n → EvenSem ext env d (.ref m n) (ρ m n))
    (ih : ∀ e, c.Child e → EvenSem ext env d e (denote ext ρ e)) : EvenSem ext env d c (denote ext ρ c) := by
  obtain ⟨he, hd⟩ := hb
  cases c with
  | empty => exact ⟨fun K _ _ v w h τ => ⟨τ, rfl, h, fun _ => rfl⟩, fun _ h => by cases h⟩
  | null =>
    simp only [denote]
    refine ⟨fun K _ _ => even_pure fun v w h => ?_, fun _ h => by cases h⟩
    cases h with
    | leaf _ _ _ h => exact even_leaf (fun _ _ _ _ => rfl) (fun _ _ _ _ => rfl) (fun _ => rfl) (.of rfl (fun _ _ => rfl) (fun _ _ => rfl) (fun _ _ => rfl) fun _ => rfl) h
    | slice _ n => cases n <;> rfl
    | map _ n => cases n <;> rfl
    | _ => rfl
  | boolean x =>
    simp only [denote]
    refine ⟨fun K _ _ => even_pure fun v w h => ?_, fun dv h => hd dv (ofOption_some h)⟩
    cases h with
    | leaf _ _ _ h => exact even_leaf (fun _ _ _ _ => rfl) (fun _ _ _ _ => rfl) (fun _ => rfl) (.of rfl (fun _ _ => rfl) (fun _ _ => rfl) (fun _ _ => rfl) fun _ => rfl) h
    | _ => rfl
  | string s =>
    simp only [denote]
    refine ⟨fun K _ _ => even_pure fun v w h => ?_, fun dv h => hd dv (ofOption_some h)⟩
    cases h with
    | leaf _ _ _ h => exact even_leaf (fun _ _ _ _ => rfl) (fun _ _ _ _ => rfl) (fun _ => rfl) (.of rfl (fun _ _ => rfl) (fun _ _ => rfl) (fun _ _ => rfl) fun _ => rfl) h
    | _ => rfl
  | number s =>
    simp only [denote]
    refine ⟨fun K _ hk => even_pure fun v w h => ?_, fun dv h => hd dv (ofOption_some h)⟩
    cases h with
    | leaf _ _ _ h =>
      have hb : Behind (numCheck s) := .of rfl (fun _ _ => rfl) (fun _ _ => rfl) (fun _ _ => rfl) fun _ => rfl
      induction h with
      | same => rfl
      | int k n hi => exact absurd hk (hi.1 s)
      | uint k n hi => exact absurd hk (hi.1 s)
      | single => rfl
      | null => exact hb.null
      | behind x y _ hx _ ih => exact (hx.elim (hb.num x) (hb.text x)).trans ih
    | _ => rfl
  | integer s =>
    simp only [denote]
    exact ⟨fun K _ _ => even_pure fun v w h => intCheck_even h, fun dv h => hd dv (ofOption_some h)⟩
  | enum vals =>
    simp only [denote]
    exact ⟨fun K _ hk => even_pure fun v w h => enumCheck_even (he vals rfl) (fun h => h vals hk) (fun h => h vals hk) (fun h => h vals hk) h, fun _ h => by cases h⟩
  | array a =>
    simp only [denote, denoteArr_eq]
    refine ⟨fun K hcl hk => arrayV_even hk (fun i c h => (ih c (.array ?_)).run _ (item_closed i) ⟨a, c, hk, h, .refl c⟩) fun c h => hkeep c (.array h), fun _ h => by cases h⟩
    cases h with
    | items h => exact .items h
    | positional _ h => exact .positional (List.mem_of_getElem? h)
    | additional _ _ h => exact .additional h
  | object o =>
    simp only [denote, denoteObj_eq] at hself ⊢
    refine ⟨fun K hcl hk => objectV_even ⟨hk, fun k c h => (ih c (.object ?_)).run _ (prop_closed k) ⟨o, c, hk, h, .refl c⟩,
      fun k c h => (ih c (.object (.dependency h))).run K hcl (hcl.kid hk (.dependency h)), fun _ _ => rfl, fun p e hp dv hdv => ?_⟩ hself, fun _ h => by cases h⟩
    · cases h with
      | declared h => exact .prop h
      | pattern _ h => exact .pattern h
      | additional _ h => exact .additional h
    · obtain ⟨h1, h2⟩ := (ih e (.object (.prop hp))).scalar dv hdv
      exact ⟨h1, h2, o, e, hk, hp, hdf o p e dv rfl hp hdv⟩
  | any cs =>
    simp only [denote, denoteList_eq]
    exact ⟨fun K hcl hk => anyLoop_even cs (fun e hd => (ih e (.any hd)).run K hcl (hcl.kid hk (.any hd))) 0, fun _ h => by cases h⟩
  | all cs =>
    simp only [denote, denoteList_eq]
    exact ⟨fun K hcl hk => allLoop_even cs (fun e hd => (ih e (.all hd)).run K hcl (hcl.kid hk (.all hd))) 0, fun _ h => by cases h⟩
  | oneOf cs =>
    simp only [denote, denoteList_eq]
    exact ⟨fun K hcl hk => oneOfLoop_even cs (fun e hd => (ih e (.oneOf hd)).run K hcl (hcl.kid hk (.oneOf hd))) 0 0, fun _ h => by cases h⟩
  | not c =>
    simp only [denote, denoteOpt_eq]
    exact ⟨fun K hcl hk => notV_even fun e hd => (ih e (by subst hd; exact .not)).run K hcl (hcl.kid hk (by subst hd; exact .not)), fun _ h => by cases h⟩
  | ref m n =>
    simp only [denote]
    exact hρ m n rfl

theorem fair_direct {c : Constraint} (h : c.Fair) : DefaultIn Direct c := fun dv hd => by
  have := (h.2 dv hd).1
  cases this <;> constructor

/-- Leaves are left as they are. -/
theorem leaf_kept (he : env.Every Constraint.Fair) {c : Constraint} (hc : c.Every Constraint.Fair) (fuel : Nat) (σ : Sched) {v : GoVal} (hv : IsLeaf v) :
    ((sem ext env fuel c).val σ v).2 = v := by
  have hd : Direct v := by
    cases hv with
    | scalar h => cases h <;> constructor
    | ptr h => cases h <;> exact .ptr _ trivial (by constructor)
    | ptrTime t => exact .ptr _ trivial (.time t)
    | _ => constructor
  have h := C40_extension_partial (ext := ext) (σ := σ) (he.imp fun _ => fair_direct) (hc.imp fun _ => fair_direct) hd fuel
  generalize ((sem ext env fuel c).val σ v).2 = w at h
  cases hv with
  | scalar hv => cases h <;> first | rfl | cases hv
  | ptr hv =>
    cases h with
    | refl => rfl
    | ptr _ _ h => cases h <;> first | rfl | cases hv
  | ptrTime t =>
    cases h with
    | refl => rfl
    | ptr _ _ h => cases h; rfl
  | _ => cases h; rfl

theorem even_tree {k : Nat} (he : env.Every Constraint.Fair) (hρ : ∀ m n, EvenSem ext env d (.ref m n) (refSem ext env k m n)) (c : Constraint)
    (hb : c.Every Constraint.Fair) : EvenSem ext env d c (sem ext env k c) := by
  induction c using Constraint.ind with
  | h c ih =>
    exact even_node (hb c (.refl c)) (fun o p e dv ho hp hdv => ⟨by simp, k, hdv⟩)
      (fun σ v hv => leaf_kept he hb k σ hv) (fun e hc σ v hv => leaf_kept he (fun x hx => hb x (.child hc hx)) k σ hv) (fun m n _ => hρ m n)
      fun e he => ih e he fun x hx => hb x (.child he hx)

theorem even_ref (he : env.Every Constraint.Fair) : ∀ k m n, EvenSem ext env d (.ref m n) (refSem ext env k m n)
  | 0, _, _ => ⟨fun K _ _ v w h τ => ⟨τ, rfl, h, fun _ => rfl⟩, fun _ h => by cases h⟩
  | k + 1, m, n => by
    simp only [refSem]
    cases hc : env m n with
    | none => exact ⟨fun K _ _ v w h τ => ⟨τ, rfl, h, fun _ => rfl⟩, fun _ h => by cases h⟩
    | some c =>
      obtain ⟨h1, h2⟩ := even_tree he (even_ref he k) c (he m n c hc)
      exact ⟨fun K hcl hk => h1 K hcl (hcl _ _ hk (.ref hc (.refl c))), h2⟩

/-- The simulation. -/
theorem even_sem (he : env.Every Constraint.Fair) {c : Constraint} (hc : c.Every Constraint.Fair) (fuel : Nat) :
    Evenly ext env (c.Alongside env) d (sem ext env fuel c).val :=
  (even_tree he (even_ref he fuel) c hc).run _ (fun _ _ h h' => h.trans h') (.refl c)

end Jsval
