import Verif.Lemmas.MemoryFrame
/-!
# Printing and laying out documents in memory
-/
namespace Jsval

mutual
theorem Holds.functional {H : Memory} : ∀ {h : MVal} {v v' : GoVal} {L L' : List Nat}, Holds H h v L → Holds H h v' L' → v = v'
  | _, _, _, _, _, .atom a _, h => by cases h; rfl
  | _, _, _, _, _, .nilMap, h => by cases h; rfl
  | _, _, _, _, _, .slice n xs vs L h, h' => by
    cases h' with
    | slice _ _ vs' _ h' => rw [h.functional h']
  | _, _, _, _, _, .map l kvs L h, h' => by
    cases h' with
    | map _ kvs' _ h' => rw [h.functional h']

theorem HoldsAll.functional {H : Memory} : ∀ {xs : List MVal} {vs vs' : List GoVal} {L L' : List Nat}, HoldsAll H xs vs L → HoldsAll H xs vs' L' → vs = vs'
  | _, _, _, _, _, .nil, h => by cases h; rfl
  | _, _, _, _, _, .cons _ _ _ _ _ _ h g, h' => by
    cases h' with
    | cons _ _ _ _ _ _ h' g' => rw [h.functional h', g.functional g']

theorem HoldsEntries.functional {H : Memory} : ∀ {es : List (GoStr × MVal)} {kvs kvs' : List (GoStr × GoVal)} {L L' : List Nat}, HoldsEntries H es kvs L →
    HoldsEntries H es kvs' L' → kvs = kvs'
  | _, _, _, _, _, .nil, h => by cases h; rfl
  | _, _, _, _, _, .cons _ _ _ _ _ _ _ h g, h' => by
    cases h' with
    | cons _ _ _ _ _ _ _ h' g' => rw [h.functional h', g.functional g']
end

/-- What is reached from a part is reached from the whole. -/
theorem CanReach.mono {H : Memory} {x h : MVal} (hx : ∀ l, x.Mentions l → CanReach H h l) {l : Nat} (hr : CanReach H x l) : CanReach H h l := by
  induction hr with
  | here h => exact hx _ h
  | inside _ hm hx ih => exact .inside ih hm hx

mutual
theorem Holds.reaches {H : Memory} : ∀ {h : MVal} {v : GoVal} {L : List Nat}, Holds H h v L → ∀ l ∈ L, CanReach H h l
  | _, _, _, .atom _ _, _, hl => nomatch hl
  | _, _, _, .nilMap, _, hl => nomatch hl
  | _, _, _, .slice n xs vs L h, l, hl => by
    obtain ⟨x, hx, hr⟩ := h.reaches l hl
    exact hr.mono fun l' hl' => .here (.slice hx hl')
  | _, _, _, .map l0 kvs L h, l, hl => by
    rcases List.mem_cons.1 hl with rfl | hl
    · exact .here (.map l)
    · obtain ⟨k, x, hx, hr⟩ := h.reaches l hl
      exact hr.mono fun l' hl' => .inside (.here (.map l0)) hx hl'

theorem HoldsAll.reaches {H : Memory} : ∀ {xs : List MVal} {vs : List GoVal} {L : List Nat}, HoldsAll H xs vs L → ∀ l ∈ L, ∃ x ∈ xs, CanReach H x l
  | _, _, _, .nil, _, hl => nomatch hl
  | _, _, _, .cons x xs _ _ _ _ h g, l, hl => by
    rcases List.mem_append.1 hl with hl | hl
    · exact ⟨x, List.mem_cons_self .., h.reaches l hl⟩
    · obtain ⟨y, hy, hr⟩ := g.reaches l hl
      exact ⟨y, List.mem_cons_of_mem _ hy, hr⟩

theorem HoldsEntries.reaches {H : Memory} : ∀ {es : List (GoStr × MVal)} {kvs : List (GoStr × GoVal)} {L : List Nat}, HoldsEntries H es kvs L →
    ∀ l ∈ L, ∃ k x, (k, x) ∈ es ∧ CanReach H x l
  | _, _, _, .nil, _, hl => nomatch hl
  | _, _, _, .cons k x _ _ _ _ _ h g, l, hl => by
    rcases List.mem_append.1 hl with hl | hl
    · exact ⟨k, x, List.mem_cons_self .., h.reaches l hl⟩
    · obtain ⟨k', y, hy, hr⟩ := g.reaches l hl
      exact ⟨k', y, List.mem_cons_of_mem _ hy, hr⟩
end

theorem CanReach.congr {H H' : Memory} {h : MVal} (ha : ∀ l, CanReach H h l → H l = H' l) {l : Nat} (hr : CanReach H' h l) : CanReach H h l := by
  induction hr with
  | here h => exact .here h
  | inside _ hm hx ih => exact .inside ih (by rw [ha _ ih]; exact hm) hx

theorem HoldsShared.congr {H H' : Memory} {h : MVal} (ha : ∀ l, CanReach H h l → H l = H' l) {v : GoVal} : HoldsShared H h v ↔ HoldsShared H' h v := by
  constructor
  · rintro ⟨L, hh⟩
    exact ⟨L, hh.frame fun l hl => (ha l (hh.reaches l hl)).symm⟩
  · rintro ⟨L, hh⟩
    exact ⟨L, hh.frame fun l hl => ha l (.congr ha (hh.reaches l hl))⟩

/-- The maps reached from a document are the ones met on the way. -/
theorem Holds.mem_of_reaches {H : Memory} {h : MVal} {v : GoVal} {L : List Nat} (hh : Holds H h v L) {l : Nat} (hr : CanReach H h l) : l ∈ L := by
  suffices hs : (∀ l, h.Mentions l → l ∈ L) ∧ ∀ l ∈ L, ∀ k x, (k, x) ∈ H l → ∀ l', x.Mentions l' → l' ∈ L by
    induction hr with
    | here h => exact hs.1 _ h
    | inside _ hm hx ih => exact hs.2 _ ih _ _ hm _ hx
  clear hr l
  refine Holds.rec (motive_1 := fun h _ L _ => (∀ l, h.Mentions l → l ∈ L) ∧ ∀ l ∈ L, ∀ k x, (k, x) ∈ H l → ∀ l', x.Mentions l' → l' ∈ L)
    (motive_2 := fun xs _ L _ => (∀ x ∈ xs, ∀ l, x.Mentions l → l ∈ L) ∧ ∀ l ∈ L, ∀ k x, (k, x) ∈ H l → ∀ l', x.Mentions l' → l' ∈ L)
    (motive_3 := fun es _ L _ => (∀ k x, (k, x) ∈ es → ∀ l, x.Mentions l → l ∈ L) ∧ ∀ l ∈ L, ∀ k x, (k, x) ∈ H l → ∀ l', x.Mentions l' → l' ∈ L)
    ?_ ?_ ?_ ?_ ?_ ?_ ?_ ?_ hh
  · intro a _; exact ⟨fun l h => (by cases h), fun l h => nomatch h⟩
  · exact ⟨fun l h => (by cases h), fun l h => nomatch h⟩
  · intro n xs vs L _ ih
    exact ⟨fun l h => (by cases h with | slice hx hm => exact ih.1 _ hx l hm), ih.2⟩
  · intro l0 kvs L _ ih
    refine ⟨fun l h => (by cases h; exact List.mem_cons_self ..), fun l hl k x hx l' hl' => ?_⟩
    refine List.mem_cons_of_mem _ ?_
    rcases List.mem_cons.1 hl with rfl | hl
    · exact ih.1 k x hx l' hl'
    · exact ih.2 l hl k x hx l' hl'
  · exact ⟨fun l h => (nomatch h), fun l h => (nomatch h)⟩
  · intro x xs v vs L L' _ _ ih1 ih2
    refine ⟨fun y hy l hl => ?_, fun l hl k y hy l' hl' => ?_⟩
    · rcases List.mem_cons.1 hy with rfl | hy
      · exact List.mem_append_left _ (ih1.1 l hl)
      · exact List.mem_append_right _ (ih2.1 y hy l hl)
    · rcases List.mem_append.1 hl with hl | hl
      · exact List.mem_append_left _ (ih1.2 l hl k y hy l' hl')
      · exact List.mem_append_right _ (ih2.2 l hl k y hy l' hl')
  · exact ⟨fun k l h => (nomatch h), fun l h => (nomatch h)⟩
  · intro k x es v kvs L L' _ _ ih1 ih2
    refine ⟨fun k' y hy l hl => ?_, fun l hl k y hy l' hl' => ?_⟩
    · rcases List.mem_cons.1 hy with e | hy
      · cases e; exact List.mem_append_left _ (ih1.1 l hl)
      · exact List.mem_append_right _ (ih2.1 k' y hy l hl)
    · rcases List.mem_append.1 hl with hl | hl
      · exact List.mem_append_left _ (ih1.2 l hl k y hy l' hl')
      · exact List.mem_append_right _ (ih2.2 l hl k y hy l' hl')

open Classical in
/-- Prints what is held, and nothing for cyclic values. -/
noncomputable def printing (ext : Ext) (H : Memory) (h : MVal) : GoStr :=
  if e : ∃ v, HoldsShared H h v then ext.sprint e.choose else []

theorem printing_shows (ext : Ext) : Shows ext (printing ext) where
  faithful H h v hv := by
    have e : ∃ v, HoldsShared H h v := ⟨v, hv⟩
    rw [printing, dif_pos e]
    obtain ⟨L, h1⟩ := e.choose_spec
    obtain ⟨L', h2⟩ := hv
    rw [h1.functional h2]
  local' H H' h ha := by
    classical
    have : (fun v => HoldsShared H h v) = fun v => HoldsShared H' h v := funext fun v => propext (HoldsShared.congr ha)
    have hP : ∀ P Q : GoVal → Prop, P = Q → (if e : ∃ v, P v then ext.sprint e.choose else []) = if e : ∃ v, Q v then ext.sprint e.choose else [] := by
      intro P Q e
      subst e
      rfl
    exact hP _ _ this

/-! ## Layout -/

/-- A value held at addresses from `n` on, below some bound. -/
def LaidOut (n : Nat) (v : GoVal) : Prop :=
  ∃ (H : Memory) (h : MVal) (m : Nat) (L : List Nat), n ≤ m ∧ Holds H h v L ∧ L.Nodup ∧ ∀ l ∈ L, n ≤ l ∧ l < m

theorem laidOut_all : ∀ (xs : List GoVal), (∀ x ∈ xs, ∀ n, LaidOut n x) → ∀ n,
    ∃ (H : Memory) (hs : List MVal) (m : Nat) (L : List Nat), n ≤ m ∧ HoldsAll H hs xs L ∧ L.Nodup ∧ ∀ l ∈ L, n ≤ l ∧ l < m
  | [], _, n => ⟨fun _ => [], [], n, [], Nat.le_refl n, .nil, List.nodup_nil, fun _ h => nomatch h⟩
  | x :: xs, hx, n => by
    obtain ⟨H1, h, m1, L1, g1, g2, g3, g4⟩ := hx x (by simp) n
    obtain ⟨H2, hs, m2, L2, k1, k2, k3, k4⟩ := laidOut_all xs (fun y hy => hx y (List.mem_cons_of_mem _ hy)) m1
    refine ⟨fun l => if l < m1 then H1 l else H2 l, h :: hs, m2, L1 ++ L2, by omega, .cons _ _ _ _ _ _ (g2.frame fun l hl => if_pos (g4 l hl).2)
      (k2.frame fun l hl => if_neg (by have := (k4 l hl).1; omega)), ?_, fun l hl => ?_⟩
    · refine List.nodup_append.2 ⟨g3, k3, fun a ha b hb e => ?_⟩
      have := (g4 a ha).2
      have := (k4 b hb).1
      omega
    · rcases List.mem_append.1 hl with hl | hl
      · have := g4 l hl; omega
      · have := k4 l hl; omega

theorem laidOut_entries : ∀ (kvs : List (GoStr × GoVal)), (∀ k x, (k, x) ∈ kvs → ∀ n, LaidOut n x) → ∀ n,
    ∃ (H : Memory) (es : List (GoStr × MVal)) (m : Nat) (L : List Nat), n ≤ m ∧ HoldsEntries H es kvs L ∧ L.Nodup ∧ ∀ l ∈ L, n ≤ l ∧ l < m
  | [], _, n => ⟨fun _ => [], [], n, [], Nat.le_refl n, .nil, List.nodup_nil, fun _ h => nomatch h⟩
  | (k, x) :: xs, hx, n => by
    obtain ⟨H1, h, m1, L1, g1, g2, g3, g4⟩ := hx k x (by simp) n
    obtain ⟨H2, hs, m2, L2, k1, k2, k3, k4⟩ := laidOut_entries xs (fun k y hy => hx k y (List.mem_cons_of_mem _ hy)) m1
    refine ⟨fun l => if l < m1 then H1 l else H2 l, (k, h) :: hs, m2, L1 ++ L2, by omega, .cons _ _ _ _ _ _ _ (g2.frame fun l hl => if_pos (g4 l hl).2)
      (k2.frame fun l hl => if_neg (by have := (k4 l hl).1; omega)), ?_, fun l hl => ?_⟩
    · refine List.nodup_append.2 ⟨g3, k3, fun a ha b hb e => ?_⟩
      have := (g4 a ha).2
      have := (k4 b hb).1
      omega
    · rcases List.mem_append.1 hl with hl | hl
      · have := g4 l hl; omega
      · have := k4 l hl; omega

theorem laidOut_json {v : GoVal} (hv : IsJson v) : ∀ n, LaidOut n v := by
  induction hv with
  | null => exact fun n => ⟨fun _ => [], .atom _, n, [], Nat.le_refl n, .atom _ trivial, List.nodup_nil, fun _ h => nomatch h⟩
  | bool b => exact fun n => ⟨fun _ => [], .atom _, n, [], Nat.le_refl n, .atom _ trivial, List.nodup_nil, fun _ h => nomatch h⟩
  | num f => exact fun n => ⟨fun _ => [], .atom _, n, [], Nat.le_refl n, .atom _ trivial, List.nodup_nil, fun _ h => nomatch h⟩
  | str s => exact fun n => ⟨fun _ => [], .atom _, n, [], Nat.le_refl n, .atom _ trivial, List.nodup_nil, fun _ h => nomatch h⟩
  | arr xs _ ih =>
    intro n
    obtain ⟨H, hs, m, L, g1, g2, g3, g4⟩ := laidOut_all xs ih n
    exact ⟨H, .slice false hs, m, L, g1, .slice _ _ _ _ g2, g3, g4⟩
  | obj kvs _ _ ih =>
    intro n
    obtain ⟨H, es, m, L, g1, g2, g3, g4⟩ := laidOut_entries kvs ih (n + 1)
    have hn : n ∉ L := fun h => by have := (g4 n h).1; omega
    refine ⟨fun l => if l = n then es else H l, .map (some n), m, n :: L, by omega, .map _ _ _ ?_, List.nodup_cons.2 ⟨hn, g3⟩, fun l hl => ?_⟩
    · rw [if_pos rfl]
      exact g2.frame fun l hl => if_neg fun (e : l = n) => hn (e ▸ hl)
    · rcases List.mem_cons.1 hl with rfl | hl
      · omega
      · have := g4 l hl; omega

end Jsval
