import Verif.Spec.Memory
import Verif.Lemmas.Basic
import Verif.Lemmas.Assoc
/-!
# Validation in memory against validation of values
-/
namespace Jsval

variable {sh : Memory → MVal → GoStr}

theorem run_ret {α : Type} (a : α) (H : Memory) : (Prog.ret a).run sh H = (a, H) := rfl

theorem run_bind {α β : Type} (p : Prog α) (f : α → Prog β) : ∀ H, (p >>= f).run sh H = (f (p.run sh H).1).run sh (p.run sh H).2 := by
  show ∀ H, (p.bind f).run sh H = _
  induction p with
  | ret a => intro H; rfl
  | look l q k ih => intro H; exact ih _ H
  | keys l k ih => intro H; exact ih _ H
  | set l q x k ih => intro H; exact ih _
  | sprint h k ih => intro H; exact ih _ H

/-! ## Frames -/

mutual
theorem Holds.frame {H H' : Memory} : ∀ {h : MVal} {v : GoVal} {L : List Nat}, Holds H h v L → (∀ l ∈ L, H' l = H l) → Holds H' h v L
  | _, _, _, .atom a ha, _ => .atom a ha
  | _, _, _, .nilMap, _ => .nilMap
  | _, _, _, .slice n xs vs L h, hl => .slice n xs vs L (h.frame hl)
  | _, _, _, .map l kvs L h, hl => .map l kvs L (by
      rw [hl l (List.mem_cons_self ..)]
      exact h.frame fun l' h' => hl l' (List.mem_cons_of_mem _ h'))

theorem HoldsAll.frame {H H' : Memory} : ∀ {xs : List MVal} {vs : List GoVal} {L : List Nat}, HoldsAll H xs vs L → (∀ l ∈ L, H' l = H l) →
    HoldsAll H' xs vs L
  | _, _, _, .nil, _ => .nil
  | _, _, _, .cons x xs v vs L L' h h', hl =>
    .cons x xs v vs L L' (h.frame fun l hl' => hl l (List.mem_append_left _ hl')) (h'.frame fun l hl' => hl l (List.mem_append_right _ hl'))

theorem HoldsEntries.frame {H H' : Memory} : ∀ {es : List (GoStr × MVal)} {kvs : List (GoStr × GoVal)} {L : List Nat}, HoldsEntries H es kvs L →
    (∀ l ∈ L, H' l = H l) → HoldsEntries H' es kvs L
  | _, _, _, .nil, _ => .nil
  | _, _, _, .cons k x es v kvs L L' h h', hl =>
    .cons k x es v kvs L L' (h.frame fun l hl' => hl l (List.mem_append_left _ hl')) (h'.frame fun l hl' => hl l (List.mem_append_right _ hl'))
end

/-- `H'` and `v'` are what `H` and `v` have become at `h`; nothing at all has changed if `ro`. -/
structure Became (ro : Bool) (L : List Nat) (H : Memory) (h : MVal) (v : GoVal) (H' : Memory) (v' : GoVal) : Prop where
  holds : Holds H' h v' L
  frame : ∀ l, l ∉ L → H' l = H l
  same : ro = true → H' = H ∧ v' = v

theorem Became.refl {ro : Bool} {L : List Nat} {H : Memory} {h : MVal} {v : GoVal} (hh : Holds H h v L) : Became ro L H h v H v :=
  ⟨hh, fun _ _ => rfl, fun _ => ⟨rfl, rfl⟩⟩

theorem Became.trans {ro : Bool} {L : List Nat} {H H' H'' : Memory} {h : MVal} {v v' v'' : GoVal} (a : Became ro L H h v H' v')
    (b : Became ro L H' h v' H'' v'') : Became ro L H h v H'' v'' :=
  ⟨b.holds, fun l hl => (b.frame l hl).trans (a.frame l hl), fun hr => ⟨(b.same hr).1.trans (a.same hr).1, (b.same hr).2.trans (a.same hr).2⟩⟩

/-- Sharing is allowed if nothing is written. -/
def Fit (ro : Bool) (L : List Nat) : Prop := ro = true ∨ L.Nodup

theorem Fit.sub {ro : Bool} {L L' : List Nat} (h : Fit ro L) (hs : L'.Sublist L) : Fit ro L' := h.imp id fun h => h.sublist hs

/-- Maps outside `L` are as they were, where it matters. -/
theorem Became.others {ro : Bool} {L L' : List Nat} {H H' : Memory} {h : MVal} {v v' : GoVal} (a : Became ro L H h v H' v')
    (hd : ro = true ∨ ∀ l ∈ L', l ∉ L) : ∀ l ∈ L', H' l = H l := by
  rcases hd with hd | hd
  · intro l _; rw [(a.same hd).1]
  · exact fun l hl => a.frame l (hd l hl)

theorem Fit.disjoint {ro : Bool} {L L' : List Nat} (h : Fit ro (L ++ L')) : ro = true ∨ ∀ l ∈ L', l ∉ L :=
  h.imp id fun h l hl hl' => (List.nodup_append.1 h).2.2 l hl' l hl rfl

theorem Fit.disjoint' {ro : Bool} {L L' : List Nat} (h : Fit ro (L ++ L')) : ro = true ∨ ∀ l ∈ L, l ∉ L' :=
  h.imp id fun h l hl hl' => (List.nodup_append.1 h).2.2 l hl l hl' rfl

/-- `t` does in memory what `s` does to values. -/
structure Agrees (sh : Memory → MVal → GoStr) (ro : Bool) (s : Sem) (t : MSem) : Prop where
  dflt : t.dflt = s.dflt
  scalar : ∀ dv, s.dflt = .some dv → IsAtom dv ∧ ro = false
  run : ∀ σ H h v L, Holds H h v L → Fit ro L →
    (((t.val σ h).run sh H).1 = (s.val σ v).1) ∧ Became ro L H h v ((t.val σ h).run sh H).2 (s.val σ v).2

/-! ## Combinators -/

section
variable {ro : Bool} {h : MVal} {L : List Nat}

theorem anyLoopM_agrees (σ : Sched) (hL : Fit ro L) {α : Type} {f : α → Sem} {g : α → MSem} : ∀ (cs : List α), (∀ c ∈ cs, Agrees sh ro (f c) (g c)) →
    ∀ (i : Nat) (H : Memory) (v : GoVal), Holds H h v L →
    (((anyLoopM i (cs.map g) σ h).run sh H).1 = (anyLoop i (cs.map f) σ v).1) ∧
      Became ro L H h v ((anyLoopM i (cs.map g) σ h).run sh H).2 (anyLoop i (cs.map f) σ v).2
  | [], _, i, H, v, hh => ⟨rfl, .refl hh⟩
  | c :: cs, hc, i, H, v, hh => by
    obtain ⟨h1, h2⟩ := (hc c (by simp)).run (σ.sub i) H h v L hh hL
    rcases e : (f c).val (σ.sub i) v with ⟨r, v'⟩
    rcases e' : ((g c).val (σ.sub i) h).run sh H with ⟨r', H'⟩
    rw [e, e'] at h1 h2
    simp only at h1 h2
    subst h1
    simp only [List.map_cons, anyLoopM, anyLoop, run_bind, e, e']
    cases r' with
    | ok => exact ⟨rfl, h2⟩
    | err x =>
      obtain ⟨g1, g2⟩ := anyLoopM_agrees σ hL cs (fun c h => hc c (List.mem_cons_of_mem _ h)) (i + 1) H' v' h2.holds
      exact ⟨g1, h2.trans g2⟩
    | abort a => exact ⟨rfl, h2⟩

theorem allLoopM_agrees (σ : Sched) (hL : Fit ro L) {α : Type} {f : α → Sem} {g : α → MSem} : ∀ (cs : List α), (∀ c ∈ cs, Agrees sh ro (f c) (g c)) →
    ∀ (i : Nat) (H : Memory) (v : GoVal), Holds H h v L →
    (((allLoopM i (cs.map g) σ h).run sh H).1 = (allLoop i (cs.map f) σ v).1) ∧
      Became ro L H h v ((allLoopM i (cs.map g) σ h).run sh H).2 (allLoop i (cs.map f) σ v).2
  | [], _, i, H, v, hh => ⟨rfl, .refl hh⟩
  | c :: cs, hc, i, H, v, hh => by
    obtain ⟨h1, h2⟩ := (hc c (by simp)).run (σ.sub i) H h v L hh hL
    rcases e : (f c).val (σ.sub i) v with ⟨r, v'⟩
    rcases e' : ((g c).val (σ.sub i) h).run sh H with ⟨r', H'⟩
    rw [e, e'] at h1 h2
    simp only at h1 h2
    subst h1
    simp only [List.map_cons, allLoopM, allLoop, run_bind, e, e']
    cases r' with
    | ok =>
      obtain ⟨g1, g2⟩ := allLoopM_agrees σ hL cs (fun c h => hc c (List.mem_cons_of_mem _ h)) (i + 1) H' v' h2.holds
      exact ⟨g1, h2.trans g2⟩
    | err x => exact ⟨rfl, h2⟩
    | abort a => exact ⟨rfl, h2⟩

theorem oneOfLoopM_agrees (σ : Sched) (hL : Fit ro L) {α : Type} {f : α → Sem} {g : α → MSem} : ∀ (cs : List α), (∀ c ∈ cs, Agrees sh ro (f c) (g c)) →
    ∀ (i n : Nat) (H : Memory) (v : GoVal), Holds H h v L →
    (((oneOfLoopM i n (cs.map g) σ h).run sh H).1 = (oneOfLoop i n (cs.map f) σ v).1) ∧
      Became ro L H h v ((oneOfLoopM i n (cs.map g) σ h).run sh H).2 (oneOfLoop i n (cs.map f) σ v).2
  | [], _, i, n, H, v, hh => by
    simp only [List.map_nil, oneOfLoopM, oneOfLoop]
    split
    · exact ⟨rfl, .refl hh⟩
    · split
      · exact ⟨rfl, .refl hh⟩
      · exact ⟨rfl, .refl hh⟩
  | c :: cs, hc, i, n, H, v, hh => by
    obtain ⟨h1, h2⟩ := (hc c (by simp)).run (σ.sub i) H h v L hh hL
    rcases e : (f c).val (σ.sub i) v with ⟨r, v'⟩
    rcases e' : ((g c).val (σ.sub i) h).run sh H with ⟨r', H'⟩
    rw [e, e'] at h1 h2
    simp only at h1 h2
    subst h1
    simp only [List.map_cons, oneOfLoopM, oneOfLoop, run_bind, e, e']
    cases r' with
    | ok =>
      obtain ⟨g1, g2⟩ := oneOfLoopM_agrees σ hL cs (fun c h => hc c (List.mem_cons_of_mem _ h)) (i + 1) (n + 1) H' v' h2.holds
      exact ⟨g1, h2.trans g2⟩
    | err x =>
      obtain ⟨g1, g2⟩ := oneOfLoopM_agrees σ hL cs (fun c h => hc c (List.mem_cons_of_mem _ h)) (i + 1) n H' v' h2.holds
      exact ⟨g1, h2.trans g2⟩
    | abort a => exact ⟨rfl, h2⟩

theorem notM_agrees (σ : Sched) (hL : Fit ro L) {α : Type} {f : α → Sem} {g : α → MSem} (c : Option α) (hc : ∀ d, c = some d → Agrees sh ro (f d) (g d))
    (H : Memory) (v : GoVal) (hh : Holds H h v L) :
    (((notM (c.map g) σ h).run sh H).1 = (notV (c.map f) σ v).1) ∧ Became ro L H h v ((notM (c.map g) σ h).run sh H).2 (notV (c.map f) σ v).2 := by
  cases c with
  | none => exact ⟨rfl, .refl hh⟩
  | some d =>
    obtain ⟨h1, h2⟩ := (hc d rfl).run (σ.sub 0) H h v L hh hL
    rcases e : (f d).val (σ.sub 0) v with ⟨r, v'⟩
    rcases e' : ((g d).val (σ.sub 0) h).run sh H with ⟨r', H'⟩
    rw [e, e'] at h1 h2
    simp only at h1 h2
    subst h1
    simp only [Option.map_some, notM, notV, run_bind, e, e']
    cases r' <;> exact ⟨rfl, h2⟩

/-! ## Arrays -/

/-- `Became` for the elements of a slice. -/
structure AllBecame (ro : Bool) (L : List Nat) (H : Memory) (xs : List MVal) (vs : List GoVal) (H' : Memory) (vs' : List GoVal) : Prop where
  holds : HoldsAll H' xs vs' L
  frame : ∀ l, l ∉ L → H' l = H l
  same : ro = true → H' = H ∧ vs' = vs

theorem AllBecame.refl {ro : Bool} {L : List Nat} {H : Memory} {xs : List MVal} {vs : List GoVal} (hh : HoldsAll H xs vs L) : AllBecame ro L H xs vs H vs :=
  ⟨hh, fun _ _ => rfl, fun _ => ⟨rfl, rfl⟩⟩

theorem AllBecame.trans {H H' H'' : Memory} {xs : List MVal} {v v' v'' : List GoVal} (a : AllBecame ro L H xs v H' v')
    (b : AllBecame ro L H' xs v' H'' v'') : AllBecame ro L H xs v H'' v'' :=
  ⟨b.holds, fun l hl => (b.frame l hl).trans (a.frame l hl), fun hr => ⟨(b.same hr).1.trans (a.same hr).1, (b.same hr).2.trans (a.same hr).2⟩⟩

theorem HoldsAll.length {H : Memory} {xs : List MVal} : ∀ {vs : List GoVal} {L : List Nat}, HoldsAll H xs vs L → vs.length = xs.length := by
  induction xs with
  | nil => intro vs L h; cases h; rfl
  | cons x xs ih => intro vs L h; cases h with | cons _ _ v vs L L' h h' => simp [ih h']

/-- First one element, then the others. -/
theorem AllBecame.cons {L L' : List Nat} (hL : Fit ro (L ++ L')) {x : MVal} {xs : List MVal} {v v' : GoVal} {vs vs' : List GoVal} {H H' H'' : Memory}
    (a : Became ro L H x v H' v') (b : AllBecame ro L' H' xs vs H'' vs') : AllBecame ro (L ++ L') H (x :: xs) (v :: vs) H'' (v' :: vs') := by
  refine ⟨.cons _ _ _ _ _ _ (a.holds.frame ?_) b.holds, ?_, ?_⟩
  · rcases hL.disjoint' with hd | hd
    · intro l _; rw [(b.same hd).1]
    · exact fun l hl => b.frame l (hd l hl)
  · intro l hl
    simp only [List.mem_append, not_or] at hl
    exact (b.frame l hl.2).trans (a.frame l hl.1)
  · intro hr
    exact ⟨(b.same hr).1.trans (a.same hr).1, by rw [(b.same hr).2, (a.same hr).2]⟩

theorem runItemsM_agrees {s : Sem} {t : MSem} (hst : Agrees sh ro s t) (σ : Sched) : ∀ (xs : List MVal) (vs : List GoVal) (L : List Nat) (i : Nat) (H : Memory),
    HoldsAll H xs vs L → Fit ro L →
    (((runItemsM t σ i xs).run sh H).1 = (runItems s σ i vs).1) ∧ AllBecame ro L H xs vs ((runItemsM t σ i xs).run sh H).2 (runItems s σ i vs).2
  | [], vs, L, i, H, hh, hL => by
    cases hh
    exact ⟨rfl, .refl .nil⟩
  | x :: xs, _, _, i, H, .cons _ _ v vs L L' hx hxs, hL => by
    obtain ⟨h1, h2⟩ := hst.run (σ.sub i) H x v L hx (hL.sub (List.sublist_append_left ..))
    rcases e : s.val (σ.sub i) v with ⟨r, v'⟩
    rcases e' : (t.val (σ.sub i) x).run sh H with ⟨r', H'⟩
    rw [e, e'] at h1 h2
    simp only at h1 h2
    subst h1
    have hxs' : HoldsAll H' xs vs L' := hxs.frame (h2.others hL.disjoint)
    simp only [runItemsM, runItems, run_bind, e, e']
    cases r' with
    | ok =>
      obtain ⟨g1, g2⟩ := runItemsM_agrees hst σ xs vs L' (i + 1) H' hxs' (hL.sub (List.sublist_append_right ..))
      exact ⟨g1, .cons hL h2 g2⟩
    | err x => exact ⟨rfl, .cons hL h2 (.refl hxs')⟩
    | abort a => exact ⟨rfl, .cons hL h2 (.refl hxs')⟩

theorem runPosM_agrees (σ : Sched) {α : Type} {f : α → Sem} {g : α → MSem} : ∀ (cs : List α), (∀ c ∈ cs, Agrees sh ro (f c) (g c)) →
    ∀ (xs : List MVal) (vs : List GoVal) (L : List Nat) (i : Nat) (H : Memory), HoldsAll H xs vs L → Fit ro L →
    (((runPosM σ i (cs.map g) xs).run sh H).1 = (runPos σ i (cs.map f) vs).1) ∧
      AllBecame ro L H xs vs ((runPosM σ i (cs.map g) xs).run sh H).2 (runPos σ i (cs.map f) vs).2
  | [], _, xs, vs, L, i, H, hh, hL => by
    simp only [List.map_nil, runPosM, runPos]
    exact ⟨rfl, .refl hh⟩
  | c :: cs, hc, [], vs, L, i, H, hh, hL => by
    cases hh
    exact ⟨rfl, .refl .nil⟩
  | c :: cs, hc, x :: xs, _, _, i, H, .cons _ _ v vs L L' hx hxs, hL => by
    obtain ⟨h1, h2⟩ := (hc c (by simp)).run (σ.sub i) H x v L hx (hL.sub (List.sublist_append_left ..))
    rcases e : (f c).val (σ.sub i) v with ⟨r, v'⟩
    rcases e' : ((g c).val (σ.sub i) x).run sh H with ⟨r', H'⟩
    rw [e, e'] at h1 h2
    simp only at h1 h2
    subst h1
    have hxs' : HoldsAll H' xs vs L' := hxs.frame (h2.others hL.disjoint)
    simp only [List.map_cons, runPosM, runPos, run_bind, e, e']
    cases r' with
    | ok =>
      obtain ⟨g1, g2⟩ := runPosM_agrees σ cs (fun c h => hc c (List.mem_cons_of_mem _ h)) xs vs L' (i + 1) H' hxs' (hL.sub (List.sublist_append_right ..))
      exact ⟨g1, .cons hL h2 g2⟩
    | err x => exact ⟨rfl, .cons hL h2 (.refl hxs')⟩
    | abort a => exact ⟨rfl, .cons hL h2 (.refl hxs')⟩

/-- A slice in two parts. -/
theorem HoldsAll.drop {H : Memory} : ∀ (n : Nat) {xs : List MVal} {vs : List GoVal} {L : List Nat}, HoldsAll H xs vs L →
    ∃ L₁ L₂, L = L₁ ++ L₂ ∧ HoldsAll H (xs.take n) (vs.take n) L₁ ∧ HoldsAll H (xs.drop n) (vs.drop n) L₂
  | 0, xs, vs, L, h => ⟨[], L, rfl, by simpa using HoldsAll.nil, by simpa using h⟩
  | n + 1, [], vs, L, h => by cases h; exact ⟨[], [], rfl, .nil, .nil⟩
  | n + 1, x :: xs, _, _, .cons _ _ v vs L L' h h' => by
    obtain ⟨L₁, L₂, rfl, h1, h2⟩ := h'.drop n
    exact ⟨L ++ L₁, L₂, by simp, .cons _ _ _ _ _ _ h h1, h2⟩

theorem HoldsAll.append {H : Memory} : ∀ {xs : List MVal} {vs : List GoVal} {L : List Nat} {xs' : List MVal} {vs' : List GoVal} {L' : List Nat},
    HoldsAll H xs vs L → HoldsAll H xs' vs' L' → HoldsAll H (xs ++ xs') (vs ++ vs') (L ++ L')
  | [], _, _, _, _, _, .nil, h' => h'
  | x :: xs, _, _, _, _, _, .cons _ _ v vs L L₁ h h₁, h' => by
    rw [List.append_assoc]
    exact .cons _ _ _ _ _ _ h (h₁.append h')

theorem runAdditionalM_agrees {α : Type} {f : α → Sem} {g : α → MSem} (a : ArrC α) (hc : ∀ c, a.Child c → Agrees sh ro (f c) (g c)) (σ : Sched)
    (xs : List MVal) (vs : List GoVal) (L : List Nat) (H : Memory) (hh : HoldsAll H xs vs L) (hL : Fit ro L) :
    (((runAdditionalM (a.map g) σ xs).run sh H).1 = (runAdditional (a.map f) σ vs).1) ∧
      AllBecame ro L H xs vs ((runAdditionalM (a.map g) σ xs).run sh H).2 (runAdditional (a.map f) σ vs).2 := by
  simp only [runAdditionalM, runAdditional, ArrC.map, List.length_map, hh.length]
  split
  · cases ea : a.additional with
    | none => exact ⟨rfl, .refl hh⟩
    | some c =>
      simp only [Option.map_some]
      obtain ⟨L₁, L₂, rfl, h1, h2⟩ := hh.drop (a.positional.length - 1)
      obtain ⟨g1, g2⟩ := runItemsM_agrees (hc c (.additional ea)) σ _ _ L₂ (a.positional.length - 1) H h2 (hL.sub (List.sublist_append_right ..))
      refine ⟨g1, ?_, ?_, ?_⟩
      · have := HoldsAll.append (h1.frame (H' := ((runItemsM (g c) σ (a.positional.length - 1) (xs.drop (a.positional.length - 1))).run sh H).2) ?_) g2.holds
        · rwa [List.take_append_drop] at this
        · rcases hL.disjoint' with hd | hd
          · intro l _; rw [(g2.same hd).1]
          · exact fun l hl => g2.frame l (hd l hl)
      · intro l hl
        simp only [List.mem_append, not_or] at hl
        exact g2.frame l hl.2
      · intro hr
        refine ⟨(g2.same hr).1, ?_⟩
        rw [(g2.same hr).2, List.take_append_drop]
  · exact ⟨rfl, .refl hh⟩

theorem arrayElemsM_agrees {α : Type} {f : α → Sem} {g : α → MSem} (a : ArrC α) (hc : ∀ c, a.Child c → Agrees sh ro (f c) (g c)) (σ : Sched)
    (xs : List MVal) (vs : List GoVal) (L : List Nat) (H : Memory) (hh : HoldsAll H xs vs L) (hL : Fit ro L) :
    (((arrayElemsM (a.map g) σ xs).run sh H).1 = (arrayElems (a.map f) σ vs).1) ∧
      AllBecame ro L H xs vs ((arrayElemsM (a.map g) σ xs).run sh H).2 (arrayElems (a.map f) σ vs).2 := by
  cases ei : a.items with
  | some c =>
    have e1 : (a.map g).items = some (g c) := by simp [ArrC.map, ei]
    have e2 : (a.map f).items = some (f c) := by simp [ArrC.map, ei]
    simp only [arrayElemsM, arrayElems, e1, e2]
    exact runItemsM_agrees (hc c (.items ei)) _ _ _ _ _ _ hh hL
  | none =>
    have e1 : (a.map g).items = none := by simp [ArrC.map, ei]
    have e2 : (a.map f).items = none := by simp [ArrC.map, ei]
    have e3 : (a.map g).positional = a.positional.map g := rfl
    have e4 : (a.map f).positional = a.positional.map f := rfl
    simp only [arrayElemsM, arrayElems, e1, e2, e3, e4, run_bind]
    obtain ⟨h1, h2⟩ := runPosM_agrees (σ.sub 1) a.positional (fun c h => hc c (.positional h)) xs vs L 0 H hh hL
    rcases e : runPos (σ.sub 1) 0 (a.positional.map f) vs with ⟨r, vs'⟩
    rcases e' : (runPosM (σ.sub 1) 0 (a.positional.map g) xs).run sh H with ⟨r', H'⟩
    rw [e, e'] at h1 h2
    simp only at h1 h2
    subst h1
    cases r' with
    | ok =>
      obtain ⟨g1, g2⟩ := runAdditionalM_agrees a hc (σ.sub 2) xs vs' L H' h2.holds hL
      exact ⟨g1, h2.trans g2⟩
    | err x => exact ⟨rfl, h2⟩
    | abort x => exact ⟨rfl, h2⟩

theorem uniqueLoopM_agrees {ext : Ext} (hs : ∀ H h v, HoldsShared H h v → sh H h = ext.sprint v) : ∀ (xs : List MVal) (vs : List GoVal) (L : List Nat) (H : Memory) (seen : List GoStr),
    HoldsAll H xs vs L → (uniqueLoopM seen xs).run sh H = (uniqueLoop ext seen vs, H)
  | [], _, _, H, seen, .nil => rfl
  | x :: xs, _, _, H, seen, .cons _ _ v vs L L' hx hxs => by
    simp only [uniqueLoopM, uniqueLoop, Prog.run, hs H x v ⟨L, hx⟩]
    split
    · rfl
    · exact uniqueLoopM_agrees hs xs vs L' H _ hxs

theorem arrayM_agrees {ext : Ext} (hs : ∀ H h v, HoldsShared H h v → sh H h = ext.sprint v) {α : Type} {f : α → Sem} {g : α → MSem} (a : ArrC α)
    (hc : ∀ c, a.Child c → Agrees sh ro (f c) (g c)) : Agrees sh ro ⟨.none, arrayV ext (a.map f)⟩ ⟨.none, arrayM (a.map g)⟩ := by
  refine ⟨rfl, fun dv h => (by cases h), fun σ H h v L hh hL => ?_⟩
  cases hh with
  | atom _ ha =>
    have e : ∀ v, IsAtom v → arrayV ext (a.map f) σ v = (.err .notSlice, v) := by
      intro v hv
      cases v <;> first | rfl | (exact hv.elim)
    simp only [e _ ha, arrayM]
    exact ⟨rfl, .refl (.atom _ ha)⟩
  | nilMap => exact ⟨rfl, .refl .nilMap⟩
  | map l kvs L hk => exact ⟨rfl, .refl (.map l kvs L hk)⟩
  | slice n xs vs L hk =>
    have hsl : Holds H (.slice n xs) (.slice n vs) L := .slice n xs vs L hk
    have eu : (uniqueM (a.map g) xs).run sh H = (if a.unique then uniqueLoop ext [] vs else true, H) := by
      unfold uniqueM
      show (if a.unique = true then _ else _ : Prog Bool).run sh H = _
      cases a.unique
      · rfl
      · exact uniqueLoopM_agrees hs xs vs L H [] hk
    have e1 : (a.map g).minItems = a.minItems := rfl
    have e2 : (a.map g).maxItems = a.maxItems := rfl
    have e3 : (a.map f).minItems = a.minItems := rfl
    have e4 : (a.map f).maxItems = a.maxItems := rfl
    have e5 : (a.map f).unique = a.unique := rfl
    simp only [arrayM, arrayV, valueOf, e1, e2, e3, e4, e5, hk.length]
    split
    · exact ⟨rfl, .refl hsl⟩
    · split
      · exact ⟨rfl, .refl hsl⟩
      · rw [run_bind, eu]
        simp only
        rcases eq : (if a.unique then uniqueLoop ext [] vs else true) with _ | _
        · rw [if_pos (by cases hu : a.unique <;> simp [hu] at eq ⊢; exact eq)]
          exact ⟨rfl, .refl hsl⟩
        · rw [if_neg (by cases hu : a.unique <;> simp [hu] at eq ⊢; exact eq)]
          obtain ⟨g1, g2⟩ := arrayElemsM_agrees a hc σ xs vs L H hk hL
          exact ⟨g1, .slice _ _ _ _ g2.holds, g2.frame, fun hr => ⟨(g2.same hr).1, by rw [(g2.same hr).2]⟩⟩

end
end Jsval
