import Verif.Lemmas.MemoryObj
import Verif.Lemmas.Erase
import Verif.Lemmas.ObjExact
/-!
# Programs that keep to a set of maps, alone and side by side
-/
namespace Jsval

variable {sh : Memory → MVal → GoStr} {wr : Prop} {S : Nat → Prop} {α β : Type}

/-- Every map that occurs in the value is in `S`. -/
def MVal.Inside (S : Nat → Prop) (h : MVal) : Prop := ∀ l, h.Mentions l → S l

/-- What is in the maps of `S` is in `S`. -/
def Closed (S : Nat → Prop) (H : Memory) : Prop := ∀ l, S l → ∀ k x, (k, x) ∈ H l → x.Inside S

/-- Run from `H`, the program works on maps of `S` only, and writes only if `wr`. -/
def Confined (sh : Memory → MVal → GoStr) (wr : Prop) (S : Nat → Prop) : Prog α → Memory → Prop
  | .ret _, _ => True
  | .look l p k, H => S l ∧ Confined sh wr S (k (alookup p (H l))) H
  | .keys l k, H => S l ∧ Confined sh wr S (k ((H l).map (·.1))) H
  | .set l p x k, H => (wr ∧ S l) ∧ (∀ y, x = some y → y.Inside S) ∧ Confined sh wr S k (H.put l p x)
  | .sprint h k, H => h.Inside S ∧ Confined sh wr S (k (sh H h)) H

theorem Closed.reaches {H : Memory} (hc : Closed S H) {h : MVal} (hh : h.Inside S) {l : Nat} (hr : CanReach H h l) : S l := by
  induction hr with
  | here h => exact hh _ h
  | inside _ hm hx ih => exact hc _ ih _ _ hm _ hx

theorem Closed.put {H : Memory} (hc : Closed S H) {l : Nat} {p : GoStr} {x : Option MVal} (hx : ∀ y, x = some y → y.Inside S) : Closed S (H.put l p x) := by
  intro l' hl' k y hm
  unfold Memory.put at hm
  split at hm
  · rename_i e
    subst e
    cases x with
    | none => exact hc l' hl' k y (List.mem_filter.1 hm).1
    | some x =>
      simp only at hm
      have : ∀ es : List (GoStr × MVal), (k, y) ∈ ainsert p x es → y = x ∨ (k, y) ∈ es := by
        intro es
        induction es with
        | nil => intro h; simp only [ainsert, List.mem_singleton, Prod.mk.injEq] at h; exact .inl h.2
        | cons e es ih =>
          rcases e with ⟨k', x'⟩
          simp only [ainsert]
          split
          · intro h
            rcases List.mem_cons.1 h with h | h
            · cases h; exact .inl rfl
            · exact .inr (List.mem_cons_of_mem _ h)
          · intro h
            rcases List.mem_cons.1 h with h | h
            · exact .inr (h ▸ List.mem_cons_self ..)
            · exact (ih h).imp id (List.mem_cons_of_mem _)
      rcases this _ hm with rfl | h
      · exact hx y rfl
      · exact hc l' hl' k y h
  · exact hc l' hl' k y hm

theorem put_other {H : Memory} {l l' : Nat} {p : GoStr} {x : Option MVal} (h : l' ≠ l) : H.put l p x l' = H l' := if_neg h

theorem Confined.closed : ∀ {p : Prog α} {H : Memory}, Confined sh wr S p H → Closed S H → Closed S (p.run sh H).2 := by
  intro p
  induction p with
  | ret a => intro H _ hc; exact hc
  | look l q k ih => intro H h hc; exact ih _ h.2 hc
  | keys l k ih => intro H h hc; exact ih _ h.2 hc
  | set l q x k ih => intro H h hc; exact ih h.2.2 (hc.put h.2.1)
  | sprint h k ih => intro H h hc; exact ih _ h.2 hc

/-- Maps outside are not touched. -/
theorem Confined.frame : ∀ {p : Prog α} {H : Memory}, Confined sh wr S p H → ∀ l, ¬ (wr ∧ S l) → (p.run sh H).2 l = H l := by
  intro p
  induction p with
  | ret a => intro H _ l _; rfl
  | look l q k ih => intro H h; exact ih _ h.2
  | keys l k ih => intro H h; exact ih _ h.2
  | set l q x k ih =>
    intro H h l' hl'
    exact (ih h.2.2 l' hl').trans (put_other fun e => hl' (e ▸ h.1))
  | sprint h k ih => intro H h; exact ih _ h.2

theorem Confined.bind {f : α → Prog β} : ∀ {p : Prog α} {H : Memory}, Confined sh wr S p H → Confined sh wr S (f (p.run sh H).1) (p.run sh H).2 →
    Confined sh wr S (p >>= f) H := by
  intro p
  show ∀ {H}, Confined sh wr S p H → Confined sh wr S (f (p.run sh H).1) (p.run sh H).2 → Confined sh wr S (p.bind f) H
  induction p with
  | ret a => intro H _ h; exact h
  | look l q k ih => intro H h h'; exact ⟨h.1, ih _ h.2 h'⟩
  | keys l k ih => intro H h h'; exact ⟨h.1, ih _ h.2 h'⟩
  | set l q x k ih => intro H h h'; exact ⟨h.1, h.2.1, ih h.2.2 h'⟩
  | sprint h k ih => intro H h h'; exact ⟨h.1, ih _ h.2 h'⟩

/-- Keeping to `S`, with a result that satisfies `Q`. -/
structure Safe (sh : Memory → MVal → GoStr) (wr : Prop) (S : Nat → Prop) (p : Prog α) (Q : α → Prop) (H : Memory) : Prop where
  confined : Confined sh wr S p H
  closed : Closed S (p.run sh H).2
  post : Q (p.run sh H).1

theorem Safe.ret {a : α} {Q : α → Prop} {H : Memory} (hc : Closed S H) (h : Q a) : Safe sh wr S (.ret a) Q H := ⟨trivial, hc, h⟩

theorem Safe.bind {p : Prog α} {Q : α → Prop} {f : α → Prog β} {R : β → Prop} {H : Memory} (hp : Safe sh wr S p Q H)
    (hf : ∀ a H', Closed S H' → Q a → Safe sh wr S (f a) R H') : Safe sh wr S (p >>= f) R H := by
  have h := hf _ _ hp.closed hp.post
  refine ⟨hp.confined.bind h.confined, ?_, ?_⟩ <;> rw [run_bind]
  · exact h.closed
  · exact h.post

/-- A constraint that keeps to `S`. -/
structure Keeps (sh : Memory → MVal → GoStr) (wr : Prop) (S : Nat → Prop) (mem : GoVal → MVal) (t : MSem) : Prop where
  dflt : ∀ dv, t.dflt = .some dv → wr ∧ (mem dv).Inside S
  run : ∀ σ h H, Closed S H → h.Inside S → Safe sh wr S (t.val σ h) (fun _ => True) H

section
variable {mem : GoVal → MVal} {h : MVal}

theorem anyLoopM_safe (σ : Sched) (hh : h.Inside S) : ∀ (cs : List MSem) (i : Nat) (H : Memory), (∀ c ∈ cs, Keeps sh wr S mem c) → Closed S H →
    Safe sh wr S (anyLoopM i cs σ h) (fun _ => True) H
  | [], i, H, _, hc => .ret hc trivial
  | c :: cs, i, H, hk, hc => by
    refine ((hk c (by simp)).run (σ.sub i) h H hc hh).bind fun a H' hc' _ => ?_
    cases a with
    | ok => exact .ret hc' trivial
    | err e => exact anyLoopM_safe σ hh cs (i + 1) H' (fun c h => hk c (List.mem_cons_of_mem _ h)) hc'
    | abort a => exact .ret hc' trivial

theorem allLoopM_safe (σ : Sched) (hh : h.Inside S) : ∀ (cs : List MSem) (i : Nat) (H : Memory), (∀ c ∈ cs, Keeps sh wr S mem c) → Closed S H →
    Safe sh wr S (allLoopM i cs σ h) (fun _ => True) H
  | [], i, H, _, hc => .ret hc trivial
  | c :: cs, i, H, hk, hc => by
    refine ((hk c (by simp)).run (σ.sub i) h H hc hh).bind fun a H' hc' _ => ?_
    cases a with
    | ok => exact allLoopM_safe σ hh cs (i + 1) H' (fun c h => hk c (List.mem_cons_of_mem _ h)) hc'
    | err e => exact .ret hc' trivial
    | abort a => exact .ret hc' trivial

theorem oneOfLoopM_safe (σ : Sched) (hh : h.Inside S) : ∀ (cs : List MSem) (i n : Nat) (H : Memory), (∀ c ∈ cs, Keeps sh wr S mem c) → Closed S H →
    Safe sh wr S (oneOfLoopM i n cs σ h) (fun _ => True) H
  | [], i, n, H, _, hc => by
    unfold oneOfLoopM
    split
    · exact .ret hc trivial
    · split <;> exact .ret hc trivial
  | c :: cs, i, n, H, hk, hc => by
    refine ((hk c (by simp)).run (σ.sub i) h H hc hh).bind fun a H' hc' _ => ?_
    cases a with
    | ok => exact oneOfLoopM_safe σ hh cs (i + 1) (n + 1) H' (fun c h => hk c (List.mem_cons_of_mem _ h)) hc'
    | err e => exact oneOfLoopM_safe σ hh cs (i + 1) n H' (fun c h => hk c (List.mem_cons_of_mem _ h)) hc'
    | abort a => exact .ret hc' trivial

theorem notM_safe (σ : Sched) (hh : h.Inside S) (c : Option MSem) (H : Memory) (hk : ∀ d, c = some d → Keeps sh wr S mem d) (hc : Closed S H) :
    Safe sh wr S (notM c σ h) (fun _ => True) H := by
  cases c with
  | none => exact .ret hc trivial
  | some c =>
    refine ((hk c rfl).run (σ.sub 0) h H hc hh).bind fun a H' hc' _ => ?_
    cases a <;> exact .ret hc' trivial

theorem uniqueLoopM_safe : ∀ (xs : List MVal) (seen : List GoStr) (H : Memory), (∀ x ∈ xs, x.Inside S) → Closed S H →
    Safe sh wr S (uniqueLoopM seen xs) (fun _ => True) H
  | [], seen, H, _, hc => .ret hc trivial
  | x :: xs, seen, H, hx, hc => by
    have : Safe sh wr S (if sh H x ∈ seen then .ret false else uniqueLoopM (sh H x :: seen) xs) (fun _ => True) H := by
      split
      · exact .ret hc trivial
      · exact uniqueLoopM_safe xs _ H (fun y h => hx y (List.mem_cons_of_mem _ h)) hc
    exact ⟨⟨hx x (by simp), this.confined⟩, this.closed, trivial⟩

theorem runItemsM_safe {c : MSem} (hk : Keeps sh wr S mem c) (σ : Sched) : ∀ (xs : List MVal) (i : Nat) (H : Memory), (∀ x ∈ xs, x.Inside S) → Closed S H →
    Safe sh wr S (runItemsM c σ i xs) (fun _ => True) H
  | [], i, H, _, hc => .ret hc trivial
  | x :: xs, i, H, hx, hc => by
    refine (hk.run (σ.sub i) x H hc (hx x (by simp))).bind fun a H' hc' _ => ?_
    cases a with
    | ok => exact runItemsM_safe hk σ xs (i + 1) H' (fun y h => hx y (List.mem_cons_of_mem _ h)) hc'
    | err e => exact .ret hc' trivial
    | abort a => exact .ret hc' trivial

theorem runPosM_safe (σ : Sched) : ∀ (cs : List MSem) (xs : List MVal) (i : Nat) (H : Memory), (∀ c ∈ cs, Keeps sh wr S mem c) → (∀ x ∈ xs, x.Inside S) → Closed S H →
    Safe sh wr S (runPosM σ i cs xs) (fun _ => True) H
  | [], xs, i, H, _, _, hc => by unfold runPosM; exact .ret hc trivial
  | _ :: _, [], i, H, _, _, hc => .ret hc trivial
  | c :: cs, x :: xs, i, H, hk, hx, hc => by
    refine ((hk c (by simp)).run (σ.sub i) x H hc (hx x (by simp))).bind fun a H' hc' _ => ?_
    cases a with
    | ok => exact runPosM_safe σ cs xs (i + 1) H' (fun c h => hk c (List.mem_cons_of_mem _ h)) (fun y h => hx y (List.mem_cons_of_mem _ h)) hc'
    | err e => exact .ret hc' trivial
    | abort a => exact .ret hc' trivial

theorem arrayM_keeps {a : ArrC MSem} (hk : ∀ c, a.Child c → Keeps sh wr S mem c) : Keeps sh wr S mem ⟨.none, arrayM a⟩ := by
  refine ⟨fun dv h => (by cases h), fun σ h H hc hh => ?_⟩
  cases h with
  | atom a => exact .ret hc trivial
  | map l => exact .ret hc trivial
  | slice n xs =>
    have hx : ∀ x ∈ xs, x.Inside S := fun x hx l hl => hh l (.slice hx hl)
    show Safe sh wr S (if a.minItems > -1 ∧ (xs.length : Int) < a.minItems then .ret (.err .fewItems)
      else if a.maxItems > -1 ∧ (xs.length : Int) > a.maxItems then .ret (.err .manyItems)
      else (uniqueM a xs >>= fun b => match b with | false => .ret (.err .dupItem) | true => arrayElemsM a σ xs)) _ H
    split
    · exact .ret hc trivial
    split
    · exact .ret hc trivial
    have hu : Safe sh wr S (uniqueM a xs) (fun _ => True) H := by
      unfold uniqueM
      split
      · exact uniqueLoopM_safe xs [] H hx hc
      · exact .ret hc trivial
    refine hu.bind fun b H' hc' _ => ?_
    cases b with
    | false => exact .ret hc' trivial
    | true =>
      simp only [arrayElemsM]
      cases ei : a.items with
      | some c => exact runItemsM_safe (hk c (.items ei)) _ xs 0 H' hx hc'
      | none =>
        refine (runPosM_safe (σ.sub 1) a.positional xs 0 H' (fun c h => hk c (.positional h)) hx hc').bind fun r H'' hc'' _ => ?_
        cases r with
        | ok =>
          simp only [runAdditionalM]
          split
          · cases ea : a.additional with
            | none => exact .ret hc'' trivial
            | some c => exact runItemsM_safe (hk c (.additional ea)) _ _ _ H'' (fun x h => hx x (List.mem_of_mem_drop h)) hc''
          · exact .ret hc'' trivial
        | err e => exact .ret hc'' trivial
        | abort e => exact .ret hc'' trivial

/-! ## Objects -/

theorem getPropM_safe (p : GoStr) {H : Memory} (hc : Closed S H) (hh : h.Inside S) :
    Safe sh wr S (getPropM p h) (fun g => ∀ x, g = .ok (some x) → x.Inside S) H := by
  cases h with
  | atom a =>
    refine .ret hc fun x hx l hl => ?_
    cases e : getProp (valueOf a).indirect p with
    | error b => rw [e] at hx; cases hx
    | ok o =>
      rw [e] at hx
      cases o with
      | none => cases hx
      | some y => cases hx; cases hl
  | slice n xs => exact .ret hc fun x hx => by cases hx
  | map l =>
    cases l with
    | none => exact .ret hc fun x hx => by cases hx
    | some l =>
      refine ⟨⟨hh l (.map l), trivial⟩, hc, fun x hx => ?_⟩
      have hx : Except.ok (ε := Abort) (alookup p (H l)) = .ok (some x) := hx
      injection hx with hx
      exact hc l (hh l (.map l)) p x (alookup_mem hx)

theorem setPropM_safe {ext : Ext} (p : GoStr) {dv : MVal} {H : Memory} (hc : Closed S H) (hh : h.Inside S) (hw : wr) (hd : dv.Inside S) :
    Safe sh wr S (setPropM ext p dv h) (fun _ => True) H := by
  cases h with
  | atom a =>
    simp only [setPropM]
    cases setProp ext a p dv.face <;> exact .ret hc trivial
  | slice n xs => exact .ret hc trivial
  | map l =>
    cases l with
    | none =>
      simp only [setPropM]
      split <;> exact .ret hc trivial
    | some l =>
      simp only [setPropM]
      split
      · exact ⟨⟨⟨hw, hh l (.map l)⟩, fun y h => (by cases h), trivial⟩, hc.put (l := l) (p := p) (x := none) fun y h => (by cases h), trivial⟩
      · exact ⟨⟨⟨hw, hh l (.map l)⟩, fun y h => (by cases h; exact hd), trivial⟩, hc.put (l := l) (p := p) (x := some _) fun y h => (by cases h; exact hd), trivial⟩

theorem forLoopM_safe {step : Nat → β → MSt → Prog (Res × MSt)} : ∀ (l : List β) (i : Nat) (st : MSt) (H : Memory),
    (∀ i x st H, x ∈ l → Closed S H → Safe sh wr S (step i x st) (fun _ => True) H) → Closed S H → Safe sh wr S (forLoopM step i l st) (fun _ => True) H
  | [], i, st, H, _, hc => .ret hc trivial
  | x :: l, i, st, H, hs, hc => by
    refine (hs i x st H (by simp) hc).bind fun r H' hc' _ => ?_
    rcases r with ⟨r, st'⟩
    cases r with
    | ok => exact forLoopM_safe l (i + 1) st' H' (fun i x st H hx => hs i x st H (List.mem_cons_of_mem _ hx)) hc'
    | err e => exact .ret hc' trivial
    | abort e => exact .ret hc' trivial

theorem seqM_safe {r : Prog (Res × MSt)} {k : MSt → Prog (Res × MSt)} {H : Memory} (hr : Safe sh wr S r (fun _ => True) H)
    (hk : ∀ st H, Closed S H → Safe sh wr S (k st) (fun _ => True) H) : Safe sh wr S (seqM r k) (fun _ => True) H := by
  refine hr.bind fun r H' hc' _ => ?_
  rcases r with ⟨r, st'⟩
  cases r with
  | ok => exact hk st' H' hc'
  | err e => exact .ret hc' trivial
  | abort e => exact .ret hc' trivial

theorem objectM_keeps {ext : Ext} {o : ObjC MSem} (hk : ∀ c, o.Child c → Keeps sh wr S mem c) : Keeps sh wr S mem ⟨.none, objectM ext mem o⟩ := by
  refine ⟨fun dv h => (by cases h), fun σ h H hc hh => ?_⟩
  have hn : Safe sh wr S (getPropNamesM h) (fun _ => True) H := by
    cases h with
    | atom a => exact .ret hc trivial
    | slice n xs => exact .ret hc trivial
    | map l =>
      cases l with
      | none => exact .ret hc trivial
      | some l => exact ⟨⟨hh l (.map l), trivial⟩, hc, trivial⟩
  have hchild : ∀ {c : MSem} (σ : Sched) (f : Res → Prog (Res × MSt)), Keeps sh wr S mem c → (∀ r, ∃ a, f r = .ret a) → ∀ x H, MVal.Inside S x → Closed S H →
      Safe sh wr S (c.val σ x >>= f) (fun _ => True) H := by
    intro c σ f hkc hf x H hx hc
    refine (hkc.run σ x H hc hx).bind fun r H' hc' _ => ?_
    obtain ⟨a, ha⟩ := hf r
    rw [ha]
    exact .ret hc' trivial
  refine hn.bind fun g H' hc' _ => ?_
  cases g with
  | error s => exact .ret hc' trivial
  | ok fields =>
    simp only
    split
    · exact .ret hc' trivial
    split
    · exact .ret hc' trivial
    refine Safe.bind (Q := fun _ => True) ?_ fun r H'' hc'' _ => .ret hc'' trivial
    refine seqM_safe ?_ fun st H hc => seqM_safe ?_ fun st H hc => seqM_safe ?_ fun st H hc => ?_
    · refine forLoopM_safe _ 0 _ H' (fun i x st H hx hc => ?_) hc'
      have hkx := hk x.2 (.prop (mem_shuffle.1 hx))
      refine (getPropM_safe x.1 hc hh).bind fun g H' hc' hg => ?_
      rcases g with a | (_ | y)
      · exact .ret hc' trivial
      · simp only
        split
        · exact .ret hc' trivial
        · cases ed : x.2.dflt with
          | none => exact .ret hc' trivial
          | abort a => exact .ret hc' trivial
          | some dv =>
            refine (setPropM_safe (ext := ext) x.1 hc' hh (hkx.dflt dv ed).1 (hkx.dflt dv ed).2).bind fun r H'' hc'' _ => ?_
            rcases r with (e | a) | u <;> exact .ret hc'' trivial
      · exact hchild _ _ hkx (fun r => by cases r <;> exact ⟨_, rfl⟩) y H' (hg y rfl) hc'
    · refine forLoopM_safe _ 0 _ H (fun j x st H hx hc => ?_) hc
      have hkx := hk x.2.2 (.pattern (id := x.1) (src := x.2.1) (mem_shuffle.1 hx))
      refine forLoopM_safe _ 0 _ H (fun i p st H _ hc => ?_) hc
      unfold patStepM
      split
      · exact .ret hc trivial
      refine (getPropM_safe p hc hh).bind fun g H' hc' hg => ?_
      rcases g with a | (_ | y)
      · exact .ret hc' trivial
      · exact .ret hc' trivial
      · exact hchild _ _ hkx (fun r => by cases r <;> exact ⟨_, rfl⟩) y H' (hg y rfl) hc'
    · unfold addlPhaseM
      split
      · cases ea : o.additional with
        | none => exact .ret hc trivial
        | some c =>
          refine forLoopM_safe _ 0 _ H (fun i p st H _ hc => ?_) hc
          refine (getPropM_safe p hc hh).bind fun g H' hc' hg => ?_
          rcases g with a | (_ | y)
          · exact .ret hc' trivial
          · exact .ret hc' trivial
          · exact hchild _ _ (hk c (.additional ea)) (fun r => by cases r <;> exact ⟨_, rfl⟩) y H' (hg y rfl) hc'
      · exact .ret hc trivial
    · refine forLoopM_safe _ 0 _ H (fun i p st H _ hc => ?_) hc
      unfold depStepM
      split
      · exact .ret hc trivial
      · cases ed : o.GetSchemaDependency p with
        | none => exact .ret hc trivial
        | some c => exact hchild _ _ (hk c (.dependency ed)) (fun r => ⟨_, rfl⟩) h H hh hc

end

/-! ## Whole constraints -/

theorem denoteM_keeps {ext : Ext} {mem : GoVal → MVal} {ρ : MRefSem} (hρ : ∀ m n, Keeps sh wr S mem (ρ m n)) : ∀ (c : Constraint),
    c.Every (DefaultIn fun dv => wr ∧ (mem dv).Inside S) → Keeps sh wr S mem (denoteM ext mem ρ c) := by
  intro c
  induction c using Constraint.ind with
  | h c ih =>
  intro hc
  have ih' : ∀ d, c.Child d → Keeps sh wr S mem (denoteM ext mem ρ d) := fun d hd => ih d hd fun e he => hc e (.child hd he)
  have hd := hc c (.refl c)
  have hface : ∀ (f : GoVal → Res) (d : Option GoVal), (∀ dv, d = some dv → wr ∧ (mem dv).Inside S) → Keeps sh wr S mem ⟨.ofOption d, faceM f⟩ := by
    intro f d hd
    refine ⟨fun dv h => ?_, fun σ h H hc hh => .ret hc trivial⟩
    cases d with
    | none => cases h
    | some d => cases h; exact hd _ rfl
  have hlist : ∀ cs : List Constraint, (∀ d ∈ cs, c.Child d) → ∀ s ∈ cs.map (denoteM ext mem ρ), Keeps sh wr S mem s := by
    intro cs h s hs
    obtain ⟨d, hd, rfl⟩ := List.mem_map.1 hs
    exact ih' d (h d hd)
  have hnone : ∀ {t : MValidator}, (∀ σ h H, Closed S H → h.Inside S → Safe sh wr S (t σ h) (fun _ => True) H) → Keeps sh wr S mem ⟨.none, t⟩ :=
    fun h => ⟨fun dv h => (by cases h), h⟩
  cases c with
  | empty => exact hnone fun σ h H hc hh => .ret hc trivial
  | null => exact hface _ none (fun dv h => by cases h)
  | boolean d => exact hface _ d hd
  | string c => exact hface _ c.dflt hd
  | number c => exact hface _ c.dflt hd
  | integer c => exact hface _ c.dflt hd
  | enum l => exact hface _ none (fun dv h => by cases h)
  | array a =>
    simp only [denoteM, denoteArrM_eq]
    refine arrayM_keeps fun s hs => ?_
    obtain ⟨d, hd, rfl⟩ := ArrC.map_child' hs
    exact ih' d (.array hd)
  | object o =>
    simp only [denoteM, denoteObjM_eq]
    refine objectM_keeps fun s hs => ?_
    obtain ⟨d, hd, rfl⟩ := (ObjC.map_child _ _).1 hs
    exact ih' d (.object hd)
  | any cs =>
    simp only [denoteM, denoteListM_eq]
    exact hnone fun σ h H hc hh => anyLoopM_safe σ hh _ 0 H (hlist cs fun d h => .any h) hc
  | all cs =>
    simp only [denoteM, denoteListM_eq]
    exact hnone fun σ h H hc hh => allLoopM_safe σ hh _ 0 H (hlist cs fun d h => .all h) hc
  | oneOf cs =>
    simp only [denoteM, denoteListM_eq]
    exact hnone fun σ h H hc hh => oneOfLoopM_safe σ hh _ 0 0 H (hlist cs fun d h => .oneOf h) hc
  | not c =>
    simp only [denoteM, denoteOptM_eq]
    refine hnone fun σ h H hc hh => notM_safe (mem := mem) σ hh _ H (fun s hs => ?_) hc
    obtain ⟨d, rfl, rfl⟩ := Option.map_eq_some_iff.1 hs
    exact ih' d .not
  | ref m n => exact hρ m n

theorem semM_keeps {ext : Ext} {mem : GoVal → MVal} {env : Env} (henv : env.Every (DefaultIn fun dv => wr ∧ (mem dv).Inside S)) : ∀ (fuel : Nat) (c : Constraint),
    c.Every (DefaultIn fun dv => wr ∧ (mem dv).Inside S) → Keeps sh wr S mem (semM ext mem env fuel c)
  | 0, c, hc => denoteM_keeps (fun _ _ => ⟨fun dv h => (by cases h), fun σ h H hc hh => .ret hc trivial⟩) c hc
  | fuel + 1, c, hc => by
    refine denoteM_keeps (fun m n => ?_) c hc
    simp only [refSemM]
    cases e : env m n with
    | none => exact ⟨fun dv h => (by cases h), fun σ h H hc hh => .ret hc trivial⟩
    | some d => exact semM_keeps henv fuel d (henv m n d e)

/-! ## Side by side -/

/-- A confined program sees only its own maps. -/
theorem Confined.agree {ext : Ext} (hs : Shows ext sh) : ∀ {p : Prog α} {H H' : Memory}, Confined sh wr S p H → Closed S H → (∀ l, S l → H' l = H l) →
    Confined sh wr S p H' ∧ (p.run sh H').1 = (p.run sh H).1 ∧ ∀ l, S l → (p.run sh H').2 l = (p.run sh H).2 l := by
  intro p
  induction p with
  | ret a => intro H H' _ _ h; exact ⟨trivial, rfl, h⟩
  | look l q k ih =>
    intro H H' hc hcl h
    have := ih (alookup q (H l)) hc.2 hcl h
    simp only [Confined, Prog.run, h l hc.1]
    exact ⟨⟨hc.1, this.1⟩, this.2⟩
  | keys l k ih =>
    intro H H' hc hcl h
    have := ih ((H l).map (·.1)) hc.2 hcl h
    simp only [Confined, Prog.run, h l hc.1]
    exact ⟨⟨hc.1, this.1⟩, this.2⟩
  | set l q x k ih =>
    intro H H' hc hcl h
    have := ih (H := H.put l q x) (H' := H'.put l q x) hc.2.2 (hcl.put hc.2.1) (fun l' hl' => by
      unfold Memory.put
      split
      · rename_i e; subst e; rw [h l' hl']
      · exact h l' hl')
    simp only [Confined, Prog.run]
    exact ⟨⟨hc.1, hc.2.1, this.1⟩, this.2⟩
  | sprint x k ih =>
    intro H H' hc hcl h
    have e : sh H' x = sh H x := (hs.local' H H' x fun l hl => (h l (hcl.reaches hc.1 hl)).symm).symm
    have := ih (sh H x) hc.2 hcl h
    simp only [Confined, Prog.run, e]
    exact ⟨⟨hc.1, this.1⟩, this.2⟩

/-- Operations left when run alone. -/
def Prog.steps (sh : Memory → MVal → GoStr) : Prog α → Memory → Nat
  | .ret _, _ => 0
  | .look l p k, H => (k (alookup p (H l))).steps sh H + 1
  | .keys l k, H => (k ((H l).map (·.1))).steps sh H + 1
  | .set l p x k, H => k.steps sh (H.put l p x) + 1
  | .sprint h k, H => (k (sh H h)).steps sh H + 1

theorem Confined.steps {ext : Ext} (hs : Shows ext sh) : ∀ {p : Prog α} {H H' : Memory}, Confined sh wr S p H → Closed S H → (∀ l, S l → H' l = H l) →
    p.steps sh H' = p.steps sh H := by
  intro p
  induction p with
  | ret a => intro H H' _ _ h; rfl
  | look l q k ih =>
    intro H H' hc hcl h
    simp only [Prog.steps, h l hc.1]
    rw [ih _ hc.2 hcl h]
  | keys l k ih =>
    intro H H' hc hcl h
    simp only [Prog.steps, h l hc.1]
    rw [ih _ hc.2 hcl h]
  | set l q x k ih =>
    intro H H' hc hcl h
    simp only [Prog.steps]
    rw [ih (H := H.put l q x) hc.2.2 (hcl.put hc.2.1) fun l' hl' => by
      unfold Memory.put
      split
      · rename_i e; subst e; rw [h l' hl']
      · exact h l' hl']
  | sprint x k ih =>
    intro H H' hc hcl h
    have e : sh H' x = sh H x := (hs.local' H H' x fun l hl => (h l (hcl.reaches hc.1 hl)).symm).symm
    simp only [Prog.steps, e]
    rw [ih _ hc.2 hcl h]

/-- One operation of a confined program. -/
theorem Confined.step {p p' : Prog α} {H H' : Memory} (hc : Confined sh wr S p H) (hcl : Closed S H) (h : p.step sh H = some (p', H')) :
    Confined sh wr S p' H' ∧ Closed S H' ∧ p'.run sh H' = p.run sh H ∧ p.steps sh H = p'.steps sh H' + 1 ∧ ∀ l, ¬ (wr ∧ S l) → H' l = H l := by
  cases p with
  | ret a => cases h
  | look l q k => cases h; exact ⟨hc.2, hcl, rfl, rfl, fun _ _ => rfl⟩
  | keys l k => cases h; exact ⟨hc.2, hcl, rfl, rfl, fun _ _ => rfl⟩
  | set l q x k => cases h; exact ⟨hc.2.2, hcl.put hc.2.1, rfl, rfl, fun l' hl' => put_other fun e => hl' (e ▸ hc.1)⟩
  | sprint x k => cases h; exact ⟨hc.2, hcl, rfl, rfl, fun _ _ => rfl⟩

/-- A program that is not over has a next operation. -/
theorem Prog.step_some {p : Prog α} (H : Memory) (h : ∀ a, p ≠ .ret a) : ∃ p' H', p.step sh H = some (p', H') := by
  cases p with
  | ret a => exact absurd rfl (h a)
  | look l q k => exact ⟨_, _, rfl⟩
  | keys l k => exact ⟨_, _, rfl⟩
  | set l q x k => exact ⟨_, _, rfl⟩
  | sprint x k => exact ⟨_, _, rfl⟩

/-- Operations left, all goroutines together. -/
def stepsLeft (sh : Memory → MVal → GoStr) (ps : Nat → Prog α) (H : Memory) : Nat → Nat
  | 0 => 0
  | n + 1 => stepsLeft sh ps H n + (ps n).steps sh H

/-- Where goroutine `i` stands, compared with its run alone from `H₀`. -/
structure OnTrack (sh : Memory → MVal → GoStr) (wr : Prop) (S : Nat → Prop) (p₀ : Prog α) (H₀ : Memory) (p : Prog α) (H : Memory) : Prop where
  confined : Confined sh wr S p H
  closed : Closed S H
  result : (p.run sh H).1 = (p₀.run sh H₀).1
  memory : ∀ l, S l → (p.run sh H).2 l = (p₀.run sh H₀).2 l

theorem together_onTrack {ext : Ext} (hs : Shows ext sh) {wr : Nat → Prop} {S : Nat → Nat → Prop} (hS : ∀ i j l, i ≠ j → S i l → ¬ (wr j ∧ S j l)) {ps : Nat → Prog α} {H : Memory}
    (h0 : ∀ i, Closed (S i) H ∧ Confined sh (wr i) (S i) (ps i) H) {s : (Nat → Prog α) × Memory} (h : TogetherStar sh (ps, H) s) :
    (∀ i, OnTrack sh (wr i) (S i) (ps i) H (s.1 i) s.2) ∧ ∀ l, (∀ i, ¬ (wr i ∧ S i l)) → s.2 l = H l := by
  induction h with
  | refl => exact ⟨fun i => ⟨(h0 i).2, (h0 i).1, rfl, fun _ _ => rfl⟩, fun _ _ => rfl⟩
  | tail hst hstep ih =>
    obtain ⟨ih1, ih2⟩ := ih
    cases hstep with
    | step qs H1 j p' H2 hp =>
      obtain ⟨g1, g2, g3, g4, g5⟩ := (ih1 j).confined.step (ih1 j).closed hp
      refine ⟨fun i => ?_, fun l hl => (g5 l (hl j)).trans (ih2 l hl)⟩
      by_cases hij : i = j
      · subst hij
        simp only [if_true]
        refine ⟨g1, g2, ?_, ?_⟩
        · rw [g3]; exact (ih1 i).result
        · rw [g3]; exact (ih1 i).memory
      · simp only [hij, if_false]
        have hag : ∀ l, S i l → H2 l = H1 l := fun l hl => g5 l (hS i j l hij hl)
        obtain ⟨k1, k2, k3⟩ := (ih1 i).confined.agree hs (ih1 i).closed hag
        refine ⟨k1, fun l hl k x hm => (ih1 i).closed l hl k x (by have hm : (k, x) ∈ H2 l := hm; rw [hag l hl] at hm; exact hm), k2.trans (ih1 i).result, fun l hl => (k3 l hl).trans ((ih1 i).memory l hl)⟩

theorem stepsLeft_congr {ps qs : Nat → Prog α} {H H' : Memory} : ∀ n, (∀ i < n, (qs i).steps sh H' = (ps i).steps sh H) → stepsLeft sh qs H' n = stepsLeft sh ps H n
  | 0, _ => rfl
  | n + 1, h => by simp only [stepsLeft]; rw [stepsLeft_congr n fun i hi => h i (by omega), h n (by omega)]

theorem stepsLeft_drop {ps qs : Nat → Prog α} {H H' : Memory} {j : Nat} (hj : (ps j).steps sh H = (qs j).steps sh H' + 1)
    (h : ∀ i, i ≠ j → (qs i).steps sh H' = (ps i).steps sh H) : ∀ n, j < n → stepsLeft sh ps H n = stepsLeft sh qs H' n + 1
  | 0, hn => by omega
  | n + 1, hn => by
    simp only [stepsLeft]
    by_cases e : j = n
    · subst e
      rw [hj, stepsLeft_congr j fun i hi => h i (by omega)]
      omega
    · rw [stepsLeft_drop hj h n (by omega), h n (fun e' => e e'.symm)]
      omega

theorem TogetherIn.star {s s' : (Nat → Prog α) × Memory} {k : Nat} (h : TogetherIn sh s k s') : TogetherStar sh s s' := by
  induction h with
  | refl => exact .refl
  | tail _ h ih => exact ih.tail h

theorem together_steps {ext : Ext} (hs : Shows ext sh) {wr : Nat → Prop} {S : Nat → Nat → Prop} (hS : ∀ i j l, i ≠ j → S i l → ¬ (wr j ∧ S j l)) {ps : Nat → Prog α} {H : Memory}
    (h0 : ∀ i, Closed (S i) H ∧ Confined sh (wr i) (S i) (ps i) H) {n : Nat} (hn : ∀ i, n ≤ i → ∃ a, ps i = .ret a) {k : Nat} {s : (Nat → Prog α) × Memory}
    (h : TogetherIn sh (ps, H) k s) : (∀ i, n ≤ i → ∃ a, s.1 i = .ret a) ∧ k + stepsLeft sh s.1 s.2 n = stepsLeft sh ps H n := by
  induction h with
  | refl => exact ⟨hn, by simp⟩
  | tail hst hstep ih =>
    obtain ⟨ih1, ih2⟩ := ih
    obtain ⟨tr, _⟩ := together_onTrack hs hS h0 hst.star
    cases hstep with
    | step qs H1 j p' H2 hp =>
      obtain ⟨g1, g2, g3, g4, g5⟩ := (tr j).confined.step (tr j).closed hp
      have hj : j < n := by
        apply Nat.lt_of_not_le
        intro hle
        obtain ⟨a, ha⟩ := ih1 j hle
        have ha : qs j = .ret a := ha
        rw [ha] at hp
        cases hp
      refine ⟨fun i hi => ?_, ?_⟩
      · simp only
        rw [if_neg (by omega)]
        exact ih1 i hi
      · have hd := stepsLeft_drop (sh := sh) (ps := qs) (qs := fun i => if i = j then p' else qs i) (H := H1) (H' := H2) (j := j) (by simp only [if_true]; exact g4)
          (fun i hij => by
            simp only [hij, if_false]
            exact (tr i).confined.steps hs (tr i).closed fun l hl => g5 l (hS i j l hij hl)) n hj
        simp only at ih2 ⊢
        omega

theorem Prog.steps_zero {p : Prog α} {H : Memory} : p.steps sh H = 0 ↔ ∃ a, p = .ret a := by
  cases p <;> simp [Prog.steps]

theorem stepsLeft_zero {ps : Nat → Prog α} {H : Memory} : ∀ n, stepsLeft sh ps H n = 0 ↔ ∀ i < n, ∃ a, ps i = .ret a
  | 0 => by simp [stepsLeft]
  | n + 1 => by
    simp only [stepsLeft, Nat.add_eq_zero_iff, stepsLeft_zero n, Prog.steps_zero]
    constructor
    · rintro ⟨h1, h2⟩ i hi
      rcases Nat.lt_succ_iff_lt_or_eq.1 hi with h | rfl
      · exact h1 i h
      · exact h2
    · exact fun h => ⟨fun i hi => h i (by omega), h n (by omega)⟩

/-- A confined program touches its own maps. -/
theorem Confined.touches {p : Prog α} {H : Memory} (hc : Confined sh wr S p H) (hcl : Closed S H) {l : Nat} (h : p.Touches H l) : S l := by
  cases p with
  | ret a => exact h.elim
  | look l' q k => exact h ▸ hc.1
  | keys l' k => exact h ▸ hc.1
  | set l' q x k => exact h ▸ hc.1.2
  | sprint x k => exact hcl.reaches hc.1 h

theorem Confined.writes {p : Prog α} {H : Memory} (hc : Confined sh wr S p H) {l : Nat} (h : p.Writes l) : wr ∧ S l := by
  cases p with
  | set l' q x k => exact h ▸ hc.1
  | _ => exact h.elim

end Jsval
