import Verif.Spec.Revised
import Verif.Lemmas.Stricter
/-!
# Accepted documents stay accepted
-/
namespace Jsval

variable {ext : Ext} {env : Env} {L D : GoStr → Prop}

/-- An array or an object. -/
def Holder (v : GoVal) : Prop := (∃ xs, v = .slice false xs) ∨ ∃ kvs, v = .map false kvs

theorem Revised.cases' {v w : GoVal} (h : Revised L D v w) : v = w ∨ (Holder v ∧ Holder w) := by
  cases h with
  | same => exact .inl rfl
  | arr xs ys => exact .inr ⟨.inl ⟨_, rfl⟩, .inl ⟨_, rfl⟩⟩
  | obj kvs kvs' => exact .inr ⟨.inr ⟨_, rfl⟩, .inr ⟨_, rfl⟩⟩

theorem Revised.swap (hL : ∀ k, ¬ L k) {v w : GoVal} (h : Revised L D v w) : Revised L D w v := by
  induction h with
  | same v => exact .same v
  | arr xs ys hl _ ih => exact .arr ys xs hl.symm fun i x y hx hy => ih i y x hy hx
  | obj kvs kvs' h1 h2 _ ih =>
    refine .obj kvs' kvs (fun k hk => ?_) (fun k hk => ?_) fun k x y hx hy hd => ih k y x hy hx hd
    · rcases h2 k hk with h | h | h
      · exact .inl h
      · exact absurd h (hL k)
      · exact .inr h
    · rcases h1 k hk with h | h
      · exact .inl h
      · exact .inr (.inr h)

/-- Constraints on strings, numbers and booleans have an error for arrays and objects. -/
theorem plainly_err {c : Constraint} (hc : c.Plainly) {ρ : RefSem} {v : GoVal} (hv : Holder v) (σ : Sched) :
    ∃ e, ((denote ext ρ c).val σ v).1 = .err e := by
  obtain ⟨k, h1, h2⟩ := hc
  rcases hv with ⟨xs, rfl⟩ | ⟨kvs, rfl⟩ <;> cases c <;> simp [Constraint.sort?] at h1 <;>
    first
    | (subst h1; exact absurd rfl h2)
    | exact ⟨_, rfl⟩

theorem enumCheck_holder {l : List GoVal} (hl : ∀ x ∈ l, IsScalar x) {v : GoVal} (hv : Holder v) : enumCheck l v ≠ .ok := by
  intro h
  obtain ⟨x, hx, hs⟩ := enumCheck_same h
  have := hl x hx
  rcases hv with ⟨xs, rfl⟩ | ⟨kvs, rfl⟩ <;> cases hs

def Lasting (ext : Ext) (env : Env) (L D : GoStr → Prop) (k l : ℕ) (c : Constraint) : Prop :=
  ∀ v w, IsJson v → IsJson w → Revised L D v w → ∀ σ τ e, ((sem ext env k c).val σ v).1 = .ok → ((sem ext env l c).val τ w).1 ≠ .err e

/-- On one document, with two iteration orders and amounts of fuel. -/
theorem same_run (henv : env.Every (Orderly ext)) {c : Constraint} (hc : c.Every (Orderly ext)) {k l : ℕ} {v : GoVal} (hv : Tidy v) {σ τ : Sched} {e : Err}
    (h1 : ((sem ext env k c).val σ v).1 = .ok) : ((sem ext env l c).val τ v).1 ≠ .err e := fun h2 =>
  (sem_fault (henv.imp fun _ => bare_of_orderly) l c (hc.imp fun _ => bare_of_orderly) v hv τ e h2).blocks henv hc hv k σ h1

theorem Revised.shorter (hD : ∀ k, ¬ D k) {kvs kvs' : List (GoStr × GoVal)} (hn : (kvs'.map (·.1)).Nodup) (h : ∀ k, Has kvs' k → Has kvs k ∨ D k) :
    kvs'.length ≤ kvs.length := by
  have := (List.subperm_of_subset hn (l₂ := kvs.map (·.1)) fun k hk => by
    obtain ⟨⟨k, x⟩, hx, rfl⟩ := List.mem_map.1 hk
    rcases h k ⟨x, hx⟩ with ⟨y, hy⟩ | h
    · exact List.mem_map.2 ⟨(k, y), hy, rfl⟩
    · exact absurd h (hD k)).length_le
  simpa using this

theorem lasting_step (henv : env.Every (Orderly ext)) (hT : env.Every (Tolerates ext L D)) {c : Constraint} {k l : ℕ}
    (hc : c.Every (Orderly ext)) (ht : c.Every (Tolerates ext L D))
    (ihFuel : ∀ c' k' l', k' + l' < k + l → c'.Every (Orderly ext) → c'.Every (Tolerates ext L D) → Lasting ext env L D k' l' c')
    (ih : ∀ c', c.Child c' → Lasting ext env L D k l c' ∧ Lasting ext env L D l k c') : Lasting ext env L D k l c := by
  have hro : ∀ {c : Constraint}, c.Every (Orderly ext) → ∀ fuel, (sem ext env fuel c).ReadOnly ∧ ∀ dv, (sem ext env fuel c).dflt ≠ .some dv :=
    fun hc fuel => bare_sem (henv.imp fun _ h => h.1) (hc.imp fun _ h => h.1) fuel
  have hsem : ∀ fuel, sem ext env fuel = denote ext (refSem ext env fuel) := fun _ => rfl
  have hlist : ∀ fuel (cs : List Constraint), (∀ d ∈ cs, c.Child d) → ∀ s ∈ cs.map (sem ext env fuel), s.ReadOnly := by
    intro fuel cs h s hs
    obtain ⟨d, hd, rfl⟩ := List.mem_map.1 hs
    exact (hro (hc.child (h d hd)) fuel).1
  intro v w hv hw hr σ τ e h1 h2
  rcases hr.cases' with rfl | ⟨gv, gw⟩
  · exact same_run henv hc hv.tidy h1 h2
  cases c with
  | empty => simp [sem, denote] at h2
  | null => rcases gv with ⟨xs, rfl⟩ | ⟨kvs, rfl⟩ <;> cases h1
  | boolean d =>
    obtain ⟨e', he⟩ := plainly_err (ext := ext) (c := .boolean d) ⟨_, rfl, by simp⟩ (ρ := refSem ext env k) gv σ
    rw [hsem, he] at h1; cases h1
  | string d =>
    obtain ⟨e', he⟩ := plainly_err (ext := ext) (c := .string d) ⟨_, rfl, by simp⟩ (ρ := refSem ext env k) gv σ
    rw [hsem, he] at h1; cases h1
  | number d =>
    obtain ⟨e', he⟩ := plainly_err (ext := ext) (c := .number d) ⟨_, rfl, by simp⟩ (ρ := refSem ext env k) gv σ
    rw [hsem, he] at h1; cases h1
  | integer d =>
    obtain ⟨e', he⟩ := plainly_err (ext := ext) (c := .integer d) ⟨_, rfl, by simp⟩ (ρ := refSem ext env k) gv σ
    rw [hsem, he] at h1; cases h1
  | enum d => exact enumCheck_holder ht.self gv (by simpa [sem, denote, pureV] using h1)
  | any cs =>
    rw [hsem, denote_any, ← hsem] at h1 h2
    obtain ⟨s, hs, σ', hσ⟩ := any_ok (hlist k _ fun d hd => .any hd) h1
    obtain ⟨c', hc', rfl⟩ := List.mem_map.1 hs
    obtain ⟨τ', e', he⟩ := (any_err (hlist l _ fun d hd => .any hd) h2).2 _ (List.mem_map.2 ⟨c', hc', rfl⟩)
    exact (ih c' (.any hc')).1 v w hv hw hr _ _ _ hσ he
  | all cs =>
    rw [hsem, denote_all, ← hsem] at h1 h2
    obtain ⟨s, hs, τ', he⟩ := all_err (hlist l _ fun d hd => .all hd) h2
    obtain ⟨c', hc', rfl⟩ := List.mem_map.1 hs
    obtain ⟨σ', hσ⟩ := all_ok (hlist k _ fun d hd => .all hd) h1 _ (List.mem_map.2 ⟨c', hc', rfl⟩)
    exact (ih c' (.all hc')).1 v w hv hw hr _ _ _ hσ he
  | oneOf cs =>
    rw [hsem, denote_oneOf, ← hsem] at h1 h2
    obtain ⟨q1, ⟨j, s, hs, hτ⟩, q2⟩ := oneOf_ok (hlist k _ fun d hd => .oneOf hd) h1
    rw [List.getElem?_map, Option.map_eq_some_iff] at hs
    obtain ⟨x, hx, rfl⟩ := hs
    have hj := List.mem_of_getElem? hx
    rcases ht.self with hL | hp
    · rcases oneOf_err (hlist l _ fun d hd => .oneOf hd) h2 with ⟨rfl, h3⟩ | ⟨rfl, a, b, s, t, hab, ha, hb, h3, h4⟩
      · obtain ⟨e', he⟩ := h3 j (sem ext env l x) (by rw [List.getElem?_map, hx]; rfl)
        exact (ih x (.oneOf hj)).1 v w hv hw hr _ _ _ hτ he
      · rw [List.getElem?_map, Option.map_eq_some_iff] at ha hb
        obtain ⟨p, ha, rfl⟩ := ha
        obtain ⟨q, hb, rfl⟩ := hb
        have key : ∀ (j : ℕ) (x : Constraint) (τ' : Sched), cs[j]? = some x → ((sem ext env l x).val τ' w).1 = .ok →
            ((sem ext env k x).val (σ.sub j) v).1 = .ok := by
          intro j x τ' hx hok
          have hno := (ih x (.oneOf (List.mem_of_getElem? hx))).2 w v hw hv (hr.swap hL) τ' (σ.sub j)
          have hn := q1 j (sem ext env k x) (by rw [List.getElem?_map, hx]; rfl)
          rcases h5 : ((sem ext env k x).val (σ.sub j) v).1 with _ | e' | a
          · rfl
          · exact absurd h5 (hno e' hok)
          · exact absurd h5 (hn a)
        exact q2 a b (sem ext env k p) (sem ext env k q) hab (by rw [List.getElem?_map, ha]; rfl) (by rw [List.getElem?_map, hb]; rfl)
          (key a p _ ha h3) (key b q _ hb h4)
    · obtain ⟨e', he⟩ := plainly_err (ext := ext) (hp x hj) (ρ := refSem ext env k) gv (σ.sub j)
      rw [hsem, he] at hτ; cases hτ
  | not c' =>
    rw [hsem, denote_not, ← hsem] at h1 h2
    cases c' with
    | none => simp [notV] at h1
    | some c' =>
      simp only [Option.map_some, notV] at h1 h2
      rcases w1 : (sem ext env k c').val (σ.sub 0) v with ⟨r1, y1⟩
      rcases w2 : (sem ext env l c').val (τ.sub 0) w with ⟨r2, y2⟩
      rw [w1] at h1
      rw [w2] at h2
      cases r1 with
      | ok => cases h1
      | abort _ => cases h1
      | err e1 =>
        cases r2 with
        | err _ => cases h2
        | abort _ => cases h2
        | ok =>
          rcases ht.self with hL | hp
          · exact (ih c' .not).2 w v hw hv (hr.swap hL) (τ.sub 0) (σ.sub 0) e1 (by rw [w2]) (by rw [w1])
          · obtain ⟨e', he⟩ := plainly_err (ext := ext) hp (ρ := refSem ext env l) gw (τ.sub 0)
            rw [← hsem, w2] at he; cases he
  | ref m n =>
    simp only [sem, denote] at h1 h2
    cases k with
    | zero => cases h1
    | succ k =>
      cases l with
      | zero => cases h2
      | succ l =>
        simp only [refSem] at h1 h2
        cases hm : env m n with
        | none => simp only [hm] at h1; cases h1
        | some d =>
          simp only [hm] at h1 h2
          exact ihFuel d k l (by omega) (henv m n d hm) (hT m n d hm) v w hv hw hr _ _ _ h1 h2
  | array a =>
    have hself := ht.self
    rw [hsem, denote_array, ← hsem] at h1 h2
    have harr : ∀ fuel, ∀ s, (a.map (sem ext env fuel)).Child s → s.ReadOnly := by
      intro fuel s hs
      cases hs with
      | items hi =>
        obtain ⟨d, hd, rfl⟩ := Option.map_eq_some_iff.1 hi
        exact (hro (hc.child (.array (.items hd))) fuel).1
      | positional hi =>
        obtain ⟨d, hd, rfl⟩ := List.mem_map.1 hi
        exact (hro (hc.child (.array (.positional hd))) fuel).1
      | additional hi =>
        obtain ⟨d, hd, rfl⟩ := Option.map_eq_some_iff.1 hi
        exact (hro (hc.child (.array (.additional hd))) fuel).1
    cases hr with
    | same => exact same_run (k := k) (l := l) henv hc hv.tidy (by rw [hsem, denote_array, ← hsem]; exact h1) (by rw [hsem, denote_array, ← hsem]; exact h2)
    | obj kvs kvs' => simp [arrayV, valueOf] at h1
    | arr xs ys hl hel =>
      have hxs : ∀ x ∈ xs, IsJson x := by cases hv; assumption
      have hys : ∀ y ∈ ys, IsJson y := by cases hw; assumption
      have back : ∀ {j : ℕ} {y : GoVal}, ys[j]? = some y → ∃ x, xs[j]? = some x := fun {j y} h => by
        have := (List.getElem?_eq_some_iff.1 h).1
        exact ⟨xs[j], List.getElem?_eq_getElem (by omega)⟩
      obtain ⟨o1, o2, o3, o4, o5⟩ := array_ok (harr k) h1
      have one : ∀ {c' : Constraint}, (Constraint.array a).Child c' → ∀ {j : ℕ} {x y : GoVal}, xs[j]? = some x → ys[j]? = some y →
          ∀ {σ' τ' e'}, ((sem ext env k c').val σ' x).1 = .ok → ((sem ext env l c').val τ' y).1 = .err e' → False :=
        fun {c'} hch {j x y} hx hy {σ' τ' e'} hσ hτ =>
          (ih _ hch).1 x y (hxs x (List.mem_of_getElem? hx)) (hys y (List.mem_of_getElem? hy)) (hel j x y hx hy) _ _ _ hσ hτ
      rcases arrayV_err (harr l) h2 with ⟨rfl, h3, h4⟩ | ⟨rfl, h3, h4⟩ | ⟨rfl, h3, h4⟩ | ⟨s, y, τ', h3, h4, h5⟩ | ⟨h0, j, s, y, τ', h3, h4, h5⟩ |
        ⟨h0, hl1, hl2, h4⟩
      · rw [← hl] at h4; exact o1 ⟨h3, h4⟩
      · rw [← hl] at h4; exact o2 ⟨h3, h4⟩
      · obtain ⟨c', hc', hp⟩ := hself h3
        obtain rfl : xs = ys := by
          refine List.ext_getElem? fun j => ?_
          cases hx : xs[j]? with
          | none => rw [List.getElem?_eq_none_iff] at hx; exact (List.getElem?_eq_none_iff.2 (by omega)).symm
          | some x =>
            have hj := (List.getElem?_eq_some_iff.1 hx).1
            have hy : ys[j]? = some ys[j] := List.getElem?_eq_getElem (by omega)
            rw [hy]
            rcases (hel j x _ hx hy).cases' with rfl | ⟨gx, -⟩
            · rfl
            · obtain ⟨σ', hσ⟩ := o4 (sem ext env k c') (by rw [ArrC.map, hc']; rfl) x (List.mem_of_getElem? hx)
              obtain ⟨e', he⟩ := plainly_err (ext := ext) hp (ρ := refSem ext env k) gx σ'
              rw [hsem, he] at hσ; cases hσ
        exact o3 ⟨h3, h4⟩
      · obtain ⟨c', hc', rfl⟩ := Option.map_eq_some_iff.1 h3
        obtain ⟨j, hy⟩ := List.getElem?_of_mem h4
        obtain ⟨x, hx⟩ := back hy
        obtain ⟨σ', hσ⟩ := o4 (sem ext env k c') (by rw [ArrC.map, hc']; rfl) x (List.mem_of_getElem? hx)
        exact one (.array (.items hc')) hx hy hσ h5
      · have h0' : (a.map (sem ext env k)).items = none := Option.map_eq_none_iff.2 (Option.map_eq_none_iff.1 h0)
        simp only [ArrC.map, List.getElem?_map, Option.map_eq_some_iff] at h3
        obtain ⟨c', hc', rfl⟩ := h3
        obtain ⟨x, hx⟩ := back h4
        obtain ⟨σ', hσ⟩ := (o5 h0').1 j (sem ext env k c') x (by simp [ArrC.map, hc']) hx
        exact one (.array (.positional (List.mem_of_getElem? hc'))) hx h4 hσ h5
      · have h0' : (a.map (sem ext env k)).items = none := Option.map_eq_none_iff.2 (Option.map_eq_none_iff.1 h0)
        simp only [ArrC.map, List.length_map] at hl1 hl2
        obtain ⟨s, hs, hall⟩ := (o5 h0').2 (by simpa [ArrC.map] using hl1) (by simp only [ArrC.map, List.length_map]; omega)
        obtain ⟨c', hc', rfl⟩ := Option.map_eq_some_iff.1 hs
        rcases h4 with ⟨h3, rfl⟩ | ⟨j, s, y, τ', h3, h4, h5, h6⟩
        · rw [Option.map_eq_none_iff.1 h3] at hc'; cases hc'
        · obtain ⟨c'', hc'', rfl⟩ := Option.map_eq_some_iff.1 h3
          rw [hc'] at hc''; cases hc''
          obtain ⟨x, hx⟩ := back h5
          obtain ⟨σ', hσ⟩ := hall j x (by simpa [ArrC.map] using h4) hx
          exact one (.array (.additional hc')) hx h5 hσ h6
  | object o =>
    obtain ⟨tL, tD⟩ := ht.self
    obtain ⟨hwo, hov⟩ := hc.self.2
    rw [hsem, denote_object, ← hsem] at h1 h2
    cases hr with
    | same => exact same_run (k := k) (l := l) henv hc hv.tidy (by rw [hsem, denote_object, ← hsem]; exact h1) (by rw [hsem, denote_object, ← hsem]; exact h2)
    | arr xs ys => cases h1
    | obj kvs kvs' r1 r2 r3 =>
      have hr : Revised L D (.map false kvs) (.map false kvs') := .obj kvs kvs' r1 r2 r3
      obtain ⟨nv, jv⟩ : (kvs.map (·.1)).Nodup ∧ ∀ k x, (k, x) ∈ kvs → IsJson x := by cases hv; exact ⟨by assumption, by assumption⟩
      obtain ⟨nw, jw⟩ : (kvs'.map (·.1)).Nodup ∧ ∀ k x, (k, x) ∈ kvs' → IsJson x := by cases hw; exact ⟨by assumption, by assumption⟩
      have hroO : ∀ fuel s, (o.map (sem ext env fuel)).Child s → s.ReadOnly := by
        intro fuel s hs
        obtain ⟨d, hd', rfl⟩ := (ObjC.map_child _ o).1 hs
        exact (hro (hc.child (.object hd')) fuel).1
      have hdO : ∀ fuel q s, (q, s) ∈ (o.map (sem ext env fuel)).props → ∀ dv, s.dflt ≠ .some dv := by
        intro fuel q s hs
        obtain ⟨d, hd', rfl⟩ := (ObjC.map_mem_props _ o).1 hs
        exact (hro (hc.child (.object (.prop hd'))) fuel).2
      have hrules : ObjRules ext (o.map (sem ext env k)) (fun c x => ∃ τ, (c.val τ x).1 = .ok) (.map false kvs) kvs kvs := by
        refine object_ok ((ObjC.map_wf _ o).2 hwo) (hroO k) (hdO k) (.obj (.map _ _ nv)) ?_ h1
        intro k _ hkd p hp q hq hp' hq'
        simp only [ObjC.map, List.mem_map] at hp hq
        obtain ⟨p, hp, rfl⟩ := hp
        obtain ⟨q, hq, rfl⟩ := hq
        rw [hov k (fun h' => hkd ((ObjC.map_declares _ o).2 h')) p hp q hq hp' hq']
      have hcm := objectV_err (.map _ _ nw) ((ObjC.map_wf _ o).2 hwo) (hroO l) (hdO l) h2
      -- a covered property of the new document was there before
      have was : ∀ {q}, o.Covers ext q → Has kvs' q → ¬ D q ∧ Has kvs q := fun {q} hq hk =>
        have hnd : ¬ D q := fun hd => (tD q hd).1 hq
        ⟨hnd, (r1 q hk).resolve_right hnd⟩
      have one : ∀ {c' : Constraint}, (Constraint.object o).Child c' → ∀ {q : GoStr} {x y : GoVal}, (q, x) ∈ kvs → (q, y) ∈ kvs' → ¬ D q →
          ∀ {σ' τ' e'}, ((sem ext env k c').val σ' x).1 = .ok → ((sem ext env l c').val τ' y).1 = .err e' → False :=
        fun {c'} hch {q x y} hx hy hd {σ' τ' e'} hσ hτ => (ih _ hch).1 x y (jv q x hx) (jw q y hy) (r3 q x y hx hy hd) _ _ _ hσ hτ
      cases hcm with
      | fewProps h3 h4 =>
        simp only [ObjC.map] at h3 h4
        have h5 := hrules.count.1 h3
        simp only [ObjC.map] at h5
        by_cases hLD : ∃ q, L q ∨ D q
        · obtain ⟨q, hq | hq⟩ := hLD
          · have := (tL q hq).2.2; omega
          · have := (tD q hq).2.2.1; omega
        · have hno : ∀ q, ¬ L q ∧ ¬ D q := fun q => ⟨fun h => hLD ⟨q, .inl h⟩, fun h => hLD ⟨q, .inr h⟩⟩
          have := Revised.shorter (D := D) (fun q => (hno q).2) nv fun q hq => .inl ((r2 q hq).resolve_right fun h =>
            h.elim (hno q).1 (hno q).2)
          omega
      | manyProps h3 h4 =>
        simp only [ObjC.map] at h3 h4
        have h5 := hrules.count.2 h3
        simp only [ObjC.map] at h5
        by_cases hD : ∃ q, D q
        · obtain ⟨q, hq⟩ := hD
          have := (tD q hq).2.2.2; omega
        · have := Revised.shorter (D := D) (fun q h => hD ⟨q, h⟩) nw r1
          omega
      | @required q h3 h4 h5 =>
        have h4' := (ObjC.map_declares _ o).1 h4
        rcases r2 q (hrules.required q h3 ((ObjC.map_declares _ o).2 h4')) with h | h | h
        · exact h5 h
        · exact (tL q h).1 h4' h3
        · exact (tD q h).1 (.inl h4')
      | @prop q s y τ' e' h3 h4 h5 =>
        obtain ⟨d, hd, rfl⟩ := (ObjC.map_mem_props _ o).1 h3
        obtain ⟨hnd, x, hx⟩ := was (.inl ⟨d, hd⟩) ⟨y, h4⟩
        obtain ⟨σ', hσ⟩ := hrules.declared q _ x ((ObjC.map_mem_props _ o).2 ⟨d, hd, rfl⟩) hx
        exact one (.object (.prop hd)) hx h4 hnd hσ h5
      | @pattern q id src s y τ' e' h3 h4 h5 h6 h7 =>
        obtain ⟨d, hd, rfl⟩ := (ObjC.map_mem_pats _ o).1 h4
        obtain ⟨hnd, x, hx⟩ := was (.inr ⟨id, src, d, hd, h5⟩) ⟨y, h6⟩
        obtain ⟨σ', hσ⟩ := hrules.pattern q x hx (fun h' => h3 ((ObjC.map_declares _ o).2 ((ObjC.map_declares _ o).1 h'))) _ _ _
          ((ObjC.map_mem_pats _ o).2 ⟨d, hd, rfl⟩) h5
        exact one (.object (.pattern hd)) hx h6 hnd hσ h7
      | @addlNotAllowed q h3 h4 h5 h6 =>
        have hnone := Option.map_eq_none_iff.1 h6
        rcases r1 q h5 with ⟨x, hx⟩ | hd
        · obtain ⟨s, hs, -⟩ := hrules.additional q x hx (fun h' => h3 ((ObjC.map_declares _ o).2 ((ObjC.map_declares _ o).1 h')))
            (fun h' => h4 ((ObjC.map_patternFor _ o).2 ((ObjC.map_patternFor _ o).1 h')))
          obtain ⟨c', hc', -⟩ := Option.map_eq_some_iff.1 hs
          rw [hnone] at hc'; cases hc'
        · rw [(tD q hd).2.1] at hnone; cases hnone
      | @addlProp q s y τ' e' h3 h4 h5 h6 h7 =>
        obtain ⟨d, hd, rfl⟩ := Option.map_eq_some_iff.1 h5
        by_cases hDq : D q
        · rw [(tD q hDq).2.1] at hd; cases hd; simp [sem, denote] at h7
        · obtain ⟨x, hx⟩ := (r1 q ⟨y, h6⟩).resolve_right hDq
          obtain ⟨s, hs, σ', hσ⟩ := hrules.additional q x hx (fun h' => h3 ((ObjC.map_declares _ o).2 ((ObjC.map_declares _ o).1 h')))
            (fun h' => h4 ((ObjC.map_patternFor _ o).2 ((ObjC.map_patternFor _ o).1 h')))
          obtain ⟨c', hc', rfl⟩ := Option.map_eq_some_iff.1 hs
          rw [hd] at hc'; cases hc'
          exact one (.object (.additional hd)) hx h6 hDq hσ h7
      | @depMissing q p h3 h4 h5 h6 =>
        have h4' := (ObjC.map_covers _ o).1 h4
        obtain ⟨h7, h8⟩ := hrules.propDeps q (was h4' h3).2 ((ObjC.map_covers _ o).2 h4') p h5
        have h8' := (ObjC.map_covers _ o).1 h8
        refine h6 ⟨?_, (ObjC.map_covers _ o).2 h8'⟩
        rcases r2 p h7 with h | h | h
        · exact h
        · exact absurd h5 ((tL p h).2.1 q)
        · exact absurd h8' (tD p h).1
      | @dependency q s τ' e' h3 h4 h5 h6 h7 =>
        have h4' := (ObjC.map_covers _ o).1 h4
        rw [ObjC.map_schemaDep] at h6
        obtain ⟨d, hd, rfl⟩ := Option.map_eq_some_iff.1 h6
        obtain ⟨σ', hσ⟩ := hrules.schemaDeps q (was h4' h3).2 ((ObjC.map_covers _ o).2 h4') h5 _ (by rw [ObjC.map_schemaDep, hd]; rfl)
        exact (ih d (.object (.dependency hd))).1 _ _ hv hw hr _ _ _ hσ h7

theorem lasting_run (henv : env.Every (Orderly ext)) (hT : env.Every (Tolerates ext L D)) : ∀ (n : ℕ) (c : Constraint) (k l : ℕ), k + l = n →
    c.Every (Orderly ext) → c.Every (Tolerates ext L D) → Lasting ext env L D k l c := by
  intro n
  induction n using Nat.strong_induction_on with
  | _ n ihn =>
    intro c
    induction c using Constraint.ind with
    | h c ihc =>
      rintro k l rfl hc ht
      exact lasting_step henv hT hc ht (fun c' k' l' hlt h1 h2 => ihn _ hlt c' k' l' rfl h1 h2)
        (fun c' h => ⟨ihc c' h k l rfl (hc.child h) (ht.child h), ihc c' h l k (by omega) (hc.child h) (ht.child h)⟩)

end Jsval
