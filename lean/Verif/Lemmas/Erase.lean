import Verif.Lemmas.Inert
import Verif.Lemmas.ObjExact
import Verif.Spec.Unseen
/-!
# Validation with and without defaults, side by side
-/
namespace Jsval

theorem plainOpt_eq (o : Option Constraint) : plainOpt o = o.map Constraint.plain := by
  cases o <;> simp [plainOpt]
theorem plainList_eq : ∀ l, plainList l = l.map Constraint.plain
  | [] => by simp [plainList]
  | c :: l => by simp [plainList, plainList_eq l]
theorem plainProps_eq : ∀ l, plainProps l = l.map (fun p => (p.1, p.2.plain))
  | [] => by simp [plainProps]
  | (n, c) :: l => by simp [plainProps, plainProps_eq l]
theorem plainPats_eq : ∀ l, plainPats l = l.map (fun p => (p.1, p.2.1, p.2.2.plain))
  | [] => by simp [plainPats]
  | (i, s, c) :: l => by simp [plainPats, plainPats_eq l]
theorem plain_array (a : ArrC Constraint) : (Constraint.array a).plain = .array (a.map Constraint.plain) := by
  cases a; simp [Constraint.plain, ArrC.map, plainOpt_eq, plainList_eq]
theorem plain_object (o : ObjC Constraint) : (Constraint.object o).plain = .object (o.map Constraint.plain) := by
  cases o; simp [Constraint.plain, ObjC.map, plainOpt_eq, plainProps_eq, plainPats_eq]

/-- `t` is `s` without defaults: same outcome on decoded JSON. -/
structure Erases (s t : Sem) : Prop where
  no : ∀ dv, t.dflt ≠ .some dv
  ab : ∀ a, s.dflt = .abort a ↔ t.dflt = .abort a
  ro : t.ReadOnly
  run : ∀ σ v, IsJson v → (s.val σ v).1 = (t.val σ v).1

/-- Two loops side by side. -/
theorem forLoop_rel {α β γ S T : Type} {step : Nat → α → S → Res × S} {step' : Nat → β → T → Res × T} {f : γ → α} {g : γ → β}
    (Rel : List γ → S → T → Prop)
    (h : ∀ i x rest st st', Rel (x :: rest) st st' → (step i (f x) st).1 = (step' i (g x) st').1 ∧
      ((step i (f x) st).1 = .ok → Rel rest (step i (f x) st).2 (step' i (g x) st').2)) :
    ∀ (P : List γ) (i : Nat) st st', Rel P st st' →
      (forLoop step i (P.map f) st).1 = (forLoop step' i (P.map g) st').1 ∧
      ((forLoop step i (P.map f) st).1 = .ok → Rel [] (forLoop step i (P.map f) st).2 (forLoop step' i (P.map g) st').2)
  | [], i, st, st', hr => ⟨rfl, fun _ => hr⟩
  | x :: P, i, st, st', hr => by
    obtain ⟨h1, h2⟩ := h i x P st st' hr
    rw [List.map_cons, List.map_cons, forLoop, forLoop]
    rcases e : step i (f x) st with ⟨r, u⟩
    rcases e' : step' i (g x) st' with ⟨r', u'⟩
    rw [e, e'] at h1 h2
    simp only at h1 h2
    subst h1
    cases r with
    | ok => exact forLoop_rel Rel h P (i + 1) u u' (h2 rfl)
    | err e => exact ⟨rfl, fun h => by cases h⟩
    | abort a => exact ⟨rfl, fun h => by cases h⟩

theorem seqSt_rel {r r' : Res × ObjSt} {k k' : ObjSt → Res × ObjSt} {Rel : ObjSt → ObjSt → Prop} (h : r.1 = r'.1 ∧ (r.1 = .ok → Rel r.2 r'.2))
    {Q : Res × ObjSt → Res × ObjSt → Prop} (hk : ∀ st st', Rel st st' → Q (k st) (k' st')) (hq : ∀ e st st', e ≠ .ok → Q (e, st) (e, st')) :
    Q (seqSt r k) (seqSt r' k') := by
  rcases r with ⟨r, st⟩
  rcases r' with ⟨r', st'⟩
  obtain ⟨h1, h2⟩ := h
  simp only at h1 h2
  subst h1
  cases r with
  | ok => exact hk st st' (h2 rfl)
  | err e => exact hq _ st st' (by simp)
  | abort a => exact hq _ st st' (by simp)

/-! ## Objects -/

/-- The two states while the object with entries `kvs` is validated; `todo` are names still to be looked at. -/
structure Beside (kvs : List (GoStr × GoVal)) (todo : List GoStr) (st st' : ObjSt) : Prop where
  val : ∃ cur, st.v = .map false cur ∧ (∀ k ∈ todo, alookup k cur = alookup k kvs) ∧ ∀ k ∈ st.premain, alookup k cur = alookup k kvs
  val' : st'.v = .map false kvs
  premain : st.premain = st'.premain
  pseen : st.pseen = st'.pseen
  has : ∀ k ∈ st.premain, alookup k kvs ≠ none
  nodup : st.premain.Nodup

theorem isJson_lookup {kvs : List (GoStr × GoVal)} (hj : IsJson (.map false kvs)) {k : GoStr} {x : GoVal} (h : alookup k kvs = some x) :
    IsJson x := by
  cases hj with
  | obj _ _ h1 => exact h1 k x (alookup_mem h)

theorem viewProp_inMap (kvs : List (GoStr × GoVal)) (p : GoStr) : viewProp (valueOf (.map false kvs)).indirect p =
    match alookup p kvs with | none => .ok .absent | some x => .ok (.present x true) := by
  simp only [viewProp, getProp, valueOf, RV.indirect]
  cases alookup p kvs <;> rfl

theorem getProp_inMap (kvs : List (GoStr × GoVal)) (p : GoStr) : getProp (valueOf (.map false kvs)).indirect p = .ok (alookup p kvs) := by
  simp [getProp, valueOf, RV.indirect]

theorem putProp_inMap (kvs : List (GoStr × GoVal)) (p : GoStr) (x : GoVal) : putProp (.map false kvs) p x = .map false (ainsert p x kvs) := rfl

theorem setProp_inMap (ext : Ext) (kvs : List (GoStr × GoVal)) (p : GoStr) (x : GoVal) :
    ∃ kws, setProp ext (.map false kvs) p x = .ok (.map false kws) ∧ ∀ k, k ≠ p → alookup k kws = alookup k kvs := by
  simp only [setProp, setPropAt]
  cases x with
  | nil => exact ⟨_, rfl, fun k h => alookup_adelete_ne h _⟩
  | _ => exact ⟨_, rfl, fun k h => alookup_ainsert_ne h _ _⟩

section
variable {ext : Ext} {o : ObjC Constraint} {f g : Constraint → Sem} {kvs : List (GoStr × GoVal)}

theorem propStep_beside (hj : IsJson (.map false kvs)) {p : GoStr} {c : Constraint} (hc : Erases (f c) (g c)) {σ : Sched} {i : Nat}
    {todo : List GoStr} (hp : p ∉ todo) {st st' : ObjSt} (h : Beside kvs (p :: todo) st st') :
    (propStep ext (o.map f) σ i (p, f c) st).1 = (propStep ext (o.map g) σ i (p, g c) st').1 ∧
    ((propStep ext (o.map f) σ i (p, f c) st).1 = .ok →
      Beside kvs todo (propStep ext (o.map f) σ i (p, f c) st).2 (propStep ext (o.map g) σ i (p, g c) st').2) := by
  obtain ⟨⟨cur, hv, htodo, hpre⟩, hv', hpm, hps, hhas, hnd⟩ := h
  have hro := propStep_readOnly ext (o.map g) (σ := σ) (i := i) (p := p) (st := st') hc.ro (fun _ => hc.no)
  have hcur : alookup p cur = alookup p kvs := htodo p (by simp)
  have hreq : (o.map f).required = (o.map g).required := rfl
  revert hro
  unfold propStep
  simp only [hv, hv', viewProp_inMap, hcur, hreq]
  cases hx : alookup p kvs with
  | none =>
    simp only
    split
    · intro _
      exact ⟨rfl, fun h => by cases h⟩
    · have hab := hc.ab
      cases hd' : (g c).dflt with
      | abort a =>
        rw [(hab a).2 hd']
        intro _
        exact ⟨rfl, fun h => by cases h⟩
      | some dv => exact absurd hd' (hc.no dv)
      | none =>
        intro _
        cases hd : (f c).dflt with
        | abort a => rw [(hab a).1 hd] at hd'; cases hd'
        | none => exact ⟨rfl, fun _ => ⟨⟨cur, hv, fun k hk => htodo k (by simp [hk]), hpre⟩, hv', hpm, hps, hhas, hnd⟩⟩
        | some dv =>
          obtain ⟨kws, e, hk⟩ := setProp_inMap ext cur p dv
          simp only [e]
          refine ⟨trivial, fun _ => ⟨⟨kws, rfl, fun k hkt => ?_, fun k hkp => ?_⟩, hv', hpm, hps, hhas, hnd⟩⟩
          · rw [hk k (fun hh => hp (hh ▸ hkt)), htodo k (by simp [hkt])]
          · rw [hk k (fun hh => hhas k hkp (hh ▸ hx)), hpre k hkp]
  | some x =>
    have hr := hc.run (σ.sub i) x (isJson_lookup hj hx)
    have hg := hc.ro x (σ.sub i)
    rcases e1 : (f c).val (σ.sub i) x with ⟨r, y⟩
    rcases e2 : (g c).val (σ.sub i) x with ⟨r', y'⟩
    rw [e1, e2] at hr
    rw [e2] at hg
    simp only at hr hg
    subst hr hg
    simp only [e1, e2, if_true, putProp_inMap, ainsert_same hx]
    intro _
    cases r with
    | ok =>
      refine ⟨rfl, fun _ => ⟨⟨_, rfl, fun k hkt => ?_, fun k hkp => ?_⟩, rfl, by rw [hpm], by rw [hps], fun k hk => ?_, hnd.filter _⟩⟩
      · rw [alookup_ainsert_ne (fun hh : k = p => hp (hh ▸ hkt)), htodo k (by simp [hkt])]
      · simp only [List.mem_filter, decide_eq_true_eq] at hkp
        rw [alookup_ainsert_ne hkp.2, hpre k hkp.1]
      · simp only [List.mem_filter, decide_eq_true_eq] at hk
        exact hhas k hk.1
    | err e => exact ⟨rfl, fun h => by cases h⟩
    | abort a => exact ⟨rfl, fun h => by cases h⟩

theorem patStep_beside (hj : IsJson (.map false kvs)) {src k : GoStr} {c : Constraint} (hc : Erases (f c) (g c)) {σ : Sched} {i : Nat}
    {todo : List GoStr} (hp : k ∉ todo) {st st' : ObjSt} (h : Beside kvs (k :: todo) st st') :
    (patStep ext src (f c) σ i k st).1 = (patStep ext src (g c) σ i k st').1 ∧
    ((patStep ext src (f c) σ i k st).1 = .ok → Beside kvs todo (patStep ext src (f c) σ i k st).2 (patStep ext src (g c) σ i k st').2) := by
  obtain ⟨⟨cur, hv, htodo, hpre⟩, hv', hpm, hps, hhas, hnd⟩ := h
  have hcur : alookup k cur = alookup k kvs := htodo k (by simp)
  unfold patStep
  split
  · exact ⟨rfl, fun _ => ⟨⟨cur, hv, fun k hk => htodo k (by simp [hk]), hpre⟩, hv', hpm, hps, hhas, hnd⟩⟩
  · simp only [hv, hv', getProp_inMap, hcur]
    cases hx : alookup k kvs with
    | none => exact ⟨rfl, fun h => by cases h⟩
    | some x =>
      have hr := hc.run (σ.sub i) x (isJson_lookup hj hx)
      have hg := hc.ro x (σ.sub i)
      rcases e1 : (f c).val (σ.sub i) x with ⟨r, y⟩
      rcases e2 : (g c).val (σ.sub i) x with ⟨r', y'⟩
      rw [e1, e2] at hr
      rw [e2] at hg
      simp only at hr hg
      subst hr hg
      simp only [e1, e2, putProp_inMap, ainsert_same hx]
      cases r with
      | ok =>
        refine ⟨rfl, fun _ => ⟨⟨_, rfl, fun k' hkt => ?_, fun k' hkp => ?_⟩, rfl, by rw [hpm], by rw [hps], fun k' hk => ?_, hnd.filter _⟩⟩
        · rw [alookup_ainsert_ne (fun hh : k' = k => hp (hh ▸ hkt)), htodo k' (by simp [hkt])]
        · simp only [List.mem_filter, decide_eq_true_eq] at hkp
          rw [alookup_ainsert_ne hkp.2, hpre k' hkp.1]
        · simp only [List.mem_filter, decide_eq_true_eq] at hk
          exact hhas k' hk.1
      | err e => exact ⟨rfl, fun h => by cases h⟩
      | abort a => exact ⟨rfl, fun h => by cases h⟩

theorem addlStep_beside (hj : IsJson (.map false kvs)) {k : GoStr} {c : Constraint} (hc : Erases (f c) (g c)) {σ : Sched} {i : Nat}
    {todo : List GoStr} (hp : k ∉ todo) {st st' : ObjSt} (h : Beside kvs (k :: todo) { st with premain := [] } { st' with premain := [] }) :
    (addlStep (f c) σ i k st).1 = (addlStep (g c) σ i k st').1 ∧
    ((addlStep (f c) σ i k st).1 = .ok → Beside kvs todo { (addlStep (f c) σ i k st).2 with premain := [] }
      { (addlStep (g c) σ i k st').2 with premain := [] }) := by
  obtain ⟨⟨cur, hv, htodo, hpre⟩, hv', hpm, hps, hhas, hnd⟩ := h
  have hcur : alookup k cur = alookup k kvs := htodo k (by simp)
  simp only at hv hv' hps
  unfold addlStep
  simp only [hv, hv', getProp_inMap, hcur]
  cases hx : alookup k kvs with
  | none => exact ⟨rfl, fun h => by cases h⟩
  | some x =>
    have hr := hc.run (σ.sub i) x (isJson_lookup hj hx)
    have hg := hc.ro x (σ.sub i)
    rcases e1 : (f c).val (σ.sub i) x with ⟨r, y⟩
    rcases e2 : (g c).val (σ.sub i) x with ⟨r', y'⟩
    rw [e1, e2] at hr
    rw [e2] at hg
    simp only at hr hg
    subst hr hg
    simp only [e1, e2, putProp_inMap, ainsert_same hx]
    cases r with
    | ok =>
      refine ⟨rfl, fun _ => ⟨⟨_, rfl, fun k' hkt => ?_, fun k' hkp => ?_⟩, rfl, rfl, hps, fun k' hk => ?_, .nil⟩⟩
      · rw [alookup_ainsert_ne (fun hh : k' = k => hp (hh ▸ hkt)), htodo k' (by simp [hkt])]
      · simp at hkp
      · simp at hk
    | err e => exact ⟨rfl, fun h => by cases h⟩
    | abort a => exact ⟨rfl, fun h => by cases h⟩

theorem Beside.weaken {todo todo' : List GoStr} {st st' : ObjSt} (h : Beside kvs todo st st') (hs : ∀ k ∈ todo', k ∈ todo ∨ k ∈ st.premain) :
    Beside kvs todo' st st' := by
  obtain ⟨⟨cur, hv, htodo, hpre⟩, hv', hpm, hps, hhas, hnd⟩ := h
  exact ⟨⟨cur, hv, fun k hk => (hs k hk).elim (htodo k) (hpre k), hpre⟩, hv', hpm, hps, hhas, hnd⟩

theorem propLoop_beside (hj : IsJson (.map false kvs)) (hw : o.Wf) (hc : ∀ c, o.Child c → Erases (f c) (g c)) (σ : Sched) (k : Nat)
    {st st' : ObjSt} (h : Beside kvs (o.props.map (·.1)) st st') :
    (forLoop (propStep ext (o.map f) σ) 0 (shuffle k (o.map f).props) st).1 = (forLoop (propStep ext (o.map g) σ) 0 (shuffle k (o.map g).props) st').1 ∧
    ((forLoop (propStep ext (o.map f) σ) 0 (shuffle k (o.map f).props) st).1 = .ok →
      Beside kvs [] (forLoop (propStep ext (o.map f) σ) 0 (shuffle k (o.map f).props) st).2
        (forLoop (propStep ext (o.map g) σ) 0 (shuffle k (o.map g).props) st').2) := by
  have e : ∀ f : Constraint → Sem, shuffle k (o.map f).props = (shuffle k o.props).map fun p => (p.1, f p.2) := fun f => by
    rw [← shuffle_map]; rfl
  rw [e f, e g]
  have := forLoop_rel (step := propStep ext (o.map f) σ) (step' := propStep ext (o.map g) σ) (f := fun p : GoStr × Constraint => (p.1, f p.2))
    (g := fun p => (p.1, g p.2)) (Rel := fun l st st' => (l.map (·.1)).Nodup ∧ (∀ q ∈ l, q ∈ o.props) ∧ Beside kvs (l.map (·.1)) st st')
    (fun i x rest st st' hr => by
      obtain ⟨hn, hsub, hb⟩ := hr
      simp only [List.map_cons, List.nodup_cons] at hn hb
      obtain ⟨h1, h2⟩ := propStep_beside (ext := ext) (o := o) hj (hc x.2 (.prop (p := x.1) (hsub x (by simp)))) (σ := σ) (i := i) hn.1 hb
      exact ⟨h1, fun hh => ⟨hn.2, fun q hq => hsub q (by simp [hq]), h2 hh⟩⟩)
    (shuffle k o.props) 0 st st'
    ⟨(((shuffle_perm o.props k).map _).nodup_iff).2 hw.props, fun q hq => mem_shuffle.1 hq,
      h.weaken fun n hn => Or.inl (((shuffle_perm o.props k).map _).mem_iff.1 hn)⟩
  exact ⟨this.1, fun hh => (this.2 hh).2.2⟩

theorem patOuter_beside (hj : IsJson (.map false kvs)) {id : Nat} {src : GoStr} {c : Constraint} (hc : Erases (f c) (g c)) {σ : Sched} {j : Nat}
    {st st' : ObjSt} (h : Beside kvs [] st st') :
    (patOuter ext σ j (id, src, f c) st).1 = (patOuter ext σ j (id, src, g c) st').1 ∧
    ((patOuter ext σ j (id, src, f c) st).1 = .ok → Beside kvs [] (patOuter ext σ j (id, src, f c) st).2 (patOuter ext σ j (id, src, g c) st').2) := by
  unfold patOuter
  simp only [← h.premain]
  have := forLoop_rel (step := patStep ext src (f c) ((σ.sub 4).sub j)) (step' := patStep ext src (g c) ((σ.sub 4).sub j)) (f := fun n : GoStr => n) (g := fun n => n)
    (Rel := fun l st st' => l.Nodup ∧ Beside kvs l st st')
    (fun i x rest st st' hr => by
      obtain ⟨hn, hb⟩ := hr
      simp only [List.nodup_cons] at hn
      obtain ⟨h1, h2⟩ := patStep_beside (ext := ext) (src := src) hj hc (σ := (σ.sub 4).sub j) (i := i) hn.1 hb
      exact ⟨h1, fun hh => ⟨hn.2, h2 hh⟩⟩)
    (shuffle ((σ.sub 3).sub j).key st.premain) 0 st st'
    ⟨shuffle_nodup.2 h.nodup, h.weaken fun n hn => Or.inr (mem_shuffle.1 hn)⟩
  simp only [List.map_id'] at this
  exact ⟨this.1, fun hh => (this.2 hh).2⟩

theorem patLoop_beside (hj : IsJson (.map false kvs)) (hc : ∀ c, o.Child c → Erases (f c) (g c)) (σ : Sched) (k : Nat)
    {st st' : ObjSt} (h : Beside kvs [] st st') :
    (forLoop (patOuter ext σ) 0 (shuffle k (o.map f).patterns) st).1 = (forLoop (patOuter ext σ) 0 (shuffle k (o.map g).patterns) st').1 ∧
    ((forLoop (patOuter ext σ) 0 (shuffle k (o.map f).patterns) st).1 = .ok →
      Beside kvs [] (forLoop (patOuter ext σ) 0 (shuffle k (o.map f).patterns) st).2
        (forLoop (patOuter ext σ) 0 (shuffle k (o.map g).patterns) st').2) := by
  have e : ∀ f : Constraint → Sem, shuffle k (o.map f).patterns = (shuffle k o.patterns).map fun p => (p.1, p.2.1, f p.2.2) := fun f => by
    rw [← shuffle_map]; rfl
  rw [e f, e g]
  have := forLoop_rel (step := patOuter ext σ) (step' := patOuter ext σ) (f := fun p : Nat × GoStr × Constraint => (p.1, p.2.1, f p.2.2))
    (g := fun p => (p.1, p.2.1, g p.2.2)) (Rel := fun l st st' => (∀ q ∈ l, q ∈ o.patterns) ∧ Beside kvs [] st st')
    (fun i x rest st st' hr => by
      obtain ⟨hsub, hb⟩ := hr
      obtain ⟨h1, h2⟩ := patOuter_beside (ext := ext) (id := x.1) (src := x.2.1) hj
        (hc x.2.2 (.pattern (id := x.1) (src := x.2.1) (hsub x (by simp)))) (σ := σ) (j := i) hb
      exact ⟨h1, fun hh => ⟨fun q hq => hsub q (by simp [hq]), h2 hh⟩⟩)
    (shuffle k o.patterns) 0 st st' ⟨fun q hq => mem_shuffle.1 hq, h⟩
  exact ⟨this.1, fun hh => (this.2 hh).2⟩

theorem addlPhase_beside (hj : IsJson (.map false kvs)) (hc : ∀ c, o.Child c → Erases (f c) (g c)) (σ : Sched)
    {st st' : ObjSt} (h : Beside kvs [] st st') :
    (addlPhase (o.map f) σ st).1 = (addlPhase (o.map g) σ st').1 ∧
    ((addlPhase (o.map f) σ st).1 = .ok → Beside kvs [] { (addlPhase (o.map f) σ st).2 with premain := [] }
      { (addlPhase (o.map g) σ st').2 with premain := [] }) := by
  have hw : ∀ {l : List GoStr}, (∀ k ∈ l, k ∈ st.premain) → Beside kvs l { st with premain := [] } { st' with premain := [] } := by
    intro l hl
    obtain ⟨⟨cur, hv, htodo, hpre⟩, hv', hpm, hps, hhas, hnd⟩ := h
    exact ⟨⟨cur, hv, fun k hk => hpre k (hl k hk), fun k hk => (by simp at hk)⟩, hv', rfl, hps, fun k hk => (by simp at hk), .nil⟩
  have e : ∀ f : Constraint → Sem, (o.map f).additional = o.additional.map f := fun f => rfl
  unfold addlPhase
  simp only [← h.premain, e]
  split
  · cases ha : o.additional with
    | none => exact ⟨rfl, fun h => by cases h⟩
    | some c =>
      simp only [Option.map_some]
      have := forLoop_rel (step := addlStep (f c) (σ.sub 6)) (step' := addlStep (g c) (σ.sub 6)) (f := fun n : GoStr => n) (g := fun n => n)
        (Rel := fun l st st' => l.Nodup ∧ Beside kvs l { st with premain := [] } { st' with premain := [] })
        (fun i x rest st st' hr => by
          obtain ⟨hn, hb⟩ := hr
          simp only [List.nodup_cons] at hn
          obtain ⟨h1, h2⟩ := addlStep_beside hj (hc c (.additional ha)) (σ := σ.sub 6) (i := i) hn.1 hb
          exact ⟨h1, fun hh => ⟨hn.2, h2 hh⟩⟩)
        (shuffle (σ.sub 5).key st.premain) 0 st st' ⟨shuffle_nodup.2 h.nodup, hw fun k hk => mem_shuffle.1 hk⟩
      simp only [List.map_id'] at this
      exact ⟨this.1, fun hh => (this.2 hh).2⟩
  · exact ⟨rfl, fun _ => hw fun k hk => by simp at hk⟩

theorem depLoop_beside (hj : IsJson (.map false kvs)) (hc : ∀ c, o.Child c → Erases (f c) (g c)) (σ : Sched) (k : Nat)
    {st st' : ObjSt} (hp : st.pseen = st'.pseen)
    (hd : o.schemadeps = [] ∨ ((∀ c, o.Child c → (f c).ReadOnly) ∧ st.v = .map false kvs ∧ st'.v = .map false kvs)) :
    (forLoop (depStep (o.map f) σ) 0 (shuffle k st.pseen) st).1 = (forLoop (depStep (o.map g) σ) 0 (shuffle k st'.pseen) st').1 := by
  rw [← hp]
  have edep : ∀ (f : Constraint → Sem) n, ObjC.GetSchemaDependency (o.map f) n = (o.GetSchemaDependency n).map f := fun f n =>
    alookup_map _ n o.schemadeps
  have := forLoop_rel (step := depStep (o.map f) σ) (step' := depStep (o.map g) σ) (f := fun n : GoStr => n) (g := fun n => n)
    (Rel := fun _ st st' => st.pseen = st'.pseen ∧
      (o.schemadeps = [] ∨ ((∀ c, o.Child c → (f c).ReadOnly) ∧ st.v = .map false kvs ∧ st'.v = .map false kvs)))
    (fun i x rest st st' hr => by
      obtain ⟨hp, hd⟩ := hr
      unfold depStep
      rw [show ObjC.GetPropDependencies (o.map f) x = ObjC.GetPropDependencies (o.map g) x from rfl]
      split
      · simp only [hp]
        exact ⟨trivial, fun _ => ⟨trivial, hd⟩⟩
      · simp only [edep]
        cases hx : o.GetSchemaDependency x with
        | none => exact ⟨rfl, fun _ => ⟨hp, hd⟩⟩
        | some d =>
          simp only [Option.map_some]
          rcases hd with hd | ⟨hro, hv, hv'⟩
          · rw [show o.GetSchemaDependency x = alookup x o.schemadeps from rfl, hd] at hx
            cases hx
          · have hcd := hc d (.dependency hx)
            rw [hv, hv']
            have h1 := hro d (.dependency hx) (.map false kvs) (σ.sub i)
            have h2 := hcd.ro (.map false kvs) (σ.sub i)
            exact ⟨hcd.run _ _ hj, fun _ => ⟨hp, Or.inr ⟨hro, h1, h2⟩⟩⟩)
    (shuffle k st.pseen) 0 st st' ⟨hp, hd⟩
  simp only [List.map_id'] at this
  exact this.1

theorem objectV_erases (hw : o.Wf) (hc : ∀ c, o.Child c → Erases (f c) (g c))
    (hd : o.schemadeps = [] ∨ ((∀ c, o.Child c → (f c).ReadOnly) ∧ ∀ p c, (p, c) ∈ o.props → ∀ dv, (f c).dflt ≠ .some dv))
    (σ : Sched) {v : GoVal} (hv : IsJson v) : (objectV ext (o.map f) σ v).1 = (objectV ext (o.map g) σ v).1 := by
  cases hv with
  | obj kvs hn hj' =>
    have hj : IsJson (.map false kvs) := .obj kvs hn hj'
    have hgp : getPropNames (valueOf (.map false kvs)).indirect = .ok (kvs.map (·.1)) := by simp [getPropNames, valueOf, RV.indirect]
    unfold objectV
    rw [hgp]
    simp only
    rw [show (o.map f).minProps = (o.map g).minProps from rfl, show (o.map f).maxProps = (o.map g).maxProps from rfl]
    split
    · rfl
    · split
      · rfl
      · -- where nothing is filled in the left side does not change the map either
        have hstart : Beside kvs (o.props.map (·.1)) ⟨.map false kvs, nameSet (kvs.map (·.1)), []⟩ ⟨.map false kvs, nameSet (kvs.map (·.1)), []⟩ :=
          ⟨⟨kvs, rfl, fun _ _ => rfl, fun _ _ => rfl⟩, rfl, rfl, rfl, fun k hk => (by
            rw [mem_nameSet] at hk
            rw [Ne, alookup_eq_none, not_not]; exact hk), nodup_nameSet _⟩
        have hro0 : o.schemadeps = [] ∨ (ObjSt.mk (.map false kvs) (nameSet (kvs.map (·.1))) []).v = .map false kvs := Or.inr rfl
        generalize (⟨.map false kvs, nameSet (kvs.map (·.1)), []⟩ : ObjSt) = st0 at hstart hro0
        have hroAll : o.schemadeps = [] ∨ ∀ s, (o.map f).Child s → s.ReadOnly := by
          rcases hd with h | h
          · exact Or.inl h
          · exact Or.inr fun s hs => by obtain ⟨c, hcc, rfl⟩ := (ObjC.map_child _ _).1 hs; exact h.1 c hcc
        simp only [objLoops]
        refine seqSt_rel (Rel := fun st st' => Beside kvs [] st st' ∧ (o.schemadeps = [] ∨ st.v = .map false kvs)) ?_
          (Q := fun r r' => r.1 = r'.1) (fun st st' h => ?_) (fun e st st' _ => rfl)
        · obtain ⟨h1, h2⟩ := propLoop_beside (ext := ext) hj hw hc (σ.sub 1) (σ.sub 0).key hstart
          refine ⟨h1, fun hh => ⟨h2 hh, ?_⟩⟩
          rcases hroAll with h | h
          · exact Or.inl h
          · rcases hd with hd | hd
            · exact Or.inl hd
            · rcases hro0 with h0 | h0
              · exact Or.inl h0
              · refine Or.inr ?_
                rw [propLoop_readOnly ext (o.map f) (fun pc hpc => h pc.2 (.prop (p := pc.1) (mem_shuffle.1 hpc))) (fun pc hpc _ => ?_), h0]
                obtain ⟨d, h1, h2⟩ := (ObjC.map_mem_props _ o).1 (show (pc.1, pc.2) ∈ (o.map f).props from mem_shuffle.1 hpc)
                rw [← h2]
                exact hd.2 pc.1 d h1
        · refine seqSt_rel (Rel := fun st st' => Beside kvs [] st st' ∧ (o.schemadeps = [] ∨ st.v = .map false kvs)) ?_
            (Q := fun r r' => r.1 = r'.1) (fun st st' h => ?_) (fun e st st' _ => rfl)
          · obtain ⟨h1, h2⟩ := patLoop_beside (ext := ext) (o := o) hj hc σ (σ.sub 2).key h.1
            refine ⟨h1, fun hh => ⟨h2 hh, ?_⟩⟩
            rcases hroAll with hr | hr
            · exact Or.inl hr
            · refine h.2.imp id fun h0 => ?_
              rw [patLoop_readOnly ext (fun pc hpc => hr pc.2.2 (.pattern (id := pc.1) (src := pc.2.1) (mem_shuffle.1 hpc))), h0]
          · refine seqSt_rel (Rel := fun st st' => Beside kvs [] { st with premain := [] } { st' with premain := [] } ∧
              (o.schemadeps = [] ∨ st.v = .map false kvs)) ?_ (Q := fun r r' => r.1 = r'.1) (fun st st' h => ?_) (fun e st st' _ => rfl)
            · obtain ⟨h1, h2⟩ := addlPhase_beside hj hc σ h.1
              refine ⟨h1, fun hh => ⟨h2 hh, ?_⟩⟩
              rcases hroAll with hr | hr
              · exact Or.inl hr
              · refine h.2.imp id fun h0 => ?_
                rw [addlPhase_readOnly _ (fun c hcc => hr c (.additional hcc)), h0]
            · refine depLoop_beside hj hc (σ.sub 8) (σ.sub 7).key h.1.pseen ?_
              rcases hd with hd | hd
              · exact Or.inl hd
              · exact h.2.imp id fun h0 => ⟨hd.1, h0, h.1.val'⟩
  | _ => simp [objectV, valueOf, RV.indirect, getPropNames, Stop.toRes]

end

/-- A map stays a map, whatever the verdict. -/
theorem objectV_kind {ext : Ext} {o : ObjC Sem} (hd : ∀ k c, o.GetSchemaDependency k = some c → c.ReadOnly) (σ : Sched)
    (kvs : List (GoStr × GoVal)) : ∃ kws, (objectV ext o σ (.map false kvs)).2 = .map false kws := by
  unfold objectV
  split
  · exact ⟨_, rfl⟩
  · simp only
    split
    · exact ⟨_, rfl⟩
    · split
      · exact ⟨_, rfl⟩
      · simp only [objLoops]
        have hseq : ∀ (r : Res × ObjSt) (k : ObjSt → Res × ObjSt), (∃ kws, r.2.v = .map false kws) →
            (∀ st, (∃ kws, st.v = .map false kws) → ∃ kws, (k st).2.v = .map false kws) → ∃ kws, (seqSt r k).2.v = .map false kws := by
          rintro ⟨r, st⟩ k h1 h2
          cases r with
          | ok => exact h2 st h1
          | err e => exact h1
          | abort a => exact h1
        have hstore : ∀ (s : Bool) (st : ObjSt) p x, (∃ kws, st.v = .map false kws) →
            ∃ kws, (if s = true then putProp st.v p x else st.v) = .map false kws := by
          rintro s st p x ⟨kws, h⟩
          rw [h]
          split
          · exact ⟨_, rfl⟩
          · exact ⟨_, rfl⟩
        refine hseq _ _ ?_ fun st h => hseq _ _ ?_ fun st h => hseq _ _ ?_ fun st h => ?_
        · refine forLoop_inv (fun st : ObjSt => ∃ kws, st.v = .map false kws) _ _ _ (fun i pc _ st hs => ?_) ⟨_, rfl⟩
          unfold propStep
          obtain ⟨kws, hk⟩ := id hs
          split
          · exact hs
          · split
            · exact hs
            · split
              · exact hs
              · exact hs
              · rename_i dv _
                obtain ⟨kxs, e, -⟩ := setProp_inMap ext kws pc.1 dv
                rw [hk, e]
                exact ⟨_, rfl⟩
          · rename_i x stored _
            rcases pc.2.val (σ.sub 1 |>.sub i) x with ⟨r, x'⟩
            have := hstore stored st pc.1 x' hs
            cases r <;> exact this
        · refine forLoop_inv (fun st : ObjSt => ∃ kws, st.v = .map false kws) _ _ _ (fun i pc _ st hs => ?_) h
          unfold patOuter
          refine forLoop_inv (fun st : ObjSt => ∃ kws, st.v = .map false kws) _ _ _ (fun i k _ st hs => ?_) hs
          unfold patStep
          split
          · exact hs
          · split
            · exact hs
            · exact hs
            · rename_i x _
              rcases pc.2.2.val _ x with ⟨r, x'⟩
              have := hstore true st k x' hs
              cases r <;> exact this
        · unfold addlPhase
          split
          · split
            · exact h
            · rename_i c _
              refine forLoop_inv (fun st : ObjSt => ∃ kws, st.v = .map false kws) _ _ _ (fun i k _ st hs => ?_) h
              unfold addlStep
              split
              · exact hs
              · exact hs
              · rename_i x _
                rcases c.val _ x with ⟨r, x'⟩
                have := hstore true st k x' hs
                cases r <;> exact this
          · exact h
        · rw [depLoop_readOnly' o hd]; exact h

/-! ## Arrays -/

theorem runItems_erases {s t : Sem} (h : Erases s t) (σ : Sched) : ∀ (xs : List GoVal) (i : Nat), (∀ x ∈ xs, IsJson x) →
    (runItems s σ i xs).1 = (runItems t σ i xs).1
  | [], _, _ => rfl
  | x :: xs, i, hx => by
    have ih := runItems_erases h σ xs (i + 1) (fun y hy => hx y (by simp [hy]))
    have hr := h.run (σ.sub i) x (hx x (by simp))
    rw [runItems, runItems]
    rcases e1 : s.val (σ.sub i) x with ⟨r, y⟩
    rcases e2 : t.val (σ.sub i) x with ⟨r', y'⟩
    rw [e1, e2] at hr
    simp only at hr
    subst hr
    cases r with
    | ok => exact ih
    | err e => rfl
    | abort a => rfl

theorem runPos_erases {f g : Constraint → Sem} (σ : Sched) : ∀ (cs : List Constraint) (xs : List GoVal) (i : Nat),
    (∀ c ∈ cs, Erases (f c) (g c)) → (∀ x ∈ xs, IsJson x) → (runPos σ i (cs.map f) xs).1 = (runPos σ i (cs.map g) xs).1
  | [], _, _, _, _ => rfl
  | c :: cs, [], _, _, _ => rfl
  | c :: cs, x :: xs, i, h, hx => by
    have ih := runPos_erases σ cs xs (i + 1) (fun d hd => h d (by simp [hd])) (fun y hy => hx y (by simp [hy]))
    have hr := (h c (by simp)).run (σ.sub i) x (hx x (by simp))
    rw [List.map_cons, List.map_cons, runPos, runPos]
    rcases e1 : (f c).val (σ.sub i) x with ⟨r, y⟩
    rcases e2 : (g c).val (σ.sub i) x with ⟨r', y'⟩
    rw [e1, e2] at hr
    simp only at hr
    subst hr
    cases r with
    | ok => exact ih
    | err e => rfl
    | abort a => rfl

theorem arrayElems_erases {a : ArrC Constraint} {f g : Constraint → Sem} (hc : ∀ c, a.Child c → Erases (f c) (g c))
    (hadd : ∀ d, a.additional = some d → (∀ σ x, ((f d).val σ x).1 = .ok ∧ ((g d).val σ x).1 = .ok) ∨ ∀ p ∈ a.positional, (f p).ReadOnly)
    (σ : Sched) (xs : List GoVal) (hx : ∀ x ∈ xs, IsJson x) : (arrayElems (a.map f) σ xs).1 = (arrayElems (a.map g) σ xs).1 := by
  obtain ⟨items, pos, add, mn, mx, u⟩ := a
  simp only [arrayElems, ArrC.map]
  cases items with
  | some c => exact runItems_erases (hc c (.items rfl)) _ xs 0 hx
  | none =>
    simp only [Option.map_none]
    have h1 := runPos_erases (f := f) (g := g) (σ.sub 1) pos xs 0 (fun c h => hc c (.positional h)) hx
    have h2 : (runPos (σ.sub 1) 0 (pos.map g) xs).2 = xs := runPos_same _ xs 0 (fun s hs => by
      obtain ⟨d, hd, rfl⟩ := List.mem_map.1 hs
      exact (hc d (.positional hd)).ro)
    have h3 : (runPos (σ.sub 1) 0 (pos.map f) xs).2.length = xs.length := runPos_length _ xs 0
    have h4 : (∀ p ∈ pos, (f p).ReadOnly) → (runPos (σ.sub 1) 0 (pos.map f) xs).2 = xs := fun h =>
      runPos_same _ xs 0 (fun s hs => by obtain ⟨d, hd, rfl⟩ := List.mem_map.1 hs; exact h d hd)
    rcases e1 : runPos (σ.sub 1) 0 (pos.map f) xs with ⟨r, ys⟩
    rcases e2 : runPos (σ.sub 1) 0 (pos.map g) xs with ⟨r', ys'⟩
    rw [e1, e2] at h1
    rw [e2] at h2
    rw [e1] at h3 h4
    simp only at h1 h2 h3 h4
    subst h1 h2
    cases r with
    | err e => rfl
    | abort e => rfl
    | ok =>
      simp only [runAdditional, List.length_map, h3]
      split
      · cases add with
        | none => rfl
        | some d =>
          simp only [Option.map_some]
          rcases hadd d rfl with hok | hro
          · have hall : ∀ (s : Sem) (σ : Sched), (∀ σ x, (s.val σ x).1 = .ok) → ∀ (xs : List GoVal) i, (runItems s σ i xs).1 = .ok := by
              intro s σ hs xs
              induction xs with
              | nil => intro i; rfl
              | cons x xs ih =>
                intro i
                have := hs (σ.sub i) x
                rw [runItems]
                rcases e : s.val (σ.sub i) x with ⟨r, y⟩
                rw [e] at this
                simp only at this
                subst this
                exact ih (i + 1)
            rw [hall _ _ (fun σ x => (hok σ x).1), hall _ _ (fun σ x => (hok σ x).2)]
          · rw [h4 hro]
            exact runItems_erases (hc d (.additional rfl)) _ _ _ (fun x h => hx x (List.mem_of_mem_drop h))
      · rfl

theorem arrayV_erases {ext : Ext} {a : ArrC Constraint} {f g : Constraint → Sem} (hc : ∀ c, a.Child c → Erases (f c) (g c))
    (hadd : ∀ d, a.additional = some d → (∀ σ x, ((f d).val σ x).1 = .ok ∧ ((g d).val σ x).1 = .ok) ∨ ∀ p ∈ a.positional, (f p).ReadOnly)
    (σ : Sched) {v : GoVal} (hv : IsJson v) : (arrayV ext (a.map f) σ v).1 = (arrayV ext (a.map g) σ v).1 := by
  cases hv with
  | arr xs hx =>
    have h := arrayElems_erases hc hadd σ xs hx
    simp only [arrayV, valueOf, apply_ite Prod.fst, h]
    rfl
  | _ => simp [arrayV, valueOf]

/-! ## Combinators -/

/-- On `v`, and on the value `w` that takes its place, the branch fails and changes nothing, or ends the call in the same way. -/
def Sem.Fails (b : Sem) (v w : GoVal) : Prop := ∀ τ, ((∃ e, b.val τ v = (.err e, v)) ∧ ∃ e, b.val τ w = (.err e, w)) ∨
  ∃ a, b.val τ v = (.abort a, v) ∧ b.val τ w = (.abort a, w)

/-- What the first branch changes, the second does not accept. -/
def Sem.Apart (a b : Sem) : Prop := ∀ σ v, IsJson v → (a.val σ v).2 = v ∨ b.Fails v (a.val σ v).2

theorem readOnly_apart {a b : Sem} (h : a.ReadOnly) : a.Apart b := fun σ v _ => Or.inl (h v σ)

theorem apart_rest {cs : List Constraint} {f : Constraint → Sem} {c : Constraint} (h : ∀ d ∈ cs, (f c).Apart (f d)) {σ : Sched}
    {v : GoVal} (hv : IsJson v) : ((f c).val σ v).2 = v ∨ ∀ d ∈ cs, (f d).Fails v ((f c).val σ v).2 := by
  by_cases e : ((f c).val σ v).2 = v
  · exact Or.inl e
  · exact Or.inr fun d hd => (h d hd σ v hv).resolve_left e

theorem anyLoop_erases {f g : Constraint → Sem} {v : GoVal} (hv : IsJson v) : ∀ (cs : List Constraint), (∀ c ∈ cs, Erases (f c) (g c)) →
    (cs.Pairwise fun a b => (f a).Apart (f b)) → ∀ (i : Nat) (σ : Sched) (w : GoVal), (w = v ∨ ∀ c ∈ cs, (f c).Fails v w) →
    (anyLoop i (cs.map f) σ w).1 = (anyLoop i (cs.map g) σ v).1
  | [], _, _, _, _, _, _ => rfl
  | c :: cs, hc, hp, i, σ, w, hw => by
    rw [List.pairwise_cons] at hp
    have ih := anyLoop_erases hv cs (fun d hd => hc d (by simp [hd])) hp.2 (i + 1) σ
    have hr := (hc c (by simp)).run (σ.sub i) v hv
    have hg := (hc c (by simp)).ro v (σ.sub i)
    rw [List.map_cons, List.map_cons, anyLoop, anyLoop]
    simp only
    rcases e2 : (g c).val (σ.sub i) v with ⟨r, y⟩
    rw [e2] at hg hr
    simp only at hg hr
    subst hg
    rcases hw with rfl | hw
    · have ha := apart_rest (σ := σ.sub i) hp.1 hv
      rcases e1 : (f c).val (σ.sub i) w with ⟨r', w'⟩
      rw [e1] at ha hr
      simp only at ha hr
      subst hr
      cases r' with
      | ok => rfl
      | err e => exact ih w' ha
      | abort a => rfl
    · rcases hw c (by simp) (σ.sub i) with ⟨⟨e, h1⟩, e', h2⟩ | ⟨a, h1, h2⟩
      · rw [h1] at hr
        simp only at hr
        subst hr
        rw [h2]
        exact ih w (Or.inr fun d hd => hw d (by simp [hd]))
      · rw [h1] at hr
        simp only at hr
        subst hr
        rw [h2]

theorem oneOfLoop_erases {f g : Constraint → Sem} {v : GoVal} (hv : IsJson v) : ∀ (cs : List Constraint), (∀ c ∈ cs, Erases (f c) (g c)) →
    (cs.Pairwise fun a b => (f a).Apart (f b)) → ∀ (i n : Nat) (σ : Sched) (w : GoVal), (w = v ∨ ∀ c ∈ cs, (f c).Fails v w) →
    (oneOfLoop i n (cs.map f) σ w).1 = (oneOfLoop i n (cs.map g) σ v).1
  | [], _, _, _, n, _, _, _ => by
    simp only [List.map_nil, oneOfLoop, apply_ite Prod.fst]
  | c :: cs, hc, hp, i, n, σ, w, hw => by
    rw [List.pairwise_cons] at hp
    have ih := fun n => oneOfLoop_erases hv cs (fun d hd => hc d (by simp [hd])) hp.2 (i + 1) n σ
    have hr := (hc c (by simp)).run (σ.sub i) v hv
    have hg := (hc c (by simp)).ro v (σ.sub i)
    rw [List.map_cons, List.map_cons, oneOfLoop, oneOfLoop]
    simp only
    rcases e2 : (g c).val (σ.sub i) v with ⟨r, y⟩
    rw [e2] at hg hr
    simp only at hg hr
    subst hg
    rcases hw with rfl | hw
    · have ha := apart_rest (σ := σ.sub i) hp.1 hv
      rcases e1 : (f c).val (σ.sub i) w with ⟨r', w'⟩
      rw [e1] at ha hr
      simp only at ha hr
      subst hr
      cases r' with
      | ok => exact ih _ w' ha
      | err e => exact ih _ w' ha
      | abort a => rfl
    · rcases hw c (by simp) (σ.sub i) with ⟨⟨e, h1⟩, e', h2⟩ | ⟨a, h1, h2⟩
      · rw [h1] at hr
        simp only at hr
        subst hr
        rw [h2]
        exact ih _ w (Or.inr fun d hd => hw d (by simp [hd]))
      · rw [h1] at hr
        simp only at hr
        subst hr
        rw [h2]

theorem allLoop_erases {f g : Constraint → Sem} {v : GoVal} (hv : IsJson v) : ∀ (cs : List Constraint), (∀ c ∈ cs, Erases (f c) (g c)) →
    (cs.Pairwise fun a _ => (f a).ReadOnly) → ∀ (i : Nat) (σ : Sched), (allLoop i (cs.map f) σ v).1 = (allLoop i (cs.map g) σ v).1
  | [], _, _, _, _ => rfl
  | c :: cs, hc, hp, i, σ => by
    rw [List.pairwise_cons] at hp
    have ih := allLoop_erases hv cs (fun d hd => hc d (by simp [hd])) hp.2 (i + 1) σ
    have hr := (hc c (by simp)).run (σ.sub i) v hv
    have hg := (hc c (by simp)).ro v (σ.sub i)
    have hf : ∀ d ∈ cs, ((f c).val (σ.sub i) v).2 = v := fun d hd => hp.1 d hd v (σ.sub i)
    rw [List.map_cons, List.map_cons, allLoop, allLoop]
    simp only
    rcases e2 : (g c).val (σ.sub i) v with ⟨r, y⟩
    rcases e1 : (f c).val (σ.sub i) v with ⟨r', w'⟩
    rw [e2] at hg hr
    rw [e1] at hr hf
    simp only at hg hr hf
    subst hg hr
    cases r' with
    | err e => rfl
    | abort a => rfl
    | ok =>
      cases cs with
      | nil => rfl
      | cons d cs =>
        have := hf d (by simp)
        subst this
        exact ih

theorem notV_erases {c : Option Constraint} {f g : Constraint → Sem} (h : ∀ d, c = some d → Erases (f d) (g d)) (σ : Sched) {v : GoVal}
    (hv : IsJson v) : (notV (c.map f) σ v).1 = (notV (c.map g) σ v).1 := by
  cases c with
  | none => rfl
  | some d =>
    have hr := (h d rfl).run (σ.sub 0) v hv
    simp only [notV, Option.map_some]
    rcases e1 : (f d).val (σ.sub 0) v with ⟨r, w⟩
    rcases e2 : (g d).val (σ.sub 0) v with ⟨r', w'⟩
    rw [e1, e2] at hr
    simp only at hr
    subst hr
    cases r <;> rfl

/-! ## Kinds of values -/

theorem arrayV_kind {ext : Ext} (a : ArrC Sem) (σ : Sched) (v : GoVal) :
    (arrayV ext a σ v).2 = v ∨ ∃ n xs ys, v = .slice n xs ∧ (arrayV ext a σ v).2 = .slice n ys := by
  unfold arrayV
  split
  · rename_i n xs hv
    have hvv : v = .slice n xs := by
      cases v <;> simp [valueOf] at hv
      rw [hv.1, hv.2]
    split
    · exact Or.inl rfl
    · split
      · exact Or.inl rfl
      · split
        · exact Or.inl rfl
        · exact Or.inr ⟨n, xs, _, hvv, rfl⟩
  · exact Or.inl rfl

theorem scalar_fails {ext : Ext} {ρ : RefSem} {b : Constraint} (hb : b.ForScalars) {v : GoVal} (hv : IsBox v) (τ : Sched) :
    ∃ e, (denote ext ρ b).val τ v = (.err e, v) := by
  cases hb <;> cases hv <;>
    simp [denote, pureV, nullCheck, boolCheck, strCheck, numCheck, intCheck, valueOf, RV.indirect]

/-- Constraints for different kinds of values, also behind references. -/
theorem clash_apart {ext : Ext} {env : Env} (henv : env.Every (Unseen env)) {a b : Constraint} (h : Clash env a b) (ha : Unseen env a) (k k' : Nat) :
    (sem ext env k a).Apart (sem ext env k' b) := by
  have hobj : ∀ ρ, (∀ d, Inert env d → (denote ext ρ d).ReadOnly) → ∀ o, Unseen env (.object o) → ∀ σ v, IsJson v →
      ((denote ext ρ (.object o)).val σ v).2 = v ∨ ∃ kvs kws, v = .map false kvs ∧ ((denote ext ρ (.object o)).val σ v).2 = .map false kws := by
    intro ρ hro o ho σ v hv
    have hd : ∀ p d, o.GetSchemaDependency p = some d → (denote ext ρ d).ReadOnly := by
      intro p d hpd
      rcases ho.2 with h0 | hi
      · simp [ObjC.GetSchemaDependency, h0, alookup] at hpd
      · exact hro d (hi.child (.object (.dependency hpd)))
    simp only [denote, denoteObj_eq]
    cases hv with
    | obj kvs _ _ =>
      refine Or.inr ⟨kvs, (objectV_kind (fun k s h => ?_) σ kvs).choose, rfl, (objectV_kind (fun k s h => ?_) σ kvs).choose_spec⟩ <;>
      · have h' : (o.GetSchemaDependency k).map (denote ext ρ) = some s := by
          rw [← h]; exact (alookup_map _ k o.schemadeps).symm
        obtain ⟨d, h1, rfl⟩ := Option.map_eq_some_iff.1 h'
        exact hd k d h1
    | _ => exact Or.inl (by simp [objectV, valueOf, RV.indirect, getPropNames, Stop.toRes])
  have harr : ∀ ρ r σ v, ((denote ext ρ (.array r)).val σ v).2 = v ∨
      ∃ n xs ys, v = .slice n xs ∧ ((denote ext ρ (.array r)).val σ v).2 = .slice n ys := by
    intro ρ r σ v
    simp only [denote]
    exact arrayV_kind _ σ v
  induction h generalizing k k' with
  | objectScalar hb =>
    intro σ v hv
    refine (hobj _ (fun d => inert_readOnly k d) _ ha σ v hv).imp id ?_
    rintro ⟨kvs, kws, rfl, h⟩ τ
    simp only [sem]
    rw [h]
    exact Or.inl ⟨scalar_fails hb (.map _) τ, scalar_fails hb (.map _) τ⟩
  | objectArray =>
    intro σ v hv
    refine (hobj _ (fun d => inert_readOnly k d) _ ha σ v hv).imp id ?_
    rintro ⟨kvs, kws, rfl, h⟩ τ
    simp only [sem]
    rw [h]
    simp [denote, arrayV, valueOf]
  | arrayScalar hb =>
    intro σ v hv
    refine (harr _ _ σ v).imp id ?_
    rintro ⟨n, xs, ys, rfl, h⟩ τ
    simp only [sem]
    rw [h]
    cases hv
    exact Or.inl ⟨scalar_fails hb (.slice _) τ, scalar_fails hb (.slice _) τ⟩
  | arrayObject =>
    intro σ v hv
    refine (harr _ _ σ v).imp id ?_
    rintro ⟨n, xs, ys, rfl, h⟩ τ
    simp only [sem]
    rw [h]
    simp [denote, objectV, valueOf, RV.indirect, getPropNames, Stop.toRes]
  | left he _ ih =>
    cases k with
    | zero => exact fun σ v _ => Or.inl rfl
    | succ k =>
      intro σ v hv
      have := ih (henv _ _ _ he _ (.refl _)) k k' σ v hv
      simpa only [sem, denote, refSem, he] using this
  | right he _ ih =>
    cases k' with
    | zero => exact fun σ v _ => Or.inr fun τ => Or.inr ⟨_, rfl, rfl⟩
    | succ k' =>
      intro σ v hv
      have := ih ha k k' σ v hv
      simpa only [sem, denote, refSem, he] using this
  | leftNothing he =>
    cases k with
    | zero => exact fun σ v _ => Or.inl rfl
    | succ k => exact fun σ v _ => Or.inl (by simp only [sem, denote, refSem, he]; rfl)
  | rightNothing he =>
    cases k' with
    | zero => exact fun σ v _ => Or.inr fun τ => Or.inr ⟨_, rfl, rfl⟩
    | succ k' =>
      refine fun σ v _ => Or.inr fun τ => Or.inl ?_
      simp only [sem, denote, refSem, he]
      exact ⟨⟨_, rfl⟩, _, rfl⟩

/-! ## Trees -/

theorem ArrC.map_child' {D : Type} {a : ArrC Constraint} {f : Constraint → D} {s : D} (hs : (a.map f).Child s) : ∃ c, a.Child c ∧ f c = s := by
  cases hs with
  | items hi =>
    obtain ⟨d, hd, rfl⟩ := Option.map_eq_some_iff.1 hi
    exact ⟨d, .items hd, rfl⟩
  | positional hi =>
    obtain ⟨d, hd, rfl⟩ := List.mem_map.1 hi
    exact ⟨d, .positional hd, rfl⟩
  | additional hi =>
    obtain ⟨d, hd, rfl⟩ := Option.map_eq_some_iff.1 hi
    exact ⟨d, .additional hd, rfl⟩

theorem ObjC.map_plain (o : ObjC Constraint) (f : Constraint → Sem) : (o.map Constraint.plain).map f = o.map fun c => f c.plain := by
  simp [ObjC.map, Function.comp_def]
theorem ArrC.map_plain (a : ArrC Constraint) (f : Constraint → Sem) : (a.map Constraint.plain).map f = a.map fun c => f c.plain := by
  simp [ArrC.map, Function.comp_def]

theorem plain_child {c d : Constraint} (h : c.plain.Child d) : ∃ e, c.Child e ∧ e.plain = d := by
  cases c with
  | array a =>
    rw [plain_array] at h
    cases h with
    | array h =>
      obtain ⟨e, h1, h2⟩ := ArrC.map_child' h
      exact ⟨e, .array h1, h2⟩
  | object o =>
    rw [plain_object] at h
    cases h with
    | object h =>
      obtain ⟨e, h1, h2⟩ := (ObjC.map_child _ _).1 h
      exact ⟨e, .object h1, h2⟩
  | any cs =>
    simp only [Constraint.plain, plainList_eq] at h
    cases h with
    | any h => obtain ⟨e, h1, h2⟩ := List.mem_map.1 h; exact ⟨e, .any h1, h2⟩
  | all cs =>
    simp only [Constraint.plain, plainList_eq] at h
    cases h with
    | all h => obtain ⟨e, h1, h2⟩ := List.mem_map.1 h; exact ⟨e, .all h1, h2⟩
  | oneOf cs =>
    simp only [Constraint.plain, plainList_eq] at h
    cases h with
    | oneOf h => obtain ⟨e, h1, h2⟩ := List.mem_map.1 h; exact ⟨e, .oneOf h1, h2⟩
  | not c =>
    cases c with
    | none => simp only [Constraint.plain, plainOpt_eq] at h; cases h
    | some c =>
      simp only [Constraint.plain, plainOpt_eq, Option.map_some] at h
      cases h
      exact ⟨c, .not, rfl⟩
  | _ => simp only [Constraint.plain] at h; cases h

/-- One node. -/
theorem erases_node {ext : Ext} {env : Env} {ρ ρ' : RefSem} (hro : ∀ d, Inert env d → (denote ext ρ d).ReadOnly)
    (hdf : ∀ d dv, (denote ext ρ d).dflt = .some dv → Defaulted env d) {c : Constraint} (hc : Unseen env c)
    (hsub : ∀ d, c.Child d → Unseen env d) (hap : ∀ a b, Clash env a b → Unseen env a → (denote ext ρ a).Apart (denote ext ρ b))
    (hρ : ∀ m n, c = .ref m n → Erases (ρ m n) (ρ' m n))
    (ih : ∀ d, c.Child d → Erases (denote ext ρ d) (denote ext ρ' d.plain)) : Erases (denote ext ρ c) (denote ext ρ' c.plain) := by
  have hleaf : ∀ {f : GoVal → Res} (d : Option GoVal), Erases ⟨.ofOption d, pureV f⟩ ⟨.ofOption none, pureV f⟩ := fun d =>
    ⟨fun dv h => (by cases h), fun a => ⟨fun h => (by cases d <;> cases h), fun h => (by cases h)⟩, fun _ _ => rfl, fun _ _ _ => rfl⟩
  have hnone : ∀ {s t : Validator}, (∀ v σ, (t σ v).2 = v) → (∀ σ v, IsJson v → (s σ v).1 = (t σ v).1) →
      Erases ⟨.none, s⟩ ⟨.none, t⟩ := fun h1 h2 =>
    ⟨fun dv h => (by cases h), fun a => ⟨fun h => (by cases h), fun h => (by cases h)⟩, h1, h2⟩
  have hlist : ∀ cs : List Constraint, (∀ d ∈ cs, c.Child d) → ∀ s ∈ cs.map (fun d => denote ext ρ' d.plain), s.ReadOnly := by
    intro cs h s hs
    obtain ⟨d, hd, rfl⟩ := List.mem_map.1 hs
    exact (ih d (h d hd)).ro
  have hclash : ∀ cs : List Constraint, (∀ d ∈ cs, c.Child d) → (cs.Pairwise fun a b => Inert env a ∨ Clash env a b) →
      cs.Pairwise fun a b => (denote ext ρ a).Apart (denote ext ρ b) := by
    intro cs h hp
    refine hp.imp_of_mem fun {a b} ha _ hab => ?_
    rcases hab with hi | hcl
    · exact readOnly_apart (hro a hi)
    · exact hap a b hcl (hsub a (h a ha))
  cases c with
  | empty => exact hnone (fun _ _ => rfl) (fun _ _ _ => rfl)
  | null => exact hnone (fun _ _ => rfl) (fun _ _ _ => rfl)
  | boolean d => exact hleaf d
  | string s => exact hleaf s.dflt
  | number s => exact hleaf s.dflt
  | integer s => exact hleaf s.dflt
  | enum vals => exact hnone (fun _ _ => rfl) (fun _ _ _ => rfl)
  | array a =>
    rw [plain_array]
    simp only [denote, denoteArr_eq, ArrC.map_plain]
    refine hnone (fun v σ => arrayV_same (fun s hs => ?_) σ v) (fun σ v hv => ?_)
    · obtain ⟨d, hd, rfl⟩ := ArrC.map_child' hs
      exact (ih d (.array hd)).ro
    · refine arrayV_erases (g := fun d => denote ext ρ' d.plain) (fun d hd => ih d (.array hd)) (fun d hd => ?_) σ hv
      refine (hc d hd).imp (fun h => ?_) fun h p hp => hro p (h p hp)
      subst h
      exact fun σ x => ⟨rfl, rfl⟩
  | object o =>
    rw [plain_object]
    simp only [denote, denoteObj_eq, ObjC.map_plain]
    refine hnone (fun v σ => objectV_same (fun s hs => ?_) (fun p s h dv => ?_) σ v) (fun σ v hv => ?_)
    · obtain ⟨d, hd, rfl⟩ := (ObjC.map_child _ _).1 hs
      exact (ih d (.object hd)).ro
    · obtain ⟨d, h1, rfl⟩ := (ObjC.map_mem_props _ o).1 h
      exact (ih d (.object (.prop h1))).no dv
    · refine objectV_erases (g := fun d => denote ext ρ' d.plain) hc.1 (fun d hd => ih d (.object hd)) (hc.2.imp id fun h => ⟨fun d hd => ?_, fun p d hpd dv hdv => ?_⟩) σ hv
      · exact hro d (h.child (.object hd))
      · exact h _ (.refl _) (.mk hpd (hdf d dv hdv))
  | any cs =>
    simp only [Constraint.plain, denote, denoteList_eq, plainList_eq, List.map_map]
    refine hnone (fun v σ => anyLoop_same _ _ _ _ (hlist cs fun d h => .any h)) fun σ v hv => ?_
    exact anyLoop_erases (g := fun d => denote ext ρ' d.plain) hv cs (fun d hd => ih d (.any hd)) (hclash cs (fun d h => .any h) hc) 0 σ v (Or.inl rfl)
  | all cs =>
    simp only [Constraint.plain, denote, denoteList_eq, plainList_eq, List.map_map]
    refine hnone (fun v σ => allLoop_same _ _ _ _ (hlist cs fun d h => .all h)) fun σ v hv => ?_
    exact allLoop_erases (g := fun d => denote ext ρ' d.plain) hv cs (fun d hd => ih d (.all hd)) (hc.imp fun h => hro _ h) 0 σ
  | oneOf cs =>
    simp only [Constraint.plain, denote, denoteList_eq, plainList_eq, List.map_map]
    refine hnone (fun v σ => oneOfLoop_same _ _ _ _ _ (hlist cs fun d h => .oneOf h)) fun σ v hv => ?_
    exact oneOfLoop_erases (g := fun d => denote ext ρ' d.plain) hv cs (fun d hd => ih d (.oneOf hd)) (hclash cs (fun d h => .oneOf h) hc) 0 0 σ v
      (Or.inl rfl)
  | not c =>
    simp only [Constraint.plain, denote, denoteOpt_eq, plainOpt_eq, Option.map_map]
    refine hnone (fun v σ => notV_same _ _ _ (fun s hs => ?_)) fun σ v hv => ?_
    · obtain ⟨d, rfl, rfl⟩ := Option.map_eq_some_iff.1 hs
      exact (ih d .not).ro
    · exact notV_erases (g := fun d => denote ext ρ' d.plain) (fun d (hd : c = some d) => ih d (hd ▸ .not)) σ hv
  | ref m n => exact hρ m n rfl

theorem erases_sem {ext : Ext} {env : Env} (henv : env.Every (Unseen env)) (fuel : Nat) :
    ∀ c : Constraint, c.Every (Unseen env) → Erases (sem ext env fuel c) (sem ext env.plain fuel c.plain) := by
  induction fuel with
  | zero =>
    intro c
    induction c using Constraint.ind with
    | h c ih =>
      intro hc
      refine erases_node (fun d => inert_readOnly 0 d) (dflt_defaulted 0) (hc c (.refl c)) (fun d hd => hc d (.child hd (.refl d))) (fun a b h ha => clash_apart henv h ha _ _) (fun m n _ => ?_)
        fun d hd => ih d hd fun e he => hc e (.child hd he)
      simp only [refSem]
      exact ⟨fun dv h => (by cases h), fun a => Iff.rfl, fun _ _ => rfl, fun _ _ _ => rfl⟩
  | succ fuel ihf =>
    intro c
    induction c using Constraint.ind with
    | h c ih =>
      intro hc
      refine erases_node (fun d => inert_readOnly _ d) (dflt_defaulted _) (hc c (.refl c)) (fun d hd => hc d (.child hd (.refl d))) (fun a b h ha => clash_apart henv h ha _ _) (fun m n _ => ?_)
        fun d hd => ih d hd fun e he => hc e (.child hd he)
      cases he : env m n with
      | none =>
        simp only [refSem, Env.plain, he, Option.map_none]
        exact ⟨fun dv h => (by cases h), fun a => Iff.rfl, fun _ _ => rfl, fun _ _ _ => rfl⟩
      | some d =>
        simp only [refSem, Env.plain, he, Option.map_some]
        exact ihf d (henv m n d he)

end Jsval
