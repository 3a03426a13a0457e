import Verif.Lemmas.EmbedSet
import Verif.Lemmas.ShowsAcc
import Verif.Lemmas.Erase
import Verif.Lemmas.Policies
/-!
# A struct with and without one of its fields set, side by side
-/
namespace Jsval

/-- The second struct shows the fields of the first, except that the field `f` holds `x`. -/
structure Twin (f : Field) (x : GoVal) (fs fsA : List (Field × GoVal)) : Prop where
  left : Merges fs
  right : Merges fsA
  fields : unembed fsA = setF f.name x (unembed fs)

theorem setF_setF (fn : GoStr) (x y : GoVal) (fs : List (Field × GoVal)) : setF fn x (setF fn y fs) = setF fn x fs := by
  unfold setF
  rw [List.map_map]
  refine List.map_congr_left fun q _ => ?_
  simp only [Function.comp]
  split <;> simp_all

theorem setF_comm {fn gn : GoStr} (h : fn ≠ gn) (x y : GoVal) (fs : List (Field × GoVal)) :
    setF fn x (setF gn y fs) = setF gn y (setF fn x fs) := by
  unfold setF
  rw [List.map_map, List.map_map]
  refine List.map_congr_left fun q _ => ?_
  simp only [Function.comp]
  by_cases h1 : q.1.name = fn
  · have : q.1.name ≠ gn := fun e => h (h1.symm.trans e)
    simp [h1, h]
  · by_cases h2 : q.1.name = gn <;> simp [h1, h2, h.symm]

theorem indirect_struct (b : Bool) (fs : List (Field × GoVal)) : (valueOf (wrap b (.struct fs))).indirect = some (.struct fs) := by
  cases b <;> rfl

theorem putProp_struct (b : Bool) (fs : List (Field × GoVal)) (q : GoStr) (x : GoVal) :
    putProp (wrap b (.struct fs)) q x = wrap b (putAt (.struct fs) q x) := by
  cases b <;> rfl

theorem setProp_struct (ext : Ext) (b : Bool) (fs : List (Field × GoVal)) (q : GoStr) (dv : GoVal) :
    setProp ext (wrap b (.struct fs)) q dv = (setPropAt ext b (.struct fs) q dv).map (wrap b) := by
  cases b
  · simp only [wrap, setProp]; cases setPropAt ext false _ q dv <;> rfl
  · rfl

section
variable {f : Field} {x fv : GoVal} {p : GoStr} {fs fsA : List (Field × GoVal)}

theorem Twin.refl (h : Merges fs) (hf : (f, fv) ∈ unembed fs) : Twin f fv fs fs := by
  refine ⟨h, h, ?_⟩
  have : setF f.name fv (unembed fs) = (unembed fs).map id := by
    refine List.map_congr_left fun q hq => ?_
    split
    · rename_i e
      rw [nodup_field_eq h.flat.goNames hq hf e]
      rfl
    · rfl
  rw [this, List.map_id]

theorem Twin.fieldVal (h : Twin f x fs fsA) (hf : (f, fv) ∈ unembed fs) (hn : jsonNameSpec f = some p) {q : GoStr} (hq : q ≠ p) :
    Jsval.fieldVal q (unembed fsA) = Jsval.fieldVal q (unembed fs) := by
  refine Option.ext fun ⟨n, v⟩ => ?_
  rw [fieldVal_spec h.right.flat, fieldVal_spec h.left.flat, h.fields]
  refine exists_congr fun g => ?_
  rw [mem_setF]
  constructor
  · rintro ⟨⟨h1, -, z, h2⟩ | ⟨-, h1⟩, h3, h4⟩
    · have := nodup_field_eq h.left.flat.goNames h2 hf h1
      cases this
      rw [hn] at h4
      cases h4
      exact absurd rfl hq
    · exact ⟨h1, h3, h4⟩
  · rintro ⟨h1, h3, h4⟩
    refine ⟨Or.inr ⟨fun e => ?_, h1⟩, h3, h4⟩
    have := nodup_field_eq h.left.flat.goNames h1 hf e
    cases this
    rw [hn] at h4
    cases h4
    exact hq rfl

theorem Twin.getProp (h : Twin f x fs fsA) (hf : (f, fv) ∈ unembed fs) (hn : jsonNameSpec f = some p) {q : GoStr} (hq : q ≠ p) :
    Jsval.getProp (some (.struct fsA)) q = Jsval.getProp (some (.struct fs)) q := by
  rw [getProp_merged h.left, getProp_merged h.right, h.fieldVal hf hn hq]

theorem Twin.viewProp (h : Twin f x fs fsA) (hf : (f, fv) ∈ unembed fs) (hn : jsonNameSpec f = some p) {q : GoStr} (hq : q ≠ p) :
    Jsval.viewProp (some (.struct fsA)) q = Jsval.viewProp (some (.struct fs)) q := by
  unfold Jsval.viewProp
  rw [h.getProp hf hn hq]

/-- Setting another field on both sides. -/
theorem Twin.set (h : Twin f x fs fsA) (hf : (f, fv) ∈ unembed fs) {g : Field} {w : GoVal} (hg : (g, w) ∈ unembed fs)
    (hne : g.name ≠ f.name) (y : GoVal) : Twin f x (setField g.name y fs) (setField g.name y fsA) ∧ (f, fv) ∈ unembed (setField g.name y fs) := by
  obtain ⟨a1, a2⟩ := setField_merged h.left hg y
  obtain ⟨b1, b2⟩ := setField_merged h.right (show (g, w) ∈ unembed fsA by rw [h.fields, mem_setF]; exact Or.inr ⟨hne, hg⟩) y
  refine ⟨⟨a2, b2, ?_⟩, ?_⟩
  · rw [a1, b1, h.fields, setF_comm hne]
  · rw [a1, mem_setF]; exact Or.inr ⟨hne.symm, hf⟩

theorem Twin.field_ne (h : Twin f x fs fsA) (hf : (f, fv) ∈ unembed fs) (hn : jsonNameSpec f = some p) {q : GoStr} (hq : q ≠ p)
    {g : Field} {w : GoVal} (hg : (g, w) ∈ unembed fs) (hgq : jsonNameSpec g = some q) : g.name ≠ f.name := fun e => by
  have := nodup_field_eq h.left.flat.goNames hg hf e
  cases this
  rw [hn] at hgq
  cases hgq
  exact hq rfl

theorem Twin.put (h : Twin f x fs fsA) (hf : (f, fv) ∈ unembed fs) (hn : jsonNameSpec f = some p) {q : GoStr} (hq : q ≠ p) (y : GoVal) :
    ∃ fs1 fsA1, putAt (.struct fs) q y = .struct fs1 ∧ putAt (.struct fsA) q y = .struct fsA1 ∧ Twin f x fs1 fsA1 ∧ (f, fv) ∈ unembed fs1 := by
  cases hv : Jsval.fieldVal q (unembed fs) with
  | none =>
    refine ⟨fs, fsA, ?_, ?_, h, hf⟩
    · obtain ⟨props, h1, h2⟩ := extract_lookup h.left q
      simp only [putAt, h1, Option.bind_some, h2, hv, Option.map_none]
    · obtain ⟨props, h1, h2⟩ := extract_lookup h.right q
      simp only [putAt, h1, Option.bind_some, h2, h.fieldVal hf hn hq, hv, Option.map_none]
  | some nv =>
    obtain ⟨n, w⟩ := nv
    obtain ⟨g, hg, -, hgq⟩ := (fieldVal_spec h.left.flat).1 hv
    have hne := h.field_ne hf hn hq hg hgq
    have hgA : (g, w) ∈ unembed fsA := by rw [h.fields, mem_setF]; exact Or.inr ⟨hne, hg⟩
    obtain ⟨t1, t2⟩ := h.set hf hg hne y
    exact ⟨_, _, putAt_merged h.left hg hgq y, putAt_merged h.right hgA hgq y, t1, t2⟩

theorem setPropAt_noField (ext : Ext) (b : Bool) (h : Merges fs) {q : GoStr} (hv : fieldVal q (unembed fs) = none) (dv : GoVal) :
    setPropAt ext b (.struct fs) q dv = .error (.err (.noField q)) := by
  obtain ⟨props, h1, h2⟩ := extract_lookup h q
  simp only [setPropAt, setPropStruct, h1, h2, hv, Option.map_none, Option.bind_none]
  rfl

theorem Twin.setProp (ext : Ext) (b : Bool) (h : Twin f x fs fsA) (hf : (f, fv) ∈ unembed fs) (hn : jsonNameSpec f = some p) {q : GoStr}
    (hq : q ≠ p) (dv : GoVal) :
    (∃ e, setPropAt ext b (.struct fs) q dv = .error e ∧ setPropAt ext b (.struct fsA) q dv = .error e) ∨
    ∃ fs1 fsA1, setPropAt ext b (.struct fs) q dv = .ok (.struct fs1) ∧ setPropAt ext b (.struct fsA) q dv = .ok (.struct fsA1) ∧
      Twin f x fs1 fsA1 ∧ (f, fv) ∈ unembed fs1 := by
  cases hv : Jsval.fieldVal q (unembed fs) with
  | none => exact Or.inl ⟨_, setPropAt_noField ext b h.left hv dv, setPropAt_noField ext b h.right (by rw [h.fieldVal hf hn hq, hv]) dv⟩
  | some nv =>
    obtain ⟨n, w⟩ := nv
    obtain ⟨g, hg, -, hgq⟩ := (fieldVal_spec h.left.flat).1 hv
    have hne := h.field_ne hf hn hq hg hgq
    have hgA : (g, w) ∈ unembed fsA := by rw [h.fields, mem_setF]; exact Or.inr ⟨hne, hg⟩
    rw [setPropAt_merged ext b h.left hg hgq, setPropAt_merged ext b h.right hgA hgq]
    cases stored ext b w dv with
    | error e => exact Or.inl ⟨e, rfl, rfl⟩
    | ok y =>
      obtain ⟨t1, t2⟩ := h.set hf hg hne y
      exact Or.inr ⟨_, _, rfl, rfl, t1, t2⟩

end

/-- The states of two runs, the second on a struct whose field `f` for property `p` holds `x`. -/
def Twins (p : GoStr) (f : Field) (fv x : GoVal) (b : Bool) (st stA : ObjSt) : Prop :=
  ∃ fs fsA, st.v = wrap b (.struct fs) ∧ stA.v = wrap b (.struct fsA) ∧ Twin f x fs fsA ∧ (f, fv) ∈ unembed fs ∧
    stA.premain = st.premain ∧ stA.pseen = st.pseen ∧ p ∉ st.premain

section
variable {ext : Ext} {o o' : ObjC Sem} {f : Field} {x fv : GoVal} {p : GoStr} {b : Bool}

theorem propStep_twins (hn : jsonNameSpec f = some p) (hreq : o.required = o'.required) {σ : Sched} {i : Nat} {q : GoStr} (hq : q ≠ p) (d : Sem)
    {st stA : ObjSt} (h : Twins p f fv x b st stA) :
    (propStep ext o' σ i (q, d) st).1 = (propStep ext o σ i (q, d) stA).1 ∧
    ((propStep ext o' σ i (q, d) st).1 = .ok → Twins p f fv x b (propStep ext o' σ i (q, d) st).2 (propStep ext o σ i (q, d) stA).2) := by
  obtain ⟨v, pm, ps⟩ := st
  obtain ⟨vA, pmA, psA⟩ := stA
  obtain ⟨fs, fsA, h1, h2, ht, hf, h3, h4, h5⟩ := h
  simp only at h1 h2 h3 h4 h5
  subst h1 h2 h3 h4
  unfold propStep
  simp only [indirect_struct, ht.viewProp hf hn hq, hreq]
  cases hv : viewProp (some (.struct fs)) q with
  | error a => exact ⟨rfl, fun h => by cases h⟩
  | ok pv =>
    cases pv with
    | absent =>
      simp only
      split
      · exact ⟨rfl, fun h => by cases h⟩
      · cases d.dflt with
        | abort a => exact ⟨rfl, fun h => by cases h⟩
        | none => exact ⟨rfl, fun _ => ⟨fs, fsA, rfl, rfl, ht, hf, rfl, rfl, h5⟩⟩
        | some dv =>
          simp only [setProp_struct]
          rcases ht.setProp ext b hf hn hq dv with ⟨e, e1, e2⟩ | ⟨fs1, fsA1, e1, e2, t1, t2⟩
          · rw [e1, e2]
            cases e <;> exact ⟨rfl, fun h => by cases h⟩
          · rw [e1, e2]
            exact ⟨rfl, fun _ => ⟨fs1, fsA1, rfl, rfl, t1, t2, rfl, rfl, h5⟩⟩
    | present y s =>
      rcases ed : d.val (σ.sub i) y with ⟨r, y'⟩
      simp only [ed]
      obtain ⟨fs1, fsA1, e1, e2, t1, t2⟩ := ht.put hf hn hq y'
      have hm : p ∉ pmA.filter (fun k => decide (k ≠ q)) := fun hh => h5 (List.mem_filter.1 hh).1
      cases r with
      | err e => exact ⟨rfl, fun h => by cases h⟩
      | abort a => exact ⟨rfl, fun h => by cases h⟩
      | ok =>
        refine ⟨rfl, fun _ => ?_⟩
        simp only [putProp_struct, e1, e2]
        cases s
        · exact ⟨fs, fsA, rfl, rfl, ht, hf, rfl, rfl, hm⟩
        · exact ⟨fs1, fsA1, rfl, rfl, t1, t2, rfl, rfl, hm⟩

theorem patStep_twins (hn : jsonNameSpec f = some p) {src : GoStr} {σ : Sched} {i : Nat} {q : GoStr} (hq : q ≠ p) (d : Sem)
    {st stA : ObjSt} (h : Twins p f fv x b st stA) :
    (patStep ext src d σ i q st).1 = (patStep ext src d σ i q stA).1 ∧
    ((patStep ext src d σ i q st).1 = .ok → Twins p f fv x b (patStep ext src d σ i q st).2 (patStep ext src d σ i q stA).2) := by
  obtain ⟨v, pm, ps⟩ := st
  obtain ⟨vA, pmA, psA⟩ := stA
  obtain ⟨fs, fsA, h1, h2, ht, hf, h3, h4, h5⟩ := h
  simp only at h1 h2 h3 h4 h5
  subst h1 h2 h3 h4
  unfold patStep
  split
  · exact ⟨rfl, fun _ => ⟨fs, fsA, rfl, rfl, ht, hf, rfl, rfl, h5⟩⟩
  simp only [indirect_struct, ht.getProp hf hn hq]
  cases getProp (some (.struct fs)) q with
  | error a => exact ⟨rfl, fun h => by cases h⟩
  | ok pv =>
    cases pv with
    | none => exact ⟨rfl, fun h => by cases h⟩
    | some y =>
      rcases ed : d.val (σ.sub i) y with ⟨r, y'⟩
      simp only [ed]
      obtain ⟨fs1, fsA1, e1, e2, t1, t2⟩ := ht.put hf hn hq y'
      have hm : p ∉ pmA.filter (fun k => decide (k ≠ q)) := fun hh => h5 (List.mem_filter.1 hh).1
      cases r with
      | err e => exact ⟨rfl, fun h => by cases h⟩
      | abort a => exact ⟨rfl, fun h => by cases h⟩
      | ok =>
        refine ⟨rfl, fun _ => ?_⟩
        simp only [putProp_struct, e1, e2]
        exact ⟨fs1, fsA1, rfl, rfl, t1, t2, rfl, rfl, hm⟩

theorem addlStep_twins (hn : jsonNameSpec f = some p) {σ : Sched} {i : Nat} {q : GoStr} (hq : q ≠ p) (d : Sem)
    {st stA : ObjSt} (h : Twins p f fv x b st stA) :
    (addlStep d σ i q st).1 = (addlStep d σ i q stA).1 ∧
    ((addlStep d σ i q st).1 = .ok → Twins p f fv x b (addlStep d σ i q st).2 (addlStep d σ i q stA).2) := by
  obtain ⟨v, pm, ps⟩ := st
  obtain ⟨vA, pmA, psA⟩ := stA
  obtain ⟨fs, fsA, h1, h2, ht, hf, h3, h4, h5⟩ := h
  simp only at h1 h2 h3 h4 h5
  subst h1 h2 h3 h4
  unfold addlStep
  simp only [indirect_struct, ht.getProp hf hn hq]
  cases getProp (some (.struct fs)) q with
  | error a => exact ⟨rfl, fun h => by cases h⟩
  | ok pv =>
    cases pv with
    | none => exact ⟨rfl, fun h => by cases h⟩
    | some y =>
      rcases ed : d.val (σ.sub i) y with ⟨r, y'⟩
      simp only [ed]
      obtain ⟨fs1, fsA1, e1, e2, t1, t2⟩ := ht.put hf hn hq y'
      cases r with
      | err e => exact ⟨rfl, fun h => by cases h⟩
      | abort a => exact ⟨rfl, fun h => by cases h⟩
      | ok =>
        refine ⟨rfl, fun _ => ?_⟩
        simp only [putProp_struct, e1, e2]
        exact ⟨fs1, fsA1, rfl, rfl, t1, t2, rfl, rfl, h5⟩

theorem patOuter_twins (hn : jsonNameSpec f = some p) {a : Nat × GoStr × Sem} {σ : Sched} {j : Nat} {st stA : ObjSt} (h : Twins p f fv x b st stA) :
    (patOuter ext σ j a st).1 = (patOuter ext σ j a stA).1 ∧
    ((patOuter ext σ j a st).1 = .ok → Twins p f fv x b (patOuter ext σ j a st).2 (patOuter ext σ j a stA).2) := by
  have hpm : stA.premain = st.premain := by obtain ⟨_, _, _, _, _, _, h, -⟩ := h; exact h
  have hp : p ∉ st.premain := by obtain ⟨_, _, _, _, _, _, _, _, h⟩ := h; exact h
  unfold patOuter
  rw [hpm]
  have := forLoop_rel (step := patStep ext a.2.1 a.2.2 ((σ.sub 4).sub j)) (step' := patStep ext a.2.1 a.2.2 ((σ.sub 4).sub j))
    (f := fun n : GoStr => n) (g := fun n => n) (Rel := fun l st st' => p ∉ l ∧ Twins p f fv x b st st')
    (fun i y rest st st' hr => by
      obtain ⟨h1, h2⟩ := hr
      simp only [List.mem_cons, not_or] at h1
      obtain ⟨h3, h4⟩ := patStep_twins (ext := ext) (src := a.2.1) hn (σ := (σ.sub 4).sub j) (i := i) (Ne.symm h1.1) a.2.2 h2
      exact ⟨h3, fun hh => ⟨h1.2, h4 hh⟩⟩)
    (shuffle ((σ.sub 3).sub j).key st.premain) 0 st stA ⟨fun hh => hp (mem_shuffle.1 hh), h⟩
  simp only [List.map_id'] at this
  exact ⟨this.1, fun hh => (this.2 hh).2⟩

theorem patLoop_twins (hn : jsonNameSpec f = some p) (l : List (Nat × GoStr × Sem)) {σ : Sched} {st stA : ObjSt} (h : Twins p f fv x b st stA) :
    (forLoop (patOuter ext σ) 0 l st).1 = (forLoop (patOuter ext σ) 0 l stA).1 ∧
    ((forLoop (patOuter ext σ) 0 l st).1 = .ok → Twins p f fv x b (forLoop (patOuter ext σ) 0 l st).2 (forLoop (patOuter ext σ) 0 l stA).2) := by
  have := forLoop_rel (step := patOuter ext σ) (step' := patOuter ext σ) (f := fun n : Nat × GoStr × Sem => n) (g := fun n => n)
    (Rel := fun _ st st' => Twins p f fv x b st st') (fun i y rest st st' hr => patOuter_twins hn hr) l 0 st stA h
  simpa only [List.map_id'] using this

theorem addlPhase_twins (hn : jsonNameSpec f = some p) (ha : o.additional = o'.additional) {σ : Sched} {st stA : ObjSt} (h : Twins p f fv x b st stA) :
    (addlPhase o' σ st).1 = (addlPhase o σ stA).1 ∧
    ((addlPhase o' σ st).1 = .ok → Twins p f fv x b (addlPhase o' σ st).2 (addlPhase o σ stA).2) := by
  have hpm : stA.premain = st.premain := by obtain ⟨_, _, _, _, _, _, h, -⟩ := h; exact h
  have hp : p ∉ st.premain := by obtain ⟨_, _, _, _, _, _, _, _, h⟩ := h; exact h
  unfold addlPhase
  rw [hpm, ha]
  split
  · cases o'.additional with
    | none => exact ⟨rfl, fun h => by cases h⟩
    | some c =>
      have := forLoop_rel (step := addlStep c (σ.sub 6)) (step' := addlStep c (σ.sub 6))
        (f := fun n : GoStr => n) (g := fun n => n) (Rel := fun l st st' => p ∉ l ∧ Twins p f fv x b st st')
        (fun i y rest st st' hr => by
          obtain ⟨h1, h2⟩ := hr
          simp only [List.mem_cons, not_or] at h1
          obtain ⟨h3, h4⟩ := addlStep_twins hn (σ := σ.sub 6) (i := i) (Ne.symm h1.1) c h2
          exact ⟨h3, fun hh => ⟨h1.2, h4 hh⟩⟩)
        (shuffle (σ.sub 5).key st.premain) 0 st stA ⟨fun hh => hp (mem_shuffle.1 hh), h⟩
      simp only [List.map_id'] at this
      exact ⟨this.1, fun hh => (this.2 hh).2⟩
  · exact ⟨rfl, fun _ => h⟩

theorem depLoop_twins (hd : o.propdeps = o'.propdeps) (hs : o.schemadeps = []) (hs' : o'.schemadeps = []) (l : List GoStr) {σ : Sched} {st stA : ObjSt}
    (h : Twins p f fv x b st stA) :
    (forLoop (depStep o' σ) 0 l st).1 = (forLoop (depStep o σ) 0 l stA).1 ∧
    ((forLoop (depStep o' σ) 0 l st).1 = .ok → Twins p f fv x b (forLoop (depStep o' σ) 0 l st).2 (forLoop (depStep o σ) 0 l stA).2) := by
  have := forLoop_rel (step := depStep o' σ) (step' := depStep o σ) (f := fun n : GoStr => n) (g := fun n => n)
    (Rel := fun _ st st' => Twins p f fv x b st st') (fun i y rest st st' hr => by
      have hps : st'.pseen = st.pseen := by obtain ⟨_, _, _, _, _, _, _, h, -⟩ := hr; exact h
      have e1 : o.GetPropDependencies y = o'.GetPropDependencies y := by unfold ObjC.GetPropDependencies; rw [hd]
      have e2 : o.GetSchemaDependency y = none := by unfold ObjC.GetSchemaDependency; rw [hs]; rfl
      have e3 : o'.GetSchemaDependency y = none := by unfold ObjC.GetSchemaDependency; rw [hs']; rfl
      unfold depStep
      rw [e1, e2, e3, hps]
      split
      · exact ⟨rfl, fun _ => hr⟩
      · exact ⟨rfl, fun _ => hr⟩) l 0 st stA h
  simpa only [List.map_id'] using this

/-- The loop over declared properties, with and without the default for `p`. -/
theorem propLoop_twins {c d : Sem} {dv : GoVal} (hn : jsonNameSpec f = some p) (hu : maybeValid fv = some false) (hreq : o.required = o'.required)
    (hc : c.dflt = .some dv) (hd : d.dflt = .none) (hsto : stored ext b fv dv = .ok x) {σ : Sched} (l : List (GoStr × Sem)) (hnd : (l.map (·.1)).Nodup)
    (hl : (p, c) ∈ l) {st stA : ObjSt} (h : Twins p f fv fv b st stA) :
    (forLoop (propStep ext o' σ) 0 (l.map (substProp p d)) st).1 = (forLoop (propStep ext o σ) 0 l stA).1 ∧
    ((forLoop (propStep ext o' σ) 0 (l.map (substProp p d)) st).1 = .ok →
      Twins p f fv x b (forLoop (propStep ext o' σ) 0 (l.map (substProp p d)) st).2 (forLoop (propStep ext o σ) 0 l stA).2) := by
  have := forLoop_rel (step := propStep ext o' σ) (step' := propStep ext o σ) (f := substProp p d) (g := fun a : GoStr × Sem => a)
    (Rel := fun l st st' => (l.map (·.1)).Nodup ∧
      (((p, c) ∈ l ∧ Twins p f fv fv b st st') ∨ (p ∉ l.map (·.1) ∧ Twins p f fv x b st st')))
    (fun i y rest st st' hr => by
      obtain ⟨q, e⟩ := y
      obtain ⟨h1, h2⟩ := hr
      simp only [List.map_cons, List.nodup_cons] at h1 h2
      by_cases hqp : q = p
      · subst hqp
        rcases h2 with ⟨h2, h3⟩ | ⟨h2, -⟩
        swap
        · simp at h2
        have : (q, c) = (q, e) := by
          rcases List.mem_cons.1 h2 with h2 | h2
          · exact h2
          · exact absurd (List.mem_map.2 ⟨_, h2, rfl⟩) h1.1
        cases this
        obtain ⟨v, pm, ps⟩ := st
        obtain ⟨vA, pmA, psA⟩ := st'
        obtain ⟨fs, fsA, g1, g2, ht, hf, g3, g4, g5⟩ := h3
        simp only at g1 g2 g3 g4 g5
        subst g1 g2 g3 g4
        have hfA : (f, fv) ∈ unembed fsA := by rw [ht.fields, mem_setF]; exact Or.inl ⟨rfl, rfl, fv, hf⟩
        have hva : ∀ {fs}, Merges fs → (f, fv) ∈ unembed fs → viewProp (some (.struct fs)) q = .ok .absent := fun hm hf => by
          refine (viewProp_unset (fv := fv) ?_).2 hu
          rw [getProp_merged hm, field_merged hm hf hn]; rfl
        simp only [substProp, if_true]
        unfold propStep
        simp only [indirect_struct, hva ht.left hf, hva ht.right hfA, hreq, hd, hc]
        split
        · exact ⟨rfl, fun h => by cases h⟩
        · obtain ⟨s1, s2⟩ := setField_merged ht.right hfA x
          simp only [setProp_struct, setPropAt_merged ext b ht.right hfA hn, hsto, Except.map]
          refine ⟨trivial, fun _ => ⟨h1.2, Or.inr ⟨h1.1, fs, _, rfl, rfl, ⟨ht.left, s2, ?_⟩, hf, rfl, rfl, g5⟩⟩⟩
          rw [s1, ht.fields, setF_setF]
      · have hsub : substProp p d (q, e) = (q, e) := by simp [substProp, hqp]
        rw [hsub]
        rcases h2 with ⟨h2, h3⟩ | ⟨h2, h3⟩
        · obtain ⟨k1, k2⟩ := propStep_twins (ext := ext) hn hreq (σ := σ) (i := i) hqp e h3
          refine ⟨k1, fun hh => ⟨h1.2, Or.inl ⟨?_, k2 hh⟩⟩⟩
          rcases List.mem_cons.1 h2 with h2 | h2
          · cases h2; exact absurd rfl hqp
          · exact h2
        · obtain ⟨k1, k2⟩ := propStep_twins (ext := ext) hn hreq (σ := σ) (i := i) hqp e h3
          refine ⟨k1, fun hh => ⟨h1.2, Or.inr ⟨fun hm => h2 (List.mem_cons_of_mem _ hm), k2 hh⟩⟩⟩)
    l 0 st stA ⟨hnd, Or.inl ⟨hl, h⟩⟩
  simp only [List.map_id'] at this
  refine ⟨this.1, fun hh => ?_⟩
  obtain ⟨-, ⟨h1, -⟩ | ⟨-, h1⟩⟩ := this.2 hh
  · simp at h1
  · exact h1

/-- The loop over declared properties when the default cannot be stored. -/
theorem propLoop_twins_stop {c d : Sem} {dv : GoVal} (hn : jsonNameSpec f = some p) (hu : maybeValid fv = some false) (hreq : o.required = o'.required)
    (hc : c.dflt = .some dv) (hd : d.dflt = .none) {s : Stop} (hsto : stored ext b fv dv = .error s) {σ : Sched} :
    ∀ (l : List (GoStr × Sem)) (i : Nat) {st stA : ObjSt}, (l.map (·.1)).Nodup → (p, c) ∈ l → Twins p f fv fv b st stA →
      (forLoop (propStep ext o σ) i l stA).1 ≠ .ok ∧
      ((forLoop (propStep ext o' σ) i (l.map (substProp p d)) st).1 = .ok →
        (forLoop (propStep ext o σ) i l stA).1 = match s with | .err e => .err (.setDefault p e) | .abort a => .abort a)
  | [], _, _, _, _, hl, _ => by simp at hl
  | (q, e) :: l, i, st, stA, h1, h2, h3 => by
    simp only [List.map_cons, List.nodup_cons] at h1
    by_cases hqp : q = p
    · subst hqp
      have : (q, c) = (q, e) := by
        rcases List.mem_cons.1 h2 with h2 | h2
        · exact h2
        · exact absurd (List.mem_map.2 ⟨_, h2, rfl⟩) h1.1
      cases this
      obtain ⟨v, pm, ps⟩ := st
      obtain ⟨vA, pmA, psA⟩ := stA
      obtain ⟨fs, fsA, g1, g2, ht, hf, g3, g4, g5⟩ := h3
      simp only at g1 g2 g3 g4 g5
      subst g1 g2 g3 g4
      have hfA : (f, fv) ∈ unembed fsA := by rw [ht.fields, mem_setF]; exact Or.inl ⟨rfl, rfl, fv, hf⟩
      have hva : ∀ {fs}, Merges fs → (f, fv) ∈ unembed fs → viewProp (some (.struct fs)) q = .ok .absent := fun hm hf => by
        refine (viewProp_unset (fv := fv) ?_).2 hu
        rw [getProp_merged hm, field_merged hm hf hn]; rfl
      simp only [List.map_cons, substProp, if_true, forLoop]
      by_cases hr : q ∈ o'.required
      · have e1 : propStep ext o' σ i (q, d) ⟨wrap b (.struct fs), pmA, psA⟩ = (.err (.required q), ⟨wrap b (.struct fs), pmA, psA⟩) := by
          unfold propStep; simp only [indirect_struct, hva ht.left hf, hr, if_true]
        have e2 : propStep ext o σ i (q, c) ⟨wrap b (.struct fsA), pmA, psA⟩ = (.err (.required q), ⟨wrap b (.struct fsA), pmA, psA⟩) := by
          unfold propStep; simp only [indirect_struct, hva ht.right hfA, hreq, hr, if_true]
        rw [e1, e2]
        exact ⟨by simp, fun h => by cases h⟩
      · have e2 : propStep ext o σ i (q, c) ⟨wrap b (.struct fsA), pmA, psA⟩ =
            (match s with | .err e => .err (.setDefault q e) | .abort a => .abort a, ⟨wrap b (.struct fsA), pmA, psA⟩) := by
          unfold propStep
          simp only [indirect_struct, hva ht.right hfA, hreq, hr, if_false, hc, setProp_struct, setPropAt_merged ext b ht.right hfA hn, hsto, Except.map]
          cases s <;> rfl
        rw [e2]
        cases s <;> exact ⟨by simp, fun _ => rfl⟩
    · have hsub : substProp p d (q, e) = (q, e) := by simp [substProp, hqp]
      obtain ⟨k1, k2⟩ := propStep_twins (ext := ext) hn hreq (σ := σ) (i := i) hqp e h3
      have h2' : (p, c) ∈ l := by
        rcases List.mem_cons.1 h2 with h2 | h2
        · cases h2; exact absurd rfl hqp
        · exact h2
      simp only [List.map_cons, hsub, forLoop]
      rcases e1 : propStep ext o' σ i (q, e) st with ⟨r, u⟩
      rcases e2 : propStep ext o σ i (q, e) stA with ⟨r', u'⟩
      rw [e1, e2] at k1 k2
      simp only at k1 k2
      subst k1
      cases r with
      | err e => exact ⟨by simp, fun h => by cases h⟩
      | abort a => exact ⟨by simp, fun h => by cases h⟩
      | ok => exact propLoop_twins_stop hn hu hreq hc hd hsto l (i + 1) h1.2 h2' (k2 rfl)

/-- `o` and `o'` differ in the constraint of property `p` only. -/
structure Alters (p : GoStr) (c d : Sem) (o o' : ObjC Sem) : Prop where
  prop : (p, c) ∈ o.props
  nodup : (o.props.map (·.1)).Nodup
  props : o'.props = o.props.map (substProp p d)
  required : o.required = o'.required
  patterns : o.patterns = o'.patterns
  additional : o.additional = o'.additional
  propdeps : o.propdeps = o'.propdeps
  minProps : o.minProps = o'.minProps
  maxProps : o.maxProps = o'.maxProps

theorem twins_start {fs : List (Field × GoVal)} (h : Merges fs) (hf : (f, fv) ∈ unembed fs) (hn : jsonNameSpec f = some p)
    (hu : maybeValid fv = some false) : ∃ names, getPropNames (valueOf (wrap b (.struct fs))).indirect = .ok names ∧
      ∀ ps, Twins p f fv fv b ⟨wrap b (.struct fs), nameSet names, ps⟩ ⟨wrap b (.struct fs), nameSet names, ps⟩ := by
  obtain ⟨names, h1, -, h2⟩ := names_merged h
  refine ⟨names, ?_, fun ps => ⟨fs, fs, rfl, rfl, Twin.refl h hf, hf, rfl, rfl, ?_⟩⟩
  · rw [indirect_struct]; simp only [getPropNames, RV.indirect, h1]
  · intro hp
    obtain ⟨g, w, y, g1, g2, g3⟩ := (h2 p).1 (mem_nameSet.1 hp)
    have e := (fieldVal_spec h.flat).2 ⟨g, g1, rfl, g2⟩
    rw [field_merged h hf hn] at e
    simp only [Option.some.injEq, Prod.mk.injEq] at e
    rw [← e.2, fieldContent_none.2 hu] at g3
    cases g3

/-- The first three loops, with and without the default. -/
theorem prePart_twins {c d : Sem} {dv : GoVal} {st : ObjSt} (h : Twins p f fv fv b st st) (hn : jsonNameSpec f = some p)
    (hu : maybeValid fv = some false) (ho : Alters p c d o o')
    (hc : c.dflt = .some dv) (hd : d.dflt = .none) (hsto : stored ext b fv dv = .ok x) (σ : Sched) :
    (prePart ext o' σ st).1 = (prePart ext o σ st).1 ∧
      ((prePart ext o' σ st).1 = .ok → Twins p f fv x b (prePart ext o' σ st).2 (prePart ext o σ st).2) := by
  have hnd : ((shuffle (σ.sub 0).key o.props).map (·.1)).Nodup := by rw [← shuffle_map]; exact shuffle_nodup.2 ho.nodup
  unfold prePart
  rw [ho.props, shuffle_map]
  refine seqSt_rel (Rel := Twins p f fv x b) (Q := fun r r' => r.1 = r'.1 ∧ (r.1 = .ok → Twins p f fv x b r.2 r'.2))
    (propLoop_twins hn hu ho.required hc hd hsto _ hnd (mem_shuffle.2 ho.prop) h) ?_ (fun e _ _ he => ⟨rfl, fun h => absurd h he⟩)
  intro st st' h1
  rw [ho.patterns]
  refine seqSt_rel (Rel := Twins p f fv x b) (Q := fun r r' => r.1 = r'.1 ∧ (r.1 = .ok → Twins p f fv x b r.2 r'.2))
    (patLoop_twins hn _ h1) ?_ (fun e _ _ he => ⟨rfl, fun h => absurd h he⟩)
  intro st st' h1
  exact addlPhase_twins hn ho.additional h1

theorem objLoops_eq (ext : Ext) (o : ObjC Sem) (σ : Sched) (st : ObjSt) :
    objLoops ext o σ st = seqSt (prePart ext o σ st) fun st => forLoop (depStep o (σ.sub 8)) 0 (shuffle (σ.sub 7).key st.pseen) st := by
  unfold objLoops prePart
  generalize forLoop (propStep ext o (σ.sub 1)) 0 (shuffle (σ.sub 0).key o.props) st = r
  obtain ⟨r, st⟩ := r
  cases r with
  | ok =>
    simp only [seqSt]
    generalize forLoop (patOuter ext σ) 0 (shuffle (σ.sub 2).key o.patterns) st = r
    obtain ⟨r, st⟩ := r
    cases r <;> rfl
  | err e => rfl
  | abort a => rfl

/-- Whole objects: the default is stored, or everything is as without it. -/
theorem objectV_twins {c d : Sem} {dv : GoVal} {fs : List (Field × GoVal)} (h : Merges fs) (hf : (f, fv) ∈ unembed fs) (hn : jsonNameSpec f = some p)
    (hu : maybeValid fv = some false) (ho : Alters p c d o o') (hs : o.schemadeps = []) (hs' : o'.schemadeps = [])
    (hc : c.dflt = .some dv) (hd : d.dflt = .none) (hsto : stored ext b fv dv = .ok x) (σ : Sched) :
    (objectV ext o' σ (wrap b (.struct fs))).1 = (objectV ext o σ (wrap b (.struct fs))).1 ∧
    ((objectV ext o' σ (wrap b (.struct fs))).1 = .ok → ∃ fs1 fsA1, (objectV ext o' σ (wrap b (.struct fs))).2 = wrap b (.struct fs1) ∧
      (objectV ext o σ (wrap b (.struct fs))).2 = wrap b (.struct fsA1) ∧ Twin f x fs1 fsA1 ∧ (f, fv) ∈ unembed fs1) := by
  obtain ⟨names, e, ht⟩ := twins_start (b := b) h hf hn hu
  unfold objectV
  rw [e]
  simp only [ho.minProps, ho.maxProps]
  split
  · exact ⟨rfl, fun h => by cases h⟩
  split
  · exact ⟨rfl, fun h => by cases h⟩
  have key : (objLoops ext o' σ ⟨wrap b (.struct fs), nameSet names, []⟩).1 = (objLoops ext o σ ⟨wrap b (.struct fs), nameSet names, []⟩).1 ∧
      ((objLoops ext o' σ ⟨wrap b (.struct fs), nameSet names, []⟩).1 = .ok →
        Twins p f fv x b (objLoops ext o' σ ⟨wrap b (.struct fs), nameSet names, []⟩).2 (objLoops ext o σ ⟨wrap b (.struct fs), nameSet names, []⟩).2) := by
    rw [objLoops_eq, objLoops_eq]
    refine seqSt_rel (Rel := Twins p f fv x b) (Q := fun r r' => r.1 = r'.1 ∧ (r.1 = .ok → Twins p f fv x b r.2 r'.2))
      (prePart_twins (ht []) hn hu ho hc hd hsto σ) ?_ (fun e _ _ he => ⟨rfl, fun h => absurd h he⟩)
    intro st st' h1
    have hps : st'.pseen = st.pseen := by obtain ⟨_, _, _, _, _, _, _, h, -⟩ := h1; exact h
    rw [hps]
    exact depLoop_twins ho.propdeps hs hs' _ h1
  refine ⟨key.1, fun hh => ?_⟩
  obtain ⟨fs1, fsA1, h1, h2, h3, h4, -⟩ := key.2 hh
  exact ⟨fs1, fsA1, h1, h2, h3, h4⟩

/-- Whole objects, dependencies on schemas included: where an accepted object stands before the dependencies are looked at. -/
theorem objectV_before_deps {c d : Sem} {dv : GoVal} {fs : List (Field × GoVal)} (h : Merges fs) (hf : (f, fv) ∈ unembed fs) (hn : jsonNameSpec f = some p)
    (hu : maybeValid fv = some false) (ho : Alters p c d o o') (hc : c.dflt = .some dv) (hd : d.dflt = .none)
    (hsto : stored ext b fv dv = .ok x) {σ : Sched} (hok : (objectV ext o σ (wrap b (.struct fs))).1 = .ok) :
    ∃ fs1 pm ps st', Merges fs1 ∧ (f, x) ∈ unembed fs1 ∧
      forLoop (depStep o (σ.sub 8)) 0 (shuffle (σ.sub 7).key ps) ⟨wrap b (.struct fs1), pm, ps⟩ = (.ok, st') ∧
      (objectV ext o σ (wrap b (.struct fs))).2 = st'.v := by
  obtain ⟨names, e, ht⟩ := twins_start (b := b) h hf hn hu
  unfold objectV at hok ⊢
  rw [e] at hok ⊢
  simp only at hok ⊢
  split at hok
  · cases hok
  split at hok
  · cases hok
  rename_i c1 c2
  simp only [c1, c2, if_false]
  rw [objLoops_eq] at hok ⊢
  obtain ⟨k1, k2⟩ := prePart_twins (ht []) hn hu ho hc hd hsto σ
  have h1 := (seqSt_ok.1 hok).1
  obtain ⟨fs0, fs1, g1, g2, g3, g4, -⟩ := k2 (k1.trans h1)
  rcases e1 : prePart ext o σ ⟨wrap b (.struct fs), nameSet names, []⟩ with ⟨r, v, pm, ps⟩
  rw [e1] at h1 g2 hok
  simp only at h1 g2
  subst h1 g2
  simp only [seqSt] at hok ⊢
  rcases e2 : forLoop (depStep o (σ.sub 8)) 0 (shuffle (σ.sub 7).key ps) ⟨wrap b (.struct fs1), pm, ps⟩ with ⟨r, st'⟩
  rw [e2] at hok
  simp only at hok
  subst hok
  exact ⟨fs1, pm, ps, st', g3.right, (by rw [g3.fields, mem_setF]; exact Or.inl ⟨rfl, rfl, fv, g4⟩), e2, rfl⟩

/-- Whole objects: the default cannot be stored. -/
theorem objectV_twins_stop {c d : Sem} {dv : GoVal} {fs : List (Field × GoVal)} (h : Merges fs) (hf : (f, fv) ∈ unembed fs) (hn : jsonNameSpec f = some p)
    (hu : maybeValid fv = some false) (ho : Alters p c d o o') (hc : c.dflt = .some dv) (hd : d.dflt = .none) {s : Stop}
    (hsto : stored ext b fv dv = .error s) (σ : Sched) :
    (objectV ext o σ (wrap b (.struct fs))).1 ≠ .ok ∧
    ((objectV ext o' σ (wrap b (.struct fs))).1 = .ok →
      (objectV ext o σ (wrap b (.struct fs))).1 = match s with | .err e => .err (.setDefault p e) | .abort a => .abort a) := by
  obtain ⟨names, e, ht⟩ := twins_start (b := b) h hf hn hu
  unfold objectV
  rw [e]
  simp only [ho.minProps, ho.maxProps]
  split
  · exact ⟨by simp, fun h => by cases h⟩
  split
  · exact ⟨by simp, fun h => by cases h⟩
  have hnd : ((shuffle (σ.sub 0).key o.props).map (·.1)).Nodup := by rw [← shuffle_map]; exact shuffle_nodup.2 ho.nodup
  obtain ⟨k1, k2⟩ := propLoop_twins_stop (ext := ext) hn hu ho.required hc hd hsto (σ := σ.sub 1) _ 0 hnd (mem_shuffle.2 ho.prop) (ht [])
  unfold objLoops
  rw [ho.props, shuffle_map]
  constructor
  · intro hh
    exact k1 (seqSt_ok.1 hh).1
  · intro hh
    have := k2 (seqSt_ok.1 hh).1
    rcases e : forLoop (propStep ext o (σ.sub 1)) 0 (shuffle (σ.sub 0).key o.props) ⟨wrap b (.struct fs), nameSet names, []⟩ with ⟨r, u⟩
    rw [e] at this
    simp only at this
    subst this
    cases s <;> rfl

end

/-! ## What is set stays set -/

/-- A valid Maybe, or a pointer to one. -/
inductive IsSet : GoVal → Prop where
  | maybe (m) : IsSet (.maybe true m)
  | ptr (m) : IsSet (.ptr (some (.maybe true m)))

/-- Validation leaves valid Maybes alone, and so the fields that hold them. -/
def KeepsSet (v v' : GoVal) : Prop :=
  (IsSet v → v' = v) ∧ ∀ b fs, v = wrap b (.struct fs) → Merges fs →
    ∃ fs', v' = wrap b (.struct fs') ∧ Merges fs' ∧ ∀ f x, (f, x) ∈ unembed fs → IsSet x → (f, x) ∈ unembed fs'

/-- The policy of leaving valid Maybes alone. -/
def keepPolicy (ext : Ext) : Policy ext where
  I := fun _ => True
  J := fun _ => True
  R := KeepsSet
  A := fun _ => True
  D := fun _ => True
  K := fun _ _ => True
  refl := fun v => ⟨fun _ => rfl, fun b fs e hm => ⟨fs, e, hm, fun _ _ h _ => h⟩⟩
  trans := fun {u v w} h h' => by
    refine ⟨fun hs => ?_, fun b fs e hm => ?_⟩
    · have e := h.1 hs
      rw [h'.1 (by rw [e]; exact hs), e]
    · obtain ⟨fs1, e1, m1, k1⟩ := h.2 b fs e hm
      obtain ⟨fs2, e2, m2, k2⟩ := h'.2 b fs1 e1 m1
      exact ⟨fs2, e2, m2, fun f x hx hs => k2 f x (k1 f x hx hs) hs⟩
  scalar := fun _ _ _ => trivial
  slice := fun _ _ _ => trivial
  sliceR := fun _ _ => ⟨trivial, fun h => (by cases h), fun b fs e _ => (by cases b <;> cases e)⟩
  names := fun _ _ _ _ => trivial
  namesA := fun _ _ => trivial
  getA := fun _ _ => trivial
  getI := fun _ _ => trivial
  getK := fun _ _ _ => trivial
  put := by
    intro v p x x' _ hg _ hR
    refine ⟨trivial, ⟨fun h => ?_, ?_⟩, fun _ _ => trivial⟩
    · cases h <;> rfl
    · rintro b fs rfl hm
      rw [indirect_struct, getProp_merged hm] at hg
      simp only [Except.ok.injEq, Option.map_eq_some_iff] at hg
      obtain ⟨⟨n, w⟩, hv, rfl⟩ := hg
      obtain ⟨g, g1, -, g3⟩ := (fieldVal_spec hm.flat).1 hv
      rw [putProp_struct, putAt_merged hm g1 g3]
      obtain ⟨s1, s2⟩ := setField_merged hm g1 x'
      refine ⟨_, rfl, s2, fun f x hx hs => ?_⟩
      rw [s1, mem_setF]
      by_cases e : f.name = g.name
      · have := nodup_field_eq hm.flat.goNames hx g1 e
        cases this
        exact Or.inl ⟨rfl, (hR.1 hs).symm, _, g1⟩
      · exact Or.inr ⟨e, hx⟩
  set := by
    intro v p dv v' _ _ hv hs
    refine ⟨trivial, ⟨fun h => ?_, ?_⟩, fun _ _ => trivial⟩
    · cases h <;> simp [setProp, setPropRV, setPropAt, Except.map] at hs
    · rintro b fs rfl hm
      rw [setProp_struct] at hs
      cases hfv : fieldVal p (unembed fs) with
      | none => rw [setPropAt_noField ext b hm hfv] at hs; cases hs
      | some nv =>
        obtain ⟨n, w⟩ := nv
        obtain ⟨g, g1, -, g3⟩ := (fieldVal_spec hm.flat).1 hfv
        rw [setPropAt_merged ext b hm g1 g3] at hs
        cases hst : stored ext b w dv with
        | error e => rw [hst] at hs; cases hs
        | ok y =>
          rw [hst] at hs
          cases hs
          obtain ⟨s1, s2⟩ := setField_merged hm g1 y
          refine ⟨_, rfl, s2, fun f x hx hs => ?_⟩
          rw [s1, mem_setF]
          by_cases e : f.name = g.name
          · have := nodup_field_eq hm.flat.goNames hx g1 e
            cases this
            rw [indirect_struct, viewProp_merged hm, hfv] at hv
            cases hs <;> simp [fieldView] at hv
          · exact Or.inr ⟨e, hx⟩
  setA := fun _ _ _ _ => trivial

theorem keeps_set {ext : Ext} {env : Env} (c : Constraint) (fuel : Nat) : (keepPolicy ext).Good (sem ext env fuel c) :=
  Policy.good_sem (keepPolicy ext) rfl trivial (fun _ _ _ _ d _ => local_of_true _ (fun _ => trivial) fun _ _ => trivial)
    (fun d _ => local_of_true _ (fun _ => trivial) fun _ _ => trivial) fuel

end Jsval
