import Verif.Lemmas.TypedValues
import Verif.Lemmas.HooksSim
/-!
# Validation of typed values follows validation of their contents
-/
namespace Jsval
variable {u : Uses} {ext : Ext} {text : TVal → GoStr}

/-! ## Writing -/

theorem MaybeSt.set_kind {m m' : MaybeSt} {x : GoVal} (h : m.Set ext x = (none, m')) : m'.p.kind = m.p.kind := by
  unfold MaybeSt.Set at h
  split at h
  · rename_i p hp
    simp only [Prod.mk.injEq, true_and] at h
    subst h
    exact maybeConv_kind hp
  · simp at h

/-- The outcome on typed values next to the one on their contents. -/
def Writes (u : Uses) (v : TVal) (r : Except Stop TVal) (r' : Except Stop GoVal) : Prop :=
  r' = r.map TVal.content ∧ ∀ w, r = .ok w → Ordinary u w ∧ Kin v w

theorem setPropStruct_content {fs : TFields} (h : OrdFields u fs) (a : Bool) (p : GoStr) (dv : GoVal) :
    setPropStruct ext a (contentFields fs) p dv = (setPropStructT ext a fs p dv).map contentFields ∧
    ∀ fs', setPropStructT ext a fs p dv = .ok fs' → OrdFields u fs' := by
  unfold setPropStruct setPropStructT
  rw [extract_content h]
  cases extract (contentFields fs) with
  | none => exact ⟨rfl, fun _ h => by cases h⟩
  | some l =>
    simp only
    cases hl : alookup p l with
    | none => exact ⟨rfl, fun _ h => by cases h⟩
    | some info =>
      simp only [Option.bind_some, fieldByName_content]
      cases hf : fieldByNameT info.fieldName fs with
      | none => exact ⟨rfl, fun _ h => by cases h⟩
      | some q =>
        obtain ⟨t, x⟩ := q
        have hok := fieldByNameT_ok h hf
        obtain ⟨h1, h2, h3⟩ := hok
        simp only at h1 h2 h3
        have hput : ∀ y : TVal, Ordinary u y → Kin x y → OrdFields u (setFieldT info.fieldName y fs) :=
          fun y hy hk => setFieldT_ok hy h hf hk
        simp only [Option.map_some]
        cases x with
        | maybe b q =>
          have ht : t = .maybe q.kind := h2 (by rw [h1]; rfl)
          subst ht
          simp only [TVal.content]
          cases coerce q.kind dv with
          | none => exact ⟨rfl, fun _ h => by cases h⟩
          | some dv' =>
            cases a with
            | false => exact ⟨rfl, fun _ h => by cases h⟩
            | true =>
              simp only [if_true]
              rcases hs : (MaybeSt.mk b q).Set ext dv' with ⟨e | e, m'⟩
              · refine ⟨by simp only [Except.map, setField_content, TVal.content], ?_⟩
                rintro fs' h'
                cases h'
                exact hput _ (.leaf rfl fun _ => nofun) ⟨congrArg GoType.maybe (MaybeSt.set_kind hs), rfl⟩
              · exact ⟨rfl, fun _ h => by cases h⟩
        | ptr e y =>
          by_cases hm : t.isMaybe = true
          · have ht : t = .ptr e := h2 hm
            subst ht
            rw [hm] at h1
            cases y with
            | none => cases h1
            | some y =>
              cases y with
              | maybe b q =>
                cases e with
                | maybe k =>
                  simp only [TVal.content, contentOpt]
                  by_cases hn : dv = .nil
                  · subst hn
                    exact ⟨rfl, fun _ h => by cases h⟩
                  · rcases hs : (MaybeSt.mk b q).Set ext dv with ⟨e | e, m'⟩
                    · refine ⟨by cases dv <;> first | exact absurd rfl hn | simp only [hs, Except.map, setField_content, TVal.content, contentOpt], ?_⟩
                      intro fs' h'
                      have : setFieldT info.fieldName (.ptr (.maybe k) (some (.maybe m'.valid m'.p))) fs = fs' := by
                        cases dv <;> first | exact absurd rfl hn | (simp only [hs, Except.ok.injEq] at h'; exact h')
                      rw [← this]
                      exact hput _ (.ptr (.leaf rfl fun _ => nofun)) ⟨rfl, rfl⟩
                    · refine ⟨by cases dv <;> first | exact absurd rfl hn | simp only [hs, Except.map], ?_⟩
                      intro fs' h'
                      cases dv <;> first | exact absurd rfl hn | (simp only [hs] at h'; cases h')
                | _ => cases hm
              | _ => simp [TVal.content, contentOpt, isMaybeVal] at h1
          · have hm' : isMaybeVal (TVal.ptr e y).content = false := by
              rw [← h1]; simpa using hm
            cases y with
            | none =>
              cases t with
              | ptr e' =>
                cases e' with
                | maybe k => exact absurd rfl hm
                | _ => exact ⟨rfl, fun _ h => by cases h⟩
              | _ => exact ⟨rfl, fun _ h => by cases h⟩
            | some y =>
              cases y with
              | maybe b q => cases hm'
              | _ =>
                cases t with
                | ptr e' =>
                  cases e' with
                  | maybe k => exact absurd rfl hm
                  | _ => exact ⟨rfl, fun _ h => by cases h⟩
                | _ => exact ⟨rfl, fun _ h => by cases h⟩
        | _ =>
          have hm : t.isMaybe = false := by rw [h1]; rfl
          cases t with
          | maybe k => cases hm
          | ptr e' =>
            cases e' with
            | maybe k => cases hm
            | _ => exact ⟨rfl, fun _ h => by cases h⟩
          | _ => exact ⟨rfl, fun _ h => by cases h⟩

theorem assignable_any {t e : GoType} (h : e.under = .any) : t.assignable e = true := by
  simp [GoType.assignable, h]

theorem setPropAt_content {v : TVal} (h : Ordinary u v) (hu : u.defaults) (a : Bool) (p : GoStr) (dv : GoVal) :
    Writes u v (setPropAtT ext a v p dv) (setPropAt ext a v.content p dv) := by
  cases v with
  | map n k e z kvs =>
    obtain ⟨rfl, h1, h2, h3, h4⟩ := h.entries
    have hs : GoType.str.assignable .str = true := by decide
    simp only [setPropAtT, setPropAt, TVal.content, hs, if_true, assignable_any (h2 hu)]
    by_cases hn : dv = .nil
    · subst hn
      refine ⟨by simp only [Except.map, TVal.content, adelete_content], ?_⟩
      rintro w hw
      cases hw
      exact ⟨.map h1 h2 (not_maybeType h3) (fun q hq => h4 q (List.mem_filter.1 hq).1), rfl, rfl⟩
    · have key : ∀ (m : Except Stop GoVal) (m' : Except Stop TVal), m = (if z then .error (.abort .panic) else .ok (.map z (ainsert p dv (contentEntries kvs)))) →
          m' = (if z then .error (.abort .panic) else .ok (.map n .str e z (ainsert p (.ofPlain dv) kvs))) →
          Writes u (.map n .str e z kvs) m' m := by
        rintro m m' rfl rfl
        cases z with
        | true => exact ⟨rfl, fun _ h => by cases h⟩
        | false =>
          refine ⟨by simp [Except.map, TVal.content, ainsert_content, content_ofPlain], ?_⟩
          rintro w hw
          cases hw
          refine ⟨.map h1 h2 (not_maybeType h3) (fun q hq => ?_), rfl, rfl⟩
          rcases ainsert_mem hq with rfl | hq
          · exact ordinary_ofPlain dv
          · exact h4 q hq
      cases dv <;> first | exact absurd rfl hn | exact key _ _ rfl rfl
  | struct id fs =>
    obtain ⟨h1, h2⟩ := setPropStruct_content (ext := ext) h.fields a p dv
    simp only [setPropAtT, setPropAt, TVal.content]
    rw [h1]
    cases hs : setPropStructT ext a fs p dv with
    | error s => exact ⟨rfl, fun _ h => by cases h⟩
    | ok fs' =>
      refine ⟨by simp [Except.map, TVal.content], ?_⟩
      rintro w hw
      cases hw
      have := h2 fs' hs
      exact ⟨.struct this.1 this.2, rfl, rfl⟩
  | _ => exact ⟨rfl, fun _ h => by cases h⟩

theorem isMaybe_ptr (y : TVal) : isMaybeVal (.ptr (some y.content)) = (match y.typeOf with | .maybe _ => true | _ => false) := by
  cases y with
  | bool n _ => cases n <;> rfl
  | int n _ _ => cases n <;> rfl
  | uint n _ _ => cases n <;> rfl
  | float n _ _ => cases n <;> rfl
  | str n _ => cases n <;> rfl
  | slice n _ _ _ => cases n <;> rfl
  | map n _ _ _ _ => cases n <;> rfl
  | _ => rfl

theorem Kin.ptr {e : GoType} {y y' : TVal} (h : Kin y y') : Kin (.ptr e (some y)) (.ptr e (some y')) := by
  refine ⟨rfl, ?_⟩
  simp only [TVal.content, contentOpt, isMaybe_ptr, h.1]

theorem Ordinary.of_ptr {e : GoType} {y : TVal} (h : Ordinary u (.ptr e (some y))) : Ordinary u y := h.indirect rfl

theorem Ordinary.of_iface {y : TVal} (h : Ordinary u (.iface y)) : Ordinary u y := by
  cases h with
  | leaf h => cases h
  | iface h => exact h

theorem Writes.ptr {e : GoType} {y : TVal} {r : Except Stop TVal} {r' : Except Stop GoVal} (h : Writes u y r r') :
    Writes u (.ptr e (some y)) (r.map fun y' => .ptr e (some y')) (r'.map fun y' => .ptr (some y')) := by
  obtain ⟨rfl, h2⟩ := h
  cases r with
  | error s => exact ⟨rfl, fun _ h => by cases h⟩
  | ok y' =>
    refine ⟨by simp [Except.map, TVal.content, contentOpt], ?_⟩
    rintro w hw
    cases hw
    obtain ⟨h3, h4⟩ := h2 y' rfl
    exact ⟨.ptr h3, h4.ptr⟩

theorem Writes.iface {y : TVal} {r : Except Stop TVal} {r' : Except Stop GoVal} (h : Writes u y r r') :
    Writes u (.iface y) (r.map .iface) (r'.map .iface) := by
  obtain ⟨rfl, h2⟩ := h
  cases r with
  | error s => exact ⟨rfl, fun _ h => by cases h⟩
  | ok y' =>
    refine ⟨by simp [Except.map, TVal.content], ?_⟩
    rintro w hw
    cases hw
    exact ⟨.iface (h2 y' rfl).1, rfl, rfl⟩

theorem setPropRV_content {v : TVal} (h : Ordinary u v) (hu : u.defaults) (a : Bool) (p : GoStr) (dv : GoVal) :
    Writes u v (setPropRVT ext a v p dv) (setPropRV ext a v.content p dv) := by
  cases v with
  | ptr e y =>
    cases y with
    | none => exact ⟨rfl, fun _ h => by cases h⟩
    | some y => exact (setPropAt_content h.of_ptr hu true p dv).ptr
  | iface y => exact (setPropAt_content h.of_iface hu false p dv).iface
  | _ => exact setPropAt_content (ext := ext) h hu a p dv

theorem setProp_content {v : TVal} (h : Ordinary u v) (hu : u.defaults) (p : GoStr) (dv : GoVal) :
    Writes u v (setPropT ext v p dv) (setProp ext v.content p dv) := by
  cases v with
  | ptr e y =>
    cases y with
    | none => exact ⟨rfl, fun _ h => by cases h⟩
    | some y => exact (setPropRV_content h.of_ptr hu true p dv).ptr
  | iface y => exact (setPropRV_content h.of_iface hu false p dv).iface
  | _ => exact setPropAt_content (ext := ext) h hu false p dv

/-- A typed value, and what it should contain. -/
def Puts (u : Uses) (v w : TVal) (x : GoVal) : Prop := w.content = x ∧ Ordinary u w ∧ Kin v w

theorem putAt_content {t : TVal} (h : Ordinary u t) {p : GoStr} {q : GoType × TVal} (hg : getPropT (some t) p = .ok (some q)) {x : TVal}
    (hx : Ordinary u x) (hk : Kin q.2 x) : Puts u t (putAtT t p x) (putAt t.content p x.content) := by
  cases t with
  | map n k e z kvs =>
    obtain ⟨rfl, h1, h2, h3, h4⟩ := h.entries
    refine ⟨by simp [putAtT, putAt, TVal.content, ainsert_content], .map h1 h2 (not_maybeType h3) fun q hq => ?_, rfl, rfl⟩
    rcases ainsert_mem hq with rfl | hq
    · exact hx
    · exact h4 q hq
  | struct id fs =>
    simp only [getPropT] at hg
    unfold putAtT putAt
    simp only [TVal.content, extract_content h.fields] at hg ⊢
    cases he : extract (contentFields fs) with
    | none => rw [he] at hg; cases hg
    | some l =>
      rw [he] at hg
      simp only [Option.bind_some] at hg ⊢
      cases hl : alookup p l with
      | none => exact ⟨rfl, h, rfl, rfl⟩
      | some info =>
        rw [hl] at hg
        simp only [Except.ok.injEq] at hg
        have := setFieldT_ok hx h.fields hg hk
        exact ⟨by simp [TVal.content, setField_content], .struct this.1 this.2, rfl, rfl⟩
  | _ => simp [getPropT] at hg

theorem putProp_content {v : TVal} (h : Ordinary u v) {p : GoStr} {q : GoType × TVal} (hg : getPropT v.indirect p = .ok (some q)) {x : TVal}
    (hx : Ordinary u x) (hk : Kin q.2 x) : Puts u v (putPropT v p x) (putProp v.content p x.content) := by
  cases v with
  | nil => cases hg
  | ptr e y =>
    cases y with
    | none => cases hg
    | some y =>
      obtain ⟨h1, h2, h3⟩ := putAt_content h.of_ptr hg hx hk
      exact ⟨by simp [putPropT, putProp, TVal.content, contentOpt, h1], .ptr h2, h3.ptr⟩
  | iface y =>
    have hy : getPropT (some y) p = .ok (some q) := by cases y <;> first | exact hg | cases hg
    obtain ⟨h1, h2, h3⟩ := putAt_content h.of_iface hy hx hk
    exact ⟨by simp [putPropT, putProp, TVal.content, h1], .iface h2, rfl, rfl⟩
  | _ => exact putAt_content h hg hx hk

/-! ## Behaviours -/

/-- The outcome on a typed value next to the one on its content. -/
def Matches (u : Uses) (v : TVal) (r : Res × TVal) (r' : Res × GoVal) : Prop := r.1 = r'.1 ∧ Puts u v r.2 r'.2

/-- One behaviour follows the other. -/
structure Follows (u : Uses) (s : SemT) (t : Sem) : Prop where
  dflt : s.dflt = t.dflt
  has : ∀ dv, t.dflt = .some dv → u.defaults
  run : ∀ σ v, Ordinary u v → Matches u v (s.val σ v) (t.val σ v.content)

theorem Puts.refl {v : TVal} (h : Ordinary u v) : Puts u v v v.content := ⟨rfl, h, .refl v⟩

/-- States of the object loops. -/
structure StOk (u : Uses) (v : TVal) (st : ObjStT) (st' : ObjSt) : Prop where
  val : Puts u v st.v st'.v
  premain : st.premain = st'.premain
  pseen : st.pseen = st'.pseen

/-- Results of the object loops. -/
def LoopOk (u : Uses) (v : TVal) (r : Res × ObjStT) (r' : Res × ObjSt) : Prop := r.1 = r'.1 ∧ StOk u v r.2 r'.2

theorem forLoop_typed {α β γ : Type} {v : TVal} {step : Nat → α → ObjStT → Res × ObjStT} {step' : Nat → β → ObjSt → Res × ObjSt} {f : γ → α} {g : γ → β} :
    ∀ (P : List γ), (∀ i, ∀ x ∈ P, ∀ st st', StOk u v st st' → LoopOk u v (step i (f x) st) (step' i (g x) st')) →
    ∀ (i : Nat) st st', StOk u v st st' → LoopOk u v (forLoop step i (P.map f) st) (forLoop step' i (P.map g) st')
  | [], _, _, _, _, hr => ⟨rfl, hr⟩
  | x :: P, h, i, st, st', hr => by
    obtain ⟨h1, h2⟩ := h i x (by simp) st st' hr
    rw [List.map_cons, List.map_cons, forLoop, forLoop]
    rcases e : step i (f x) st with ⟨r, w⟩
    rcases e' : step' i (g x) st' with ⟨r', w'⟩
    rw [e, e'] at h1 h2
    simp only at h1 h2
    subst h1
    cases r with
    | ok => exact forLoop_typed P (fun j y hy => h j y (by simp [hy])) (i + 1) w w' h2
    | err e => exact ⟨rfl, h2⟩
    | abort a => exact ⟨rfl, h2⟩

theorem seqSt_typed {v : TVal} {r : Res × ObjStT} {r' : Res × ObjSt} {k : ObjStT → Res × ObjStT} {k' : ObjSt → Res × ObjSt} (h : LoopOk u v r r')
    (hk : ∀ st st', StOk u v st st' → LoopOk u v (k st) (k' st')) : LoopOk u v (seqStT r k) (seqSt r' k') := by
  obtain ⟨r, st⟩ := r
  obtain ⟨r', st'⟩ := r'
  obtain ⟨h1, h2⟩ := h
  simp only at h1 h2
  subst h1
  cases r with
  | ok => exact hk st st' h2
  | err e => exact ⟨rfl, h2⟩
  | abort a => exact ⟨rfl, h2⟩

theorem Puts.then {v w : TVal} {y : GoVal} (h : Puts u v w y) {w' : TVal} {y' : GoVal} (h' : Puts u w w' y') : Puts u v w' y' :=
  ⟨h'.1, h'.2.1, h.2.2.trans h'.2.2⟩

section
variable {o : ObjC Constraint} {f : Constraint → SemT} {g : Constraint → Sem} {v : TVal}

theorem view_content {w : TVal} (h : Ordinary u w) (p : GoStr) :
    viewProp (valueOf w.content).indirect p = (viewPropT w.indirect p).map PropViewT.content := by
  rw [indirect_content]
  cases hi : w.indirect with
  | none => rfl
  | some x => exact viewProp_content (h.indirect hi) p

theorem get_content {w : TVal} (h : Ordinary u w) (p : GoStr) :
    getProp (valueOf w.content).indirect p = (getPropT w.indirect p).map contentRV := by
  rw [indirect_content]
  cases hi : w.indirect with
  | none => rfl
  | some x => exact getProp_content (h.indirect hi) p

theorem get_ok {w : TVal} (h : Ordinary u w) {p : GoStr} {q : GoType × TVal} (hq : getPropT w.indirect p = .ok (some q)) : Ordinary u q.2 := by
  cases hi : w.indirect with
  | none => rw [hi] at hq; cases hq
  | some x => rw [hi] at hq; exact getPropT_ok (h.indirect hi) hq

theorem view_present {rv : Option TVal} {p : GoStr} {x : TVal} {b : Bool} (h : viewPropT rv p = .ok (.present x b)) :
    (∃ z, x = .ofPlain z ∧ b = false) ∨ (b = true ∧ ∃ t, getPropT rv p = .ok (some (t, x))) := by
  unfold viewPropT at h
  split at h
  · cases h
  · cases h
  · rename_i t y hg
    split at h
    · split at h
      · split at h
        · cases h; exact Or.inl ⟨_, rfl, rfl⟩
        · cases h
      · split at h
        · cases h; exact Or.inl ⟨_, rfl, rfl⟩
        · cases h
      · cases h
    · cases h
      exact Or.inr ⟨rfl, t, hg⟩

theorem propStep_typed {p : GoStr} {c : Constraint} (hc : Follows u (f c) (g c)) {σ : Sched} {i : Nat} {st : ObjStT} {st' : ObjSt} (h : StOk u v st st')
    {oT : ObjC SemT} {oP : ObjC Sem} (hreq : oT.required = oP.required) :
    LoopOk u v (propStepT ext oT σ i (p, f c) st) (propStep ext oP σ i (p, g c) st') := by
  have h0 := h
  obtain ⟨⟨hv, ho, hkin⟩, hpm, hps⟩ := h
  unfold propStepT propStep
  simp only [← hv, view_content ho, hreq, hc.dflt]
  cases hw : viewPropT st.v.indirect p with
  | error a => exact ⟨rfl, h0⟩
  | ok w =>
    cases w with
    | absent =>
      simp only [Except.map, PropViewT.content]
      split
      · exact ⟨rfl, h0⟩
      · cases hd : (g c).dflt with
        | abort a => exact ⟨rfl, h0⟩
        | none => exact ⟨rfl, h0⟩
        | some dv =>
          obtain ⟨h1, h2⟩ := setProp_content (ext := ext) ho (hc.has dv hd) p dv
          simp only [h1]
          cases hs : setPropT ext st.v p dv with
          | error s => cases s <;> exact ⟨rfl, h0⟩
          | ok v' =>
            obtain ⟨h3, h4⟩ := h2 v' hs
            exact ⟨rfl, ⟨rfl, h3, hkin.trans h4⟩, hpm, hps⟩
    | present x b =>
      simp only [Except.map, PropViewT.content]
      have hx : Ordinary u x := by
        rcases view_present hw with ⟨z, rfl, -⟩ | ⟨-, t, hg⟩
        · exact ordinary_ofPlain z
        · exact get_ok ho hg
      obtain ⟨hr1, hr2⟩ := hc.run (σ.sub i) x hx
      rcases e1 : (f c).val (σ.sub i) x with ⟨r, y⟩
      rcases e2 : (g c).val (σ.sub i) x.content with ⟨r', y'⟩
      rw [e1, e2] at hr1 hr2
      simp only at hr1 hr2
      subst hr1
      obtain ⟨rfl, hy, hk⟩ := hr2
      have hp : Puts u v (if b then putPropT st.v p y else st.v) (if b then putProp st.v.content p y.content else st.v.content) := by
        rcases view_present hw with ⟨z, -, rfl⟩ | ⟨rfl, t, hg⟩
        · exact ⟨rfl, ho, hkin⟩
        · exact Puts.then ⟨hv, ho, hkin⟩ (putProp_content ho hg hy hk)
      simp only [e1, e2, hpm, hps]
      cases r <;> exact ⟨rfl, hp, rfl, rfl⟩

theorem patStep_typed {src k : GoStr} {c : Constraint} (hc : Follows u (f c) (g c)) {σ : Sched} {i : Nat} {st : ObjStT} {st' : ObjSt} (h : StOk u v st st') :
    LoopOk u v (patStepT ext src (f c) σ i k st) (patStep ext src (g c) σ i k st') := by
  have h0 := h
  obtain ⟨⟨hv, ho, hkin⟩, hpm, hps⟩ := h
  unfold patStepT patStep
  split
  · exact ⟨rfl, h0⟩
  · simp only [← hv, get_content ho]
    cases hg : getPropT st.v.indirect k with
    | error a => exact ⟨rfl, h0⟩
    | ok q =>
      cases q with
      | none => exact ⟨rfl, h0⟩
      | some q =>
        obtain ⟨t, x⟩ := q
        simp only [Except.map, contentRV, Option.map_some]
        obtain ⟨hr1, hr2⟩ := hc.run (σ.sub i) x (get_ok ho hg)
        rcases e1 : (f c).val (σ.sub i) x with ⟨r, y⟩
        rcases e2 : (g c).val (σ.sub i) x.content with ⟨r', y'⟩
        rw [e1, e2] at hr1 hr2
        simp only at hr1 hr2
        subst hr1
        obtain ⟨rfl, hy, hk⟩ := hr2
        have hp := Puts.then (u := u) ⟨hv, ho, hkin⟩ (putProp_content ho hg hy hk)
        simp only [e1, e2, hpm, hps]
        cases r <;> exact ⟨rfl, hp, rfl, rfl⟩

theorem addlStep_typed {k : GoStr} {c : Constraint} (hc : Follows u (f c) (g c)) {σ : Sched} {i : Nat} {st : ObjStT} {st' : ObjSt} (h : StOk u v st st') :
    LoopOk u v (addlStepT (f c) σ i k st) (addlStep (g c) σ i k st') := by
  have h0 := h
  obtain ⟨⟨hv, ho, hkin⟩, hpm, hps⟩ := h
  unfold addlStepT addlStep
  simp only [← hv, get_content ho]
  cases hg : getPropT st.v.indirect k with
  | error a => exact ⟨rfl, h0⟩
  | ok q =>
    cases q with
    | none => exact ⟨rfl, h0⟩
    | some q =>
      obtain ⟨t, x⟩ := q
      simp only [Except.map, contentRV, Option.map_some]
      obtain ⟨hr1, hr2⟩ := hc.run (σ.sub i) x (get_ok ho hg)
      rcases e1 : (f c).val (σ.sub i) x with ⟨r, y⟩
      rcases e2 : (g c).val (σ.sub i) x.content with ⟨r', y'⟩
      rw [e1, e2] at hr1 hr2
      simp only at hr1 hr2
      subst hr1
      obtain ⟨rfl, hy, hk⟩ := hr2
      have hp := Puts.then (u := u) ⟨hv, ho, hkin⟩ (putProp_content ho hg hy hk)
      simp only [e1, e2]
      cases r <;> exact ⟨rfl, hp, hpm, hps⟩

theorem addlPhase_typed (hc : ∀ c, o.Child c → Follows u (f c) (g c)) (σ : Sched) {st : ObjStT} {st' : ObjSt} (h : StOk u v st st') :
    LoopOk u v (addlPhaseT (o.map f) σ st) (addlPhase (o.map g) σ st') := by
  unfold addlPhaseT addlPhase
  rw [show (o.map f).additional = o.additional.map f from rfl, show (o.map g).additional = o.additional.map g from rfl, h.premain]
  split
  · cases ha : o.additional with
    | none => exact ⟨rfl, h⟩
    | some c =>
      simp only [Option.map_some]
      have := forLoop_typed (u := u) (v := v) (step := addlStepT (f c) (σ.sub 6)) (step' := addlStep (g c) (σ.sub 6)) (f := fun n : GoStr => n) (g := fun n => n)
        (shuffle (σ.sub 5).key st'.premain) (fun i x _ st st' hr => addlStep_typed (hc c (.additional ha)) hr) 0 st st' h
      simpa only [List.map_id'] using this
  · exact ⟨rfl, h⟩

theorem depStep_typed (hc : ∀ c, o.Child c → Follows u (f c) (g c)) (σ : Sched) (i : Nat) (x : GoStr) {st : ObjStT} {st' : ObjSt} (h : StOk u v st st') :
    LoopOk u v (depStepT (o.map f) σ i x st) (depStep (o.map g) σ i x st') := by
  have ef : ObjC.GetSchemaDependency (o.map f) x = (o.GetSchemaDependency x).map f := alookup_map _ x o.schemadeps
  have eg : ObjC.GetSchemaDependency (o.map g) x = (o.GetSchemaDependency x).map g := alookup_map _ x o.schemadeps
  unfold depStepT depStep
  rw [show ObjC.GetPropDependencies (o.map f) x = ObjC.GetPropDependencies (o.map g) x from rfl]
  split
  · simp only [h.pseen]
    exact ⟨rfl, h⟩
  · simp only [ef, eg]
    cases hx : o.GetSchemaDependency x with
    | none => exact ⟨rfl, h⟩
    | some d =>
      simp only [Option.map_some]
      obtain ⟨h1, h2⟩ := (hc d (.dependency hx)).run (σ.sub i) st.v h.val.2.1
      rw [h.val.1] at h1 h2
      exact ⟨h1, h.val.then h2, h.premain, h.pseen⟩

theorem objLoops_typed (hc : ∀ c, o.Child c → Follows u (f c) (g c)) (σ : Sched) {st : ObjStT} {st' : ObjSt} (h : StOk u v st st') :
    LoopOk u v (objLoopsT ext (o.map f) σ st) (objLoops ext (o.map g) σ st') := by
  unfold objLoopsT objLoops
  refine seqSt_typed ?_ (fun st st' h => ?_)
  · have ef : shuffle (σ.sub 0).key (o.map f).props = (shuffle (σ.sub 0).key o.props).map fun p => (p.1, f p.2) := by
      rw [← shuffle_map]; rfl
    have eg : shuffle (σ.sub 0).key (o.map g).props = (shuffle (σ.sub 0).key o.props).map fun p => (p.1, g p.2) := by
      rw [← shuffle_map]; rfl
    rw [ef, eg]
    exact forLoop_typed (f := fun p : GoStr × Constraint => (p.1, f p.2)) (g := fun p => (p.1, g p.2)) _
      (fun i x hx st st' hr => propStep_typed (hc x.2 (.prop (p := x.1) (mem_shuffle.1 hx))) hr rfl) 0 st st' h
  refine seqSt_typed ?_ (fun st st' h => ?_)
  · have ef : shuffle (σ.sub 2).key (o.map f).patterns = (shuffle (σ.sub 2).key o.patterns).map fun p => (p.1, p.2.1, f p.2.2) := by
      rw [← shuffle_map]; rfl
    have eg : shuffle (σ.sub 2).key (o.map g).patterns = (shuffle (σ.sub 2).key o.patterns).map fun p => (p.1, p.2.1, g p.2.2) := by
      rw [← shuffle_map]; rfl
    rw [ef, eg]
    refine forLoop_typed (f := fun p : Nat × GoStr × Constraint => (p.1, p.2.1, f p.2.2)) (g := fun p => (p.1, p.2.1, g p.2.2)) _
      (fun i x hx st st' hr => ?_) 0 st st' h
    unfold patOuterT patOuter
    simp only [hr.premain]
    have := forLoop_typed (u := u) (v := v) (step := patStepT ext x.2.1 (f x.2.2) ((σ.sub 4).sub i)) (step' := patStep ext x.2.1 (g x.2.2) ((σ.sub 4).sub i))
      (f := fun n : GoStr => n) (g := fun n => n) (shuffle ((σ.sub 3).sub i).key st'.premain)
      (fun j y _ st st' hr => patStep_typed (hc x.2.2 (.pattern (id := x.1) (src := x.2.1) (mem_shuffle.1 hx))) hr) 0 st st' hr
    simpa only [List.map_id'] using this
  refine seqSt_typed (addlPhase_typed hc σ h) (fun st st' h => ?_)
  rw [h.pseen]
  have := forLoop_typed (u := u) (v := v) (step := depStepT (o.map f) (σ.sub 8)) (step' := depStep (o.map g) (σ.sub 8))
      (f := fun n : GoStr => n) (g := fun n => n) (shuffle (σ.sub 7).key st'.pseen)
      (fun j y _ st st' hr => depStep_typed hc (σ.sub 8) j y hr) 0 st st' h
  simpa only [List.map_id'] using this

theorem objectV_typed (hc : ∀ c, o.Child c → Follows u (f c) (g c)) (σ : Sched) {v : TVal} (h : Ordinary u v) :
    Matches u v (objectVT ext (o.map f) σ v) (objectV ext (o.map g) σ v.content) := by
  unfold objectVT objectV
  rw [getPropNames_content h]
  cases getPropNames (valueOf v.content).indirect with
  | error s => exact ⟨rfl, .refl h⟩
  | ok l =>
    simp only
    rw [show (o.map f).minProps = (o.map g).minProps from rfl, show (o.map f).maxProps = (o.map g).maxProps from rfl]
    split
    · exact ⟨rfl, .refl h⟩
    · split
      · exact ⟨rfl, .refl h⟩
      · have := objLoops_typed (ext := ext) (v := v) hc σ (st := ⟨v, nameSet l, []⟩) (st' := ⟨v.content, nameSet l, []⟩) ⟨.refl h, rfl, rfl⟩
        exact ⟨this.1, this.2.val⟩

end

/-! ## Arrays -/

/-- Results on the elements of a slice. -/
def ListOk (u : Uses) (r : Res × List TVal) (r' : Res × List GoVal) : Prop :=
  r.1 = r'.1 ∧ r.2.map TVal.content = r'.2 ∧ ∀ x ∈ r.2, Ordinary u x

theorem ListOk.cons {x : TVal} {y : GoVal} {r : Res × List TVal} {r' : Res × List GoVal} (h : ListOk u r r') (hy : x.content = y) (hx : Ordinary u x) :
    ListOk u (r.1, x :: r.2) (r'.1, y :: r'.2) := by
  refine ⟨h.1, by simp [h.2.1, hy], fun z hz => ?_⟩
  rcases List.mem_cons.1 hz with rfl | hz
  · exact hx
  · exact h.2.2 z hz

theorem runItems_typed {s : SemT} {t : Sem} (h : Follows u s t) (σ : Sched) : ∀ (xs : List TVal) (i : Nat), (∀ x ∈ xs, Ordinary u x) →
    ListOk u (runItemsT s σ i xs) (runItems t σ i (xs.map TVal.content))
  | [], _, _ => ⟨rfl, rfl, fun _ h => by simp [runItemsT] at h⟩
  | x :: xs, i, hx => by
    have ih := runItems_typed h σ xs (i + 1) (fun y hy => hx y (by simp [hy]))
    obtain ⟨hr1, hr2⟩ := h.run (σ.sub i) x (hx x (by simp))
    rw [List.map_cons, runItemsT, runItems]
    rcases e1 : s.val (σ.sub i) x with ⟨r, y⟩
    rcases e2 : t.val (σ.sub i) x.content with ⟨r', y'⟩
    rw [e1, e2] at hr1 hr2
    simp only at hr1 hr2
    subst hr1
    obtain ⟨rfl, hy, -⟩ := hr2
    have hrest : ∀ r, ListOk u (r, xs) (r, xs.map TVal.content) := fun r => ⟨rfl, rfl, fun z hz => hx z (by simp [hz])⟩
    cases r with
    | ok => exact ih.cons rfl hy
    | err e => exact (hrest _).cons rfl hy
    | abort a => exact (hrest _).cons rfl hy

theorem runPos_typed {f : Constraint → SemT} {g : Constraint → Sem} (σ : Sched) : ∀ (cs : List Constraint) (xs : List TVal) (i : Nat),
    (∀ c ∈ cs, Follows u (f c) (g c)) → (∀ x ∈ xs, Ordinary u x) →
    ListOk u (runPosT σ i (cs.map f) xs) (runPos σ i (cs.map g) (xs.map TVal.content))
  | [], xs, _, _, h => ⟨rfl, rfl, by simpa [runPosT] using h⟩
  | c :: cs, [], _, _, _ => ⟨rfl, rfl, fun _ h => by simp [runPosT] at h⟩
  | c :: cs, x :: xs, i, h, hx => by
    have ih := runPos_typed σ cs xs (i + 1) (fun d hd => h d (by simp [hd])) (fun y hy => hx y (by simp [hy]))
    obtain ⟨hr1, hr2⟩ := (h c (by simp)).run (σ.sub i) x (hx x (by simp))
    rw [List.map_cons, List.map_cons, List.map_cons, runPosT, runPos]
    rcases e1 : (f c).val (σ.sub i) x with ⟨r, y⟩
    rcases e2 : (g c).val (σ.sub i) x.content with ⟨r', y'⟩
    rw [e1, e2] at hr1 hr2
    simp only at hr1 hr2
    subst hr1
    obtain ⟨rfl, hy, -⟩ := hr2
    have hrest : ∀ r, ListOk u (r, xs) (r, xs.map TVal.content) := fun r => ⟨rfl, rfl, fun z hz => hx z (by simp [hz])⟩
    cases r with
    | ok => exact ih.cons rfl hy
    | err e => exact (hrest _).cons rfl hy
    | abort a => exact (hrest _).cons rfl hy

theorem arrayElems_typed {a : ArrC Constraint} {f : Constraint → SemT} {g : Constraint → Sem} (hc : ∀ c, a.Child c → Follows u (f c) (g c)) (σ : Sched)
    {xs : List TVal} (hx : ∀ x ∈ xs, Ordinary u x) : ListOk u (arrayElemsT (a.map f) σ xs) (arrayElems (a.map g) σ (xs.map TVal.content)) := by
  obtain ⟨items, pos, add, mn, mx, un⟩ := a
  simp only [arrayElems, arrayElemsT, ArrC.map]
  cases items with
  | some c => exact runItems_typed (hc c (.items rfl)) _ xs 0 hx
  | none =>
    simp only [Option.map_none]
    have h1 := runPos_typed (u := u) (f := f) (g := g) (σ.sub 1) pos xs 0 (fun c h => hc c (.positional h)) hx
    rcases e1 : runPosT (σ.sub 1) 0 (pos.map f) xs with ⟨r, us⟩
    rcases e2 : runPos (σ.sub 1) 0 (pos.map g) (xs.map TVal.content) with ⟨r', us'⟩
    rw [e1, e2] at h1
    obtain ⟨hr, hu, ho⟩ := h1
    simp only at hr hu ho
    subst hr
    subst hu
    have h0 : ∀ r, ListOk u (r, us) (r, us.map TVal.content) := fun r => ⟨rfl, rfl, ho⟩
    cases r with
    | err e => exact h0 _
    | abort e => exact h0 _
    | ok =>
      simp only [runAdditional, runAdditionalT, List.length_map]
      split
      · cases add with
        | none => exact h0 _
        | some d =>
          simp only [Option.map_some]
          obtain ⟨k1, k2, k3⟩ := runItems_typed (hc d (.additional rfl)) (σ.sub 2) (us.drop (pos.length - 1)) (pos.length - 1)
            (fun x hx => ho x (List.mem_of_mem_drop hx))
          rw [List.map_drop] at k1 k2
          refine ⟨k1, by simp [k2], fun x hx => ?_⟩
          rcases List.mem_append.1 hx with hx | hx
          · exact ho x (List.mem_of_mem_take hx)
          · exact k3 x hx
      · exact h0 _

theorem uniqueLoop_typed (ht : PrintsLikePlain ext text) : ∀ (xs ys : List TVal),
    uniqueLoopT text (ys.map text) xs = uniqueLoop ext (ys.map fun y => ext.sprint y.content) (xs.map TVal.content)
  | [], _ => rfl
  | x :: xs, ys => by
    have ih := uniqueLoop_typed ht xs (x :: ys)
    rw [List.map_cons, uniqueLoopT, uniqueLoop]
    have hm : text x ∈ ys.map text ↔ ext.sprint x.content ∈ ys.map fun y => ext.sprint y.content := by
      simp only [List.mem_map]
      exact ⟨fun ⟨y, hy, e⟩ => ⟨y, hy, (ht y x).1 e⟩, fun ⟨y, hy, e⟩ => ⟨y, hy, (ht y x).2 e⟩⟩
    by_cases h : text x ∈ ys.map text
    · rw [if_pos h, if_pos (hm.1 h)]
    · rw [if_neg h, if_neg fun h' => h (hm.2 h')]
      exact ih

theorem arrayV_typed (ht : PrintsLikePlain ext text) {a : ArrC Constraint} {f : Constraint → SemT} {g : Constraint → Sem}
    (hc : ∀ c, a.Child c → Follows u (f c) (g c)) (σ : Sched) {v : TVal} (h : Ordinary u v) :
    Matches u v (arrayVT text (a.map f) σ v) (arrayV ext (a.map g) σ v.content) := by
  cases v with
  | slice n e z xs =>
    have hs : (u.enums → n = none ∧ e = .any) ∧ ∀ x ∈ xs, Ordinary u x := by
      cases h with
      | leaf h => cases h
      | slice h1 h2 => exact ⟨h1, h2⟩
    obtain ⟨h1, h2, h3⟩ := arrayElems_typed hc σ hs.2
    have hu := uniqueLoop_typed ht xs []
    simp only [List.map_nil] at hu
    simp only [arrayVT, arrayV, TVal.content, valueOf, contentList_eq, List.length_map]
    rw [show (a.map f).minItems = (a.map g).minItems from rfl, show (a.map f).maxItems = (a.map g).maxItems from rfl,
      show (a.map f).unique = (a.map g).unique from rfl, hu]
    have h0 : Puts u (.slice n e z xs) (.slice n e z xs) (.slice z (xs.map TVal.content)) := by
      have := Puts.refl h
      simpa only [TVal.content, contentList_eq] using this
    split
    · exact ⟨rfl, h0⟩
    · split
      · exact ⟨rfl, h0⟩
      · split
        · exact ⟨rfl, h0⟩
        · exact ⟨h1, by simp [TVal.content, contentList_eq, h2], .slice hs.1 h3, rfl, rfl⟩
  | ptr e p => cases p <;> exact ⟨rfl, .refl h⟩
  | _ => exact ⟨rfl, .refl h⟩

/-! ## Combinators -/

section
variable {f : Constraint → SemT} {g : Constraint → Sem}

theorem Matches.then {v w : TVal} {y : GoVal} (h : Puts u v w y) {r : Res × TVal} {r' : Res × GoVal} (h' : Matches u w r r') : Matches u v r r' :=
  ⟨h'.1, h.then h'.2⟩

theorem anyLoop_typed : ∀ (cs : List Constraint), (∀ c ∈ cs, Follows u (f c) (g c)) → ∀ (i : Nat) (σ : Sched) (v : TVal), Ordinary u v →
    Matches u v (anyLoopT i (cs.map f) σ v) (anyLoop i (cs.map g) σ v.content)
  | [], _, _, _, _, h => ⟨rfl, .refl h⟩
  | c :: cs, hc, i, σ, v, h => by
    obtain ⟨hr1, hr2⟩ := (hc c (by simp)).run (σ.sub i) v h
    rw [List.map_cons, List.map_cons, anyLoopT, anyLoop]
    simp only
    rcases e1 : (f c).val (σ.sub i) v with ⟨r, y⟩
    rcases e2 : (g c).val (σ.sub i) v.content with ⟨r', y'⟩
    rw [e1, e2] at hr1 hr2
    simp only at hr1 hr2
    subst hr1
    have hy := hr2.1
    subst hy
    cases r with
    | ok => exact ⟨rfl, hr2⟩
    | err e => exact .then hr2 (anyLoop_typed cs (fun d hd => hc d (by simp [hd])) (i + 1) σ y hr2.2.1)
    | abort a => exact ⟨rfl, hr2⟩

theorem allLoop_typed : ∀ (cs : List Constraint), (∀ c ∈ cs, Follows u (f c) (g c)) → ∀ (i : Nat) (σ : Sched) (v : TVal), Ordinary u v →
    Matches u v (allLoopT i (cs.map f) σ v) (allLoop i (cs.map g) σ v.content)
  | [], _, _, _, _, h => ⟨rfl, .refl h⟩
  | c :: cs, hc, i, σ, v, h => by
    obtain ⟨hr1, hr2⟩ := (hc c (by simp)).run (σ.sub i) v h
    rw [List.map_cons, List.map_cons, allLoopT, allLoop]
    simp only
    rcases e1 : (f c).val (σ.sub i) v with ⟨r, y⟩
    rcases e2 : (g c).val (σ.sub i) v.content with ⟨r', y'⟩
    rw [e1, e2] at hr1 hr2
    simp only at hr1 hr2
    subst hr1
    have hy := hr2.1
    subst hy
    cases r with
    | ok => exact .then hr2 (allLoop_typed cs (fun d hd => hc d (by simp [hd])) (i + 1) σ y hr2.2.1)
    | err e => exact ⟨rfl, hr2⟩
    | abort a => exact ⟨rfl, hr2⟩

theorem oneOfLoop_typed : ∀ (cs : List Constraint), (∀ c ∈ cs, Follows u (f c) (g c)) → ∀ (i n : Nat) (σ : Sched) (v : TVal), Ordinary u v →
    Matches u v (oneOfLoopT i n (cs.map f) σ v) (oneOfLoop i n (cs.map g) σ v.content)
  | [], _, _, n, _, _, h => by
    simp only [List.map_nil, oneOfLoop, oneOfLoopT]
    split
    · exact ⟨rfl, .refl h⟩
    · split <;> exact ⟨rfl, .refl h⟩
  | c :: cs, hc, i, n, σ, v, h => by
    obtain ⟨hr1, hr2⟩ := (hc c (by simp)).run (σ.sub i) v h
    rw [List.map_cons, List.map_cons, oneOfLoopT, oneOfLoop]
    simp only
    rcases e1 : (f c).val (σ.sub i) v with ⟨r, y⟩
    rcases e2 : (g c).val (σ.sub i) v.content with ⟨r', y'⟩
    rw [e1, e2] at hr1 hr2
    simp only at hr1 hr2
    subst hr1
    have hy := hr2.1
    subst hy
    cases r with
    | ok => exact .then hr2 (oneOfLoop_typed cs (fun d hd => hc d (by simp [hd])) (i + 1) (n + 1) σ y hr2.2.1)
    | err e => exact .then hr2 (oneOfLoop_typed cs (fun d hd => hc d (by simp [hd])) (i + 1) n σ y hr2.2.1)
    | abort a => exact ⟨rfl, hr2⟩

theorem notV_typed {c : Option Constraint} (hc : ∀ d, c = some d → Follows u (f d) (g d)) (σ : Sched) {v : TVal} (h : Ordinary u v) :
    Matches u v (notVT (c.map f) σ v) (notV (c.map g) σ v.content) := by
  cases c with
  | none => exact ⟨rfl, .refl h⟩
  | some d =>
    obtain ⟨hr1, hr2⟩ := (hc d rfl).run (σ.sub 0) v h
    simp only [notV, notVT, Option.map_some]
    rcases e1 : (f d).val (σ.sub 0) v with ⟨r, y⟩
    rcases e2 : (g d).val (σ.sub 0) v.content with ⟨r', y'⟩
    rw [e1, e2] at hr1 hr2
    simp only at hr1 hr2
    subst hr1
    cases r <;> exact ⟨rfl, hr2⟩

end

/-! ## Trees -/

theorem enumCheck_plain {v : TVal} (h : v.isPlain = true) : ∀ vals, enumCheckT vals v = enumCheck vals v.content
  | [] => rfl
  | e :: es => by
    rw [enumCheckT, enumCheck, goEqT, if_pos h, enumCheck_plain h es]
    rfl

theorem ownType_iff {v : TVal} : OwnType v ↔ v.isPlain = false := by
  constructor
  · intro h
    cases h with
    | slice h => cases h with
      | inl h => simp [TVal.isPlain, h]
      | inr h => simp [TVal.isPlain, h]
    | map h => rcases h with h | h | h <;> simp [TVal.isPlain, h]
    | _ => rfl
  · intro h
    cases v with
    | bool n b => cases n with | none => cases h | some n => exact .bool ..
    | int n b => cases n with | none => cases h | some n => exact .int ..
    | uint n b => cases n with | none => cases h | some n => exact .uint ..
    | float n b => cases n with | none => cases h | some n => exact .float ..
    | str n b => cases n with | none => cases h | some n => exact .str ..
    | slice n e z xs => 
      refine .slice ?_
      by_contra hc
      push Not at hc
      simp [TVal.isPlain, hc.1, hc.2] at h
    | map n k e z kvs =>
      refine .map ?_
      by_contra hc
      push Not at hc
      simp [TVal.isPlain, hc.1, hc.2.1, hc.2.2] at h
    | _ => cases h

theorem Ordinary.plain {v : TVal} (h : Ordinary u v) (hu : u.enums) : v.isPlain = true := by
  cases h with
  | leaf _ h =>
    rcases e : v.isPlain with _ | _
    · exact absurd (ownType_iff.2 e) (h hu)
    · rfl
  | slice h => obtain ⟨rfl, rfl⟩ := h hu; rfl
  | map h => obtain ⟨rfl, rfl⟩ := h hu; rfl
  | _ => rfl

theorem denoteListT_eq (ρ : RefSemT) : ∀ cs, denoteListT ext text ρ cs = cs.map (denoteT ext text ρ)
  | [] => by simp [denoteListT]
  | c :: cs => by simp [denoteListT, denoteListT_eq ρ cs]

theorem denoteOptT_eq (ρ : RefSemT) : ∀ c, denoteOptT ext text ρ c = c.map (denoteT ext text ρ)
  | none => by simp [denoteOptT]
  | some c => by simp [denoteOptT]

theorem denotePropsT_eq (ρ : RefSemT) : ∀ cs, denotePropsT ext text ρ cs = cs.map (fun p => (p.1, denoteT ext text ρ p.2))
  | [] => by simp [denotePropsT]
  | (n, c) :: cs => by simp [denotePropsT, denotePropsT_eq ρ cs]

theorem denotePatsT_eq (ρ : RefSemT) : ∀ cs, denotePatsT ext text ρ cs = cs.map (fun p => (p.1, p.2.1, denoteT ext text ρ p.2.2))
  | [] => by simp [denotePatsT]
  | (i, s, c) :: cs => by simp [denotePatsT, denotePatsT_eq ρ cs]

theorem denoteT_array (ρ : RefSemT) (a : ArrC Constraint) : denoteT ext text ρ (.array a) = ⟨.none, arrayVT text (a.map (denoteT ext text ρ))⟩ := by
  cases a; simp [denoteT, denoteArrT, ArrC.map, denoteOptT_eq, denoteListT_eq]

theorem denoteT_object (ρ : RefSemT) (o : ObjC Constraint) : denoteT ext text ρ (.object o) = ⟨.none, objectVT ext (o.map (denoteT ext text ρ))⟩ := by
  cases o; simp [denoteT, denoteObjT, ObjC.map, denoteOptT_eq, denotePropsT_eq, denotePatsT_eq]

theorem follows_pure {d : Dflt} {p : TVal → Res} {q : GoVal → Res} (hd : ∀ dv, d = .some dv → u.defaults) (hp : ∀ v, Ordinary u v → p v = q v.content) :
    Follows u ⟨d, pureVT p⟩ ⟨d, pureV q⟩ :=
  ⟨rfl, hd, fun _ v h => ⟨hp v h, .refl h⟩⟩

theorem follows_none {p : ValidatorT} {q : Validator} (h : ∀ σ v, Ordinary u v → Matches u v (p σ v) (q σ v.content)) : Follows u ⟨.none, p⟩ ⟨.none, q⟩ :=
  ⟨rfl, fun _ h => (by cases h), h⟩

theorem follows_node (ht : PrintsLikePlain ext text) {ρ : RefSemT} {ρ' : RefSem} {c : Constraint} (hb : c.Within u) (hρ : ∀ m n, c = .ref m n → Follows u (ρ m n) (ρ' m n))
    (ih : ∀ d, c.Child d → Follows u (denoteT ext text ρ d) (denote ext ρ' d)) : Follows u (denoteT ext text ρ c) (denote ext ρ' c) := by
  cases c with
  | empty => exact follows_none fun _ v h => ⟨rfl, .refl h⟩
  | null =>
    simp only [denoteT, denote]
    exact follows_pure (fun _ h => by cases h) fun v h => rfl
  | boolean d =>
    simp only [denoteT, denote]
    exact follows_pure (fun dv h => hb (by simp [Constraint.ownDefault, ofOption_some h])) fun v h => rfl
  | string s =>
    simp only [denoteT, denote]
    exact follows_pure (fun dv h => hb (by simp [Constraint.ownDefault, ofOption_some h])) fun v h => rfl
  | number s =>
    simp only [denoteT, denote]
    exact follows_pure (fun dv h => hb (by simp [Constraint.ownDefault, ofOption_some h])) fun v h => rfl
  | integer s =>
    simp only [denoteT, denote]
    exact follows_pure (fun dv h => hb (by simp [Constraint.ownDefault, ofOption_some h])) fun v h => rfl
  | enum vals =>
    simp only [denoteT, denote]
    exact follows_pure (fun _ h => by cases h) fun v h => enumCheck_plain (h.plain hb) vals
  | array a =>
    rw [denoteT_array]
    simp only [denote, denoteArr_eq]
    exact follows_none fun σ v h => arrayV_typed ht (fun d hd => ih d (.array hd)) σ h
  | object o =>
    rw [denoteT_object]
    simp only [denote, denoteObj_eq]
    exact follows_none fun σ v h => objectV_typed (fun d hd => ih d (.object hd)) σ h
  | any cs =>
    simp only [denoteT, denote, denoteList_eq, denoteListT_eq]
    exact follows_none fun σ v h => anyLoop_typed cs (fun d hd => ih d (.any hd)) 0 σ v h
  | all cs =>
    simp only [denoteT, denote, denoteList_eq, denoteListT_eq]
    exact follows_none fun σ v h => allLoop_typed cs (fun d hd => ih d (.all hd)) 0 σ v h
  | oneOf cs =>
    simp only [denoteT, denote, denoteList_eq, denoteListT_eq]
    exact follows_none fun σ v h => oneOfLoop_typed cs (fun d hd => ih d (.oneOf hd)) 0 0 σ v h
  | not c =>
    simp only [denoteT, denote, denoteOpt_eq, denoteOptT_eq]
    exact follows_none fun σ v h => notV_typed (fun d hd => ih d (by subst hd; exact .not)) σ h
  | ref m n =>
    simp only [denoteT, denote]
    exact hρ m n rfl

theorem follows_tree (ht : PrintsLikePlain ext text) {ρ : RefSemT} {ρ' : RefSem} (hρ : ∀ m n, Follows u (ρ m n) (ρ' m n)) (c : Constraint)
    (hb : c.Every (Constraint.Within u)) : Follows u (denoteT ext text ρ c) (denote ext ρ' c) := by
  induction c using Constraint.ind with
  | h c ih =>
    exact follows_node ht (hb c (.refl c)) (fun m n _ => hρ m n) fun d hd => ih d hd fun e he => hb e (.child hd he)

theorem follows_ref (ht : PrintsLikePlain ext text) {env : Env} (he : env.Every (Constraint.Within u)) : ∀ k m n,
    Follows u (refSemT ext text env k m n) (refSem ext env k m n)
  | 0, _, _ => ⟨rfl, fun _ h => (by cases h), fun _ v h => ⟨rfl, .refl h⟩⟩
  | k + 1, m, n => by
    simp only [refSemT, refSem]
    cases hc : env m n with
    | none => exact ⟨rfl, fun _ h => (by cases h), fun _ v h => ⟨rfl, .refl h⟩⟩
    | some c => exact follows_tree ht (follows_ref ht he k) c (he m n c hc)

/-- The simulation. -/
theorem follows_sem (ht : PrintsLikePlain ext text) {env : Env} (he : env.Every (Constraint.Within u)) {c : Constraint} (hc : c.Every (Constraint.Within u))
    (fuel : Nat) : Follows u (semT ext text env fuel c) (sem ext env fuel c) :=
  follows_tree ht (follows_ref ht he fuel) c hc

end Jsval
