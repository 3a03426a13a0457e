import Verif.Spec.Blames
import Verif.Lemmas.FaultsTree
import Verif.Lemmas.Refine
/-!
# A validator utters nothing else
-/
namespace Jsval

variable {ext : Ext} {env : Env}

theorem StrFault.blames {c : StrC} {s : GoStr} {e : Err} (h : StrFault ext c s e) : StrBlames c e := by
  cases h with
  | tooLong h _ => exact .tooLong h
  | tooShort h h2 => exact .tooShort (by omega)
  | datetime h _ => exact .datetime h
  | email h _ => exact .email h
  | hostname h _ => exact .hostname h
  | ipv4 h _ => exact .ipv4 h
  | ipv6 h _ => exact .ipv6 h
  | uri h _ => exact .uri h
  | regexp h _ => exact .regexp h
  | enums h _ => exact .enums h

theorem NumFault.blames {c : NumC} {f : F64} {e : Err} (h : NumFault c f e) : NumBlames c e := by
  cases h with
  | belowMin h h' _ => exact .belowMin h h'
  | belowMinExcl h h' _ => exact .belowMinExcl h h'
  | aboveMax h h' _ => exact .aboveMax h h'
  | aboveMaxExcl h h' _ => exact .aboveMaxExcl h h'
  | notMultiple h h' _ => exact .notMultiple h h'
  | enums h _ => exact .enums h

/-- An outcome that, if it is an error, is one of these. -/
def OutIn {S : Type} (Q : Err → Prop) (r : Res × S) : Prop := ∀ e, r.1 = .err e → Q e

theorem OutIn.ok {S : Type} {Q : Err → Prop} {s : S} : OutIn Q (.ok, s) := fun _ h => by cases h
theorem OutIn.abort {S : Type} {Q : Err → Prop} {a : Abort} {s : S} : OutIn Q (.abort a, s) := fun _ h => by cases h
theorem OutIn.err {S : Type} {Q : Err → Prop} {e : Err} {s : S} (h : Q e) : OutIn Q (.err e, s) := fun _ h' => by cases h'; exact h

theorem forLoop_in {α S : Type} {Q : Err → Prop} {step : Nat → α → S → Res × S} : ∀ (l : List α) (i : Nat) (s : S),
    (∀ i, ∀ a ∈ l, ∀ s, OutIn Q (step i a s)) → OutIn Q (forLoop step i l s)
  | [], _, _, _ => .ok
  | a :: l, i, s, hs => by
    unfold forLoop
    have := hs i a (by simp) s
    rcases e : step i a s with ⟨r, s'⟩
    rw [e] at this
    cases r with
    | ok => exact forLoop_in l (i + 1) s' (fun i a h => hs i a (by simp [h]))
    | err e' => exact this
    | abort a => exact .abort

theorem seqSt_in {Q : Err → Prop} {r : Res × ObjSt} {k : ObjSt → Res × ObjSt} (hr : OutIn Q r) (hk : ∀ st, OutIn Q (k st)) :
    OutIn Q (seqSt r k) := by
  obtain ⟨r, s⟩ := r
  cases r with
  | ok => exact hk s
  | err e => exact hr
  | abort a => exact .abort

/-- A behaviour that utters only messages `c` may utter, and whose default is one `c` has. -/
structure Speaks (ext : Ext) (env : Env) (k : Nat) (s : Sem) (c : Constraint) : Prop where
  dflt : ∀ d, s.dflt = .some d → Defaulted env c
  val : ∀ σ v, OutIn (Blames ext env k c) (s.val σ v)

section
variable {f : Constraint → Sem} {k : Nat}

theorem anyLoop_in {Q : Err → Prop} (hQ : Q .anyNone) (σ : Sched) : ∀ (cs : List Sem) (i : Nat) (v : GoVal), OutIn Q (anyLoop i cs σ v)
  | [], i, v => .err hQ
  | c :: cs, i, v => by
    simp only [anyLoop]
    rcases c.val (σ.sub i) v with ⟨r, v'⟩
    cases r with
    | ok => exact .ok
    | err e => exact anyLoop_in hQ σ cs (i + 1) v'
    | abort a => exact .abort

theorem allLoop_in {Q : Err → Prop} (σ : Sched) : ∀ (cs : List Sem) (i : Nat) (v : GoVal), (∀ c ∈ cs, ∀ σ v, OutIn Q (c.val σ v)) →
    OutIn Q (allLoop i cs σ v)
  | [], i, v, _ => .ok
  | c :: cs, i, v, hc => by
    simp only [allLoop]
    have := hc c (by simp) (σ.sub i) v
    rcases e : c.val (σ.sub i) v with ⟨r, v'⟩
    rw [e] at this
    cases r with
    | ok => exact allLoop_in σ cs (i + 1) v' (fun c h => hc c (by simp [h]))
    | err e => exact .err (this _ rfl)
    | abort a => exact .abort

theorem oneOfLoop_in {Q : Err → Prop} (h0 : Q .oneOfNone) (σ : Sched) : ∀ (cs : List Sem) (i n : Nat) (v : GoVal),
    (1 < n + cs.length → Q .oneOfMany) → OutIn Q (oneOfLoop i n cs σ v)
  | [], i, n, v, h => by
    simp only [oneOfLoop]
    split_ifs with h1 h2
    · exact .err h0
    · exact .err (h (by simpa using h2))
    · exact .ok
  | c :: cs, i, n, v, h => by
    simp only [oneOfLoop]
    simp only [List.length_cons] at h
    rcases c.val (σ.sub i) v with ⟨r, v'⟩
    cases r with
    | ok => exact oneOfLoop_in h0 σ cs (i + 1) (n + 1) v' (fun hn => h (by omega))
    | err e => exact oneOfLoop_in h0 σ cs (i + 1) n v' (fun hn => h (by omega))
    | abort a => exact .abort

theorem runItems_in {Q : Err → Prop} {c : Sem} (hc : ∀ σ v, OutIn Q (c.val σ v)) (σ : Sched) : ∀ (xs : List GoVal) (i : Nat),
    OutIn Q (runItems c σ i xs)
  | [], _ => .ok
  | x :: xs, i => by
    simp only [runItems]
    have := hc (σ.sub i) x
    rcases e : c.val (σ.sub i) x with ⟨r, x'⟩
    rw [e] at this
    cases r with
    | ok => exact fun e h => runItems_in hc σ xs (i + 1) e h
    | err e => exact .err (this _ rfl)
    | abort a => exact .abort

theorem runPos_in {Q : Err → Prop} (σ : Sched) : ∀ (cs : List Sem) (xs : List GoVal) (i : Nat), (∀ c ∈ cs, ∀ σ v, OutIn Q (c.val σ v)) →
    OutIn Q (runPos σ i cs xs)
  | [], _, _, _ => .ok
  | _ :: _, [], _, _ => .ok
  | c :: cs, x :: xs, i, hc => by
    simp only [runPos]
    have := hc c (by simp) (σ.sub i) x
    rcases e : c.val (σ.sub i) x with ⟨r, x'⟩
    rw [e] at this
    cases r with
    | ok => exact fun e h => runPos_in σ cs xs (i + 1) (fun c h => hc c (by simp [h])) e h
    | err e => exact .err (this _ rfl)
    | abort a => exact .abort

theorem arrayV_in (a : ArrC Constraint) (hf : ∀ c, a.Child c → Speaks ext env k (f c) c) (σ : Sched) (v : GoVal) :
    OutIn (Blames ext env k (.array a)) (arrayV ext (a.map f) σ v) := by
  unfold arrayV
  cases hv : valueOf v with
  | none => exact .err (.array .notSlice)
  | some x =>
    cases x with
    | slice n xs =>
      simp only
      split_ifs with h1 h2 h3
      · exact .err (.array (.fewItems (by have := h1.1; have := h1.2; simp only [ArrC.map] at *; omega)))
      · exact .err (.array (.manyItems (by have := h2.1; simp only [ArrC.map] at *; omega)))
      · exact .err (.array (.dupItem h3.1))
      · intro e he
        simp only at he
        revert e
        show OutIn _ (arrayElems (a.map f) σ xs)
        unfold arrayElems
        obtain ⟨items, pos, add, mn, mx, u⟩ := a
        simp only [ArrC.map]
        cases items with
        | some c => exact runItems_in (fun σ v e he => .item rfl ((hf c (.items rfl)).val σ v e he)) _ _ _
        | none =>
          simp only [Option.map_none]
          have hp : OutIn (Blames ext env k (.array ⟨none, pos, add, mn, mx, u⟩)) (runPos (σ.sub 1) 0 (pos.map f) xs) := by
            refine runPos_in _ _ _ _ fun s hs σ v e he => ?_
            obtain ⟨c, hc, rfl⟩ := List.mem_map.1 hs
            exact .positional rfl hc ((hf c (.positional hc)).val σ v e he)
          rcases e : runPos (σ.sub 1) 0 (pos.map f) xs with ⟨r, xs'⟩
          rw [e] at hp
          cases r with
          | err e => exact hp
          | abort a => exact .abort
          | ok =>
            simp only [runAdditional, List.length_map]
            split_ifs with hl
            · have hne : pos ≠ [] := by rintro rfl; simp at hl
              cases add with
              | none => exact .err (.array (.addlItems rfl rfl hne))
              | some c =>
                exact fun e h => runItems_in (fun σ v e he => .extra rfl rfl hne ((hf c (.additional rfl)).val σ v e he)) _ _ _ e h
            · exact .ok
    | _ => exact .err (.array .notSlice)

theorem maybeConv_blames {k : MaybeKind} {x : GoVal} {e : Err} (p : GoStr) (h : maybeConv ext k x = .error e) : SetBlames p e := by
  unfold maybeConv at h
  split at h <;> first | cases h | skip
  · split at h <;> first | (cases h; exact .time) | cases h
  · exact .maybe
  · exact .maybe

theorem maybeSet_blames {m m' : MaybeSt} {x : GoVal} {e : Err} (p : GoStr) (h : m.Set ext x = (some e, m')) : SetBlames p e := by
  unfold MaybeSt.Set at h
  split at h
  · cases h
  · rename_i he; cases h; exact maybeConv_blames p he

theorem setPropStruct_blames {a : Bool} {fs : List (Field × GoVal)} {p : GoStr} {d : GoVal} {e : Err}
    (h : setPropStruct ext a fs p d = .error (.err e)) : SetBlames p e := by
  unfold setPropStruct at h
  split at h
  · cases h
  split at h
  · cases h; exact .noField
  · split at h
    · cases h
    split at h
    · split at h
      · cases h
      · rename_i he; cases h; exact maybeSet_blames p he
    · cases h
  · split at h
    · cases h
    split at h
    · cases h
    · rename_i he; cases h; exact maybeSet_blames p he
  · cases h

theorem Except.map_error {ε α β : Type} {r : Except ε α} {φ : α → β} {e : ε} (h : r.map φ = .error e) : r = .error e := by
  cases r with
  | error e' => cases h; rfl
  | ok a => cases h

theorem setPropAt_blames {a : Bool} {x : GoVal} {p : GoStr} {d : GoVal} {e : Err}
    (h : setPropAt ext a x p d = .error (.err e)) : SetBlames p e := by
  unfold setPropAt at h
  split at h
  · split at h
    · cases h
    · split at h <;> cases h
  · cases h
  · exact setPropStruct_blames (Except.map_error h)
  · cases h; exact .noField
  · cases h
  · cases h; exact .kind

theorem setPropRV_blames {a : Bool} {x : GoVal} {p : GoStr} {d : GoVal} {e : Err}
    (h : setPropRV ext a x p d = .error (.err e)) : SetBlames p e := by
  unfold setPropRV at h
  split at h
  · exact setPropAt_blames (Except.map_error h)
  · exact setPropAt_blames (Except.map_error h)
  · exact setPropAt_blames h

theorem setProp_blames {x : GoVal} {p : GoStr} {d : GoVal} {e : Err} (h : setProp ext x p d = .error (.err e)) : SetBlames p e := by
  unfold setProp at h
  split at h
  · exact setPropRV_blames (Except.map_error h)
  · exact setPropRV_blames (Except.map_error h)
  · exact setPropAt_blames h

theorem propStep_in (o : ObjC Constraint) {p : GoStr} {c : Constraint} (hp : (p, c) ∈ o.props) (hc : Speaks ext env k (f c) c)
    (σ : Sched) (i : Nat) (st : ObjSt) : OutIn (Blames ext env k (.object o)) (propStep ext (o.map f) σ i (p, f c) st) := by
  unfold propStep
  rcases hv : viewProp (valueOf st.v).indirect p with a | w
  · exact .abort
  · cases w with
    | absent =>
      simp only
      split_ifs with hr
      · exact .err (.object (.required hr ⟨c, hp⟩))
      · rcases hd : (f c).dflt with _ | d | a
        · exact .ok
        · simp only
          rcases hs : setProp ext st.v p d with s | v'
          · cases s with
            | err e => exact .err (.setDefault hp hr (hc.dflt d hd) (setProp_blames hs))
            | abort a => exact .abort
          · exact .ok
        · exact .abort
    | present x stored =>
      have := hc.val (σ.sub i) x
      rcases e : (f c).val (σ.sub i) x with ⟨r, y⟩
      rw [e] at this
      simp only [e]
      cases r with
      | ok => exact .ok
      | err e => exact .err (.prop hp (this _ rfl))
      | abort a => exact .abort

theorem patStep_in (o : ObjC Constraint) {id : Nat} {src : GoStr} {c : Constraint} (hp : (id, src, c) ∈ o.patterns) (hc : Speaks ext env k (f c) c)
    (σ : Sched) (i : Nat) (p : GoStr) (st : ObjSt) : OutIn (Blames ext env k (.object o)) (patStep ext src (f c) σ i p st) := by
  unfold patStep
  split
  · exact .ok
  · rename_i hm
    rcases hv : getProp (valueOf st.v).indirect p with a | w
    · exact .abort
    · cases w with
      | none => exact .abort
      | some x =>
        have := hc.val (σ.sub i) x
        rcases e : (f c).val (σ.sub i) x with ⟨r, y⟩
        rw [e] at this
        simp only [e]
        cases r with
        | ok => exact .ok
        | err e => exact .err (.pattern hp (by simpa using hm) (this _ rfl))
        | abort a => exact .abort

theorem addlStep_in (o : ObjC Constraint) {c : Constraint} (hp : o.additional = some c) (hc : Speaks ext env k (f c) c)
    (σ : Sched) (i : Nat) (p : GoStr) (st : ObjSt) : OutIn (Blames ext env k (.object o)) (addlStep (f c) σ i p st) := by
  unfold addlStep
  rcases hv : getProp (valueOf st.v).indirect p with a | w
  · exact .abort
  · cases w with
    | none => exact .abort
    | some x =>
      have := hc.val (σ.sub i) x
      rcases e : (f c).val (σ.sub i) x with ⟨r, y⟩
      rw [e] at this
      simp only [e]
      cases r with
      | ok => exact .ok
      | err e => exact .err (.addlProp hp (this _ rfl))
      | abort a => exact .abort

theorem depsCheck_in {pseen : List GoStr} : ∀ {l : List GoStr} {e : Err}, depsCheck pseen l = .err e → ∃ d ∈ l, e = .depMissing d
  | [], _, h => by cases h
  | d :: l, e, h => by
    unfold depsCheck at h
    split at h
    · obtain ⟨d', h', rfl⟩ := depsCheck_in h
      exact ⟨d', by simp [h'], rfl⟩
    · cases h; exact ⟨d, by simp, rfl⟩

theorem depStep_in (o : ObjC Constraint) (hf : ∀ c, o.Child c → Speaks ext env k (f c) c) (σ : Sched) (i : Nat) (p : GoStr) (st : ObjSt) :
    OutIn (Blames ext env k (.object o)) (depStep (o.map f) σ i p st) := by
  have hs : (o.map f).GetSchemaDependency p = (o.GetSchemaDependency p).map f := by
    unfold ObjC.GetSchemaDependency; simp only [ObjC.map]; rw [alookup_map]
  have hp : (o.map f).GetPropDependencies p = o.GetPropDependencies p := rfl
  unfold depStep
  simp only [hp, hs]
  split
  · intro e he
    obtain ⟨d, hd, rfl⟩ := depsCheck_in he
    exact .object (.depMissing hd)
  · rename_i hn
    cases hx : o.GetSchemaDependency p with
    | none => exact .ok
    | some c =>
      have := (hf c (.dependency hx)).val (σ.sub i) st.v
      rcases e : (f c).val (σ.sub i) st.v with ⟨r, y⟩
      rw [e] at this
      simp only [Option.map_some, e]
      cases r with
      | ok => exact .ok
      | err e => exact .err (.dependency (by simpa using hn) hx (this _ rfl))
      | abort a => exact .abort

theorem getPropNames_in {rv : RV} {s : Stop} (o : ObjC Constraint) (h : getPropNames rv = .error s) :
    ∀ e, s.toRes = .err e → ObjBlames o e := by
  intro e he
  unfold getPropNames at h
  split at h
  · cases h
  · split at h
    · cases h
    · cases h; cases he; exact .mapKeys
  · split at h
    · cases h
    · cases h; cases he
  · cases h
  · cases h; cases he
  · cases h; cases he; exact .notObject

theorem objectV_in (o : ObjC Constraint) (hf : ∀ c, o.Child c → Speaks ext env k (f c) c) (σ : Sched) (v : GoVal) :
    OutIn (Blames ext env k (.object o)) (objectV ext (o.map f) σ v) := by
  unfold objectV
  rcases hv : getPropNames (valueOf v).indirect with s | fields
  · exact fun e he => .object (getPropNames_in o hv e he)
  · simp only
    split_ifs with h1 h2
    · exact .err (.object (.fewProps (by have := h1.1; have := h1.2; simp only [ObjC.map] at *; omega)))
    · exact .err (.object (.manyProps (by have := h2.1; simp only [ObjC.map] at *; omega)))
    · intro e he
      simp only at he
      revert e
      generalize (⟨v, nameSet fields, []⟩ : ObjSt) = st
      show OutIn _ (objLoops ext (o.map f) σ st)
      unfold objLoops
      refine seqSt_in ?_ fun st => seqSt_in ?_ fun st => seqSt_in ?_ fun st => ?_
      · simp only [show (o.map f).props = o.props.map (fun p => (p.1, f p.2)) from rfl, shuffle_map, forLoop_map]
        exact forLoop_in _ _ _ fun i a ha s => propStep_in o (mem_shuffle.1 ha) (hf a.2 (.prop (mem_shuffle.1 ha))) _ _ _
      · simp only [show (o.map f).patterns = o.patterns.map (fun p => (p.1, p.2.1, f p.2.2)) from rfl, shuffle_map, forLoop_map]
        refine forLoop_in _ _ _ fun i a ha s => ?_
        exact forLoop_in _ _ _ fun i q _ s => patStep_in o (mem_shuffle.1 ha) (hf a.2.2 (.pattern (mem_shuffle.1 ha))) _ _ _ _
      · unfold addlPhase
        split
        · rcases ha : o.additional with _ | c
          · simp only [ObjC.map, ha, Option.map_none]
            exact .err (.object (.addlNotAllowed ha))
          · simp only [ObjC.map, ha, Option.map_some]
            exact forLoop_in _ _ _ fun i a _ s => addlStep_in o ha (hf c (.additional ha)) _ _ _ _
        · exact .ok
      · exact forLoop_in _ _ _ fun i a _ s => depStep_in o hf _ _ _ _

end

theorem pureV_in {Q : Err → Prop} {f : GoVal → Res} (h : ∀ v e, f v = .err e → Q e) (σ : Sched) (v : GoVal) : OutIn Q (pureV f σ v) :=
  fun e he => h v e he

theorem numCheck_in {c : NumC} {v : GoVal} {e : Err} (h : numCheck c v = .err e) : e = .notFloat ∨ NumBlames c e := by
  unfold numCheck at h
  split at h
  · exact .inr (numCheckF_err h).blames
  · cases h; exact .inl rfl

theorem numCheck_float_in {c : NumC} {f : F64} {e : Err} (h : numCheck c (.float .f64 f) = .err e) : NumBlames c e := by
  have h' : numCheckF c f = .err e := h
  exact (numCheckF_err h').blames

theorem intCheck_in {c : NumC} {v : GoVal} {e : Err} (h : intCheck c v = .err e) : e = .notNumeric ∨ e = .notIntegral ∨ NumBlames c e := by
  unfold intCheck at h
  split at h
  · exact .inr (.inr (numCheck_float_in h))
  · exact .inr (.inr (numCheck_float_in h))
  · split at h
    · cases h; exact .inr (.inl rfl)
    · exact .inr (.inr (numCheck_float_in h))
  · cases h; exact .inl rfl

theorem strCheck_in {c : StrC} {v : GoVal} {e : Err} (h : strCheck ext c v = .err e) : StrBlames c e := by
  unfold strCheck at h
  split at h
  · exact (strCheckS_err h).blames
  · cases h; exact .notString

theorem sem_speaks : ∀ (fuel : Nat) (c : Constraint), Speaks ext env fuel (sem ext env fuel c) c := by
  intro fuel
  induction fuel using Nat.strong_induction_on with
  | _ fuel ihf =>
  intro c
  induction c using Constraint.ind with
  | h c ih =>
    refine ⟨fun d hd => ?_, ?_⟩
    · cases c with
      | boolean x => exact ⟨_, .refl _, by cases x <;> simp_all [sem, denote, Dflt.ofOption, Constraint.ownDefault]⟩
      | string x => exact ⟨_, .refl _, by cases h : x.dflt <;> simp_all [sem, denote, Dflt.ofOption, Constraint.ownDefault]⟩
      | number x => exact ⟨_, .refl _, by cases h : x.dflt <;> simp_all [sem, denote, Dflt.ofOption, Constraint.ownDefault]⟩
      | integer x => exact ⟨_, .refl _, by cases h : x.dflt <;> simp_all [sem, denote, Dflt.ofOption, Constraint.ownDefault]⟩
      | ref m n =>
        unfold sem at hd
        simp only [denote] at hd
        cases fuel with
        | zero => cases hd
        | succ fuel =>
          simp only [refSem] at hd
          cases hm : env m n with
          | none => rw [hm] at hd; cases hd
          | some c =>
            rw [hm] at hd
            obtain ⟨e, h1, h2⟩ := (ihf fuel (by omega) c).dflt d hd
            exact ⟨e, .ref hm h1, h2⟩
      | _ => simp [sem, denote] at hd
    cases c with
    | empty => exact fun σ v => .ok
    | null =>
      refine pureV_in fun v e h => ?_
      unfold nullCheck at h
      split at h <;> first | cases h | skip
      exact .null
    | boolean d =>
      refine pureV_in fun v e h => ?_
      unfold boolCheck at h
      split at h <;> first | cases h | skip
      exact .boolean
    | string d => exact pureV_in fun v e h => .string (strCheck_in h)
    | number d => exact pureV_in fun v e h => by rcases numCheck_in h with rfl | h; exacts [.notFloat, .number h]
    | integer d => exact pureV_in fun v e h => by rcases intCheck_in h with rfl | rfl | h; exacts [.notNumeric, .notIntegral, .integer h]
    | enum d => exact pureV_in fun v e h => by obtain ⟨rfl, -⟩ := enumCheck_err h; exact .enum
    | ref m n =>
      intro σ v
      unfold sem
      simp only [denote]
      cases fuel with
      | zero => exact .abort
      | succ fuel =>
        simp only [refSem]
        cases hm : env m n with
        | none => exact .err (.refNotFound hm)
        | some c => exact fun e he => .ref hm ((ihf fuel (by omega) c).val σ v e he)
    | array a =>
      unfold sem
      rw [denote_array]
      exact arrayV_in a (fun c h => ih c (.array h))
    | object o =>
      unfold sem
      rw [denote_object]
      exact objectV_in o (fun c h => ih c (.object h))
    | any cs =>
      unfold sem
      rw [denote_any]
      exact fun σ v => anyLoop_in .any σ _ 0 v
    | all cs =>
      unfold sem
      rw [denote_all]
      refine fun σ v => allLoop_in σ _ 0 v fun s hs σ v e he => ?_
      obtain ⟨c, hc, rfl⟩ := List.mem_map.1 hs
      exact .all hc ((ih c (.all hc)).val σ v e he)
    | oneOf cs =>
      unfold sem
      rw [denote_oneOf]
      exact fun σ v => oneOfLoop_in .oneOfNone σ _ 0 0 v (fun h => .oneOfMany (by simpa using h))
    | not c =>
      unfold sem
      rw [denote_not]
      intro σ v
      cases c with
      | none => exact .err .notNoChild
      | some c =>
        simp only [Option.map_some, notV]
        rcases (denote ext (refSem ext env fuel) c).val (σ.sub 0) v with ⟨r, v'⟩
        cases r with
        | ok => exact .err .notFailed
        | err e => exact .ok
        | abort a => exact .abort

end Jsval
