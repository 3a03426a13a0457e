import Verif.Lemmas.ShowsAcc
import Verif.Lemmas.RebuildSim
/-!
# Validation of structs follows validation of the maps they stand for: the simulation

Both directions are proved at once: `d` says on which side the iteration order is given, on the other side one is found.
-/
namespace Jsval
variable {ext : Ext} {env : Env} {K : Role} {d : Bool}

/-- The given one or the found one. -/
def sel {α : Type} (d : Bool) (a b : α) : α := if d = true then a else b

theorem sel_sub (a b : Sched) (i : Nat) : (sel d a b).sub i = sel d (a.sub i) (b.sub i) := by cases d <;> rfl
theorem sel_key (a b : Sched) : (sel d a b).key = sel d a.key b.key := by cases d <;> rfl

/-- The given schedule with part `i` replaced and the later parts from another. -/
def patch (i : Nat) (t u : Sched) : Sched := Sched.mk' 0 fun j => if j = i then t else u.sub j

theorem patch_here (i : Nat) (t u : Sched) : (patch i t u).sub i = t := by
  show (if i = i then t else u.sub i) = t
  rw [if_pos rfl]
theorem patch_later {i j : Nat} (t u : Sched) (h : i < j) : (patch i t u).sub j = u.sub j := by
  show (if j = i then t else u.sub j) = u.sub j
  rw [if_neg (by omega)]

/-- Same verdict and related values left behind; leaves are left as they are. -/
structure SameEnd (ext : Ext) (env : Env) (K : Role) (w : GoVal) (r r' : Res × GoVal) : Prop where
  res : r.1 = r'.1
  val : StandsFor ext env K r.2 r'.2
  keep : IsLeaf w → r'.2 = w

/-- Whatever the order on one side, some order on the other side gives the same. -/
def Evenly (ext : Ext) (env : Env) (K : Role) (d : Bool) (f : Validator) : Prop :=
  ∀ v w, StandsFor ext env K v w → ∀ τ, ∃ τ', SameEnd ext env K w (f (sel d τ τ') v) (f (sel d τ' τ) w)

/-! ## Loops over properties -/

/-- Same verdict; the states are related by `Rel` if the loop goes on, and by `Fin` if it ends here. -/
structure Paced (Rel Fin : ObjSt → ObjSt → Prop) (r r' : Res × ObjSt) : Prop where
  res : r.1 = r'.1
  go : r.1 = .ok → Rel r.2 r'.2
  fin : Fin r.2 r'.2

theorem forLoop_paced {T α : Type} {step step' : T → α → ObjSt → Res × ObjSt} {Rel : List α → ObjSt → ObjSt → Prop} {Fin : ObjSt → ObjSt → Prop}
    (hf : ∀ l st st', Rel l st st' → Fin st st') : ∀ (l : List α),
    (∀ l1 a l2, l = l1 ++ a :: l2 → ∀ st st', Rel (a :: l2) st st' → ∀ t, ∃ t', Paced (Rel l2) Fin (step (sel d t t') a st) (step' (sel d t' t) a st')) →
    ∀ (i : Nat) st st', Rel l st st' → ∀ ts : Nat → T, ∃ ts' : Nat → T,
      Paced (Rel []) Fin (forLoop (fun j => step (sel d (ts j) (ts' j))) i l st) (forLoop (fun j => step' (sel d (ts' j) (ts j))) i l st')
  | [], _, i, st, st', hr, ts => ⟨ts, rfl, fun _ => hr, hf _ _ _ hr⟩
  | a :: l, h, i, st, st', hr, ts => by
    obtain ⟨t', ht⟩ := h [] a l rfl st st' hr (ts i)
    rcases e : step (sel d (ts i) t') a st with ⟨r, u⟩
    rcases e' : step' (sel d t' (ts i)) a st' with ⟨r', u'⟩
    rw [e, e'] at ht
    obtain ⟨h1, h2, h3⟩ := ht
    simp only at h1 h2 h3
    subst h1
    cases r with
    | err x => exact ⟨fun _ => t', by simp only [forLoop, e, e']; exact ⟨rfl, fun h => (by cases h), h3⟩⟩
    | abort x => exact ⟨fun _ => t', by simp only [forLoop, e, e']; exact ⟨rfl, fun h => (by cases h), h3⟩⟩
    | ok =>
      obtain ⟨ts', hts⟩ := forLoop_paced hf l (fun l1 b l2 hl => h (a :: l1) b l2 (by rw [hl]; rfl)) (i + 1) u u' (h2 rfl) ts
      refine ⟨fun j => if j = i then t' else ts' j, ?_⟩
      have c1 : forLoop (fun j => step (sel d (ts j) (if j = i then t' else ts' j))) (i + 1) l u = forLoop (fun j => step (sel d (ts j) (ts' j))) (i + 1) l u := by
        have := forLoop_congr (f := fun x : α => x) (g := fun x => x) (step := fun j => step (sel d (ts j) (if j = i then t' else ts' j)))
          (step' := fun j => step (sel d (ts j) (ts' j))) l (i + 1) u (fun j x st _ => by simp only [show ¬ i + 1 + j = i by omega, if_false])
        simpa only [List.map_id'] using this
      have c2 : forLoop (fun j => step' (sel d (if j = i then t' else ts' j) (ts j))) (i + 1) l u' = forLoop (fun j => step' (sel d (ts' j) (ts j))) (i + 1) l u' := by
        have := forLoop_congr (f := fun x : α => x) (g := fun x => x) (step := fun j => step' (sel d (if j = i then t' else ts' j) (ts j)))
          (step' := fun j => step' (sel d (ts' j) (ts j))) l (i + 1) u' (fun j x st _ => by simp only [show ¬ i + 1 + j = i by omega, if_false])
        simpa only [List.map_id'] using this
      simp only [forLoop, if_true, e, e', c1, c2]
      exact hts

theorem sel_fst {α β : Type} (a b : α × β) : (sel d a b).1 = sel d a.1 b.1 := by cases d <;> rfl
theorem sel_snd {α β : Type} (a b : α × β) : (sel d a b).2 = sel d a.2 b.2 := by cases d <;> rfl

theorem seqSt_paced {T U : Type} {A : T → ObjSt → Res × ObjSt} {B : U → ObjSt → Res × ObjSt} {Rel0 Rel Rel' Fin : ObjSt → ObjSt → Prop}
    (hA : ∀ st st', Rel0 st st' → ∀ t, ∃ t', Paced Rel Fin (A (sel d t t') st) (A (sel d t' t) st'))
    (hB : ∀ st st', Rel st st' → ∀ u, ∃ u', Paced Rel' Fin (B (sel d u u') st) (B (sel d u' u) st')) {st st' : ObjSt} (h0 : Rel0 st st') (t : T × U) :
    ∃ t' : T × U, Paced Rel' Fin (seqSt (A (sel d t t').1 st) (B (sel d t t').2)) (seqSt (A (sel d t' t).1 st') (B (sel d t' t).2)) := by
  obtain ⟨t, u⟩ := t
  obtain ⟨t', ht⟩ := hA st st' h0 t
  rcases e : A (sel d t t') st with ⟨r, s⟩
  rcases e' : A (sel d t' t) st' with ⟨r', s'⟩
  rw [e, e'] at ht
  obtain ⟨h1, h2, h3⟩ := ht
  simp only at h1 h2 h3
  subst h1
  cases r with
  | ok =>
    obtain ⟨u', hu⟩ := hB s s' (h2 rfl) u
    refine ⟨(t', u'), ?_⟩
    simp only [sel_fst, sel_snd, e, e']
    exact hu
  | err x =>
    refine ⟨(t', u), ?_⟩
    simp only [sel_fst, sel_snd, e, e']
    exact ⟨rfl, fun h => (by cases h), h3⟩
  | abort x =>
    refine ⟨(t', u), ?_⟩
    simp only [sel_fst, sel_snd, e, e']
    exact ⟨rfl, fun h => (by cases h), h3⟩

/-- Permuted lists can be gone through in the same order. -/
theorem shuffle_align {α : Type} {l l' : List α} (h : l.Perm l') (k : Nat) : ∃ k', shuffle (sel d k k') l = shuffle (sel d k' k) l' := by
  cases d with
  | true =>
    obtain ⟨k', hk⟩ := shuffle_surj l' (shuffle k l) ((shuffle_perm l k).trans h)
    exact ⟨k', hk.symm⟩
  | false =>
    obtain ⟨k', hk⟩ := shuffle_surj l (shuffle k l') ((shuffle_perm l' k).trans h.symm)
    exact ⟨k', hk⟩

/-! ## Objects -/

/-- The two states while a struct and the map it stands for are validated. -/
structure ObjEven (ext : Ext) (env : Env) (K : Role) (st st' : ObjSt) : Prop where
  val : ∃ n kws, st'.v = .map n kws ∧ StandsFor ext env K st.v (.map n kws) ∧ ∀ k ∈ st'.premain, k ∈ kws.map (·.1)
  premain : st.premain.Perm st'.premain
  pseen : st.pseen = st'.pseen

/-- When it is over. -/
structure EndEven (ext : Ext) (env : Env) (K : Role) (st st' : ObjSt) : Prop where
  val : StandsFor ext env K st.v st'.v
  pseen : st.pseen = st'.pseen

theorem ObjEven.toEnd {st st' : ObjSt} (h : ObjEven ext env K st st') : EndEven ext env K st st' := by
  obtain ⟨⟨n, kws, h1, h2, -⟩, -, h4⟩ := h
  exact ⟨h1 ▸ h2, h4⟩

/-- The names still to be gone through are properties and not declared. -/
structure NamesEven (ext : Ext) (env : Env) (K : Role) (o : ObjC Constraint) (l : List GoStr) (st st' : ObjSt) : Prop where
  even : ObjEven ext env K st st'
  left : ∀ k ∈ st'.premain, ¬ o.Declares k
  todo : ∀ n kws, st'.v = .map n kws → ∀ k ∈ l, k ∈ kws.map (·.1) ∧ ¬ o.Declares k

section
variable {o : ObjC Constraint} {f : Constraint → Sem}

theorem propStep_even {p : GoStr} {c : Constraint} (hc : Evenly ext env (K.prop ext env p) d (f c).val)
    (hs : ∀ dv, (f c).dflt = .some dv → IsScalar dv ∧ dv ≠ .nil ∧ K.Fills ext env p dv)
    {st st' : ObjSt} (h : ObjEven ext env K st st') (τ : Sched) :
    ∃ τ', (propStep ext (o.map f) (Sched.mk' 0 fun _ => sel d τ τ') 0 (p, f c) st).1 = (propStep ext (o.map f) (Sched.mk' 0 fun _ => sel d τ' τ) 0 (p, f c) st').1 ∧
      ObjEven ext env K (propStep ext (o.map f) (Sched.mk' 0 fun _ => sel d τ τ') 0 (p, f c) st).2 (propStep ext (o.map f) (Sched.mk' 0 fun _ => sel d τ' τ) 0 (p, f c) st').2 ∧
      (∀ k ∈ (propStep ext (o.map f) (Sched.mk' 0 fun _ => sel d τ' τ) 0 (p, f c) st').2.premain, k ∈ st'.premain ∧ k ≠ p) := by
  have h0 := h
  obtain ⟨⟨n, kws, hv', hl, hin⟩, hpm, hps⟩ := h
  unfold propStep
  simp only [hv', viewProp_ofMap]
  cases hx : alookup p kws with
  | none =>
    have hnp : ∀ k ∈ st'.premain, k ∈ st'.premain ∧ k ≠ p := fun k hk => ⟨hk, fun e => (alookup_eq_none.1 hx) (e ▸ hin k hk)⟩
    simp only [hl.absent hx]
    refine ⟨τ, ?_⟩
    split
    · exact ⟨rfl, h0, hnp⟩
    · cases hd : (f c).dflt with
      | abort a => exact ⟨rfl, h0, hnp⟩
      | none => exact ⟨rfl, h0, hnp⟩
      | some dv =>
        obtain ⟨hs1, hs2, hs3⟩ := hs dv hd
        obtain ⟨f1, f2⟩ := hl.fill hx hs3 hs1 hs2
        simp only [setProp_ofMap n kws p hs1 hs2]
        cases n with
        | true =>
          rw [f1 rfl]
          exact ⟨rfl, h0, hnp⟩
        | false =>
          obtain ⟨v', e, hl'⟩ := f2 rfl
          rw [e]
          exact ⟨rfl, ⟨⟨_, _, rfl, hl', fun k hk => mem_keys_ainsert.2 (Or.inr (hin k hk))⟩, hpm, hps⟩, hnp⟩
  | some w =>
    obtain ⟨x, e, hx'⟩ := hl.get hx
    have hfil : (st.premain.filter fun k => decide (k ≠ p)).Perm (st'.premain.filter fun k => decide (k ≠ p)) := hpm.filter _
    have hnp : ∀ k ∈ st'.premain.filter (fun k => decide (k ≠ p)), k ∈ st'.premain ∧ k ≠ p := fun k hk => by
      rw [List.mem_filter] at hk
      exact ⟨hk.1, by simpa using hk.2⟩
    rcases hx' with ⟨hxw, e', hput⟩ | ⟨hM, hput, z, hz, e'⟩
    · obtain ⟨τ', hr⟩ := hc x w hxw τ
      refine ⟨τ', ?_⟩
      simp only [e', Sched.mk'_sub]
      rcases e1 : (f c).val (sel d τ τ') x with ⟨r, y⟩
      rcases e2 : (f c).val (sel d τ' τ) w with ⟨r', y'⟩
      rw [e1, e2] at hr
      obtain ⟨hr1, hr2, hr3⟩ := hr
      simp only at hr1 hr2 hr3
      subst hr1
      simp only [e1, e2, if_true, putProp_ofMap, hps]
      have key : ObjEven ext env K ⟨putProp st.v p y, st.premain.filter (fun k => decide (k ≠ p)), addName p st'.pseen⟩
          ⟨.map n (ainsert p y' kws), st'.premain.filter (fun k => decide (k ≠ p)), addName p st'.pseen⟩ :=
        ⟨⟨_, _, rfl, hput y y' hr2, fun k hk => mem_keys_ainsert.2 (Or.inr (hin k (hnp k hk).1))⟩, hfil, rfl⟩
      cases r <;> exact ⟨rfl, key, hnp⟩
    · obtain ⟨τ', hr⟩ := hc z w (.leaf _ z w hz) τ
      refine ⟨τ', ?_⟩
      simp only [e', Sched.mk'_sub]
      rcases e1 : (f c).val (sel d τ τ') z with ⟨r, y⟩
      rcases e2 : (f c).val (sel d τ' τ) w with ⟨r', y'⟩
      rw [e1, e2] at hr
      obtain ⟨hr1, hr2, hr3⟩ := hr
      simp only at hr1 hr2 hr3
      subst hr1
      simp only [e1, e2, if_true, putProp_ofMap, hps, hr3 hz.right, ainsert_same hx, Bool.false_eq_true, if_false]
      have key : ObjEven ext env K ⟨st.v, st.premain.filter (fun k => decide (k ≠ p)), addName p st'.pseen⟩
          ⟨.map n kws, st'.premain.filter (fun k => decide (k ≠ p)), addName p st'.pseen⟩ :=
        ⟨⟨_, _, rfl, hl, fun k hk => hin k (hnp k hk).1⟩, hfil, rfl⟩
      cases r <;> exact ⟨rfl, key, hnp⟩

theorem patStep_even {id : Nat} {src k : GoStr} {c : Constraint} {l : List GoStr} (hc : o.Asks ext k c → Evenly ext env (K.prop ext env k) d (f c).val) (hp : (id, src, c) ∈ o.patterns)
    (hm : K (.object o))
    {st st' : ObjSt} (h : NamesEven ext env K o (k :: l) st st') (τ : Sched) :
    ∃ τ', Paced (NamesEven ext env K o l) (EndEven ext env K) (patStep ext src (f c) (Sched.mk' 0 fun _ => sel d τ τ') 0 k st)
      (patStep ext src (f c) (Sched.mk' 0 fun _ => sel d τ' τ) 0 k st') := by
  obtain ⟨h0, hleft, htodo⟩ := h
  have h1 := h0
  obtain ⟨⟨n, kws, hv', hl, hin⟩, hpm, hps⟩ := h0
  unfold patStep
  split
  · exact ⟨τ, rfl, fun _ => ⟨h1, hleft, fun n kws e k hk => htodo n kws e k (by simp [hk])⟩, h1.toEnd⟩
  · rename_i hre
    simp only [hv', getProp_ofMap]
    obtain ⟨hk1, hk2⟩ := htodo n kws hv' k (by simp)
    obtain ⟨w, hx⟩ := alookup_isSome.2 hk1
    obtain ⟨x, e, hx'⟩ := hl.get hx
    rcases hx' with ⟨hxw, -, hput⟩ | ⟨hM, -⟩
    · obtain ⟨τ', hr⟩ := hc (.pattern hk2 hp (by simpa using hre)) x w hxw τ
      refine ⟨τ', ?_⟩
      simp only [e, hx, Sched.mk'_sub]
      rcases e1 : (f c).val (sel d τ τ') x with ⟨r, y⟩
      rcases e2 : (f c).val (sel d τ' τ) w with ⟨r', y'⟩
      rw [e1, e2] at hr
      obtain ⟨hr1, hr2, hr3⟩ := hr
      simp only at hr1 hr2 hr3
      subst hr1
      simp only [e1, e2, putProp_ofMap, hps]
      have hnp : ∀ q ∈ st'.premain.filter (fun q => decide (q ≠ k)), q ∈ st'.premain := fun q hq => (List.mem_filter.1 hq).1
      have key : ObjEven ext env K ⟨putProp st.v k y, st.premain.filter (fun q => decide (q ≠ k)), addName k st'.pseen⟩
          ⟨.map n (ainsert k y' kws), st'.premain.filter (fun q => decide (q ≠ k)), addName k st'.pseen⟩ :=
        ⟨⟨_, _, rfl, hput y y' hr2, fun q hq => mem_keys_ainsert.2 (Or.inr (hin q (hnp q hq)))⟩, hpm.filter _, rfl⟩
      have key2 : NamesEven ext env K o l ⟨putProp st.v k y, st.premain.filter (fun q => decide (q ≠ k)), addName k st'.pseen⟩
          ⟨.map n (ainsert k y' kws), st'.premain.filter (fun q => decide (q ≠ k)), addName k st'.pseen⟩ := by
        refine ⟨key, fun q hq => hleft q (hnp q hq), fun n' kws' e q hq => ?_⟩
        cases e
        obtain ⟨h2, h3⟩ := htodo n kws hv' q (by simp [hq])
        exact ⟨mem_keys_ainsert.2 (Or.inr h2), h3⟩
      cases r <;> exact ⟨rfl, fun _ => key2, key.toEnd⟩
    · rcases hM o hm with h2 | ⟨h2, -⟩
      · exact absurd h2 hk2
      · exact absurd (h2 id src c hp) hre

theorem addlStep_even {k : GoStr} {c : Constraint} {l : List GoStr} (hc : o.Asks ext k c → Evenly ext env (K.prop ext env k) d (f c).val) (ha : o.additional = some c)
    (hemp : ∀ σ v, (f .empty).val σ v = (.ok, v))
    (hm : K (.object o))
    {st st' : ObjSt} (h : NamesEven ext env K o (k :: l) st st') (τ : Sched) :
    ∃ τ', Paced (NamesEven ext env K o l) (EndEven ext env K) (addlStep (f c) (Sched.mk' 0 fun _ => sel d τ τ') 0 k st)
      (addlStep (f c) (Sched.mk' 0 fun _ => sel d τ' τ) 0 k st') := by
  obtain ⟨h0, hleft, htodo⟩ := h
  have h1 := h0
  obtain ⟨⟨n, kws, hv', hl, hin⟩, hpm, hps⟩ := h0
  unfold addlStep
  simp only [hv', getProp_ofMap]
  obtain ⟨hk1, hk2⟩ := htodo n kws hv' k (by simp)
  obtain ⟨w, hx⟩ := alookup_isSome.2 hk1
  obtain ⟨x, e, hx'⟩ := hl.get hx
  rcases hx' with ⟨hxw, -, hput⟩ | ⟨hM, hput, -⟩
  · obtain ⟨τ', hr⟩ := hc (.additional hk2 ha) x w hxw τ
    refine ⟨τ', ?_⟩
    simp only [e, hx, Sched.mk'_sub]
    rcases e1 : (f c).val (sel d τ τ') x with ⟨r, y⟩
    rcases e2 : (f c).val (sel d τ' τ) w with ⟨r', y'⟩
    rw [e1, e2] at hr
    obtain ⟨hr1, hr2, hr3⟩ := hr
    simp only at hr1 hr2 hr3
    subst hr1
    simp only [e1, e2, putProp_ofMap]
    have key : ObjEven ext env K ⟨putProp st.v k y, st.premain, st.pseen⟩ ⟨.map n (ainsert k y' kws), st'.premain, st'.pseen⟩ :=
      ⟨⟨_, _, rfl, hput y y' hr2, fun q hq => mem_keys_ainsert.2 (Or.inr (hin q hq))⟩, hpm, hps⟩
    have key2 : NamesEven ext env K o l ⟨putProp st.v k y, st.premain, st.pseen⟩ ⟨.map n (ainsert k y' kws), st'.premain, st'.pseen⟩ := by
      refine ⟨key, hleft, fun n' kws' e q hq => ?_⟩
      cases e
      obtain ⟨h2, h3⟩ := htodo n kws hv' q (by simp [hq])
      exact ⟨mem_keys_ainsert.2 (Or.inr h2), h3⟩
    cases r <;> exact ⟨rfl, fun _ => key2, key.toEnd⟩
  · rcases hM o hm with h2 | ⟨-, h2⟩
    · exact absurd h2 hk2
    · have := h2 c ha
      subst this
      refine ⟨τ, ?_⟩
      simp only [e, hx, hemp, hput, putProp_ofMap, ainsert_same hx]
      have key : ObjEven ext env K ⟨st.v, st.premain, st.pseen⟩ ⟨.map n kws, st'.premain, st'.pseen⟩ := ⟨⟨_, _, rfl, hl, hin⟩, hpm, hps⟩
      refine ⟨rfl, fun _ => ⟨key, hleft, fun n' kws' e q hq => ?_⟩, key.toEnd⟩
      cases e
      exact htodo n kws hv' q (by simp [hq])

theorem depStep_even (hc : ∀ k c, o.GetSchemaDependency k = some c → Evenly ext env K d (f c).val) (k : GoStr) {st st' : ObjSt} (h : EndEven ext env K st st') (τ : Sched) :
    ∃ τ', Paced (EndEven ext env K) (EndEven ext env K) (depStep (o.map f) (Sched.mk' 0 fun _ => sel d τ τ') 0 k st)
      (depStep (o.map f) (Sched.mk' 0 fun _ => sel d τ' τ) 0 k st') := by
  unfold depStep
  split
  · simp only [h.pseen]
    exact ⟨τ, rfl, fun _ => ⟨h.val, h.pseen⟩, h.val, h.pseen⟩
  · have edep : ObjC.GetSchemaDependency (o.map f) k = (o.GetSchemaDependency k).map f := alookup_map _ k o.schemadeps
    simp only [edep]
    cases hx : o.GetSchemaDependency k with
    | none => exact ⟨τ, rfl, fun _ => h, h⟩
    | some e =>
      obtain ⟨τ', h1, h2, -⟩ := hc k e hx st.v st'.v h.val τ
      exact ⟨τ', h1, fun _ => ⟨h2, h.pseen⟩, h2, h.pseen⟩

/-- What is assumed of the children of an object constraint, and of the constraint itself. -/
structure ObjFair (ext : Ext) (env : Env) (K : Role) (d : Bool) (o : ObjC Constraint) (f : Constraint → Sem) : Prop where
  here : K (.object o)
  kids : ∀ k c, o.Asks ext k c → Evenly ext env (K.prop ext env k) d (f c).val
  deps : ∀ k c, o.GetSchemaDependency k = some c → Evenly ext env K d (f c).val
  emp : ∀ σ v, (f .empty).val σ v = (.ok, v)
  dflt : ∀ p c, (p, c) ∈ o.props → ∀ dv, (f c).dflt = .some dv → IsScalar dv ∧ dv ≠ .nil ∧ K.Fills ext env p dv

theorem propLoop_even (h : ObjFair ext env K d o f) {st st' : ObjSt} (hs : ObjEven ext env K st st') (t : Sched × Sched) :
    ∃ t' : Sched × Sched, Paced (NamesEven ext env K o []) (EndEven ext env K)
      (forLoop (propStep ext (o.map f) (sel d t t').2) 0 (shuffle (sel d t t').1.key (o.map f).props) st)
      (forLoop (propStep ext (o.map f) (sel d t' t).2) 0 (shuffle (sel d t' t).1.key (o.map f).props) st') := by
  have e : shuffle t.1.key (o.map f).props = (shuffle t.1.key o.props).map fun p => (p.1, f p.2) := by
    rw [← shuffle_map]; rfl
  have hl := forLoop_paced (d := d) (T := Sched) (step := fun τ => propStep ext (o.map f) (Sched.mk' 0 fun _ => τ) 0)
    (step' := fun τ => propStep ext (o.map f) (Sched.mk' 0 fun _ => τ) 0) (Fin := EndEven ext env K)
    (Rel := fun l st st' => ObjEven ext env K st st' ∧ ∀ k ∈ st'.premain, o.Declares k → k ∈ l.map (·.1)) (fun l st st' h => h.1.toEnd)
    (shuffle t.1.key (o.map f).props) (fun l1 a l2 hl st st' hs u => ?_) 0 st st' ⟨hs, fun k _ hk => ?_⟩ t.2.sub
  · obtain ⟨ts', hts⟩ := hl
    refine ⟨(t.1, Sched.mk' 0 ts'), ?_⟩
    have e1 : ∀ a b : Sched, sel d (t.1, a) (t.1, b) = (t.1, sel d a b) := fun a b => by cases d <;> rfl
    have e2 : ∀ a b : Sched, propStep ext (o.map f) (sel d a b) = fun j => propStep ext (o.map f) (Sched.mk' 0 fun _ => sel d (a.sub j) (b.sub j)) 0 := fun a b => by
      funext j x st
      unfold propStep
      simp only [sel_sub, Sched.mk'_sub]
    obtain ⟨ta, tb⟩ := t
    simp only [e1, e2]
    obtain ⟨h1, h2, h3⟩ := hts
    refine ⟨h1, fun hok => ?_, h3⟩
    obtain ⟨h4, h5⟩ := h2 hok
    exact ⟨h4, fun k hk hdec => by simpa using h5 k hk hdec, fun n kws _ k hk => by cases hk⟩
  · rw [e] at hl
    have ha : a ∈ (shuffle t.1.key o.props).map fun p => (p.1, f p.2) := by rw [hl]; simp
    obtain ⟨⟨p, c⟩, hpc, rfl⟩ := List.mem_map.1 ha
    have hpc' := mem_shuffle.1 hpc
    obtain ⟨hs1, hs2⟩ := hs
    obtain ⟨τ', h1, h2, h3⟩ := propStep_even (o := o) (h.kids p c (.declared hpc')) (h.dflt p c hpc') hs1 u
    refine ⟨τ', h1, fun _ => ⟨h2, fun k hk hdec => ?_⟩, h2.toEnd⟩
    obtain ⟨h4, h5⟩ := h3 k hk
    have := hs2 k h4 hdec
    simp only [List.map_cons, List.mem_cons] at this
    exact this.resolve_left h5
  · rw [e, List.map_map]
    obtain ⟨c, hc⟩ := hk
    exact List.mem_map.2 ⟨(k, c), mem_shuffle.2 hc, rfl⟩

theorem names_loop {step : Sched → GoStr → ObjSt → Res × ObjSt}
    (hstep : ∀ (k : GoStr) (l : List GoStr) st st', NamesEven ext env K o (k :: l) st st' → ∀ τ, ∃ τ', Paced (NamesEven ext env K o l) (EndEven ext env K)
      (step (sel d τ τ') k st) (step (sel d τ' τ) k st')) {st st' : ObjSt} (hs : NamesEven ext env K o [] st st') (t : Nat × (Nat → Sched)) :
    ∃ t' : Nat × (Nat → Sched), Paced (NamesEven ext env K o []) (EndEven ext env K)
      (forLoop (fun j => step ((sel d t t').2 j)) 0 (shuffle (sel d t t').1 st.premain) st)
      (forLoop (fun j => step ((sel d t' t).2 j)) 0 (shuffle (sel d t' t).1 st'.premain) st') := by
  obtain ⟨k', hk⟩ := shuffle_align (d := d) hs.even.premain t.1
  have htodo : ∀ n kws, st'.v = .map n kws → ∀ k ∈ shuffle (sel d t.1 k') st.premain, k ∈ kws.map (·.1) ∧ ¬ o.Declares k := by
    intro n kws e k hk
    obtain ⟨n', kws', e', -, hin⟩ := hs.even.val
    rw [e] at e'
    cases e'
    have hk := hs.even.premain.mem_iff.1 (mem_shuffle.1 hk)
    exact ⟨hin k hk, hs.left k hk⟩
  obtain ⟨ts', hts⟩ := forLoop_paced (d := d) (T := Sched) (step := step) (step' := step) (Fin := EndEven ext env K)
    (Rel := NamesEven ext env K o) (fun l st st' h => h.even.toEnd) (shuffle (sel d t.1 k') st.premain)
    (fun l1 a l2 _ st st' hs t => hstep a l2 st st' hs t) 0 st st' ⟨hs.even, hs.left, htodo⟩ t.2
  · refine ⟨(k', ts'), ?_⟩
    have e1 : (sel d t (k', ts')).1 = sel d t.1 k' := by cases d <;> rfl
    have e2 : (sel d (k', ts') t).1 = sel d k' t.1 := by cases d <;> rfl
    have e3 : ∀ j, (sel d t (k', ts')).2 j = sel d (t.2 j) (ts' j) := fun j => by cases d <;> rfl
    have e4 : ∀ j, (sel d (k', ts') t).2 j = sel d (ts' j) (t.2 j) := fun j => by cases d <;> rfl
    rw [e1, e2, ← hk]
    simp only [e3, e4]
    exact hts

theorem patLoop_even (h : ObjFair ext env K d o f) {st st' : ObjSt} (hs : NamesEven ext env K o [] st st') (t : Sched × Sched × Sched) :
    ∃ t' : Sched × Sched × Sched, ∀ σ σ' : Sched, σ.sub 2 = (sel d t t').1 → σ.sub 3 = (sel d t t').2.1 → σ.sub 4 = (sel d t t').2.2 →
      σ'.sub 2 = (sel d t' t).1 → σ'.sub 3 = (sel d t' t).2.1 → σ'.sub 4 = (sel d t' t).2.2 → Paced (NamesEven ext env K o []) (EndEven ext env K)
      (forLoop (patOuter ext σ) 0 (shuffle (σ.sub 2).key (o.map f).patterns) st)
      (forLoop (patOuter ext σ') 0 (shuffle (σ'.sub 2).key (o.map f).patterns) st') := by
  have e : shuffle t.1.key (o.map f).patterns = (shuffle t.1.key o.patterns).map fun p => (p.1, p.2.1, f p.2.2) := by
    rw [← shuffle_map]; rfl
  have hl := forLoop_paced (d := d) (T := Nat × (Nat → Sched)) (step := fun t (p : Nat × GoStr × Sem) (st : ObjSt) =>
      forLoop (fun j => patStep ext p.2.1 p.2.2 (Sched.mk' 0 fun _ => t.2 j) 0) 0 (shuffle t.1 st.premain) st)
    (step' := fun t (p : Nat × GoStr × Sem) (st : ObjSt) =>
      forLoop (fun j => patStep ext p.2.1 p.2.2 (Sched.mk' 0 fun _ => t.2 j) 0) 0 (shuffle t.1 st.premain) st)
    (Fin := EndEven ext env K)
    (Rel := fun _ => NamesEven ext env K o []) (fun l st st' h => h.even.toEnd)
    (shuffle t.1.key (o.map f).patterns) (fun l1 a l2 hl st st' hs u => ?_) 0 st st' hs fun j => ((t.2.1.sub j).key, (t.2.2.sub j).sub)
  · obtain ⟨ts', hts⟩ := hl
    refine ⟨(t.1, Sched.mk' 0 fun j => Sched.mk' (ts' j).1 fun _ => t.1, Sched.mk' 0 fun j => Sched.mk' 0 (ts' j).2), fun σ σ' g2 g3 g4 g2' g3' g4' => ?_⟩
    have k2 : (σ.sub 2).key = t.1.key := by rw [g2]; cases d <;> rfl
    have k2' : (σ'.sub 2).key = t.1.key := by rw [g2']; cases d <;> rfl
    have es : patOuter ext σ = fun j (p : Nat × GoStr × Sem) (st : ObjSt) =>
        forLoop (fun i => patStep ext p.2.1 p.2.2 (Sched.mk' 0 fun _ => (sel d ((t.2.1.sub j).key, (t.2.2.sub j).sub) (ts' j)).2 i) 0) 0
          (shuffle (sel d ((t.2.1.sub j).key, (t.2.2.sub j).sub) (ts' j)).1 st.premain) st := by
      funext j p st
      unfold patOuter
      rw [g3, g4]
      cases d <;> rfl
    have es' : patOuter ext σ' = fun j (p : Nat × GoStr × Sem) (st : ObjSt) =>
        forLoop (fun i => patStep ext p.2.1 p.2.2 (Sched.mk' 0 fun _ => (sel d (ts' j) ((t.2.1.sub j).key, (t.2.2.sub j).sub)).2 i) 0) 0
          (shuffle (sel d (ts' j) ((t.2.1.sub j).key, (t.2.2.sub j).sub)).1 st.premain) st := by
      funext j p st
      unfold patOuter
      rw [g3', g4']
      cases d <;> rfl
    rw [k2, k2', es, es']
    exact hts
  · rw [e] at hl
    have ha : a ∈ (shuffle t.1.key o.patterns).map fun p => (p.1, p.2.1, f p.2.2) := by rw [hl]; simp
    obtain ⟨⟨id, src, c⟩, hpc, rfl⟩ := List.mem_map.1 ha
    have hpc' := mem_shuffle.1 hpc
    exact names_loop (step := fun τ => patStep ext src (f c) (Sched.mk' 0 fun _ => τ) 0)
      (fun k l st st' hs τ => patStep_even (o := o) (id := id) (h.kids k c) hpc' h.here hs τ) hs u

theorem addlPhase_even (h : ObjFair ext env K d o f) {st st' : ObjSt} (hs : NamesEven ext env K o [] st st') (t : Sched × Sched) :
    ∃ t' : Sched × Sched, ∀ σ σ' : Sched, σ.sub 5 = (sel d t t').1 → σ.sub 6 = (sel d t t').2 →
      σ'.sub 5 = (sel d t' t).1 → σ'.sub 6 = (sel d t' t).2 → Paced (EndEven ext env K) (EndEven ext env K)
      (addlPhase (o.map f) σ st) (addlPhase (o.map f) σ' st') := by
  have ea : (o.map f).additional = o.additional.map f := rfl
  have hlen := hs.even.premain.length_eq
  unfold addlPhase
  rw [hlen, ea]
  split
  · cases ha : o.additional with
    | none => exact ⟨t, fun _ _ _ _ _ _ => ⟨rfl, fun _ => hs.even.toEnd, hs.even.toEnd⟩⟩
    | some c =>
      simp only [Option.map_some]
      obtain ⟨t', ht⟩ := names_loop (step := fun τ => addlStep (f c) (Sched.mk' 0 fun _ => τ) 0)
        (fun k l st st' hs τ => addlStep_even (o := o) (h.kids k c) ha h.emp h.here hs τ) hs (t.1.key, t.2.sub)
      refine ⟨(Sched.mk' t'.1 fun _ => t.1, Sched.mk' 0 t'.2), fun σ σ' g5 g6 g5' g6' => ?_⟩
      have es : forLoop (addlStep (f c) (σ.sub 6)) 0 (shuffle (σ.sub 5).key st.premain) st =
          forLoop (fun j => addlStep (f c) (Sched.mk' 0 fun _ => (sel d (t.1.key, t.2.sub) t').2 j) 0) 0 (shuffle (sel d (t.1.key, t.2.sub) t').1 st.premain) st := by
        rw [g5, g6]
        cases d <;> rfl
      have es' : forLoop (addlStep (f c) (σ'.sub 6)) 0 (shuffle (σ'.sub 5).key st'.premain) st' =
          forLoop (fun j => addlStep (f c) (Sched.mk' 0 fun _ => (sel d t' (t.1.key, t.2.sub)).2 j) 0) 0 (shuffle (sel d t' (t.1.key, t.2.sub)).1 st'.premain) st' := by
        rw [g5', g6']
        cases d <;> rfl
      rw [es, es']
      exact ⟨ht.res, fun _ => ht.fin, ht.fin⟩
  · exact ⟨t, fun _ _ _ _ _ _ => ⟨rfl, fun _ => hs.even.toEnd, hs.even.toEnd⟩⟩

theorem depLoop_even (h : ObjFair ext env K d o f) {st st' : ObjSt} (hs : EndEven ext env K st st') (t : Sched × Sched) :
    ∃ t' : Sched × Sched, ∀ σ σ' : Sched, σ.sub 7 = (sel d t t').1 → σ.sub 8 = (sel d t t').2 →
      σ'.sub 7 = (sel d t' t).1 → σ'.sub 8 = (sel d t' t).2 → Paced (EndEven ext env K) (EndEven ext env K)
      (forLoop (depStep (o.map f) (σ.sub 8)) 0 (shuffle (σ.sub 7).key st.pseen) st)
      (forLoop (depStep (o.map f) (σ'.sub 8)) 0 (shuffle (σ'.sub 7).key st'.pseen) st') := by
  obtain ⟨ts', hts⟩ := forLoop_paced (d := d) (T := Sched) (step := fun τ => depStep (o.map f) (Sched.mk' 0 fun _ => τ) 0)
    (step' := fun τ => depStep (o.map f) (Sched.mk' 0 fun _ => τ) 0) (Fin := EndEven ext env K)
    (Rel := fun _ => EndEven ext env K) (fun l st st' h => h) (shuffle t.1.key st.pseen)
    (fun l1 a l2 _ st st' hs t => depStep_even h.deps a hs t) 0 st st' hs t.2.sub
  refine ⟨(t.1, Sched.mk' 0 ts'), fun σ σ' g7 g8 g7' g8' => ?_⟩
  have k7 : (σ.sub 7).key = t.1.key := by rw [g7]; cases d <;> rfl
  have k7' : (σ'.sub 7).key = t.1.key := by rw [g7']; cases d <;> rfl
  have es : depStep (o.map f) (σ.sub 8) = fun j => depStep (o.map f) (Sched.mk' 0 fun _ => sel d (t.2.sub j) (ts' j)) 0 := by
    rw [g8]
    cases d <;> rfl
  have es' : depStep (o.map f) (σ'.sub 8) = fun j => depStep (o.map f) (Sched.mk' 0 fun _ => sel d (ts' j) (t.2.sub j)) 0 := by
    rw [g8']
    cases d <;> rfl
  rw [k7, k7', es, es', ← hs.pseen]
  exact hts

end
end Jsval
