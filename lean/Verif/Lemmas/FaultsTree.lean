import Verif.Lemmas.Faults
import Verif.Props.Scalars
import Verif.Props.Order
import Verif.Lemmas.Inert
/-!
# Errors name faults: whole trees
-/
namespace Jsval

variable {ext : Ext} {env : Env}

/-- The trees considered: no defaults, property names distinct. -/
def BareNode (c : Constraint) : Prop := NoDefault c ∧ c.WfNode

theorem bare_sem (henv : env.Every NoDefault) {c : Constraint} (hc : c.Every NoDefault) (fuel : Nat) :
    (sem ext env fuel c).ReadOnly ∧ ∀ dv, (sem ext env fuel c).dflt ≠ .some dv := by
  have hl : ∀ c, NoDefault c → (readOnlyPolicy ext).Local c := fun c h =>
    local_of_true _ (fun _ => trivial) (fun dv hd => by rw [h] at hd; cases hd)
  have h := Policy.good_sem (readOnlyPolicy ext) rfl trivial (henv.imp hl) (hc.imp hl) fuel
  exact ⟨fun v σ => (h.val σ v trivial).2.1, fun dv hd => h.dflt dv hd⟩

theorem Accepted.intro {c : Constraint} {fuel : ℕ} {σ : Sched} {v : GoVal} (h : ((sem ext env fuel c).val σ v).1 = .ok) :
    Accepted ext env c v := ⟨σ, _, by simp, fuel, Prod.ext h rfl⟩

/-- Each branch has something to complain about. -/
theorem exists_reasons {cs : List Constraint} {v : GoVal} (h : ∀ c ∈ cs, ∃ e, Fault ext env c v e) :
    ∃ es : Constraint → Err, ∀ c, c ∈ cs → Fault ext env c v (es c) := by
  classical
  refine ⟨fun c => if hc : ∃ e, Fault ext env c v e then hc.choose else .notNull, fun c hc => ?_⟩
  simp only [dif_pos (h c hc)]
  exact (h c hc).choose_spec

theorem all_err {σ : Sched} {v : GoVal} {cs : List Sem} (hc : ∀ c ∈ cs, c.ReadOnly) {e : Err} (h : (allLoop 0 cs σ v).1 = .err e) :
    ∃ c ∈ cs, ∃ τ, (c.val τ v).1 = .err e := by
  obtain ⟨j, c, hj, hv, -⟩ := (allLoop_stop σ 0 cs v (allLoop 0 cs σ v).2 (.err e) (by simp)).1 (Prod.ext h rfl)
  rw [argAt_readOnly σ v 0 cs j (fun c h => hc c h v)] at hv
  exact ⟨c, List.mem_of_getElem? hj, _, by rw [hv]⟩

theorem any_err {σ : Sched} {v : GoVal} {cs : List Sem} (hc : ∀ c ∈ cs, c.ReadOnly) {e : Err} (h : (anyLoop 0 cs σ v).1 = .err e) :
    e = .anyNone ∧ ∀ c ∈ cs, ∃ τ e', (c.val τ v).1 = .err e' := by
  obtain ⟨h1, h2⟩ := (anyLoop_err σ 0 cs v e).1 h
  refine ⟨h1, fun c hcm => ?_⟩
  obtain ⟨k, hk⟩ := List.getElem?_of_mem hcm
  obtain ⟨e', he⟩ := h2 k c hk
  rw [argAt_readOnly σ v 0 cs k (fun c h => hc c h v)] at he
  exact ⟨_, e', he⟩

theorem Props.unique {v : GoVal} {kvs raws kvs' raws' : List (GoStr × GoVal)} (h : Props v kvs raws) (h' : Props v kvs' raws') :
    kvs = kvs' ∧ raws = raws' := by
  cases h with
  | obj h =>
    cases h' with
    | obj h' => cases h <;> cases h' <;> exact ⟨rfl, rfl⟩
    | time h' => cases h <;> cases h'
  | time h =>
    cases h' with
    | obj h' => cases h' <;> cases h
    | time h' => exact ⟨rfl, rfl⟩

theorem not_props {v : GoVal} {s : Stop} (h : getPropNames (valueOf v).indirect = .error s) (kvs raws : List (GoStr × GoVal)) :
    ¬ Props v kvs raws := by
  intro hp
  cases hp with
  | obj hp =>
    obtain ⟨b, t, ha⟩ := hp.acc
    obtain ⟨fields, hf, -, -⟩ := ha.names
    rw [ha.eq, indirect_wrap ha.plain, hf] at h
    cases h
  | @time _ hp =>
    rw [(indirect_iff (by simp) (by simp) (by simp)).2 hp] at h
    cases h

theorem tidy_names_err {v : GoVal} (hv : Tidy v) {e : Err} (h : getPropNames (valueOf v).indirect = .error (.err e)) : e = .noPropNames := by
  rcases tidy_object hv with ⟨kvs, raws, hobj, -, -⟩ | ⟨t, ht⟩ | ⟨s, hs⟩
  · exact absurd (.obj hobj) (not_props h kvs raws)
  · rw [ht] at h; cases h
  · rw [hs] at h
    cases h
    unfold getPropNames at hs
    split at hs
    · cases hs
    · rename_i n m hi
      exfalso
      cases hv <;> simp [valueOf, RV.indirect] at hi
      rename_i x hni hx
      cases hx <;> simp [RV.indirect] at hi
      all_goals first | exact hni | cases hi
    · split at hs <;> cases hs
    · cases hs
    · cases hs
    · cases hs; rfl

theorem step_fault (henv : env.Every BareNode) (fuel : ℕ)
    (hρ : ∀ m n v, Tidy v → ∀ σ e, ((refSem ext env fuel m n).val σ v).1 = .err e → Fault ext env (.ref m n) v e) :
    ∀ (c : Constraint), c.Every BareNode → ∀ (v : GoVal), Tidy v → ∀ (σ : Sched) (e : Err),
    ((sem ext env fuel c).val σ v).1 = .err e → Fault ext env c v e := by
  have henv' : env.Every NoDefault := henv.imp fun _ h => h.1
  refine Constraint.ind fun c ih hc v hv σ e h => ?_
  have hb : ∀ d, c.Child d → (sem ext env fuel d).ReadOnly ∧ ∀ dv, (sem ext env fuel d).dflt ≠ .some dv := fun d hd =>
    bare_sem henv' ((hc.child hd).imp fun _ h => h.1) fuel
  have hlist : ∀ cs : List Constraint, (∀ d ∈ cs, c.Child d) → ∀ s ∈ cs.map (sem ext env fuel), s.ReadOnly := by
    intro cs h s hs
    obtain ⟨d, hd, rfl⟩ := List.mem_map.1 hs
    exact (hb d (h d hd)).1
  have hsem : sem ext env fuel = denote ext (refSem ext env fuel) := rfl
  cases c with
  | empty => simp [sem, denote] at h
  | null => exact null_fault (by simpa [sem, denote, pureV] using h)
  | boolean d => exact bool_fault (by simpa [sem, denote, pureV] using h)
  | string c => exact str_fault (by simpa [sem, denote, pureV] using h)
  | number c => exact num_fault (by simpa [sem, denote, pureV] using h)
  | integer c => exact int_fault (by simpa [sem, denote, pureV] using h)
  | enum l =>
    obtain ⟨rfl, h2⟩ := enumCheck_err (l := l) (v := v) (e := e) (by simpa [sem, denote, pureV] using h)
    exact .enum h2
  | ref m n => exact hρ m n v hv σ e (by simpa [sem, denote] using h)
  | array a =>
    rw [hsem, denote_array, ← hsem] at h
    by_cases hsl : ∃ n xs, v = .slice n xs
    · obtain ⟨n, xs, rfl⟩ := hsl
      have hx : ∀ x ∈ xs, Tidy x := by cases hv; assumption
      have hch : ∀ s, (a.map (sem ext env fuel)).Child s → s.ReadOnly := by
        intro s hs
        cases hs with
        | items hi =>
          obtain ⟨d, hd, rfl⟩ := Option.map_eq_some_iff.1 hi
          exact (hb d (.array (.items hd))).1
        | positional hi =>
          obtain ⟨d, hd, rfl⟩ := List.mem_map.1 hi
          exact (hb d (.array (.positional hd))).1
        | additional hi =>
          obtain ⟨d, hd, rfl⟩ := Option.map_eq_some_iff.1 hi
          exact (hb d (.array (.additional hd))).1
      have hlen : (a.map (sem ext env fuel)).positional.length = a.positional.length := by simp [ArrC.map]
      rcases arrayV_err hch h with ⟨rfl, h1, h2⟩ | ⟨rfl, h1, h2⟩ | ⟨rfl, h1, h2⟩ | ⟨s, x, τ, h1, h2, h3⟩ | ⟨h0, j, s, x, τ, h1, h2, h3⟩ |
        ⟨h0, hl1, hl2, h4⟩
      · exact .fewItems h1 h2
      · exact .manyItems h1 h2
      · exact .dupItem h1 h2
      · obtain ⟨d, hd, rfl⟩ := Option.map_eq_some_iff.1 h1
        have hch' := Constraint.Child.array (.items hd)
        exact .item hd h2 (ih d hch' (hc.child hch') x (hx x h2) τ e h3)
      · simp only [ArrC.map, List.getElem?_map, Option.map_eq_some_iff] at h1
        obtain ⟨d, hd, rfl⟩ := h1
        have hch' := Constraint.Child.array (.positional (List.mem_of_getElem? hd))
        exact .positional (Option.map_eq_none_iff.1 h0) hd h2 (ih d hch' (hc.child hch') x (hx x (List.mem_of_getElem? h2)) τ e h3)
      · rw [hlen] at hl1 hl2
        rcases h4 with ⟨h1, rfl⟩ | ⟨j, s, x, τ, h1, h2, h3, h4⟩
        · exact .addlItems (Option.map_eq_none_iff.1 h0) (Option.map_eq_none_iff.1 h1) hl1 hl2
        · obtain ⟨d, hd, rfl⟩ := Option.map_eq_some_iff.1 h1
          have hch' := Constraint.Child.array (.additional hd)
          rw [hlen] at h2
          exact .extra (Option.map_eq_none_iff.1 h0) hd hl1 hl2 h2 h3 (ih d hch' (hc.child hch') x (hx x (List.mem_of_getElem? h3)) τ e h4)
    · have he : e = .notSlice := by
        unfold arrayV at h
        split at h
        · rename_i n xs hs
          exact absurd ⟨n, xs, by cases v <;> simp_all [valueOf]⟩ hsl
        · cases h; rfl
      subst he
      exact .notSlice fun n xs h' => hsl ⟨n, xs, h'⟩
  | object o =>
    rw [hsem, denote_object, ← hsem] at h
    have hw : o.Wf := hc.self.2
    have hro : ∀ s, (o.map (sem ext env fuel)).Child s → s.ReadOnly := by
      intro s hs
      obtain ⟨d, hd, rfl⟩ := (ObjC.map_child _ o).1 hs
      exact (hb d (.object hd)).1
    have hd : ∀ p s, (p, s) ∈ (o.map (sem ext env fuel)).props → ∀ dv, s.dflt ≠ .some dv := by
      intro p s hs
      obtain ⟨d, hd, rfl⟩ := (ObjC.map_mem_props _ o).1 hs
      exact (hb d (.object (.prop hd))).2
    have conv : ∀ {kvs raws}, Props v kvs raws → (∀ k x, (k, x) ∈ kvs → Tidy x) → (∀ k x, (k, x) ∈ raws → Tidy x) →
        ObjComplaint ext (o.map (sem ext env fuel)) v kvs raws e → Fault ext env (.object o) v e := by
      intro kvs raws hp hk hr hcm
      cases hcm with
      | fewProps h1 h2 => exact .fewProps hp h1 h2
      | manyProps h1 h2 => exact .manyProps hp h1 h2
      | required h1 h2 h3 => exact .required hp h1 ((ObjC.map_declares _ o).1 h2) h3
      | prop h1 h2 h3 =>
        obtain ⟨d, hd, rfl⟩ := (ObjC.map_mem_props _ o).1 h1
        have hch' := Constraint.Child.object (.prop hd)
        exact .prop hp hd h2 (ih d hch' (hc.child hch') _ (hk _ _ h2) _ _ h3)
      | pattern h1 h2 h3 h4 h5 =>
        obtain ⟨d, hd, rfl⟩ := (ObjC.map_mem_pats _ o).1 h2
        have hch' := Constraint.Child.object (.pattern hd)
        exact .pattern hp (fun h' => h1 ((ObjC.map_declares _ o).2 h')) hd h3 h4 (ih d hch' (hc.child hch') _ (hr _ _ h4) _ _ h5)
      | addlNotAllowed h1 h2 h3 h4 =>
        exact .addlNotAllowed hp (fun h' => h1 ((ObjC.map_declares _ o).2 h')) (fun h' => h2 ((ObjC.map_patternFor _ o).2 h')) h3
          (Option.map_eq_none_iff.1 h4)
      | addlProp h1 h2 h3 h4 h5 =>
        obtain ⟨d, hd, rfl⟩ := Option.map_eq_some_iff.1 h3
        have hch' := Constraint.Child.object (.additional hd)
        exact .addlProp hp (fun h' => h1 ((ObjC.map_declares _ o).2 h')) (fun h' => h2 ((ObjC.map_patternFor _ o).2 h')) hd h4
          (ih d hch' (hc.child hch') _ (hr _ _ h4) _ _ h5)
      | depMissing h1 h2 h3 h4 =>
        exact .depMissing hp h1 ((ObjC.map_covers _ o).1 h2) h3 (fun h' => h4 ⟨h'.1, (ObjC.map_covers _ o).2 h'.2⟩)
      | dependency h1 h2 h3 h4 h5 =>
        rw [ObjC.map_schemaDep] at h4
        obtain ⟨d, hd, rfl⟩ := Option.map_eq_some_iff.1 h4
        have hch' := Constraint.Child.object (.dependency hd)
        exact .dependency hp h1 ((ObjC.map_covers _ o).1 h2) h3 hd (ih d hch' (hc.child hch') _ hv _ _ h5)
    rcases tidy_object hv with ⟨kvs, raws, hobj, hk, hr⟩ | ⟨t, ht⟩ | ⟨s, hs⟩
    · exact conv (.obj hobj) hk hr (objectV_err hobj ((ObjC.map_wf _ o).2 hw) hro hd h)
    · exact conv (.time ((indirect_iff (by simp) (by simp) (by simp)).1 ht)) (by simp) (by simp) (objectV_time_err hd ht h)
    · unfold objectV at h
      simp only [hs] at h
      cases s with
      | abort a => cases h
      | err e' =>
        cases h
        have := tidy_names_err hv hs
        subst this
        exact .notObject (not_props hs)
  | any cs =>
    rw [hsem, denote_any, ← hsem] at h
    obtain ⟨rfl, h2⟩ := any_err (hlist cs fun d hd => .any hd) h
    obtain ⟨es, hes⟩ := exists_reasons (ext := ext) (env := env) (cs := cs) (v := v) (by
      intro d hd
      obtain ⟨τ, e', he⟩ := h2 _ (List.mem_map.2 ⟨d, hd, rfl⟩)
      exact ⟨e', ih d (.any hd) (hc.child (.any hd)) v hv τ e' he⟩)
    exact .any es hes
  | all cs =>
    rw [hsem, denote_all, ← hsem] at h
    obtain ⟨s, hs, τ, he⟩ := all_err (hlist cs fun d hd => .all hd) h
    obtain ⟨d, hd, rfl⟩ := List.mem_map.1 hs
    exact .all hd (ih d (.all hd) (hc.child (.all hd)) v hv τ e he)
  | oneOf cs =>
    rw [hsem, denote_oneOf, ← hsem] at h
    rcases oneOf_err (hlist cs fun d hd => .oneOf hd) h with ⟨rfl, h2⟩ | ⟨rfl, i, j, s, t, hij, hi, hj, h1, h2⟩
    · obtain ⟨es, hes⟩ := exists_reasons (ext := ext) (env := env) (cs := cs) (v := v) (by
        intro d hd
        obtain ⟨k, hk⟩ := List.getElem?_of_mem hd
        obtain ⟨e', he⟩ := h2 k (sem ext env fuel d) (by rw [List.getElem?_map, hk]; rfl)
        exact ⟨e', ih d (.oneOf hd) (hc.child (.oneOf hd)) v hv _ e' he⟩)
      exact .oneOfNone es hes
    · rw [List.getElem?_map, Option.map_eq_some_iff] at hi hj
      obtain ⟨c, hi, rfl⟩ := hi
      obtain ⟨d, hj, rfl⟩ := hj
      exact .oneOfMany hij hi hj (.intro h1) (.intro h2)
  | not c =>
    rw [hsem, denote_not, ← hsem] at h
    cases c with
    | none => simp only [Option.map_none, notV, Res.err.injEq] at h; subst h; exact .notNoChild
    | some d =>
      simp only [Option.map_some, notV] at h
      rcases hd : (sem ext env fuel d).val (σ.sub 0) v with ⟨r, w⟩
      rw [hd] at h
      cases r with
      | ok => cases h; exact .notFailed (.intro (by rw [hd]))
      | err e' => cases h
      | abort a => cases h

/-- Every error of a tree names a fault. -/
theorem sem_fault (henv : env.Every BareNode) : ∀ (fuel : ℕ) (c : Constraint), c.Every BareNode → ∀ (v : GoVal), Tidy v → ∀ (σ : Sched) (e : Err),
    ((sem ext env fuel c).val σ v).1 = .err e → Fault ext env c v e := by
  intro fuel
  induction fuel with
  | zero => exact step_fault henv 0 fun m n v _ σ e h => by simp [refSem, running] at h
  | succ fuel ih =>
    refine step_fault henv _ fun m n v hv σ e h => ?_
    simp only [refSem] at h
    cases hm : env m n with
    | none =>
      rw [hm] at h
      simp only [unresolved, Res.err.injEq] at h
      subst h
      exact .refNotFound hm
    | some c =>
      rw [hm] at h
      exact .ref hm (ih c (henv m n c hm) v hv σ e h)

/-! ## A fault blocks -/

theorem any_ok {σ : Sched} {v : GoVal} {cs : List Sem} (hc : ∀ c ∈ cs, c.ReadOnly) (h : (anyLoop 0 cs σ v).1 = .ok) :
    ∃ c ∈ cs, ∃ τ, (c.val τ v).1 = .ok := by
  obtain ⟨j, c, hj, hv, -⟩ := (anyLoop_ok σ 0 cs v _).1 (Prod.ext h rfl)
  rw [argAt_readOnly σ v 0 cs j (fun c h => hc c h v)] at hv
  exact ⟨c, List.mem_of_getElem? hj, _, by rw [hv]⟩

theorem all_ok {σ : Sched} {v : GoVal} {cs : List Sem} (hc : ∀ c ∈ cs, c.ReadOnly) (h : (allLoop 0 cs σ v).1 = .ok) :
    ∀ c ∈ cs, ∃ τ, (c.val τ v).1 = .ok := by
  intro c hcm
  obtain ⟨k, hk⟩ := List.getElem?_of_mem hcm
  have := (allLoop_ok σ 0 cs v).1 h k c hk
  rw [argAt_readOnly σ v 0 cs k (fun c h => hc c h v)] at this
  exact ⟨_, this⟩

/-- What acceptance by an array constraint says. -/
theorem array_ok {a : ArrC Sem} (hc : ∀ c, a.Child c → c.ReadOnly) {σ : Sched} {n : Bool} {xs : List GoVal}
    (h : (arrayV ext a σ (.slice n xs)).1 = .ok) :
    ¬ (0 ≤ a.minItems ∧ (xs.length : ℤ) < a.minItems) ∧ ¬ (0 ≤ a.maxItems ∧ a.maxItems < (xs.length : ℤ)) ∧
    ¬ (a.unique = true ∧ Repeats ext xs) ∧ (∀ c, a.items = some c → ∀ x ∈ xs, ∃ τ, (c.val τ x).1 = .ok) ∧
    (a.items = none → (∀ (j : ℕ) (c : Sem) (x : GoVal), a.positional[j]? = some c → xs[j]? = some x → ∃ τ, (c.val τ x).1 = .ok) ∧
      (0 < a.positional.length → a.positional.length < xs.length → ∃ c, a.additional = some c ∧
        ∀ (j : ℕ) (x : GoVal), a.positional.length - 1 ≤ j → xs[j]? = some x → ∃ τ, (c.val τ x).1 = .ok)) := by
  simp only [arrayV, valueOf] at h
  split at h
  · cases h
  split at h
  · cases h
  split at h
  · cases h
  rename_i h1 h2 h3
  refine ⟨fun h' => h1 (by omega), fun h' => h2 (by omega), fun h' => h3 ⟨h'.1, ?_⟩, ?_, ?_⟩
  · have := uniqueLoop_iff ext xs []
    simp only [List.not_mem_nil, not_false_eq_true, implies_true, true_and] at this
    have hr := h'.2
    unfold Repeats at hr
    rw [← not_nodup_map_iff, ← this] at hr
    simpa using hr
  · intro c hi x hx
    simp only [arrayElems, hi] at h
    obtain ⟨j, hj⟩ := List.getElem?_of_mem hx
    exact ⟨_, (runItems_ok c _ 0 xs).1 h j x hj⟩
  · intro hi
    simp only [arrayElems, hi] at h
    have hs := runPos_same (σ := σ.sub 1) a.positional xs 0 (fun c h => hc c (.positional h))
    rcases e1 : runPos (σ.sub 1) 0 a.positional xs with ⟨r1, y1⟩
    rw [e1] at h hs
    simp only at hs; subst hs
    cases r1 with
    | abort b => cases h
    | err e' => cases h
    | ok =>
      refine ⟨fun j c x hj hx => ⟨_, (runPos_ok (σ.sub 1) 0 a.positional y1).1 (by rw [e1]) j c x hj hx⟩, fun hl1 hl2 => ?_⟩
      simp only [runAdditional] at h
      rw [if_pos ⟨hl1, hl2⟩] at h
      cases ha : a.additional with
      | none => rw [ha] at h; cases h
      | some c =>
        rw [ha] at h
        refine ⟨c, rfl, fun j x hj hx => ⟨_, (runItems_ok c _ _ _).1 h (j - (a.positional.length - 1)) x ?_⟩⟩
        rw [List.getElem?_drop, ← hx]
        congr 1
        omega

theorem objectV_time_ok {o : ObjC Sem} (hd : ∀ p c, (p, c) ∈ o.props → ∀ dv, c.dflt ≠ .some dv) {v : GoVal}
    {t : GoTime} (hv : (valueOf v).indirect = some (.time t)) {σ : Sched} (h : (objectV ext o σ v).1 = .ok) :
    CountOk o 0 ∧ ∀ p ∈ o.required, ¬ o.Declares p := by
  have hn : getPropNames (valueOf v).indirect = .ok [] := by rw [hv]; rfl
  have hview : ∀ p, viewProp (valueOf v).indirect p = .ok .absent := by intro p; rw [hv]; rfl
  unfold objectV at h
  simp only [hn, List.length_nil] at h
  split at h
  · cases h
  split at h
  · cases h
  rename_i h1 h2
  refine ⟨?_, fun p hp ⟨c, hpc⟩ => ?_⟩
  · unfold CountOk
    refine ⟨fun _ => by simp at h1 h2 ⊢; omega, fun _ => by simp at h1 h2 ⊢; omega⟩
  simp only at h
  unfold objLoops at h
  rw [seqSt_ok] at h
  have hstep : ∀ i p c (s : ObjSt), (p, c) ∈ o.props → s.v = v → (propStep ext o (σ.sub 1) i (p, c) s).2.v = v := by
    intro i p c s hpc hs
    unfold propStep
    simp only [hs, hview]
    split
    · exact hs
    · split
      · exact hs
      · exact hs
      · rename_i dv hdv; exact absurd hdv (hd p c hpc dv)
  obtain ⟨l1, l2, s1, s2, hl, e1, e2, -⟩ := forLoop_ok_mem h.1 (mem_shuffle.2 hpc : (p, c) ∈ shuffle (σ.sub 0).key o.props)
  have hs1 := forLoop_inv (fun s => s.v = v) (step := propStep ext o (σ.sub 1)) 0 l1 ⟨v, nameSet [], []⟩ (by
    rintro i ⟨q, d⟩ hqd s hs
    exact hstep i q d s (mem_shuffle.1 (hl ▸ List.mem_append_left _ hqd)) hs) rfl
  rw [e1] at hs1
  simp only at hs1
  unfold propStep at e2
  simp only [hs1, hview, if_pos hp] at e2
  simp at e2

/-- What acceptance by an object constraint says, times included. -/
theorem object_ok {o : ObjC Sem} (hw : o.Wf) (hro : ∀ c, o.Child c → c.ReadOnly) (hd : ∀ p c, (p, c) ∈ o.props → ∀ dv, c.dflt ≠ .some dv)
    {v : GoVal} {kvs raws : List (GoStr × GoVal)} (hp : Props v kvs raws) (hov : NoOverlap ext o kvs) {σ : Sched}
    (h : (objectV ext o σ v).1 = .ok) : ObjRules ext o (fun c x => ∃ τ, (c.val τ x).1 = .ok) v kvs raws := by
  cases hp with
  | obj hp => exact objectV_rules ext o σ hp hw hro (fun p c hpc _ => hd p c hpc) hov h
  | time hp =>
    obtain ⟨h1, h2⟩ := objectV_time_ok hd ((indirect_iff (by simp) (by simp) (by simp)).2 hp) h
    have hno : ∀ k, ¬ Has [] k := by rintro k ⟨x, hx⟩; cases hx
    exact ⟨h1, fun _ _ _ _ h => (by cases h), fun p hp hd => absurd hd (h2 p hp), fun _ _ h => (by cases h), fun _ _ h => (by cases h),
      fun k hk => absurd hk (hno k), fun k hk => absurd hk (hno k)⟩

theorem Props.has_raw {v : GoVal} {kvs raws : List (GoStr × GoVal)} (h : Props v kvs raws) {k : GoStr} (hk : Has kvs k) : Has raws k := by
  cases h with
  | obj h =>
    obtain ⟨b, t, ha⟩ := h.acc
    exact ha.hasRaw.2 hk
  | time h => obtain ⟨x, hx⟩ := hk; cases hx

theorem Props.tidy {v : GoVal} {kvs raws : List (GoStr × GoVal)} (hv : Tidy v) (h : Props v kvs raws) :
    (∀ k x, (k, x) ∈ kvs → Tidy x) ∧ (∀ k x, (k, x) ∈ raws → Tidy x) := by
  rcases tidy_object hv with ⟨kvs', raws', hobj, hk, hr⟩ | ⟨t, ht⟩ | ⟨s, hs⟩
  · obtain ⟨rfl, rfl⟩ := h.unique (.obj hobj)
    exact ⟨hk, hr⟩
  · obtain ⟨rfl, rfl⟩ := h.unique (.time ((indirect_iff (by simp) (by simp) (by simp)).1 ht))
    exact ⟨by simp, by simp⟩
  · exact absurd h (not_props hs _ _)

theorem target_unique {v x y : GoVal} (h : Target v x) (h' : Target v y) : x = y := by
  cases h with
  | ptr x => cases h' with
    | ptr => rfl
    | self _ h1 _ => exact absurd rfl (h1 _)
  | iface x => cases h' with
    | iface => rfl
    | self _ _ h2 => exact absurd rfl (h2 _)
  | self _ h1 h2 => cases h' with
    | ptr => exact absurd rfl (h1 _)
    | iface => exact absurd rfl (h2 _)
    | self => rfl

/-- Where a fault is, no call accepts. -/
theorem Fault.blocks (henv : env.Every (Orderly ext)) {c : Constraint} {v : GoVal} {e : Err} (hf : Fault ext env c v e) :
    c.Every (Orderly ext) → Tidy v → ∀ (fuel : ℕ) (σ : Sched), ((sem ext env fuel c).val σ v).1 ≠ .ok := by
  have hro : ∀ {c : Constraint}, c.Every (Orderly ext) → ∀ fuel, (sem ext env fuel c).ReadOnly ∧ ∀ dv, (sem ext env fuel c).dflt ≠ .some dv :=
    fun hc fuel => bare_sem (henv.imp fun _ h => h.1) (hc.imp fun _ h => h.1) fuel
  have hsem : ∀ fuel, sem ext env fuel = denote ext (refSem ext env fuel) := fun _ => rfl
  have hlist : ∀ {c : Constraint}, c.Every (Orderly ext) → ∀ fuel (cs : List Constraint), (∀ d ∈ cs, c.Child d) →
      ∀ s ∈ cs.map (sem ext env fuel), s.ReadOnly := by
    intro c hc fuel cs h s hs
    obtain ⟨d, hd, rfl⟩ := List.mem_map.1 hs
    exact (hro (hc.child (h d hd)) fuel).1
  have hacc : ∀ {c : Constraint} {v : GoVal}, c.Every (Orderly ext) → Tidy v → Accepted ext env c v → ∀ fuel σ,
      ¬ ((sem ext env fuel c).val σ v).1.Rejects := by
    rintro c v hc hv ⟨τ, v', -, fuel', h⟩ fuel σ
    exact C35_tree_partial henv hc hv fuel' fuel (σ := τ) (by unfold Sem.AcceptsBy; rw [h])
  have harr : ∀ {a : ArrC Constraint}, (Constraint.array a).Every (Orderly ext) → ∀ fuel, ∀ s, (a.map (sem ext env fuel)).Child s → s.ReadOnly := by
    intro a hc fuel s hs
    cases hs with
    | items hi =>
      obtain ⟨d, hd, rfl⟩ := Option.map_eq_some_iff.1 hi
      exact (hro (hc.child (.array (.items hd))) fuel).1
    | positional hi =>
      obtain ⟨d, hd, rfl⟩ := List.mem_map.1 hi
      exact (hro (hc.child (.array (.positional hd))) fuel).1
    | additional hi =>
      obtain ⟨d, hd, rfl⟩ := Option.map_eq_some_iff.1 hi
      exact (hro (hc.child (.array (.additional hd))) fuel).1
  have hobj : ∀ {o : ObjC Constraint}, (Constraint.object o).Every (Orderly ext) → ∀ {v kvs raws}, Props v kvs raws → ∀ fuel σ,
      ((sem ext env fuel (.object o)).val σ v).1 = .ok →
      ObjRules ext (o.map (sem ext env fuel)) (fun c x => ∃ τ, (c.val τ x).1 = .ok) v kvs raws := by
    intro o hc v kvs raws hp fuel σ h
    rw [hsem, denote_object, ← hsem] at h
    obtain ⟨hw, hov⟩ := hc.self.2
    refine object_ok ((ObjC.map_wf _ o).2 hw) ?_ ?_ hp ?_ h
    · intro s hs
      obtain ⟨d, hd, rfl⟩ := (ObjC.map_child _ o).1 hs
      exact (hro (hc.child (.object hd)) fuel).1
    · intro p s hs
      obtain ⟨d, hd, rfl⟩ := (ObjC.map_mem_props _ o).1 hs
      exact (hro (hc.child (.object (.prop hd))) fuel).2
    · intro k _ hkd p hp q hq hp' hq'
      simp only [ObjC.map, List.mem_map] at hp hq
      obtain ⟨p, hp, rfl⟩ := hp
      obtain ⟨q, hq, rfl⟩ := hq
      rw [hov k (fun h' => hkd ((ObjC.map_declares _ o).2 h')) p hp q hq hp' hq']
  induction hf with
  | null h => exact fun _ _ fuel σ hk => h ((C07_null_exact (ext := ext) (ρ := refSem ext env fuel) (σ := σ) _).1 hk)
  | boolean h =>
    intro _ _ fuel σ hk
    obtain ⟨b, hb⟩ := (C08_boolean_exact (ext := ext) (ρ := refSem ext env fuel) (σ := σ) _ _).1 hk
    exact h b hb
  | enum h =>
    intro _ _ fuel σ hk
    obtain ⟨x, hx, hs⟩ := enumCheck_same (by simpa [sem, denote, pureV] using hk)
    exact h x hx hs
  | notString h =>
    intro _ _ fuel σ hk
    obtain ⟨s, hs, -⟩ := (C10_string_exact (ext := ext) (ρ := refSem ext env fuel) (σ := σ) _ _).1 hk
    exact h s hs
  | string h1 h2 =>
    intro _ _ fuel σ hk
    obtain ⟨s, hs, hok⟩ := (C10_string_exact (ext := ext) (ρ := refSem ext env fuel) (σ := σ) _ _).1 hk
    cases (target_unique h1 hs)
    exact h2.broken hok
  | notFloat h =>
    intro _ _ fuel σ hk
    obtain ⟨k, f, hs, -⟩ := (C16_number_exact (ext := ext) (ρ := refSem ext env fuel) (σ := σ) _ _).1 hk
    exact h k f hs
  | number h1 h2 =>
    intro _ _ fuel σ hk
    obtain ⟨k, f, hs, hok⟩ := (C16_number_exact (ext := ext) (ρ := refSem ext env fuel) (σ := σ) _ _).1 hk
    cases (target_unique h1 hs)
    exact h2.broken hok
  | notNumeric h1 h2 h3 =>
    intro _ _ fuel σ hk
    obtain ⟨x, f, hs, hi, hok⟩ := (C18_integer_exact (ext := ext) (ρ := refSem ext env fuel) (σ := σ) _ _).1 hk
    cases hi
    · exact h1 _ _ hs
    · exact h2 _ _ hs
    · exact h3 _ _ hs
  | notIntegral h1 h2 =>
    intro _ _ fuel σ hk
    obtain ⟨x, f, hs, hi, hok⟩ := (C18_integer_exact (ext := ext) (ρ := refSem ext env fuel) (σ := σ) _ _).1 hk
    have := target_unique h1 hs
    subst this
    cases hi
    contradiction
  | int h1 h2 =>
    intro _ _ fuel σ hk
    obtain ⟨x, f, hs, hi, hok⟩ := (C18_integer_exact (ext := ext) (ρ := refSem ext env fuel) (σ := σ) _ _).1 hk
    have := target_unique h1 hs
    subst this
    cases hi
    exact h2.broken hok
  | uint h1 h2 =>
    intro _ _ fuel σ hk
    obtain ⟨x, f, hs, hi, hok⟩ := (C18_integer_exact (ext := ext) (ρ := refSem ext env fuel) (σ := σ) _ _).1 hk
    have := target_unique h1 hs
    subst this
    cases hi
    exact h2.broken hok
  | whole h1 hwh h2 =>
    intro _ _ fuel σ hk
    obtain ⟨x, f, hs, hi, hok⟩ := (C18_integer_exact (ext := ext) (ρ := refSem ext env fuel) (σ := σ) _ _).1 hk
    have := target_unique h1 hs
    subst this
    cases hi
    exact h2.broken hok
  | @notSlice a v h =>
    intro _ _ fuel σ hk
    rw [hsem, denote_array] at hk
    unfold arrayV at hk
    split at hk
    · rename_i n xs hs
      exact h n xs (by cases v <;> simp_all [valueOf])
    · cases hk
  | fewItems h1 h2 =>
    intro hc _ fuel σ hk
    rw [hsem, denote_array, ← hsem] at hk
    exact (array_ok (harr hc fuel) hk).1 ⟨h1, h2⟩
  | manyItems h1 h2 =>
    intro hc _ fuel σ hk
    rw [hsem, denote_array, ← hsem] at hk
    exact (array_ok (harr hc fuel) hk).2.1 ⟨h1, h2⟩
  | dupItem h1 h2 =>
    intro hc _ fuel σ hk
    rw [hsem, denote_array, ← hsem] at hk
    exact (array_ok (harr hc fuel) hk).2.2.1 ⟨h1, h2⟩
  | item h1 h2 _ ih =>
    intro hc hv fuel σ hk
    rw [hsem, denote_array, ← hsem] at hk
    obtain ⟨τ, hτ⟩ := (array_ok (harr hc fuel) hk).2.2.2.1 _ (Option.map_eq_some_iff.2 ⟨_, h1, rfl⟩) _ h2
    cases hv with
    | slice _ _ hx => exact ih (hc.child (.array (.items h1))) (hx _ h2) fuel τ hτ
  | positional h0 h1 h2 _ ih =>
    intro hc hv fuel σ hk
    rw [hsem, denote_array, ← hsem] at hk
    obtain ⟨τ, hτ⟩ := ((array_ok (harr hc fuel) hk).2.2.2.2 (Option.map_eq_none_iff.2 h0)).1 _ (sem ext env fuel _) _
      (by simp only [ArrC.map, List.getElem?_map, h1]; rfl) h2
    cases hv with
    | slice _ _ hx => exact ih (hc.child (.array (.positional (List.mem_of_getElem? h1)))) (hx _ (List.mem_of_getElem? h2)) fuel τ hτ
  | extra h0 h1 hl1 hl2 hj h2 _ ih =>
    intro hc hv fuel σ hk
    rw [hsem, denote_array, ← hsem] at hk
    obtain ⟨s, hs, hall⟩ := ((array_ok (harr hc fuel) hk).2.2.2.2 (Option.map_eq_none_iff.2 h0)).2 (by simpa [ArrC.map] using hl1)
      (by simpa [ArrC.map] using hl2)
    obtain ⟨τ, hτ⟩ := hall _ _ (by simpa [ArrC.map] using hj) h2
    obtain ⟨d, hd, rfl⟩ := Option.map_eq_some_iff.1 hs
    rw [h1] at hd
    cases hd
    cases hv with
    | slice _ _ hx => exact ih (hc.child (.array (.additional h1))) (hx _ (List.mem_of_getElem? h2)) fuel τ hτ
  | addlItems h0 h1 hl1 hl2 =>
    intro hc hv fuel σ hk
    rw [hsem, denote_array, ← hsem] at hk
    obtain ⟨s, hs, hall⟩ := ((array_ok (harr hc fuel) hk).2.2.2.2 (Option.map_eq_none_iff.2 h0)).2 (by simpa [ArrC.map] using hl1)
      (by simpa [ArrC.map] using hl2)
    obtain ⟨d, hd, rfl⟩ := Option.map_eq_some_iff.1 hs
    rw [h1] at hd
    cases hd
  | @notObject o v h =>
    intro hc hv fuel σ hk
    rw [hsem, denote_object, ← hsem] at hk
    rcases tidy_object hv with ⟨kvs, raws, ho, -, -⟩ | ⟨t, ht⟩ | ⟨s, hs⟩
    · exact h _ _ (.obj ho)
    · exact h _ _ (.time ((indirect_iff (by simp) (by simp) (by simp)).1 ht))
    · unfold objectV at hk
      simp only [hs] at hk
      cases s <;> cases hk
  | fewProps hp h1 h2 =>
    intro hc hv fuel σ hk
    have := (hobj hc hp fuel σ hk).count.1 h1
    exact absurd h2 (not_lt.2 this)
  | manyProps hp h1 h2 =>
    intro hc hv fuel σ hk
    have := (hobj hc hp fuel σ hk).count.2 h1
    exact absurd h2 (not_lt.2 this)
  | required hp h1 h2 h3 =>
    intro hc hv fuel σ hk
    exact h3 ((hobj hc hp fuel σ hk).required _ h1 ((ObjC.map_declares _ _).2 h2))
  | prop hp h1 h2 _ ih =>
    intro hc hv fuel σ hk
    obtain ⟨τ, hτ⟩ := (hobj hc hp fuel σ hk).declared _ _ _ ((ObjC.map_mem_props _ _).2 ⟨_, h1, rfl⟩) h2
    exact ih (hc.child (.object (.prop h1))) ((hp.tidy hv).1 _ _ h2) fuel τ hτ
  | pattern hp h1 h2 h3 h4 _ ih =>
    intro hc hv fuel σ hk
    obtain ⟨τ, hτ⟩ := (hobj hc hp fuel σ hk).pattern _ _ h4 (fun h' => h1 ((ObjC.map_declares _ _).1 h')) _ _ _
      ((ObjC.map_mem_pats _ _).2 ⟨_, h2, rfl⟩) h3
    exact ih (hc.child (.object (.pattern h2))) ((hp.tidy hv).2 _ _ h4) fuel τ hτ
  | addlNotAllowed hp h1 h2 h3 h4 =>
    intro hc hv fuel σ hk
    obtain ⟨x, hx⟩ := hp.has_raw h3
    obtain ⟨s, hs, -⟩ := (hobj hc hp fuel σ hk).additional _ _ hx (fun h' => h1 ((ObjC.map_declares _ _).1 h'))
      (fun h' => h2 ((ObjC.map_patternFor _ _).1 h'))
    obtain ⟨d, hd, rfl⟩ := Option.map_eq_some_iff.1 hs
    rw [h4] at hd
    cases hd
  | addlProp hp h1 h2 h3 h4 _ ih =>
    intro hc hv fuel σ hk
    obtain ⟨s, hs, τ, hτ⟩ := (hobj hc hp fuel σ hk).additional _ _ h4 (fun h' => h1 ((ObjC.map_declares _ _).1 h'))
      (fun h' => h2 ((ObjC.map_patternFor _ _).1 h'))
    obtain ⟨d, hd, rfl⟩ := Option.map_eq_some_iff.1 hs
    rw [h3] at hd
    cases hd
    exact ih (hc.child (.object (.additional h3))) ((hp.tidy hv).2 _ _ h4) fuel τ hτ
  | depMissing hp h1 h2 h3 h4 =>
    intro hc hv fuel σ hk
    obtain ⟨a, b⟩ := (hobj hc hp fuel σ hk).propDeps _ h1 ((ObjC.map_covers _ _).2 h2) _ h3
    exact h4 ⟨a, (ObjC.map_covers _ _).1 b⟩
  | dependency hp h1 h2 h3 h4 _ ih =>
    intro hc hv fuel σ hk
    obtain ⟨τ, hτ⟩ := (hobj hc hp fuel σ hk).schemaDeps _ h1 ((ObjC.map_covers _ _).2 h2) h3 _
      (by rw [ObjC.map_schemaDep, h4]; rfl)
    exact ih (hc.child (.object (.dependency h4))) hv fuel τ hτ
  | any es _ ih =>
    intro hc hv fuel σ hk
    rw [hsem, denote_any, ← hsem] at hk
    obtain ⟨s, hs, τ, hτ⟩ := any_ok (hlist hc fuel _ fun d hd => .any hd) hk
    obtain ⟨d, hd, rfl⟩ := List.mem_map.1 hs
    exact ih d hd (hc.child (.any hd)) hv fuel τ hτ
  | all hm _ ih =>
    intro hc hv fuel σ hk
    rw [hsem, denote_all, ← hsem] at hk
    obtain ⟨τ, hτ⟩ := all_ok (hlist hc fuel _ fun d hd => .all hd) hk _ (List.mem_map.2 ⟨_, hm, rfl⟩)
    exact ih (hc.child (.all hm)) hv fuel τ hτ
  | oneOfNone es _ ih =>
    intro hc hv fuel σ hk
    rw [hsem, denote_oneOf, ← hsem] at hk
    obtain ⟨-, ⟨k, s, hs, hτ⟩, -⟩ := oneOf_ok (hlist hc fuel _ fun d hd => .oneOf hd) hk
    obtain ⟨d, hd, rfl⟩ := List.mem_map.1 (List.mem_of_getElem? hs)
    exact ih d hd (hc.child (.oneOf hd)) hv fuel _ hτ
  | oneOfMany hij hi hj h1 h2 =>
    intro hc hv fuel σ hk
    rw [hsem, denote_oneOf, ← hsem] at hk
    obtain ⟨hn, -, hno⟩ := oneOf_ok (hlist hc fuel _ fun d hd => .oneOf hd) hk
    have ei := List.getElem?_map (f := sem ext env fuel) ▸ congrArg (Option.map (sem ext env fuel)) hi
    have ej := List.getElem?_map (f := sem ext env fuel) ▸ congrArg (Option.map (sem ext env fuel)) hj
    have h1' := hacc (hc.child (.oneOf (List.mem_of_getElem? hi))) hv h1 fuel
    have h2' := hacc (hc.child (.oneOf (List.mem_of_getElem? hj))) hv h2 fuel
    have ok1 := (not_imp_comm.1 (Res.not_ok_iff (hn _ _ ei)).1) (h1' _)
    have ok2 := (not_imp_comm.1 (Res.not_ok_iff (hn _ _ ej)).1) (h2' _)
    exact hno _ _ _ _ hij ei ej ok1 ok2
  | notFailed h =>
    intro hc hv fuel σ hk
    rw [hsem, denote_not, ← hsem] at hk
    simp only [Option.map_some, notV] at hk
    have h' := hacc (hc.child .not) hv h fuel (σ.sub 0)
    split at hk
    · cases hk
    · rename_i e' w hd
      exact h' ⟨e', by rw [hd]⟩
    · cases hk
  | notNoChild =>
    intro hc hv fuel σ hk
    rw [hsem, denote_not, ← hsem] at hk
    cases hk
  | @ref m n c v e hm _ ih =>
    intro hc hv fuel σ hk
    simp only [sem, denote] at hk
    cases fuel with
    | zero => cases hk
    | succ fuel =>
      simp only [refSem, hm] at hk
      exact ih (henv m n c hm) hv fuel σ hk
  | @refNotFound m n v hm =>
    intro hc hv fuel σ hk
    simp only [sem, denote] at hk
    cases fuel with
    | zero => cases hk
    | succ fuel =>
      simp only [refSem, hm] at hk
      cases hk

/-! ## Where the fault is -/

theorem StrFault.utters {c : StrC} {s : GoStr} {e : Err} (h : StrFault ext c s e) : e.names = [] ∧ e.reason = e ∧ (Constraint.string c).Utters e := by
  cases h <;> refine ⟨rfl, rfl, ?_⟩ <;> simp_all [Constraint.Utters]

theorem NumFault.utters {c d : NumC} {f : F64} {e : Err} (h : NumFault c f e) :
    e.names = [] ∧ e.reason = e ∧ (Constraint.number d).Utters e ∧ (Constraint.integer d).Utters e := by
  cases h <;> refine ⟨rfl, rfl, ?_, ?_⟩ <;> simp [Constraint.Utters]

theorem Fault.place {c : Constraint} {v : GoVal} {e : Err} (h : Fault ext env c v e) :
    ∃ x d, At v e.names x ∧ ReachedFrom env c d ∧ Fault ext env d x e.reason ∧ d.Utters e.reason := by
  have here : ∀ {c : Constraint} {v : GoVal} {e : Err}, Fault ext env c v e → e.names = [] ∧ e.reason = e ∧ c.Utters e →
      ∃ x d, At v e.names x ∧ ReachedFrom env c d ∧ Fault ext env d x e.reason ∧ d.Utters e.reason := by
    intro c v e h ⟨h1, h2, h3⟩
    rw [h1, h2]
    exact ⟨v, c, .here, .refl, h, h3⟩
  have objOf : ∀ {v : GoVal} {kvs raws : List (GoStr × GoVal)} {k : GoStr} {x : GoVal}, Props v kvs raws → (k, x) ∈ kvs ∨ (k, x) ∈ raws →
      IsObj v kvs raws := by
    intro v kvs raws k x hp hx
    cases hp with
    | obj hp => exact hp
    | time => rcases hx with hx | hx <;> cases hx
  induction h with
  | null h => exact here (.null h) ⟨rfl, rfl, trivial⟩
  | boolean h => exact here (.boolean h) ⟨rfl, rfl, trivial⟩
  | enum h => exact here (.enum h) ⟨rfl, rfl, trivial⟩
  | notString h => exact here (.notString h) ⟨rfl, rfl, trivial⟩
  | string h1 h2 => exact here (.string h1 h2) h2.utters
  | notFloat h => exact here (.notFloat h) ⟨rfl, rfl, by simp [Constraint.Utters]⟩
  | @number c v k f e h1 h2 => exact here (.number h1 h2) ⟨(h2.utters (d := c)).1, (h2.utters (d := c)).2.1, (h2.utters (d := c)).2.2.1⟩
  | notNumeric h1 h2 h3 => exact here (.notNumeric h1 h2 h3) ⟨rfl, rfl, by simp [Constraint.Utters]⟩
  | notIntegral h1 h2 => exact here (.notIntegral h1 h2) ⟨rfl, rfl, by simp [Constraint.Utters]⟩
  | @int c v k f e h1 h2 => exact here (.int h1 h2) ⟨(h2.utters (d := c)).1, (h2.utters (d := c)).2.1, (h2.utters (d := c)).2.2.2⟩
  | @uint c v k f e h1 h2 => exact here (.uint h1 h2) ⟨(h2.utters (d := c)).1, (h2.utters (d := c)).2.1, (h2.utters (d := c)).2.2.2⟩
  | @whole c v k f e h1 h3 h2 => exact here (.whole h1 h3 h2) ⟨(h2.utters (d := c)).1, (h2.utters (d := c)).2.1, (h2.utters (d := c)).2.2.2⟩
  | notSlice h => exact here (.notSlice h) ⟨rfl, rfl, by simp [Constraint.Utters]⟩
  | fewItems h1 h2 => exact here (.fewItems h1 h2) ⟨rfl, rfl, by simp [Constraint.Utters]⟩
  | manyItems h1 h2 => exact here (.manyItems h1 h2) ⟨rfl, rfl, by simp [Constraint.Utters]⟩
  | dupItem h1 h2 => exact here (.dupItem h1 h2) ⟨rfl, rfl, by simp [Constraint.Utters]⟩
  | addlItems h1 h2 h3 h4 => exact here (.addlItems h1 h2 h3 h4) ⟨rfl, rfl, by simp [Constraint.Utters]⟩
  | item h1 h2 _ ih =>
    obtain ⟨x, d, a, b, f, u⟩ := ih
    exact ⟨x, d, .item h2 a, .child (.array (.items h1)) b, f, u⟩
  | positional h0 h1 h2 _ ih =>
    obtain ⟨x, d, a, b, f, u⟩ := ih
    exact ⟨x, d, .item (List.mem_of_getElem? h2) a, .child (.array (.positional (List.mem_of_getElem? h1))) b, f, u⟩
  | extra h0 h1 _ _ _ h2 _ ih =>
    obtain ⟨x, d, a, b, f, u⟩ := ih
    exact ⟨x, d, .item (List.mem_of_getElem? h2) a, .child (.array (.additional h1)) b, f, u⟩
  | notObject h => exact here (.notObject h) ⟨rfl, rfl, by simp [Constraint.Utters]⟩
  | fewProps hp h1 h2 => exact here (.fewProps hp h1 h2) ⟨rfl, rfl, by simp [Constraint.Utters]⟩
  | manyProps hp h1 h2 => exact here (.manyProps hp h1 h2) ⟨rfl, rfl, by simp [Constraint.Utters]⟩
  | required hp h1 h2 h3 => exact here (.required hp h1 h2 h3) ⟨rfl, rfl, h1⟩
  | prop hp h1 h2 _ ih =>
    obtain ⟨x, d, a, b, f, u⟩ := ih
    exact ⟨x, d, .prop (objOf hp (.inl h2)) (.inl h2) a, .child (.object (.prop h1)) b, f, u⟩
  | pattern hp h1 h2 h3 h4 _ ih =>
    obtain ⟨x, d, a, b, f, u⟩ := ih
    exact ⟨x, d, .prop (objOf hp (.inr h4)) (.inr h4) a, .child (.object (.pattern h2)) b, f, u⟩
  | addlNotAllowed hp h1 h2 h3 h4 => exact here (.addlNotAllowed hp h1 h2 h3 h4) ⟨rfl, rfl, by simp [Constraint.Utters]⟩
  | addlProp hp h1 h2 h3 h4 _ ih =>
    obtain ⟨x, d, a, b, f, u⟩ := ih
    exact ⟨x, d, .prop (objOf hp (.inr h4)) (.inr h4) a, .child (.object (.additional h3)) b, f, u⟩
  | depMissing hp h1 h2 h3 h4 => exact here (.depMissing hp h1 h2 h3 h4) ⟨rfl, rfl, _, h3⟩
  | dependency hp h1 h2 h3 h4 _ ih =>
    obtain ⟨x, d, a, b, f, u⟩ := ih
    exact ⟨x, d, a, .child (.object (.dependency h4)) b, f, u⟩
  | any es h _ => exact here (.any es h) ⟨rfl, rfl, trivial⟩
  | all hm _ ih =>
    obtain ⟨x, d, a, b, f, u⟩ := ih
    exact ⟨x, d, a, .child (.all hm) b, f, u⟩
  | oneOfNone es h _ => exact here (.oneOfNone es h) ⟨rfl, rfl, by simp [Constraint.Utters]⟩
  | oneOfMany hij hi hj h1 h2 => exact here (.oneOfMany hij hi hj h1 h2) ⟨rfl, rfl, by simp [Constraint.Utters]⟩
  | notFailed h => exact here (.notFailed h) ⟨rfl, rfl, by simp [Constraint.Utters]⟩
  | notNoChild => exact here .notNoChild ⟨rfl, rfl, by simp [Constraint.Utters]⟩
  | ref hm _ ih =>
    obtain ⟨x, d, a, b, f, u⟩ := ih
    exact ⟨x, d, a, .ref hm b, f, u⟩
  | refNotFound hm => exact here (.refNotFound hm) ⟨rfl, rfl, rfl⟩

end Jsval
