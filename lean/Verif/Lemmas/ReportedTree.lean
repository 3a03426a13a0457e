import Verif.Lemmas.ReportedObj
import Verif.Lemmas.ReportedScalars
/-!
# Which fault is reported: whole trees
-/
namespace Jsval

variable {ext : Ext} {env : Env}

/-! ## With enough fuel -/

/-- True from some amount of fuel on. -/
def Ev (P : ℕ → Prop) : Prop := ∃ N, ∀ n, N ≤ n → P n

theorem Ev.of {P : ℕ → Prop} (h : ∀ n, P n) : Ev P := ⟨0, fun n _ => h n⟩

theorem Ev.mono {P Q : ℕ → Prop} (h : Ev P) (hi : ∀ n, P n → Q n) : Ev Q := by
  obtain ⟨N, h⟩ := h
  exact ⟨N, fun n hn => hi n (h n hn)⟩

theorem Ev.and {P Q : ℕ → Prop} (h : Ev P) (h' : Ev Q) : Ev fun n => P n ∧ Q n := by
  obtain ⟨N, h⟩ := h
  obtain ⟨M, h'⟩ := h'
  exact ⟨max N M, fun n hn => ⟨h n (by omega), h' n (by omega)⟩⟩

theorem Ev.ball {α : Type} {P : α → ℕ → Prop} : ∀ {l : List α}, (∀ a ∈ l, Ev (P a)) → Ev fun n => ∀ a ∈ l, P a n
  | [], _ => .of fun n a h => by cases h
  | a :: l, h => by
    refine ((h a (by simp)).and (Ev.ball (l := l) fun b hb => h b (by simp [hb]))).mono ?_
    rintro n ⟨h1, h2⟩ b hb
    rcases List.mem_cons.1 hb with rfl | hb
    · exact h1
    · exact h2 b hb

theorem Ev.given {A : Prop} {P : ℕ → Prop} (h : A → Ev P) : Ev fun n => A → P n := by
  by_cases ha : A
  · exact (h ha).mono fun n hn _ => hn
  · exact .of fun n h => absurd h ha

theorem Ev.shift {P Q : ℕ → Prop} (h : Ev P) (hs : ∀ n, P n → Q (n + 1)) : Ev Q := by
  obtain ⟨N, h⟩ := h
  refine ⟨N + 1, fun n hn => ?_⟩
  obtain ⟨m, rfl⟩ : ∃ m, n = m + 1 := ⟨n - 1, by omega⟩
  exact hs m (h m (by omega))

/-- Some call returns `r` with this fuel. -/
def CanRet (ext : Ext) (env : Env) (c : Constraint) (v : GoVal) (r : Res) (n : ℕ) : Prop := ∃ τ, ((sem ext env n c).val τ v).1 = r

theorem CanRet.ev {c : Constraint} {v : GoVal} {r : Res} {n : ℕ} (h : CanRet ext env c v r n) (hr : r ≠ .abort .diverge) :
    Ev (CanRet ext env c v r) := by
  obtain ⟨τ, h⟩ := h
  exact ⟨n, fun m hm => ⟨τ, by rw [sem_mono hm (Prod.ext h rfl) hr]⟩⟩

theorem Accepted.ev {c : Constraint} {v : GoVal} (h : Accepted ext env c v) : Ev (CanRet ext env c v .ok) := by
  obtain ⟨τ, v', -, n, h⟩ := h
  exact CanRet.ev (n := n) ⟨τ, by rw [h]⟩ (by simp)

theorem plain_dflt {c : Constraint} (hc : NoDefault c) (hp : ∀ m n, c ≠ .ref m n) (fuel : ℕ) : (sem ext env fuel c).dflt = .none := by
  cases c with
  | ref m n => exact absurd rfl (hp m n)
  | boolean d => simp only [NoDefault, Constraint.ownDefault] at hc; simp [sem, denote, hc, Dflt.ofOption]
  | string d => simp only [NoDefault, Constraint.ownDefault] at hc; simp [sem, denote, hc, Dflt.ofOption]
  | number d => simp only [NoDefault, Constraint.ownDefault] at hc; simp [sem, denote, hc, Dflt.ofOption]
  | integer d => simp only [NoDefault, Constraint.ownDefault] at hc; simp [sem, denote, hc, Dflt.ofOption]
  | _ => simp [sem, denote]

theorem LinkEnds.ev (henv : env.Every NoDefault) {c : Constraint} (h : LinkEnds env c) : c.Every NoDefault →
    Ev fun n => (sem ext env n c).dflt = .none := by
  induction h with
  | plain hp => exact fun hc => .of fun n => plain_dflt hc.self hp n
  | unresolved hm =>
    intro _
    refine (Ev.of fun _ => trivial : Ev fun _ => True).shift fun n _ => ?_
    simp only [sem, denote, refSem, hm]
    rfl
  | ref hm _ ih =>
    intro _
    refine (ih (henv _ _ _ hm)).shift fun n h => ?_
    simp only [sem, denote, refSem, hm]
    exact h

theorem linkEnds_of (fuel : ℕ) : ∀ (c : Constraint), (sem ext env fuel c).dflt = .none → LinkEnds env c := by
  induction fuel with
  | zero =>
    intro c h
    by_cases hp : ∀ m n, c ≠ .ref m n
    · exact .plain hp
    · simp only [ne_eq, not_forall, not_not] at hp
      obtain ⟨m, n, rfl⟩ := hp
      simp [sem, denote, refSem, running] at h
  | succ fuel ih =>
    intro c h
    by_cases hp : ∀ m n, c ≠ .ref m n
    · exact .plain hp
    · simp only [ne_eq, not_forall, not_not] at hp
      obtain ⟨m, n, rfl⟩ := hp
      simp only [sem, denote, refSem] at h
      cases hm : env m n with
      | none => exact .unresolved hm
      | some c => rw [hm] at h; exact .ref hm (ih c h)

/-! ## From calls to reports -/

theorem exists_reports {cs : List Constraint} {v : GoVal} {P : Constraint → Prop} (h : ∀ c ∈ cs, P c → ∃ e, Reported ext env c v e) :
    ∃ es : Constraint → Err, ∀ c, c ∈ cs → P c → Reported ext env c v (es c) := by
  classical
  refine ⟨fun c => if hc : ∃ e, Reported ext env c v e then hc.choose else .notNull, fun c hc hP => ?_⟩
  simp only [dif_pos (h c hc hP)]
  exact (h c hc hP).choose_spec

theorem null_reported {v : GoVal} {e : Err} (h : nullCheck v = .err e) : Reported ext env .null v e := by
  cases null_fault (ext := ext) (env := env) h with
  | null h' => exact .null h'

theorem bool_reported {d : Option GoVal} {v : GoVal} {e : Err} (h : boolCheck v = .err e) : Reported ext env (.boolean d) v e := by
  cases bool_fault (ext := ext) (env := env) (d := d) h with
  | boolean h' => exact .boolean h'

theorem str_reported {c : StrC} {v : GoVal} {e : Err} (h : strCheck ext c v = .err e) : Reported ext env (.string c) v e := by
  unfold strCheck at h
  split at h
  · rename_i s hs
    exact .string ((indirect_iff (by simp) (by simp) (by simp)).1 hs) (str_iff.1 h)
  · rename_i hs
    cases h
    exact .notString (fun s => not_indirect_iff (by simp) (by simp) (by simp) (hs s))

theorem num_reported {c : NumC} {v : GoVal} {e : Err} (h : numCheck c v = .err e) : Reported ext env (.number c) v e := by
  unfold numCheck at h
  split at h
  · rename_i k f hs
    exact .number ((indirect_iff (by simp) (by simp) (by simp)).1 hs) (num_iff.1 h)
  · rename_i hs
    cases h
    exact .notFloat (fun k f => not_indirect_iff (by simp) (by simp) (by simp) (hs k f))

theorem int_reported {c : NumC} {v : GoVal} {e : Err} (h : intCheck c v = .err e) : Reported ext env (.integer c) v e := by
  unfold intCheck at h
  split at h
  · rename_i k n hs
    exact .int ((indirect_iff (by simp) (by simp) (by simp)).1 hs) (num_iff.1 h)
  · rename_i k n hs
    exact .uint ((indirect_iff (by simp) (by simp) (by simp)).1 hs) (num_iff.1 h)
  · rename_i k f hs
    have ht := (indirect_iff (v := v) (by simp) (by simp) (by simp)).1 hs
    split at h
    · rename_i hw
      cases h
      exact .notIntegral ht (fun hw' => by rw [(F64.floor_eq_iff f).2 hw'] at hw; cases hw)
    · rename_i hw
      exact .whole ht ((F64.floor_eq_iff f).1 (by simpa using hw)) (num_iff.1 h)
  · rename_i h1 h2 h3
    cases h
    exact .notNumeric (fun k n => not_indirect_iff (by simp) (by simp) (by simp) (h1 k n))
      (fun k n => not_indirect_iff (by simp) (by simp) (by simp) (h2 k n))
      (fun k n => not_indirect_iff (by simp) (by simp) (by simp) (h3 k n))

theorem arr_readOnly (henv : env.Every (Orderly ext)) {a : ArrC Constraint} (hc : (Constraint.array a).Every (Orderly ext)) (fuel : ℕ) :
    ∀ s, (a.map (sem ext env fuel)).Child s → s.ReadOnly := by
  have hro : ∀ {c : Constraint}, c.Every (Orderly ext) → ∀ fuel, (sem ext env fuel c).ReadOnly :=
    fun hc fuel => (bare_sem (henv.imp fun _ h => h.1) (hc.imp fun _ h => h.1) fuel).1
  intro s hs
  cases hs with
  | items hi =>
    obtain ⟨d, hd, rfl⟩ := Option.map_eq_some_iff.1 hi
    exact hro (hc.child (.array (.items hd))) fuel
  | positional hi =>
    obtain ⟨d, hd, rfl⟩ := List.mem_map.1 hi
    exact hro (hc.child (.array (.positional hd))) fuel
  | additional hi =>
    obtain ⟨d, hd, rfl⟩ := Option.map_eq_some_iff.1 hi
    exact hro (hc.child (.array (.additional hd))) fuel

theorem list_readOnly (henv : env.Every (Orderly ext)) {c : Constraint} (hc : c.Every (Orderly ext)) (fuel : ℕ) {cs : List Constraint}
    (h : ∀ d ∈ cs, c.Child d) : ∀ s ∈ cs.map (sem ext env fuel), s.ReadOnly := by
  intro s hs
  obtain ⟨d, hd, rfl⟩ := List.mem_map.1 hs
  exact (bare_sem (henv.imp fun _ h => h.1) ((hc.child (h d hd)).imp fun _ h => h.1) fuel).1

/-- What an object constraint can report, on values with properties. -/
theorem obj_first (henv : env.Every (Orderly ext)) {o : ObjC Constraint} (hc : (Constraint.object o).Every (Orderly ext)) {v : GoVal}
    {kvs raws : List (GoStr × GoVal)} (hp : Props v kvs raws) (fuel : ℕ) {e : Err} :
    CanRet ext env (.object o) v (.err e) fuel ↔ ObjFirst ext (o.map (sem ext env fuel)) v kvs raws e := by
  have hro : ∀ {c : Constraint}, c.Every (Orderly ext) → ∀ fuel, (sem ext env fuel c).ReadOnly ∧ ∀ dv, (sem ext env fuel c).dflt ≠ .some dv :=
    fun hc fuel => bare_sem (henv.imp fun _ h => h.1) (hc.imp fun _ h => h.1) fuel
  obtain ⟨hw, hov⟩ := hc.self.2
  have hw' := (ObjC.map_wf (sem ext env fuel) o).2 hw
  have hro' : ∀ s, (o.map (sem ext env fuel)).Child s → s.ReadOnly := by
    intro s hs
    obtain ⟨d, hd, rfl⟩ := (ObjC.map_child _ o).1 hs
    exact (hro (hc.child (.object hd)) fuel).1
  have hd : ∀ p s, (p, s) ∈ (o.map (sem ext env fuel)).props → ∀ dv, s.dflt ≠ .some dv := by
    intro p s hs
    obtain ⟨d, hd, rfl⟩ := (ObjC.map_mem_props _ o).1 hs
    exact (hro (hc.child (.object (.prop hd))) fuel).2
  unfold CanRet
  rw [show (sem ext env fuel (.object o)).val = objectV ext (o.map (sem ext env fuel)) from denote_object _ _ _]
  cases hp with
  | obj hobj =>
    refine objectV_first hobj hw' hro' hd ?_
    intro k _ hkd p hp q hq hp' hq'
    simp only [ObjC.map, List.mem_map] at hp hq
    obtain ⟨p, hp, rfl⟩ := hp
    obtain ⟨q, hq, rfl⟩ := hq
    rw [hov k (fun h' => hkd ((ObjC.map_declares _ o).2 h')) p hp q hq hp' hq']
  | time ht => exact objectV_time_first hw' hd ((indirect_iff (by simp) (by simp) (by simp)).2 ht)

theorem step_reported (henv : env.Every (Orderly ext)) (fuel : ℕ)
    (hρ : ∀ m n v, Tidy v → ∀ σ e, ((refSem ext env fuel m n).val σ v).1 = .err e → Reported ext env (.ref m n) v e) :
    ∀ (c : Constraint), c.Every (Orderly ext) → ∀ (v : GoVal), Tidy v → ∀ (σ : Sched) (e : Err),
    ((sem ext env fuel c).val σ v).1 = .err e → Reported ext env c v e := by
  refine Constraint.ind fun c ih hc v hv σ e h => ?_
  have hsem : sem ext env fuel = denote ext (refSem ext env fuel) := rfl
  cases c with
  | empty => simp [sem, denote] at h
  | null => exact null_reported (by simpa [sem, denote, pureV] using h)
  | boolean d => exact bool_reported (by simpa [sem, denote, pureV] using h)
  | string c => exact str_reported (by simpa [sem, denote, pureV] using h)
  | number c => exact num_reported (by simpa [sem, denote, pureV] using h)
  | integer c => exact int_reported (by simpa [sem, denote, pureV] using h)
  | enum l =>
    obtain ⟨rfl, h2⟩ := enumCheck_err_iff (l := l) (v := v) (e := e) |>.1 (by simpa [sem, denote, pureV] using h)
    exact .enum h2
  | ref m n => exact hρ m n v hv σ e (by simpa [sem, denote] using h)
  | array a =>
    rw [hsem, denote_array, ← hsem] at h
    by_cases hsl : ∃ n xs, v = .slice n xs
    · obtain ⟨n, xs, rfl⟩ := hsl
      have hx : ∀ x ∈ xs, Tidy x := by cases hv; assumption
      have hlen : (a.map (sem ext env fuel)).positional.length = a.positional.length := by simp [ArrC.map]
      have hpl : ∀ {P : ℕ → Prop}, (∀ (i : ℕ) (d : Sem) (y : GoVal), P i → (a.map (sem ext env fuel)).positional[i]? = some d → xs[i]? = some y →
          ∃ τ, (d.val τ y).1 = .ok) → PlacesPass ext env a xs P := by
        intro P h i c x hP hi hx
        obtain ⟨τ, hτ⟩ := h i (sem ext env fuel c) x hP (by simp [ArrC.map, hi]) hx
        exact .intro hτ
      cases (arrayV_first (arr_readOnly henv hc fuel)).1 ⟨σ, h⟩ with
      | fewItems h1 h2 => exact .fewItems h1 h2
      | manyItems h1 h2 h3 => exact .manyItems h1 h2 h3
      | dupItem h1 h2 h3 h4 => exact .dupItem ⟨h1, h2⟩ h3 h4
      | item h1 h2 h3 h4 h5 h6 h7 =>
        obtain ⟨d, hd, rfl⟩ := Option.map_eq_some_iff.1 h4
        have hch' := Constraint.Child.array (.items hd)
        obtain ⟨τ, hτ⟩ := h7
        refine .item ⟨h1, h2⟩ h3 hd h5 (fun i y hi hy => ?_) (ih d hch' (hc.child hch') _ (hx _ (List.mem_of_getElem? h5)) τ e hτ)
        obtain ⟨τ, hτ⟩ := h6 i y hi hy
        exact .intro hτ
      | positional h1 h2 h3 h4 h5 h6 h7 h8 =>
        simp only [ArrC.map, List.getElem?_map, Option.map_eq_some_iff] at h5
        obtain ⟨d, hd, rfl⟩ := h5
        have hch' := Constraint.Child.array (.positional (List.mem_of_getElem? hd))
        obtain ⟨τ, hτ⟩ := h8
        exact .positional ⟨h1, h2⟩ h3 (Option.map_eq_none_iff.1 h4) hd h6 (hpl h7)
          (ih d hch' (hc.child hch') _ (hx _ (List.mem_of_getElem? h6)) τ e hτ)
      | extra h1 h2 h3 h4 h5 h6 h7 h8 h9 h10 h11 h12 =>
        obtain ⟨d, hd, rfl⟩ := Option.map_eq_some_iff.1 h6
        have hch' := Constraint.Child.array (.additional hd)
        obtain ⟨τ, hτ⟩ := h12
        rw [hlen] at h7 h8 h9
        refine .extra ⟨h1, h2⟩ h3 (Option.map_eq_none_iff.1 h4) (hpl fun i d y _ => h5 i d y) hd h7 h8 h9 h10 (fun i y hi hi' hy => ?_)
          (ih d hch' (hc.child hch') _ (hx _ (List.mem_of_getElem? h10)) τ e hτ)
        obtain ⟨τ, hτ⟩ := h11 i y (by rw [hlen]; exact hi) hi' hy
        exact .intro hτ
      | addlItems h1 h2 h3 h4 h5 h6 h7 h8 =>
        rw [hlen] at h7 h8
        exact .addlItems ⟨h1, h2⟩ h3 (Option.map_eq_none_iff.1 h4) (hpl fun i d y _ => h5 i d y) (Option.map_eq_none_iff.1 h6) h7 h8
    · have he : e = .notSlice := by
        unfold arrayV at h
        split at h
        · rename_i n xs hs
          exact absurd ⟨n, xs, by cases v <;> simp_all [valueOf]⟩ hsl
        · cases h; rfl
      subst he
      exact .notSlice fun n xs h' => hsl ⟨n, xs, h'⟩
  | object o =>
    by_cases hp : ∃ kvs raws, Props v kvs raws
    · obtain ⟨kvs, raws, hp⟩ := hp
      obtain ⟨hk, hr⟩ := hp.tidy hv
      have hdecl : DeclaredPassS (o.map (sem ext env fuel)) kvs → DeclaredPass ext env o kvs := by
        intro h
        refine ⟨fun p c x hpc hx => ?_, fun p c hpc hx => ?_⟩
        · obtain ⟨τ, hτ⟩ := h.present p _ x ((ObjC.map_mem_props _ o).2 ⟨c, hpc, rfl⟩) hx
          exact .intro hτ
        · obtain ⟨h1, h2⟩ := h.absent p _ ((ObjC.map_mem_props _ o).2 ⟨c, hpc, rfl⟩) hx
          exact ⟨h1, linkEnds_of fuel c h2⟩
      have hpats : PatternsPassS ext (o.map (sem ext env fuel)) raws → PatternsPass ext env o raws := by
        intro h k x hx hk' id src c hpc hm
        obtain ⟨τ, hτ⟩ := h k x hx (fun h' => hk' ((ObjC.map_declares _ o).1 h')) id src _ ((ObjC.map_mem_pats _ o).2 ⟨c, hpc, rfl⟩) hm
        exact .intro hτ
      have hoth : OthersPassS ext (o.map (sem ext env fuel)) raws → OthersPass ext env o raws := by
        intro h k x hx hk' hm
        obtain ⟨s, hs, τ, hτ⟩ := h k x hx (fun h' => hk' ((ObjC.map_declares _ o).1 h')) (fun h' => hm ((ObjC.map_patternFor _ o).1 h'))
        obtain ⟨d, hd, rfl⟩ := Option.map_eq_some_iff.1 hs
        exact ⟨d, hd, .intro hτ⟩
      cases (obj_first henv hc hp fuel).1 ⟨σ, h⟩ with
      | fewProps h1 h2 => exact .fewProps hp h1 h2
      | manyProps h1 h2 h3 => exact .manyProps hp h1 h2 h3
      | required h0 h1 h2 h3 => exact .required hp h0 h1 ((ObjC.map_declares _ o).1 h2) h3
      | prop h0 h1 h2 h3 =>
        obtain ⟨d, hd, rfl⟩ := (ObjC.map_mem_props _ o).1 h1
        have hch' := Constraint.Child.object (.prop hd)
        obtain ⟨τ, hτ⟩ := h3
        exact .prop hp h0 hd h2 (ih d hch' (hc.child hch') _ (hk _ _ h2) _ _ hτ)
      | pattern h0 hd' h1 h2 h3 h4 h5 =>
        obtain ⟨d, hd, rfl⟩ := (ObjC.map_mem_pats _ o).1 h2
        have hch' := Constraint.Child.object (.pattern hd)
        obtain ⟨τ, hτ⟩ := h5
        exact .pattern hp h0 (hdecl hd') (fun h' => h1 ((ObjC.map_declares _ o).2 h')) hd h3 h4
          (ih d hch' (hc.child hch') _ (hr _ _ h4) _ _ hτ)
      | addlNotAllowed h0 hd' hp' h1 h2 h3 h4 =>
        exact .addlNotAllowed hp h0 (hdecl hd') (hpats hp') (fun h' => h1 ((ObjC.map_declares _ o).2 h'))
          (fun h' => h2 ((ObjC.map_patternFor _ o).2 h')) h3 (Option.map_eq_none_iff.1 h4)
      | addlProp h0 hd' hp' h1 h2 h3 h4 h5 =>
        obtain ⟨d, hd, rfl⟩ := Option.map_eq_some_iff.1 h3
        have hch' := Constraint.Child.object (.additional hd)
        obtain ⟨τ, hτ⟩ := h5
        exact .addlProp hp h0 (hdecl hd') (hpats hp') (fun h' => h1 ((ObjC.map_declares _ o).2 h'))
          (fun h' => h2 ((ObjC.map_patternFor _ o).2 h')) hd h4 (ih d hch' (hc.child hch') _ (hr _ _ h4) _ _ hτ)
      | depMissing h0 hd' hp' ho' h1 h2 h3 h4 h5 =>
        exact .depMissing hp h0 (hdecl hd') (hpats hp') (hoth ho') h1 ((ObjC.map_covers _ o).1 h2) h3
          (fun d hd => ⟨(h4 d hd).1, (ObjC.map_covers _ o).1 (h4 d hd).2⟩) (fun h' => h5 ⟨h'.1, (ObjC.map_covers _ o).2 h'.2⟩)
      | dependency h0 hd' hp' ho' h1 h2 h3 h4 h5 =>
        rw [ObjC.map_schemaDep] at h4
        obtain ⟨d, hd, rfl⟩ := Option.map_eq_some_iff.1 h4
        have hch' := Constraint.Child.object (.dependency hd)
        obtain ⟨τ, hτ⟩ := h5
        exact .dependency hp h0 (hdecl hd') (hpats hp') (hoth ho') h1 ((ObjC.map_covers _ o).1 h2) h3 hd
          (ih d hch' (hc.child hch') _ hv _ _ hτ)
    · rcases tidy_object hv with ⟨kvs, raws, hobj, hk, hr⟩ | ⟨t, ht⟩ | ⟨s, hs⟩
      · exact absurd ⟨kvs, raws, .obj hobj⟩ hp
      · exact absurd ⟨[], [], .time ((indirect_iff (by simp) (by simp) (by simp)).1 ht)⟩ hp
      · rw [hsem, denote_object, ← hsem] at h
        unfold objectV at h
        simp only [hs] at h
        cases s with
        | abort a => cases h
        | err e' =>
          cases h
          have := tidy_names_err hv hs
          subst this
          refine .notObject (not_props hs) fun b m hm => ?_
          rw [(indirect_iff (by simp) (by simp) (by simp)).2 hm] at hs
          cases hs
  | any cs =>
    rw [hsem, denote_any, ← hsem] at h
    obtain ⟨rfl, h2⟩ := (anyLoop_first (list_readOnly henv hc fuel fun d hd => .any hd)).1 ⟨σ, h⟩
    obtain ⟨es, hes⟩ := exists_reports (ext := ext) (env := env) (cs := cs) (v := v) (P := fun _ => True) (by
      intro d hd _
      obtain ⟨τ, e', he⟩ := h2 _ (List.mem_map.2 ⟨d, hd, rfl⟩)
      exact ⟨e', ih d (.any hd) (hc.child (.any hd)) v hv τ e' he⟩)
    exact .any es fun c hc => hes c hc trivial
  | all cs =>
    rw [hsem, denote_all, ← hsem] at h
    obtain ⟨j, s, hs, ⟨τ, he⟩, hb⟩ := (allLoop_first (list_readOnly henv hc fuel fun d hd => .all hd)).1 ⟨σ, h⟩
    rw [List.getElem?_map, Option.map_eq_some_iff] at hs
    obtain ⟨d, hd, rfl⟩ := hs
    have hm := List.mem_of_getElem? hd
    refine .all hd (fun i d' hi hd' => ?_) (ih d (.all hm) (hc.child (.all hm)) v hv τ e he)
    obtain ⟨τ, hτ⟩ := hb i (sem ext env fuel d') hi (by simp [hd'])
    exact .intro hτ
  | oneOf cs =>
    rw [hsem, denote_oneOf, ← hsem] at h
    rcases (oneOfLoop_first (list_readOnly henv hc fuel fun d hd => .oneOf hd)).1 ⟨σ, h⟩ with ⟨rfl, h2⟩ |
      ⟨rfl, h2, i, j, s, t, hij, hi, hj, ⟨τ1, h3⟩, ⟨τ2, h4⟩⟩
    · obtain ⟨es, hes⟩ := exists_reports (ext := ext) (env := env) (cs := cs) (v := v) (P := fun _ => True) (by
        intro d hd _
        obtain ⟨τ, e', he⟩ := h2 _ (List.mem_map.2 ⟨d, hd, rfl⟩)
        exact ⟨e', ih d (.oneOf hd) (hc.child (.oneOf hd)) v hv τ e' he⟩)
      exact .oneOfNone es fun c hc => hes c hc trivial
    · rw [List.getElem?_map, Option.map_eq_some_iff] at hi hj
      obtain ⟨c, hi, rfl⟩ := hi
      obtain ⟨d, hj, rfl⟩ := hj
      obtain ⟨es, hes⟩ := exists_reports (ext := ext) (env := env) (cs := cs) (v := v) (P := fun c => ¬ Accepted ext env c v) (by
        intro d hd hna
        obtain ⟨τ, he⟩ := h2 _ (List.mem_map.2 ⟨d, hd, rfl⟩)
        cases hr : ((sem ext env fuel d).val τ v).1 with
        | ok => exact absurd (.intro hr) hna
        | err e' => exact ⟨e', ih d (.oneOf hd) (hc.child (.oneOf hd)) v hv τ e' hr⟩
        | abort a => exact absurd hr (he a))
      exact .oneOfMany es hij hi hj (.intro h3) (.intro h4) hes
  | not c =>
    rw [hsem, denote_not, ← hsem] at h
    cases c with
    | none => simp only [Option.map_none, notV, Res.err.injEq] at h; subst h; exact .notNoChild
    | some d =>
      simp only [Option.map_some, notV] at h
      rcases hd : (sem ext env fuel d).val (σ.sub 0) v with ⟨r, w⟩
      rw [hd] at h
      cases r with
      | ok => cases h; exact .notFailed (.intro (by rw [hd]))
      | err e' => cases h
      | abort a => cases h

/-- Every error of a tree is one that can be reported. -/
theorem sem_reported (henv : env.Every (Orderly ext)) : ∀ (fuel : ℕ) (c : Constraint), c.Every (Orderly ext) → ∀ (v : GoVal), Tidy v →
    ∀ (σ : Sched) (e : Err), ((sem ext env fuel c).val σ v).1 = .err e → Reported ext env c v e := by
  intro fuel
  induction fuel with
  | zero => exact step_reported henv 0 fun m n v _ σ e h => by simp [refSem, running] at h
  | succ fuel ih =>
    refine step_reported henv _ fun m n v hv σ e h => ?_
    simp only [refSem] at h
    cases hm : env m n with
    | none =>
      rw [hm] at h
      simp only [unresolved, Res.err.injEq] at h
      subst h
      exact .refNotFound hm
    | some c =>
      rw [hm] at h
      exact .ref hm (ih c (henv m n c hm) v hv σ e h)

/-! ## From reports to calls -/

theorem DeclaredPass.ev (henv : env.Every (Orderly ext)) {o : ObjC Constraint} (hc : (Constraint.object o).Every (Orderly ext))
    {kvs : List (GoStr × GoVal)} (h : DeclaredPass ext env o kvs) : Ev fun n => DeclaredPassS (o.map (sem ext env n)) kvs := by
  have h1 : Ev fun n => ∀ pc ∈ o.props, ∀ kx ∈ kvs, kx.1 = pc.1 → CanRet ext env pc.2 kx.2 .ok n :=
    Ev.ball fun pc hpc => Ev.ball fun kx hkx => Ev.given fun he => (h.present pc.1 pc.2 kx.2 hpc (by rw [← he]; exact hkx)).ev
  have h2 : Ev fun n => ∀ pc ∈ o.props, ¬ Has kvs pc.1 → (sem ext env n pc.2).dflt = .none :=
    Ev.ball fun pc hpc => Ev.given fun he => (h.absent pc.1 pc.2 hpc he).2.ev (henv.imp fun _ h => h.1)
      ((hc.child (.object (.prop hpc))).imp fun _ h => h.1)
  refine (h1.and h2).mono fun n hn => ⟨fun p s x hps hx => ?_, fun p s hps hx => ?_⟩
  · obtain ⟨d, hd, rfl⟩ := (ObjC.map_mem_props _ o).1 hps
    exact hn.1 _ hd _ hx rfl
  · obtain ⟨d, hd, rfl⟩ := (ObjC.map_mem_props _ o).1 hps
    exact ⟨(h.absent p d hd hx).1, hn.2 _ hd hx⟩

theorem PatternsPass.ev {o : ObjC Constraint} {raws : List (GoStr × GoVal)} (h : PatternsPass ext env o raws) :
    Ev fun n => PatternsPassS ext (o.map (sem ext env n)) raws := by
  have h1 : Ev fun n => ∀ pc ∈ o.patterns, ∀ kx ∈ raws, (¬ o.Declares kx.1 ∧ ext.reMatch pc.2.1 kx.1 = true) → CanRet ext env pc.2.2 kx.2 .ok n :=
    Ev.ball fun pc hpc => Ev.ball fun kx hkx => Ev.given fun he => (h kx.1 kx.2 hkx he.1 pc.1 pc.2.1 pc.2.2 hpc he.2).ev
  refine h1.mono fun n hn k x hx hk id src s hps hm => ?_
  obtain ⟨d, hd, rfl⟩ := (ObjC.map_mem_pats _ o).1 hps
  exact hn _ hd _ hx ⟨fun h' => hk ((ObjC.map_declares _ o).2 h'), hm⟩

theorem OthersPass.ev {o : ObjC Constraint} {raws : List (GoStr × GoVal)} (h : OthersPass ext env o raws) :
    Ev fun n => OthersPassS ext (o.map (sem ext env n)) raws := by
  have h1 : Ev fun n => ∀ kx ∈ raws, (¬ o.Declares kx.1 ∧ ¬ o.PatternFor ext kx.1) →
      ∃ s, (o.map (sem ext env n)).additional = some s ∧ ∃ τ, (s.val τ kx.2).1 = .ok := by
    refine Ev.ball fun kx hkx => Ev.given fun he => ?_
    obtain ⟨c, hc, ha⟩ := h kx.1 kx.2 hkx he.1 he.2
    exact ha.ev.mono fun n hn => ⟨sem ext env n c, by simp [ObjC.map, hc], hn⟩
  exact h1.mono fun n hn k x hx hk hm => hn _ hx ⟨fun h' => hk ((ObjC.map_declares _ o).2 h'), fun h' => hm ((ObjC.map_patternFor _ o).2 h')⟩

theorem PlacesPass.ev {a : ArrC Constraint} {xs : List GoVal} {P : ℕ → Prop} (h : PlacesPass ext env a xs P) :
    Ev fun n => ∀ (i : ℕ) (d : Sem) (y : GoVal), P i → (a.map (sem ext env n)).positional[i]? = some d → xs[i]? = some y →
      ∃ τ, (d.val τ y).1 = .ok := by
  have h1 : Ev fun n => ∀ i ∈ List.range xs.length, ∀ c ∈ a.positional, ∀ x ∈ xs, (P i ∧ a.positional[i]? = some c ∧ xs[i]? = some x) →
      CanRet ext env c x .ok n :=
    Ev.ball fun i _ => Ev.ball fun c _ => Ev.ball fun x _ => Ev.given fun he => (h i c x he.1 he.2.1 he.2.2).ev
  refine h1.mono fun n hn i s y hP hs hy => ?_
  simp only [ArrC.map, List.getElem?_map, Option.map_eq_some_iff] at hs
  obtain ⟨c, hc, rfl⟩ := hs
  exact hn i (List.mem_range.2 (List.getElem?_eq_some_iff.1 hy).1) c (List.mem_of_getElem? hc) y (List.mem_of_getElem? hy) ⟨hP, hc, hy⟩

/-- The same for elements under one constraint. -/
theorem items_ev {c : Constraint} {xs : List GoVal} {P : ℕ → Prop} (h : ∀ (i : ℕ) (y : GoVal), P i → xs[i]? = some y → Accepted ext env c y) :
    Ev fun n => ∀ (i : ℕ) (y : GoVal), P i → xs[i]? = some y → CanRet ext env c y .ok n := by
  have h1 : Ev fun n => ∀ i ∈ List.range xs.length, ∀ x ∈ xs, (P i ∧ xs[i]? = some x) → CanRet ext env c x .ok n :=
    Ev.ball fun i _ => Ev.ball fun x _ => Ev.given fun he => (h i x he.1 he.2).ev
  exact h1.mono fun n hn i y hP hy => hn i (List.mem_range.2 (List.getElem?_eq_some_iff.1 hy).1) y (List.mem_of_getElem? hy) ⟨hP, hy⟩

theorem array_ev (henv : env.Every (Orderly ext)) {a : ArrC Constraint} (hc : (Constraint.array a).Every (Orderly ext)) {b : Bool}
    {xs : List GoVal} {e : Err} (h : Ev fun n => ArrFirst ext (a.map (sem ext env n)) xs e) :
    Ev (CanRet ext env (.array a) (.slice b xs) (.err e)) := by
  refine h.mono fun n hn => ?_
  unfold CanRet
  rw [show (sem ext env n (.array a)).val = arrayV ext (a.map (sem ext env n)) from denote_array _ _ _]
  exact (arrayV_first (arr_readOnly henv hc n)).2 hn

theorem object_ev (henv : env.Every (Orderly ext)) {o : ObjC Constraint} (hc : (Constraint.object o).Every (Orderly ext)) {v : GoVal}
    {kvs raws : List (GoStr × GoVal)} (hp : Props v kvs raws) {e : Err} (h : Ev fun n => ObjFirst ext (o.map (sem ext env n)) v kvs raws e) :
    Ev (CanRet ext env (.object o) v (.err e)) := h.mono fun n hn => (obj_first henv hc hp n).2 hn

theorem scalar_ev {c : Constraint} {v : GoVal} {r : Res} {f : GoVal → Res} (hs : ∀ n, (sem ext env n c).val = pureV f) (h : f v = r) :
    Ev (CanRet ext env c v r) := .of fun n => ⟨sched0, by rw [hs]; exact h⟩

/-- Each report is made by some call. -/
theorem Reported.possible (henv : env.Every (Orderly ext)) {c : Constraint} {v : GoVal} {e : Err} (h : Reported ext env c v e) :
    c.Every (Orderly ext) → Tidy v → Ev (CanRet ext env c v (.err e)) := by
  have hind : ∀ {v x : GoVal}, (∀ y, x ≠ .ptr y) → (∀ y, x ≠ .iface y) → x ≠ .nil → Target v x → (valueOf v).indirect = some x :=
    fun h1 h2 h3 h => (indirect_iff h3 h1 h2).2 h
  induction h with
  | @null v h =>
    intro _ _
    refine scalar_ev (f := nullCheck) (fun n => by simp [sem, denote]) ?_
    cases hk : nullCheck v with
    | ok => exact absurd ((C07_null_exact (ext := ext) (ρ := refSem ext env 0) (σ := sched0) _).1 (by simpa [Sem.AcceptsBy, denote, pureV] using hk)) h
    | err e => cases null_fault (ext := ext) (env := env) hk; rfl
    | abort a => unfold nullCheck at hk; split at hk <;> cases hk
  | @boolean d v h =>
    intro _ _
    refine scalar_ev (f := boolCheck) (fun n => by simp [sem, denote]) ?_
    cases hk : boolCheck v with
    | ok =>
      obtain ⟨b, hb⟩ := (C08_boolean_exact (ext := ext) (ρ := refSem ext env 0) (σ := sched0) d v).1 (by simpa [Sem.AcceptsBy, denote, pureV] using hk)
      exact absurd hb (h b)
    | err e => cases bool_fault (ext := ext) (env := env) (d := d) hk; rfl
    | abort a => unfold boolCheck at hk; split at hk <;> cases hk
  | @enum l v h =>
    intro _ _
    exact scalar_ev (f := enumCheck l) (fun n => by simp [sem, denote]) (enumCheck_err_iff.2 ⟨rfl, h⟩)
  | @notString c v h =>
    intro _ _
    refine scalar_ev (f := strCheck ext c) (fun n => by simp [sem, denote]) ?_
    unfold strCheck
    split
    · rename_i s hs; exact absurd ((indirect_iff (by simp) (by simp) (by simp)).1 hs) (h s)
    · rfl
  | @string c v s e h1 h2 =>
    intro _ _
    refine scalar_ev (f := strCheck ext c) (fun n => by simp [sem, denote]) ?_
    unfold strCheck
    rw [hind (by simp) (by simp) (by simp) h1]
    exact str_iff.2 h2
  | @notFloat c v h =>
    intro _ _
    refine scalar_ev (f := numCheck c) (fun n => by simp [sem, denote]) ?_
    unfold numCheck
    split
    · rename_i k f hs; exact absurd ((indirect_iff (by simp) (by simp) (by simp)).1 hs) (h k f)
    · rfl
  | @number c v k f e h1 h2 =>
    intro _ _
    refine scalar_ev (f := numCheck c) (fun n => by simp [sem, denote]) ?_
    unfold numCheck
    rw [hind (by simp) (by simp) (by simp) h1]
    exact num_iff.2 h2
  | @notNumeric c v h1 h2 h3 =>
    intro _ _
    refine scalar_ev (f := intCheck c) (fun n => by simp [sem, denote]) ?_
    unfold intCheck
    split
    · rename_i k f hs; exact absurd ((indirect_iff (by simp) (by simp) (by simp)).1 hs) (h1 k f)
    · rename_i k f hs; exact absurd ((indirect_iff (by simp) (by simp) (by simp)).1 hs) (h2 k f)
    · rename_i k f hs; exact absurd ((indirect_iff (by simp) (by simp) (by simp)).1 hs) (h3 k f)
    · rfl
  | @notIntegral c v k f h1 h2 =>
    intro _ _
    refine scalar_ev (f := intCheck c) (fun n => by simp [sem, denote]) ?_
    unfold intCheck
    rw [hind (by simp) (by simp) (by simp) h1]
    simp only
    split
    · rfl
    · rename_i hw
      exact absurd ((F64.floor_eq_iff f).1 (by simpa using hw)) h2
  | @int c v k n e h1 h2 =>
    intro _ _
    refine scalar_ev (f := intCheck c) (fun n => by simp [sem, denote]) ?_
    unfold intCheck
    rw [hind (by simp) (by simp) (by simp) h1]
    exact num_iff.2 h2
  | @uint c v k n e h1 h2 =>
    intro _ _
    refine scalar_ev (f := intCheck c) (fun n => by simp [sem, denote]) ?_
    unfold intCheck
    rw [hind (by simp) (by simp) (by simp) h1]
    exact num_iff.2 h2
  | @whole c v k f e h1 hw h2 =>
    intro _ _
    refine scalar_ev (f := intCheck c) (fun n => by simp [sem, denote]) ?_
    unfold intCheck
    rw [hind (by simp) (by simp) (by simp) h1]
    simp only
    split
    · rename_i hw'
      rw [(F64.floor_eq_iff f).2 hw] at hw'; cases hw'
    · exact num_iff.2 h2
  | @notSlice a v h =>
    intro _ _
    refine .of fun n => ⟨sched0, ?_⟩
    rw [show (sem ext env n (.array a)).val = arrayV ext (a.map (sem ext env n)) from denote_array _ _ _]
    unfold arrayV
    split
    · rename_i n xs hs
      exact absurd (by cases v <;> simp_all [valueOf]) (h n xs)
    · rfl
  | fewItems h1 h2 => exact fun hc _ => array_ev henv hc (.of fun n => .fewItems h1 h2)
  | manyItems h1 h2 h3 => exact fun hc _ => array_ev henv hc (.of fun n => .manyItems h1 h2 h3)
  | dupItem h1 h2 h3 => exact fun hc _ => array_ev henv hc (.of fun n => .dupItem h1.1 h1.2 h2 h3)
  | @item a b xs j c x e h1 h2 h3 h4 h5 _ ih =>
    intro hc hv
    have hx : Tidy x := by cases hv with | slice _ _ hx => exact hx _ (List.mem_of_getElem? h4)
    refine array_ev henv hc (((ih (hc.child (.array (.items h3))) hx).and (items_ev h5)).mono fun n hn => ?_)
    exact .item h1.1 h1.2 h2 (by simp [ArrC.map, h3]) h4 hn.2 hn.1
  | @positional a b xs j c x e h1 h2 h3 h4 h5 h6 _ ih =>
    intro hc hv
    have hx : Tidy x := by cases hv with | slice _ _ hx => exact hx _ (List.mem_of_getElem? h5)
    refine array_ev henv hc (((ih (hc.child (.array (.positional (List.mem_of_getElem? h4)))) hx).and h6.ev).mono fun n hn => ?_)
    exact .positional h1.1 h1.2 h2 (by simp [ArrC.map, h3]) (by simp [ArrC.map, h4]) h5 hn.2 hn.1
  | @extra a b xs j c x e h1 h2 h3 h4 h5 h6 h7 h8 h9 h10 _ ih =>
    intro hc hv
    have hx : Tidy x := by cases hv with | slice _ _ hx => exact hx _ (List.mem_of_getElem? h9)
    have hit := items_ev (P := fun i => a.positional.length - 1 ≤ i ∧ i < j) (fun i y hi hy => h10 i y hi.1 hi.2 hy)
    refine array_ev henv hc (((ih (hc.child (.array (.additional h5))) hx).and (h4.ev.and hit)).mono fun n hn => ?_)
    have hlen : (a.map (sem ext env n)).positional.length = a.positional.length := by simp [ArrC.map]
    exact .extra h1.1 h1.2 h2 (by simp [ArrC.map, h3]) (fun i d y => hn.2.1 i d y trivial) (by simp [ArrC.map, h5]) (by rw [hlen]; exact h6)
      (by rw [hlen]; exact h7) (by rw [hlen]; exact h8) h9 (fun i y hi hi' hy => hn.2.2 i y ⟨by rw [hlen] at hi; exact hi, hi'⟩ hy) hn.1
  | @addlItems a b xs h1 h2 h3 h4 h5 h6 h7 =>
    intro hc hv
    refine array_ev henv hc (h4.ev.mono fun n hn => ?_)
    have hlen : (a.map (sem ext env n)).positional.length = a.positional.length := by simp [ArrC.map]
    exact .addlItems h1.1 h1.2 h2 (by simp [ArrC.map, h3]) (fun i d y => hn i d y trivial) (by simp [ArrC.map, h5]) (by rw [hlen]; exact h6)
      (by rw [hlen]; exact h7)
  | @notObject o v h hmb =>
    intro hc hv
    refine .of fun n => ⟨sched0, ?_⟩
    rw [show (sem ext env n (.object o)).val = objectV ext (o.map (sem ext env n)) from denote_object _ _ _]
    rcases tidy_object hv with ⟨kvs, raws, hobj, hk, hr⟩ | ⟨t, ht⟩ | ⟨s, hs⟩
    · exact absurd (.obj hobj) (h kvs raws)
    · exact absurd (.time ((indirect_iff (by simp) (by simp) (by simp)).1 ht)) (h [] [])
    · unfold objectV
      simp only [hs]
      cases s with
      | err e' => rw [tidy_names_err hv hs]; rfl
      | abort a =>
        exfalso
        cases hv with
        | maybe b m => exact hmb b m (.self _ (by simp) (by simp))
        | map n kvs hn hx => exact h _ _ (.obj (.map n kvs hn))
        | struct fs hf hx => exact h _ _ (.obj (.struct fs hf))
        | ptr x hni hx =>
          cases hx with
          | maybe b m => exact hmb b m (.ptr _)
          | map n kvs hn hx => exact h _ _ (.obj (.ptrMap n kvs hn))
          | struct fs hf hx => exact h _ _ (.obj (.ptrStruct fs hf))
          | ptrNil => exact hni
          | ptr => exact hni
          | _ => cases hs
        | _ => cases hs
  | fewProps hp h1 h2 => exact fun hc _ => object_ev henv hc hp (.of fun n => .fewProps h1 h2)
  | manyProps hp h1 h2 h3 => exact fun hc _ => object_ev henv hc hp (.of fun n => .manyProps h1 h2 h3)
  | required hp h0 h1 h2 h3 => exact fun hc _ => object_ev henv hc hp (.of fun n => .required h0 h1 ((ObjC.map_declares _ _).2 h2) h3)
  | prop hp h0 h1 h2 _ ih =>
    intro hc hv
    exact object_ev henv hc hp ((ih (hc.child (.object (.prop h1))) ((hp.tidy hv).1 _ _ h2)).mono fun n hn =>
      .prop h0 ((ObjC.map_mem_props _ _).2 ⟨_, h1, rfl⟩) h2 hn)
  | pattern hp h0 hd h1 h2 h3 h4 _ ih =>
    intro hc hv
    exact object_ev henv hc hp (((ih (hc.child (.object (.pattern h2))) ((hp.tidy hv).2 _ _ h4)).and (hd.ev henv hc)).mono fun n hn =>
      .pattern h0 hn.2 (fun h' => h1 ((ObjC.map_declares _ _).1 h')) ((ObjC.map_mem_pats _ _).2 ⟨_, h2, rfl⟩) h3 h4 hn.1)
  | addlNotAllowed hp h0 hd hpt h1 h2 h3 h4 =>
    intro hc hv
    exact object_ev henv hc hp (((hd.ev henv hc).and hpt.ev).mono fun n hn =>
      .addlNotAllowed h0 hn.1 hn.2 (fun h' => h1 ((ObjC.map_declares _ _).1 h')) (fun h' => h2 ((ObjC.map_patternFor _ _).1 h')) h3
        (by simp [ObjC.map, h4]))
  | addlProp hp h0 hd hpt h1 h2 h3 h4 _ ih =>
    intro hc hv
    exact object_ev henv hc hp (((ih (hc.child (.object (.additional h3))) ((hp.tidy hv).2 _ _ h4)).and ((hd.ev henv hc).and hpt.ev)).mono
      fun n hn => .addlProp h0 hn.2.1 hn.2.2 (fun h' => h1 ((ObjC.map_declares _ _).1 h')) (fun h' => h2 ((ObjC.map_patternFor _ _).1 h'))
        (by simp [ObjC.map, h3]) h4 hn.1)
  | depMissing hp h0 hd hpt hot h1 h2 h3 h4 h5 =>
    intro hc hv
    exact object_ev henv hc hp (((hd.ev henv hc).and (hpt.ev.and hot.ev)).mono fun n hn =>
      .depMissing h0 hn.1 hn.2.1 hn.2.2 h1 ((ObjC.map_covers _ _).2 h2) h3 (fun d hd => ⟨(h4 d hd).1, (ObjC.map_covers _ _).2 (h4 d hd).2⟩)
        (fun h' => h5 ⟨h'.1, (ObjC.map_covers _ _).1 h'.2⟩))
  | dependency hp h0 hd hpt hot h1 h2 h3 h4 _ ih =>
    intro hc hv
    exact object_ev henv hc hp (((ih (hc.child (.object (.dependency h4))) hv).and ((hd.ev henv hc).and (hpt.ev.and hot.ev))).mono fun n hn =>
      .dependency h0 hn.2.1 hn.2.2.1 hn.2.2.2 h1 ((ObjC.map_covers _ _).2 h2) h3 (by rw [ObjC.map_schemaDep, h4]; rfl) hn.1)
  | @any cs v es _ ih =>
    intro hc hv
    have h1 : Ev fun n => ∀ c ∈ cs, CanRet ext env c v (.err (es c)) n := Ev.ball fun c hcm => ih c hcm (hc.child (.any hcm)) hv
    refine h1.mono fun n hn => ?_
    unfold CanRet
    rw [show (sem ext env n (.any cs)).val = anyLoop 0 (cs.map (sem ext env n)) from denote_any _ _ _]
    refine (anyLoop_first (list_readOnly henv hc n fun d hd => .any hd)).2 ⟨rfl, fun s hs => ?_⟩
    obtain ⟨d, hd, rfl⟩ := List.mem_map.1 hs
    obtain ⟨τ, hτ⟩ := hn d hd
    exact ⟨τ, _, hτ⟩
  | @all cs v j c e h1 h2 _ ih =>
    intro hc hv
    have hm := List.mem_of_getElem? h1
    have h3 : Ev fun n => ∀ i ∈ List.range j, ∀ d ∈ cs, cs[i]? = some d → CanRet ext env d v .ok n :=
      Ev.ball fun i hi => Ev.ball fun d _ => Ev.given fun he => (h2 i d (List.mem_range.1 hi) he).ev
    refine ((ih (hc.child (.all hm)) hv).and h3).mono fun n hn => ?_
    unfold CanRet
    rw [show (sem ext env n (.all cs)).val = allLoop 0 (cs.map (sem ext env n)) from denote_all _ _ _]
    refine (allLoop_first (list_readOnly henv hc n fun d hd => .all hd)).2 ⟨j, sem ext env n c, by simp [h1], hn.1, fun i s hi hs => ?_⟩
    rw [List.getElem?_map, Option.map_eq_some_iff] at hs
    obtain ⟨d, hd, rfl⟩ := hs
    exact hn.2 i (List.mem_range.2 hi) d (List.mem_of_getElem? hd) hd
  | @oneOfNone cs v es _ ih =>
    intro hc hv
    have h1 : Ev fun n => ∀ c ∈ cs, CanRet ext env c v (.err (es c)) n := Ev.ball fun c hcm => ih c hcm (hc.child (.oneOf hcm)) hv
    refine h1.mono fun n hn => ?_
    unfold CanRet
    rw [show (sem ext env n (.oneOf cs)).val = oneOfLoop 0 0 (cs.map (sem ext env n)) from denote_oneOf _ _ _]
    refine (oneOfLoop_first (list_readOnly henv hc n fun d hd => .oneOf hd)).2 (Or.inl ⟨rfl, fun s hs => ?_⟩)
    obtain ⟨d, hd, rfl⟩ := List.mem_map.1 hs
    obtain ⟨τ, hτ⟩ := hn d hd
    exact ⟨τ, _, hτ⟩
  | @oneOfMany cs v i j c d es hij hi hj h1 h2 _ ih =>
    intro hc hv
    have h3 : Ev fun n => ∀ c ∈ cs, ∃ r : Res, r.Normal ∧ CanRet ext env c v r n := by
      refine Ev.ball fun c hcm => ?_
      by_cases ha : Accepted ext env c v
      · exact ha.ev.mono fun n hn => ⟨.ok, (by intro a h; cases h), hn⟩
      · exact (ih c hcm ha (hc.child (.oneOf hcm)) hv).mono fun n hn => ⟨_, (by intro a h; cases h), hn⟩
    refine (h3.and (h1.ev.and h2.ev)).mono fun n hn => ?_
    unfold CanRet
    rw [show (sem ext env n (.oneOf cs)).val = oneOfLoop 0 0 (cs.map (sem ext env n)) from denote_oneOf _ _ _]
    refine (oneOfLoop_first (list_readOnly henv hc n fun d hd => .oneOf hd)).2 (Or.inr ⟨rfl, fun s hs => ?_, i, j, sem ext env n c, sem ext env n d,
      hij, by simp [hi], by simp [hj], hn.2.1, hn.2.2⟩)
    obtain ⟨d, hd, rfl⟩ := List.mem_map.1 hs
    obtain ⟨r, hr, τ, hτ⟩ := hn.1 d hd
    exact ⟨τ, by rw [hτ]; exact hr⟩
  | @notFailed c v h =>
    intro hc hv
    refine h.ev.mono fun n hn => ?_
    obtain ⟨τ, hτ⟩ := hn
    refine ⟨.assemble fun _ => τ, ?_⟩
    rw [show (sem ext env n (.not (some c))).val = notV ((some c).map (sem ext env n)) from denote_not _ _ _]
    simp only [Option.map_some, notV]
    rcases hd : (sem ext env n c).val τ v with ⟨r, w⟩
    rw [hd] at hτ
    simp only at hτ; subst hτ
    rw [show (Sched.assemble fun _ => τ).sub 0 = τ from rfl, hd]
  | @notNoChild v =>
    intro hc hv
    refine .of fun n => ⟨sched0, ?_⟩
    rw [show (sem ext env n (.not none)).val = notV (none : Option Sem) from denote_not _ _ _]
    rfl
  | ref hm _ ih =>
    intro hc hv
    refine (ih (henv _ _ _ hm) hv).shift fun n hn => ?_
    obtain ⟨τ, hτ⟩ := hn
    refine ⟨τ, ?_⟩
    simp only [sem, denote, refSem, hm]
    exact hτ
  | refNotFound hm =>
    intro hc hv
    refine (Ev.of fun _ => trivial : Ev fun _ => True).shift fun n _ => ⟨sched0, ?_⟩
    simp only [sem, denote, refSem, hm]
    rfl

end Jsval
