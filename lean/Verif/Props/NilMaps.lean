import Verif.Props.Defaults
import Verif.Props.References
/-!
# Nil maps (C43): exactly when an object constraint panics on one
-/
namespace Jsval
variable {ext : Ext} {env : Env} {o : ObjC Constraint} {b : Bool} {σ : Sched}

/-- What the loop over the declared properties makes of a nil map. -/
def nilOut (req : List GoStr) : List (GoStr × Sem) → Res
  | [] => .ok
  | (p, c) :: l =>
    if p ∈ req then .err (.required p)
    else match c.dflt with
      | .abort a => .abort a
      | .none => nilOut req l
      | .some .nil => nilOut req l
      | .some _ => .abort .panic

theorem nilOut_loop {q : ObjC Sem} : ∀ (l : List (GoStr × Sem)) (i : Nat),
    forLoop (propStep ext q σ) i l ⟨MapArg b true [], [], []⟩ = (nilOut q.required l, ⟨MapArg b true [], [], []⟩)
  | [], _ => rfl
  | (p, c) :: l, i => by
    rw [forLoop, nilOut]
    have hv : viewProp (valueOf (MapArg b true [])).indirect p = .ok .absent := by cases b <;> rfl
    unfold propStep
    simp only [hv]
    by_cases hr : p ∈ q.required
    · simp [hr]
    · simp only [hr, if_false]
      rcases hd : c.dflt with _ | dv | a
      · exact nilOut_loop l (i + 1)
      · have hs : setProp ext (MapArg b true []) p dv = match dv with | .nil => .ok (MapArg b true []) | _ => .error (.abort .panic) := by
          cases b <;> cases dv <;> rfl
        simp only [hs]
        cases dv <;> first | exact nilOut_loop l (i + 1) | rfl
      · rfl

theorem objectV_nil {q : ObjC Sem} : objectV ext q σ (MapArg b true []) =
    (if 0 < q.minProps then .err .fewProps else nilOut q.required (shuffle (σ.sub 0).key q.props), MapArg b true []) := by
  have hn : getPropNames (valueOf (MapArg b true [])).indirect = .ok [] := by cases b <;> rfl
  unfold objectV
  simp only [hn, List.length_nil, Int.natCast_zero, objLoops, nameSet, List.foldl_nil, nilOut_loop]
  by_cases h : 0 < q.minProps
  · rw [if_pos ⟨by omega, h⟩, if_pos h]
  · rw [if_neg (fun hh => h hh.2), if_neg (fun hh => by omega), if_neg h]
    rcases nilOut q.required (shuffle (σ.sub 0).key q.props) with _ | e | a
    · have : ∀ k, forLoop (patOuter ext σ) k (shuffle (σ.sub 2).key q.patterns) (⟨MapArg b true [], [], []⟩ : ObjSt) = (.ok, ⟨MapArg b true [], [], []⟩) := by
        generalize shuffle (σ.sub 2).key q.patterns = l
        induction l with
        | nil => intro k; rfl
        | cons p l ih => intro k; rw [forLoop]; exact ih (k + 1)
      simp [seqSt, this, addlPhase, shuffle, forLoop]
    · rfl
    · rfl

theorem sem_nil (fuel : Nat) : (sem ext env fuel (.object o)).val σ (MapArg b true []) =
    (if 0 < o.minProps then .err .fewProps
      else nilOut o.required (shuffle (σ.sub 0).key (o.props.map fun p => (p.1, sem ext env fuel p.2))), MapArg b true []) := by
  rw [sem, denote_object, objectV_nil]
  rfl

/-- This property is declared and not required, and has a default that is not nil. -/
def ObjC.WouldFill (ext : Ext) (env : Env) (o : ObjC Constraint) (p : GoStr) : Prop :=
  ∃ c dv, (p, c) ∈ o.props ∧ p ∉ o.required ∧ DefaultReturns ext env c (.some dv) ∧ dv ≠ .nil

/-- Constraints have no default, one, or one that is never found out. -/
theorem dflt_diverges (fuel : Nat) (c : Constraint) (a : Abort) (h : (sem ext env fuel c).dflt = .abort a) : a = .diverge := by
  have key : ∀ (ρ : RefSem), (∀ m n a, (ρ m n).dflt = .abort a → a = .diverge) → ∀ c a, (denote ext ρ c).dflt = .abort a → a = .diverge := by
    intro ρ hρ c a h
    have hof : ∀ d : Option GoVal, Dflt.ofOption d ≠ .abort a := fun d => by cases d <;> simp [Dflt.ofOption]
    cases c <;> simp only [denote] at h <;> first | cases h; done | exact absurd h (hof _) | exact hρ _ _ _ h
  refine key _ ?_ c a h
  clear h
  induction fuel with
  | zero => intro m n a h; cases h; rfl
  | succ k ih =>
    intro m n a h
    simp only [refSem] at h
    split at h
    · cases h
    · exact key _ ih _ _ h

theorem nilOut_panic {req : List GoStr} {fuel : Nat} : ∀ {l : List (GoStr × Constraint)},
    nilOut req (l.map fun p => (p.1, sem ext env fuel p.2)) = .abort .panic →
    ∃ p c dv, (p, c) ∈ l ∧ p ∉ req ∧ DefaultReturns ext env c (.some dv) ∧ dv ≠ .nil
  | [], h => by cases h
  | (p, c) :: l, h => by
    rw [List.map_cons, nilOut] at h
    split at h
    · cases h
    · rename_i hr
      split at h
      · rename_i a hd
        cases dflt_diverges _ _ _ hd
        cases h
      · obtain ⟨p, c, dv, h1, h2⟩ := nilOut_panic h
        exact ⟨p, c, dv, by simp [h1], h2⟩
      · obtain ⟨p, c, dv, h1, h2⟩ := nilOut_panic h
        exact ⟨p, c, dv, by simp [h1], h2⟩
      · rename_i dv hn hd
        exact ⟨p, c, dv, by simp, hr, ⟨by simp, fuel, hd⟩, hn⟩

/-- C43, exactly: an object constraint panics on a nil map (or a pointer to one), in some iteration order, if and only if it does not
ask for more properties and declares a property that is not required and has a default other than nil. -/
theorem C43_panics_iff : (∃ σ v', Returns ext env (.object o) σ (MapArg b true []) (.abort .panic) v') ↔
    o.minProps ≤ 0 ∧ ∃ p, o.WouldFill ext env p := by
  constructor
  · rintro ⟨σ, v', -, fuel, h⟩
    rw [sem_nil] at h
    have h := congrArg Prod.fst h
    simp only at h
    split at h
    · cases h
    · rename_i hm
      refine ⟨by omega, ?_⟩
      rw [shuffle_map] at h
      obtain ⟨p, c, dv, h1, h2⟩ := nilOut_panic h
      exact ⟨p, c, dv, mem_shuffle.1 h1, h2⟩
  · rintro ⟨hm, p, c, dv, hp, hr, ⟨-, fuel, hd⟩, hn⟩
    obtain ⟨s, t, e⟩ := List.append_of_mem hp
    obtain ⟨k, hk⟩ := shuffle_surj (o.props.map fun p => (p.1, sem ext env fuel p.2)) ((p, sem ext env fuel c) :: (s ++ t).map fun p => (p.1, sem ext env fuel p.2)) (by
      rw [e, ← List.map_cons (f := fun p : GoStr × Constraint => (p.1, sem ext env fuel p.2)) (a := (p, c))]
      exact (List.perm_middle.symm).map _)
    refine ⟨fun _ => k, MapArg b true [], by simp, fuel, ?_⟩
    rw [sem_nil, if_neg (by omega), show Sched.key (Sched.sub (fun _ => k) 0) = k from rfl, hk, nilOut, if_neg hr, hd]
    cases dv <;> first | exact absurd rfl hn | rfl

theorem nilOut_ok {req : List GoStr} : ∀ {l : List (GoStr × Sem)}, nilOut req l = .ok ↔
    ∀ p c, (p, c) ∈ l → p ∉ req ∧ (c.dflt = .none ∨ c.dflt = .some .nil)
  | [] => by simp [nilOut]
  | (p, c) :: l => by
    have ih := nilOut_ok (req := req) (l := l)
    rw [nilOut]
    constructor
    · intro h
      split at h
      · cases h
      · rename_i hr
        intro q d hq
        rcases List.mem_cons.1 hq with e | hq
        · cases e
          split at h
          · cases h
          · exact ⟨hr, Or.inl (by assumption)⟩
          · exact ⟨hr, Or.inr (by assumption)⟩
          · cases h
        · split at h
          · cases h
          · exact ih.1 h q d hq
          · exact ih.1 h q d hq
          · cases h
    · intro h
      obtain ⟨h1, h2⟩ := h p c (by simp)
      rw [if_neg h1]
      have := ih.2 fun q d hq => h q d (by simp [hq])
      rcases h2 with e | e <;> rw [e] <;> exact this

/-- Finitely many defaults are all found out with the same fuel. -/
theorem dflts_fuel : ∀ {l : List (GoStr × Constraint)}, (∀ p c, (p, c) ∈ l → ∃ d, DefaultReturns ext env c d) →
    ∃ fuel, ∀ p c d, (p, c) ∈ l → DefaultReturns ext env c d → (sem ext env fuel c).dflt = d
  | [], _ => ⟨0, fun _ _ _ h => by cases h⟩
  | (p, c) :: l, h => by
    obtain ⟨k, hk⟩ := dflts_fuel (l := l) fun p c hp => h p c (by simp [hp])
    obtain ⟨d, hd, k', hk'⟩ := h p c (by simp)
    have up : ∀ {j j' : Nat} {c d}, j ≤ j' → d ≠ .abort .diverge → (sem ext env j c).dflt = d → (sem ext env j' c).dflt = d := by
      intro j j' c d hj hd h
      rw [(sem_below hj c).dflt (by rw [h]; rintro a rfl; exact hd), h]
    refine ⟨max k k', fun q e d' hq hd' => ?_⟩
    rcases List.mem_cons.1 hq with e' | hq
    · cases e'
      obtain ⟨hd2, j, hj⟩ := hd'
      have h1 := up (Nat.le_max_left k' j) hd hk'
      have h2 := up (Nat.le_max_right k' j) hd2 hj
      rw [h1] at h2
      subst h2
      exact up (Nat.le_max_right k k') hd hk'
    · exact up (Nat.le_max_left k k') hd'.1 (hk q e d' hq hd')

/-- C43, exactly: a nil map (or a pointer to one) is accepted, whatever the iteration order, if and only if no property is asked for and
none of the declared ones has a default other than nil. -/
theorem C43_accepts_iff : (∃ v', Returns ext env (.object o) σ (MapArg b true []) .ok v') ↔
    o.minProps ≤ 0 ∧ ∀ p c, (p, c) ∈ o.props → p ∉ o.required ∧ (DefaultReturns ext env c .none ∨ DefaultReturns ext env c (.some .nil)) := by
  constructor
  · rintro ⟨v', -, fuel, h⟩
    rw [sem_nil] at h
    have h := congrArg Prod.fst h
    simp only at h
    split at h
    · cases h
    · rename_i hm
      refine ⟨by omega, fun p c hp => ?_⟩
      obtain ⟨h1, h2⟩ := nilOut_ok.1 h p _ (mem_shuffle.2 (List.mem_map.2 ⟨(p, c), hp, rfl⟩))
      exact ⟨h1, h2.imp (fun e => ⟨by simp, fuel, e⟩) fun e => ⟨by simp, fuel, e⟩⟩
  · rintro ⟨hm, h⟩
    obtain ⟨fuel, hf⟩ := dflts_fuel (l := o.props) fun p c hp => (h p c hp).2.elim (fun h => ⟨_, h⟩) fun h => ⟨_, h⟩
    refine ⟨MapArg b true [], by simp, fuel, ?_⟩
    rw [sem_nil, if_neg (by omega)]
    refine Prod.ext (nilOut_ok.2 fun p s hp => ?_) rfl
    obtain ⟨⟨p, c⟩, hp', e⟩ := List.mem_map.1 (mem_shuffle.1 hp)
    cases e
    exact ⟨(h p c hp').1, (h p c hp').2.imp (hf p c _ hp') (hf p c _ hp')⟩

theorem nilOut_first {req : List GoStr} {l : List (GoStr × Sem)} (h1 : ∀ p c, (p, c) ∈ l → p ∉ req ∧ ∀ a, c.dflt ≠ .abort a)
    (h2 : ∃ p c dv, (p, c) ∈ l ∧ c.dflt = .some dv ∧ dv ≠ .nil) : nilOut req l = .abort .panic := by
  induction l with
  | nil => obtain ⟨p, c, dv, h, -⟩ := h2; cases h
  | cons x l ih =>
    obtain ⟨p, c⟩ := x
    obtain ⟨h3, h4⟩ := h1 p c (by simp)
    rw [nilOut, if_neg h3]
    have rest : (∀ dv, c.dflt = .some dv → dv = .nil) → nilOut req l = .abort .panic := by
      intro hc
      refine ih (fun q d hq => h1 q d (by simp [hq])) ?_
      obtain ⟨q, d, dv, hq, hd, hn⟩ := h2
      rcases List.mem_cons.1 hq with e | hq
      · cases e; exact absurd (hc dv hd) hn
      · exact ⟨q, d, dv, hq, hd, hn⟩
    split
    · rename_i a ha; exact absurd ha (h4 a)
    · rename_i hd; exact rest fun dv h => by rw [hd] at h; cases h
    · rename_i hd; exact rest fun dv h => by rw [hd] at h; cases h; rfl
    · rfl

/-- C43, exactly: it panics on a nil map whatever the iteration order if and only if, besides, none of the declared properties is required
and the defaults of all of them are found out. -/
theorem C43_panics_always_iff : (∀ σ, ∃ v', Returns ext env (.object o) σ (MapArg b true []) (.abort .panic) v') ↔
    o.minProps ≤ 0 ∧ (∃ p, o.WouldFill ext env p) ∧ ∀ p c, (p, c) ∈ o.props → p ∉ o.required ∧ ∃ d, DefaultReturns ext env c d := by
  constructor
  · intro h
    obtain ⟨hm, hf⟩ := C43_panics_iff.1 ⟨_, h fun _ => 0⟩
    refine ⟨hm, hf, fun p c hp => ?_⟩
    obtain ⟨s, t, e⟩ := List.append_of_mem hp
    obtain ⟨k, hk⟩ := shuffle_surj o.props ((p, c) :: (s ++ t)) (by rw [e]; exact List.perm_middle.symm)
    obtain ⟨v', -, fuel, h⟩ := h fun _ => k
    rw [sem_nil, if_neg (by omega), show Sched.key (Sched.sub (fun _ => k) 0) = k from rfl, shuffle_map, hk, List.map_cons, nilOut] at h
    split at h
    · cases congrArg Prod.fst h
    · rename_i hr
      refine ⟨hr, ?_⟩
      rcases hd : (sem ext env fuel c).dflt with _ | dv | a
      · exact ⟨_, by simp, fuel, hd⟩
      · exact ⟨_, by simp, fuel, hd⟩
      · cases dflt_diverges _ _ _ hd
        simp only [hd] at h
        cases congrArg Prod.fst h
  · rintro ⟨hm, ⟨p, c, dv, hp, hr, hd, hn⟩, h⟩ σ
    obtain ⟨fuel, hf⟩ := dflts_fuel (l := o.props) fun p c hp => (h p c hp).2
    refine ⟨MapArg b true [], by simp, fuel, ?_⟩
    rw [sem_nil, if_neg (by omega)]
    refine Prod.ext (nilOut_first (fun q s hq => ?_) ⟨p, _, dv, mem_shuffle.2 (List.mem_map.2 ⟨_, hp, rfl⟩), hf p c _ hp hd, hn⟩) rfl
    obtain ⟨⟨q, c⟩, hq', e⟩ := List.mem_map.1 (mem_shuffle.1 hq)
    cases e
    obtain ⟨h1, d, h2⟩ := h q c hq'
    refine ⟨h1, fun a ha => ?_⟩
    cases dflt_diverges _ _ _ ha
    rw [hf q c d hq' h2] at ha
    exact h2.1 ha

/-- a property with a default: a panic in every order … -/
example : ∀ σ, ∃ v', Returns demoExt env0 (.object exDefault) σ (.map true []) (.abort .panic) v' :=
  (C43_panics_always_iff (b := false)).2 ⟨by decide, ⟨b! "a", _, .str (b! "d"), List.mem_cons_self, by decide, ⟨by simp, 0, rfl⟩, by simp⟩,
    fun p c h => by
      replace h : (p, c) ∈ [(b! "a", .string (String'.Default (.str (b! "d")))), (b! "b", .empty)] := h
      simp only [List.mem_cons, List.not_mem_nil, or_false, Prod.mk.injEq] at h
      rcases h with ⟨rfl, rfl⟩ | ⟨rfl, rfl⟩
      · exact ⟨by decide, .some (.str (b! "d")), by simp, 0, rfl⟩
      · exact ⟨by decide, .none, by simp, 0, rfl⟩⟩

/-- … and if the other one is required: a panic in one order, an error in the other -/
example : (∃ σ v', Returns demoExt env0 (.object (exDefault.Required [b! "b"])) σ (.map true []) (.abort .panic) v') ∧
    ¬ ∀ σ, ∃ v', Returns demoExt env0 (.object (exDefault.Required [b! "b"])) σ (.map true []) (.abort .panic) v' :=
  ⟨(C43_panics_iff (b := false)).2 ⟨by decide, b! "a", _, .str (b! "d"), List.mem_cons_self, by decide, ⟨by simp, 0, rfl⟩, by simp⟩,
    fun h => ((C43_panics_always_iff (b := false)).1 h).2.2 (b! "b") .empty (List.mem_cons_of_mem _ (List.mem_singleton.2 rfl)) |>.1 (by decide)⟩

/-- a nil default does no harm -/
example : ∃ v', Returns demoExt env0 (.object (Object'.AddProp (b! "a") (.string (String'.Default .nil)))) σ (.map true []) .ok v' :=
  (C43_accepts_iff (b := false)).2 ⟨by decide, fun p c h => by cases List.mem_singleton.1 h; exact ⟨by decide, Or.inr ⟨by simp, 0, rfl⟩⟩⟩

end Jsval
