import Verif.Lemmas.Inline
import Verif.Lemmas.Terminate
import Verif.Lemmas.RefMachine
/-!
# References (C45-C51, C73, C74)
-/
namespace Jsval
variable {ext : Ext} {env : Env}

/-! ## C45 -/

/-- C45: a registered reference returns exactly what its target returns, and has its default. -/
theorem C45_target {m : Nat} {n : GoStr} {t : Constraint} (h : env m n = some t) :
    (∀ σ v r v', Returns ext env (.ref m n) σ v r v' ↔ Returns ext env t σ v r v') ∧
      ∀ d, DefaultReturns ext env (.ref m n) d ↔ DefaultReturns ext env t d := by
  have key : ∀ k, sem ext env (k + 1) (.ref m n) = sem ext env k t := fun k => by
    simp [sem, denote, refSem, h]
  have z : sem ext env 0 (.ref m n) = running := by simp [sem, denote, refSem]
  refine ⟨fun σ v r v' => ⟨?_, ?_⟩, fun d => ⟨?_, ?_⟩⟩
  · rintro ⟨hr, k, hk⟩
    cases k with
    | zero => rw [z] at hk; cases hk; exact absurd rfl hr
    | succ k => exact ⟨hr, k, by rw [← key, hk]⟩
  · rintro ⟨hr, k, hk⟩
    exact ⟨hr, k + 1, by rw [key, hk]⟩
  · rintro ⟨hr, k, hk⟩
    cases k with
    | zero => rw [z] at hk; exact absurd hk.symm hr
    | succ k => exact ⟨hr, k, by rw [← key, hk]⟩
  · rintro ⟨hr, k, hk⟩
    exact ⟨hr, k + 1, by rw [key, hk]⟩

/-- C45, in every context: replacing any references in a tree by the constraints registered for them changes neither
verdict nor effects nor default. -/
theorem C45_context {f : Nat → GoStr → Constraint} (hf : ∀ m n, f m n = .ref m n ∨ env m n = some (f m n)) (c : Constraint) :
    (∀ σ v r v', Returns ext env (c.inline f) σ v r v' ↔ Returns ext env c σ v r v') ∧
      ∀ d, DefaultReturns ext env (c.inline f) d ↔ DefaultReturns ext env c d := by
  refine ⟨fun σ v r v' => ⟨?_, ?_⟩, fun d => ⟨?_, ?_⟩⟩
  · rintro ⟨hr, k, hk⟩
    exact ⟨hr, k + 1, (sem_inline_below hf k c).2.keep hr hk⟩
  · rintro ⟨hr, k, hk⟩
    exact ⟨hr, k, (sem_inline_below hf k c).1.keep hr hk⟩
  · rintro ⟨hr, k, hk⟩
    exact ⟨hr, k + 1, (sem_inline_below hf k c).2.keepD hr hk⟩
  · rintro ⟨hr, k, hk⟩
    exact ⟨hr, k, (sem_inline_below hf k c).1.keepD hr hk⟩

/-- C45: an unregistered reference rejects every value, leaves it alone, and has no default. -/
theorem C45_unregistered {m : Nat} {n : GoStr} (h : env m n = none) (σ : Sched) (v : GoVal) :
    Returns ext env (.ref m n) σ v (.err (.refNotFound n)) v ∧ DefaultReturns ext env (.ref m n) .none :=
  ⟨⟨by simp, 1, by simp [sem, denote, refSem, h, unresolved]⟩, ⟨by simp, 1, by simp [sem, denote, refSem, h, unresolved]⟩⟩

/-- One reference in an object below a negation, next to one that stays. -/
def exInline : Constraint :=
  .not (some (.object ((Object'.AddProp (b! "a") (.ref 0 (b! "t"))).AddProp (b! "b") (.ref 0 (b! "u")))))
def exInlineEnv : Env := fun _ n =>
  if n = b! "t" then some (.string (String'.Default (.str (b! "d")))) else if n = b! "u" then some .null else none
def exInlineF : Nat → GoStr → Constraint := fun m n => if n = b! "t" then .string (String'.Default (.str (b! "d"))) else .ref m n

/-- The hypothesis of `C45_context` holds there, and the replacement is a real one. -/
example : (∀ m n, exInlineF m n = .ref m n ∨ exInlineEnv m n = some (exInlineF m n)) ∧
    exInline.inline exInlineF = .not (some (.object ((Object'.AddProp (b! "a") (.string (String'.Default (.str (b! "d"))))).AddProp
      (b! "b") (.ref 0 (b! "u"))))) := by
  refine ⟨fun m n => ?_, rfl⟩
  unfold exInlineF exInlineEnv
  by_cases h : n = b! "t"
  · right; simp [h]
  · left; simp [h]
/-- The default of the target is written. -/
example : Returns demoExt exInlineEnv exInline sched0 (.map false [(b! "b", .nil)]) (.err .notFailed)
    (.map false [(b! "b", .nil), (b! "a", .str (b! "d"))]) := ⟨by simp, 2, rfl⟩

/-! ### The cache

`denote` reads the tables directly; `ReferenceConstraint.Resolved` reads its cache first. -/

/-- The caches agree with the tables. -/
def RefStore.Coherent {C : Type} (s : RefStore C) : Prop :=
  ∀ r c, (s.refs r).resolved = some c →
    ((s.maps (s.refs r).resolver).GetReference (s.refs r).reference).1 = .ok (some c)

theorem CMap.GetReference_keeps {C : Type} (cm : CMap C) (n n' : GoStr) :
    ((cm.GetReference n).2.GetReference n').1 = (cm.GetReference n').1 := by
  obtain ⟨refs⟩ := cm
  cases refs with
  | none => rfl
  | some l =>
    unfold CMap.GetReference CMap.refmap
    simp only
    cases h : alookup n l <;> simp

theorem CMap.GetReference_Set {C : Type} (cm : CMap C) (n n' : GoStr) (c : Option C) :
    ((cm.SetReference n c).GetReference n').1 = if n' = n then .ok c else (cm.GetReference n').1 := by
  obtain ⟨refs⟩ := cm
  have : ∀ l : List (GoStr × Option C), (CMap.GetReference ⟨some l⟩ n').1 =
      match alookup n' l with | none => .error (.refNotFound n') | some c => .ok c := by
    intro l
    unfold CMap.GetReference CMap.refmap
    simp only
    cases alookup n' l <;> rfl
  cases refs with
  | none =>
    unfold CMap.SetReference
    simp only [CMap.refmap, this, alookup_ainsert]
    by_cases hn : n' = n <;> simp [hn] <;> rfl
  | some l =>
    unfold CMap.SetReference
    simp only [CMap.refmap]
    rw [this, this, alookup_ainsert]
    by_cases hn : n' = n <;> simp [hn]

/-- C45: as long as caches agree with the tables, a resolution returns what the table says, and nothing it changes
can be observed by a later resolution. -/
theorem C45_cache {C : Type} {s : RefStore C} (h : s.Coherent) (r : Nat) :
    (s.Resolved r).1 = ((s.maps (s.refs r).resolver).GetReference (s.refs r).reference).1 ∧
      (s.Resolved r).2.Coherent ∧ ∀ r', ((s.Resolved r).2.Resolved r').1 = (s.Resolved r').1 := by
  have res : ∀ {s : RefStore C}, s.Coherent → ∀ r,
      (s.Resolved r).1 = ((s.maps (s.refs r).resolver).GetReference (s.refs r).reference).1 := by
    intro s h r
    unfold RefStore.Resolved
    cases hc : (s.refs r).resolved with
    | some c => simp only; exact (h r c hc).symm
    | none =>
      simp only
      split <;> next hg => rw [hg]
  have tab : ∀ m n, (((s.Resolved r).2.maps m).GetReference n).1 = ((s.maps m).GetReference n).1 := by
    intro m n
    unfold RefStore.Resolved
    cases hc : (s.refs r).resolved with
    | some c => rfl
    | none =>
      simp only
      split <;> next hg =>
        simp only
        split
        · next hm =>
          subst hm
          have := CMap.GetReference_keeps (s.maps (s.refs r).resolver) (s.refs r).reference n
          rwa [hg] at this
        · rfl
  have names : ∀ r', ((s.Resolved r).2.refs r').resolver = (s.refs r').resolver ∧
      ((s.Resolved r).2.refs r').reference = (s.refs r').reference := by
    intro r'
    unfold RefStore.Resolved
    cases hc : (s.refs r).resolved with
    | some c => exact ⟨rfl, rfl⟩
    | none =>
      simp only
      split <;> simp only
      · exact ⟨trivial, trivial⟩
      · split
        · next hr => subst hr; exact ⟨rfl, rfl⟩
        · exact ⟨rfl, rfl⟩
  have coh : (s.Resolved r).2.Coherent := by
    intro r' c hc
    rw [tab, (names r').1, (names r').2]
    by_cases hr : r' = r
    · subst hr
      cases hx : (s.refs r').resolved with
      | some c' =>
        have e : (s.Resolved r').2 = s := by unfold RefStore.Resolved; rw [hx]
        rw [e] at hc
        exact h r' c hc
      | none =>
        unfold RefStore.Resolved at hc
        rw [hx] at hc
        simp only at hc
        split at hc
        · simp only at hc; rw [hx] at hc; cases hc
        · next hg =>
          simp only [if_true] at hc
          subst hc
          rw [hg]
    · have e : ((s.Resolved r).2.refs r') = s.refs r' := by
        unfold RefStore.Resolved
        cases hx : (s.refs r).resolved with
        | some c => rfl
        | none =>
          simp only
          split <;> simp only
          rw [if_neg hr]
      rw [e] at hc
      exact h r' c hc
  refine ⟨res h r, coh, fun r' => ?_⟩
  rw [res coh r', res h r', tab, (names r').1, (names r').2]

/-- C45: caches keep agreeing with the tables when names that are not registered yet get registered, as the builder
does. -/
theorem C45_cache_set {C : Type} {s : RefStore C} (h : s.Coherent) {m : Nat} {n : GoStr} {c : Option C}
    (hn : ∃ e, ((s.maps m).GetReference n).1 = .error e) : (s.SetReference m n c).Coherent := by
  intro r c' hc
  have hc' : (s.refs r).resolved = some c' := hc
  have := h r c' hc'
  unfold RefStore.SetReference
  simp only
  split
  · next hm =>
    subst hm
    rw [CMap.GetReference_Set]
    split
    · next hr =>
      obtain ⟨e, he⟩ := hn
      rw [← hr, this] at he
      cases he
    · exact this
  · exact this

/-- C45: a reference object, resolved or not, behaves as a reference to its name does when the tables are fixed; this goes on when it
has been used. -/
theorem C45_objects {s : RefStore Constraint} (h : s.Coherent) (hreg : ∀ m n c, ((s.maps m).GetReference n).1 = .ok (some c) ↔ env m n = some c)
    (r r' k : Nat) (hn : ((s.maps (s.refs r).resolver).GetReference (s.refs r).reference).1 ≠ .ok none) :
    s.behave (sem ext env k) r = sem ext env (k + 1) (.ref (s.refs r).resolver (s.refs r).reference) ∧
      (s.Resolved r').2.behave (sem ext env k) r = s.behave (sem ext env k) r := by
  have hname : ((s.Resolved r').2.refs r).reference = (s.refs r).reference := by
    unfold RefStore.Resolved
    cases hc : (s.refs r').resolved with
    | some c => rfl
    | none =>
      simp only
      split <;> simp only
      split
      · next hr => subst hr; rfl
      · rfl
  constructor
  · unfold RefStore.behave
    rw [(C45_cache h r).1]
    simp only [sem, denote, refSem]
    rcases e : ((s.maps (s.refs r).resolver).GetReference (s.refs r).reference).1 with e' | (_ | c)
    · cases he : env (s.refs r).resolver (s.refs r).reference with
      | none => rfl
      | some c =>
        rw [← hreg, e] at he
        cases he
    · exact absurd e hn
    · rw [(hreg _ _ _).1 e]
  · unfold RefStore.behave
    rw [(C45_cache h r').2.2 r, hname]

/-- C45: a reference whose name stands for a nil constraint panics, and leaves the argument alone. -/
theorem C45_nil {C : Type} {s : RefStore C} (h : s.Coherent) {r : Nat}
    (hn : ((s.maps (s.refs r).resolver).GetReference (s.refs r).reference).1 = .ok none) (beh : C → Sem) :
    (s.behave beh r).dflt = .abort .panic ∧ ∀ σ v, (s.behave beh r).val σ v = (.abort .panic, v) := by
  unfold RefStore.behave
  rw [(C45_cache h r).1, hn]
  exact ⟨rfl, fun _ _ => rfl⟩

/-- One reference to a string constraint that has been resolved, one that has not, one to a name that is not there and one to a nil constraint. -/
def exObjects : RefStore Constraint where
  maps := fun _ => ⟨some [(b! "a", some (.string String')), (b! "z", none)]⟩
  refs := fun r => if r = 0 then ⟨0, b! "a", some (.string String')⟩ else if r = 1 then ⟨1, b! "a", none⟩ else if r = 2 then ⟨0, b! "b", none⟩
    else ⟨0, b! "z", none⟩

theorem exObjects_coherent : exObjects.Coherent := by
  intro r c h
  simp only [exObjects] at h ⊢
  split_ifs at h ⊢
  cases h
  rfl

example : exObjects.behave (sem demoExt (fun _ n => if n = b! "a" then some (.string String') else none) 3) 2 =
      sem demoExt (fun _ n => if n = b! "a" then some (.string String') else none) 4 (.ref 0 (b! "b")) ∧
    (exObjects.behave (sem demoExt (fun _ n => if n = b! "a" then some (.string String') else none) 3) 7).dflt = .abort .panic := by
  refine ⟨(C45_objects exObjects_coherent (fun m n c => ?_) 2 1 3 (fun h => by cases h)).1, (C45_nil exObjects_coherent rfl _).1⟩
  by_cases h1 : n = b! "a"
  · subst h1
    exact ⟨fun h => (by cases h; rfl), fun h => (by cases h; rfl)⟩
  · by_cases h2 : n = b! "z"
    · subst h2
      exact ⟨fun h => (by cases h), fun h => (by cases h)⟩
    · simp [exObjects, CMap.GetReference, CMap.refmap, alookup, h1, Ne.symm h1, Ne.symm h2]

/-- Two references to one name, one of them resolved. -/
def exStore : RefStore Nat where
  maps := fun _ => ⟨some [(b! "a", some 5), (b! "b", some 6)]⟩
  refs := fun r => { resolver := 0, reference := b! "a", resolved := if r = 0 then some 5 else none }
example : exStore.Coherent ∧ (exStore.Resolved 1).1 = .ok (some 5) ∧ ((exStore.Resolved 1).2.refs 1).resolved = some 5 := by
  refine ⟨fun r c h => ?_, rfl, rfl⟩
  simp only [exStore] at h
  split at h
  · cases h; rfl
  · cases h
/-- Without agreement the cache decides: re-registering a resolved name is not seen. -/
example : ((exStore.SetReference 0 (b! "a") (some 9)).Resolved 0).1 = .ok (some 5) ∧
    ((exStore.SetReference 0 (b! "a") (some 9)).Resolved 1).1 = .ok (some 9) := ⟨rfl, rfl⟩

/-! ## C46 -/

/-- The map after these `SetReference` calls, in order. -/
def setAll {C : Type} (cm : CMap C) (ops : List (GoStr × Option C)) : CMap C :=
  ops.foldl (fun cm op => cm.SetReference op.1 op.2) cm

/-- C46: a lookup finds the last registration of the name, or fails if there is none. -/
theorem C46_last_writer_wins {C : Type} (ops : List (GoStr × Option C)) (n : GoStr) :
    ((setAll {} ops).GetReference n).1 =
      match (ops.filter (fun op => op.1 = n)).getLast? with
      | none => .error (.refNotFound n)
      | some op => .ok op.2 := by
  induction ops using List.reverseRecOn with
  | nil => rfl
  | append_singleton ops op ih =>
    have : setAll {} (ops ++ [op]) = (setAll {} ops).SetReference op.1 op.2 := by simp [setAll, List.foldl_append]
    rw [this, CMap.GetReference_Set, ih, List.filter_append]
    by_cases h : op.1 = n
    · subst h; simp [List.filter_cons]
    · rw [if_neg (fun h' => h h'.symm)]
      simp [List.filter_cons, h]

/-- Lookups do not change what later lookups find. -/
theorem C46_lookups_do_not_matter {C : Type} (cm : CMap C) (n n' : GoStr) :
    ((cm.GetReference n).2.GetReference n').1 = (cm.GetReference n').1 ∧ (cm.GetReference n).2.Len = cm.Len := by
  refine ⟨CMap.GetReference_keeps cm n n', ?_⟩
  obtain ⟨refs⟩ := cm
  cases refs with
  | none => rfl
  | some l => unfold CMap.GetReference CMap.refmap; simp only; cases alookup n l <;> rfl

/-- C46: `Len` counts the distinct names. -/
theorem C46_len {C : Type} (ops : List (GoStr × Option C)) : (setAll {} ops).Len = (ops.map (·.1)).toFinset.card := by
  have key : ∀ ops : List (GoStr × Option C), ((setAll {} ops).refmap.1.map (·.1)).Nodup ∧
      ∀ k, k ∈ (setAll {} ops).refmap.1.map (·.1) ↔ k ∈ ops.map (·.1) := by
    intro ops
    induction ops using List.reverseRecOn with
    | nil => exact ⟨by simp [setAll, CMap.refmap], fun k => by simp [setAll, CMap.refmap]⟩
    | append_singleton ops op ih =>
      have : (setAll {} (ops ++ [op])).refmap.1 = ainsert op.1 op.2 (setAll {} ops).refmap.1 := by
        simp only [setAll, List.foldl_append, List.foldl_cons, List.foldl_nil]
        rfl
      rw [this]
      refine ⟨nodup_ainsert ih.1, fun k => ?_⟩
      rw [mem_keys_ainsert, ih.2]
      simp only [List.map_append, List.mem_append, List.map_cons, List.map_nil, List.mem_singleton]
      tauto
  obtain ⟨h1, h2⟩ := key ops
  unfold CMap.Len
  rw [← List.length_map (f := (·.1)), ← List.toFinset_card_of_nodup h1]
  congr 1
  ext k
  simp only [List.mem_toFinset]
  exact h2 k

example : ((setAll {} [(b! "a", some 1), (b! "b", none), (b! "a", some 3)]).GetReference (b! "a")).1 = .ok (some 3) ∧
    (setAll {} [(b! "a", some 1), (b! "b", none), (b! "a", some 3)]).Len = 2 := ⟨rfl, rfl⟩

/-! ## C47 -/

variable {C : Type} {cfg : Nat → Nat × GoStr}

/-- C47: once a resolution of `r` has returned a constraint, every later resolution of `r` returns that constraint. -/
theorem C47_sticky {s : RState C} {es1 es2 es3 : List (REvent C)} {t t' r : Nat} {c : C} {out : Out C}
    (h : RRun cfg .init (es1 ++ .resolved t r (some (some c)) :: es2 ++ .resolved t' r out :: es3) s) :
    out = some (some c) := by
  obtain ⟨s1, s2, h1, h2, -⟩ := h.cut rfl
  have inv := (inv_run h1).2
  have hc : s1.cache r = some c := inv.back t r c (by simp)
  cases h2 with
  | rUnlockR hp =>
    have := inv.rel t' r out hp
    rw [hc] at this
    cases out with
    | none => cases this
    | some o => simp only [Option.join_some] at this; rw [this]

/-- C47: the constraint a resolution returns has been registered before under the reference's name. -/
theorem C47_was_registered {s : RState C} {es es' : List (REvent C)} {t r : Nat} {c : C}
    (h : RRun cfg .init (es ++ .resolved t r (some (some c)) :: es') s) : .wrote (cfg r).1 (cfg r).2 (some c) ∈ es := by
  obtain ⟨s1, s2, h1, h2, -⟩ := h.cut rfl
  cases h2 with
  | rUnlockR hp => exact (inv_run h1).2.cache r c ((inv_run h1).2.rel t r _ hp)

/-- C47: a resolution fails only if the name was unregistered at some moment after the call began; whatever failed
before does not matter. -/
theorem C47_failure_not_remembered {s : RState C} {es es' : List (REvent C)} {t r : Nat}
    (h : RRun cfg .init (es ++ .resolved t r none :: es') s) : SeenBy t (cfg r).1 (cfg r).2 none es := by
  obtain ⟨s1, s2, h1, h2, -⟩ := h.cut rfl
  cases h2 with
  | rUnlockR hp =>
    have := (lin_run h1).pc t
    rwa [hp] at this

/-- In particular a call that begins after the name has been registered does not fail. -/
theorem C47_succeeds_after_registration {s : RState C} {es1 es2 es3 : List (REvent C)} {t r : Nat} {c : Option C} {call : RCall C}
    (hw : .wrote (cfg r).1 (cfg r).2 c ∈ es1)
    (h : RRun cfg .init (es1 ++ .begin t call :: es2 ++ .resolved t r none :: es3) s) : False := by
  obtain ⟨a, b, he, hl, hb⟩ := C47_failure_not_remembered h
  have : es1 <+: a := by
    rcases List.append_eq_append_iff.1 he with ⟨a', ha, hb'⟩ | ⟨b', ha, hb'⟩
    · exact ⟨a', ha.symm⟩
    · exact absurd (by rw [hb']; simp) (hb call)
  obtain ⟨x, rfl⟩ := this
  have := lastWrite_mono _ _ _ _ hl
  unfold lastWrite at this
  rw [List.getLast?_eq_none_iff, List.filterMap_eq_nil_iff] at this
  have := this _ hw
  simp [REvent.writes] at this

/-- One reference (number 0, to "a" in map 0) and two goroutines: the reference fails to resolve, "a" is registered as 5,
the reference resolves to 5 while "a" is re-registered as 6, and resolves to 5 again. -/
def exCfg : Nat → Nat × GoStr := fun _ => (0, b! "a")
theorem exRun_sticky : ∃ s, RRun exCfg (RState.init : RState Nat)
    ([.begin 0 (.resolve 0), .internal 0, .internal 0, .internal 0, .internal 0, .internal 0, .internal 0, .resolved 0 0 none,
      .begin 1 (.set 0 (b! "a") (some 5)), .internal 1, .wrote 0 (b! "a") (some 5), .begin 0 (.resolve 0), .internal 0, .internal 0,
      .didSet 1 0 (b! "a") (some 5), .internal 0, .internal 0, .begin 1 (.set 0 (b! "a") (some 6)), .internal 0, .internal 1,
      .wrote 0 (b! "a") (some 6), .internal 0] ++ .resolved 0 0 (some (some 5)) ::
     [.didSet 1 0 (b! "a") (some 6), .begin 1 (.resolve 0), .internal 1, .internal 1] ++
      .resolved 1 0 (some (some 5)) :: []) s := by
  have h0 := RRun.nil (cfg := exCfg) (RState.init : RState Nat)
  have h1 := ((((((((h0.snoc (.begin (t := 0) (.resolve 0) rfl)).snoc (.rLockR (t := 0) (r := 0) rfl rfl)).snoc
    (.rMiss (t := 0) (r := 0) rfl rfl)).snoc (.rLockM (t := 0) (r := 0) rfl rfl)).snoc (.rLook (t := 0) (r := 0) rfl)).snoc
    (.rUnlockM (t := 0) (r := 0) (out := none) rfl)).snoc (.rStoreErr (t := 0) (r := 0) rfl)).snoc
    (.rUnlockR (t := 0) (r := 0) (out := none) rfl))
  have h2 := ((((((h1.snoc (.begin (t := 1) (.set 0 (b! "a") (some 5)) rfl)).snoc
    (.sLockM (t := 1) (m := 0) (n := b! "a") (c := some 5) rfl rfl)).snoc
    (.sWrite (t := 1) (m := 0) (n := b! "a") (c := some 5) rfl)).snoc
    (.begin (t := 0) (.resolve 0) rfl)).snoc (.rLockR (t := 0) (r := 0) rfl rfl)).snoc
    (.rMiss (t := 0) (r := 0) rfl rfl)).snoc (.sUnlockM (t := 1) (m := 0) (n := b! "a") (c := some 5) rfl)
  have h3 := ((((((h2.snoc (.rLockM (t := 0) (r := 0) rfl rfl)).snoc (.rLook (t := 0) (r := 0) rfl)).snoc
    (.begin (t := 1) (.set 0 (b! "a") (some 6)) rfl)).snoc
    (.rUnlockM (t := 0) (r := 0) (out := some (some 5)) rfl)).snoc
    (.sLockM (t := 1) (m := 0) (n := b! "a") (c := some 6) rfl rfl)).snoc
    (.sWrite (t := 1) (m := 0) (n := b! "a") (c := some 6) rfl)).snoc
    (.rStoreOk (t := 0) (r := 0) (c := some 5) rfl)
  have h4 := (((((h3.snoc (.rUnlockR (t := 0) (r := 0) (out := some (some 5)) rfl)).snoc
    (.sUnlockM (t := 1) (m := 0) (n := b! "a") (c := some 6) rfl)).snoc
    (.begin (t := 1) (.resolve 0) rfl)).snoc (.rLockR (t := 1) (r := 0) rfl rfl)).snoc
    (.rCached (t := 1) (r := 0) (c := 5) rfl rfl)).snoc (.rUnlockR (t := 1) (r := 0) (out := some (some 5)) rfl)
  exact ⟨_, h4⟩

/-! ## C48 -/

/-- C48: in every reachable state with an unfinished call, some call in progress can take a step. -/
theorem C48_no_deadlock {s : RState C} {es : List (REvent C)} (h : RRun cfg .init es s) {t : Nat} (ht : s.pc t ≠ .idle) :
    ∃ e s', RStep cfg s e s' ∧ e.Continues := canGo (inv_run h).1 ht

/-- C48: and it does not go on for ever: if no new calls begin, then however the calls in progress are scheduled, there
is a bound on the steps they take, and they only stop when all have returned. -/
theorem C48_completes {s : RState C} {es : List (REvent C)} (h : RRun cfg .init es s) :
    ∃ B, ∀ es' s', RRun cfg s es' s' → (∀ e ∈ es', e.Continues) →
      es'.length ≤ B ∧ (s'.AllDone ∨ ∃ e s'', RStep cfg s' e s'' ∧ e.Continues) := by
  obtain ⟨K, hK⟩ := finite_run h
  refine ⟨work K s, fun es' s' hr he => ⟨by have := (work_run hK hr he).1; omega, ?_⟩⟩
  by_cases hd : s'.AllDone
  · exact .inl hd
  · right
    unfold RState.AllDone at hd
    push Not at hd
    obtain ⟨t, ht⟩ := hd
    exact C48_no_deadlock (h.trans hr) ht

/-- A goroutine owns the reference lock and waits for the map lock, whose owner can go on: the hypotheses of the two. -/
example : ∃ es s, RRun exCfg (RState.init : RState Nat) es s ∧ s.pc 0 = .rWantM 0 ∧ s.rlock 0 = some 0 ∧ s.mlock 0 = some 1 ∧
    s.pc 2 = .rWantR 0 := by
  have h := (((((((RRun.nil (cfg := exCfg) (RState.init : RState Nat)).snoc (.begin (t := 0) (.resolve 0) rfl)).snoc
    (.rLockR (t := 0) (r := 0) rfl rfl)).snoc (.rMiss (t := 0) (r := 0) rfl rfl)).snoc
    (.begin (t := 1) (.get 0 (b! "b")) rfl)).snoc (.gLockM (t := 1) (m := 0) (n := b! "b") rfl rfl)).snoc
    (.begin (t := 2) (.resolve 0) rfl))
  exact ⟨_, _, h, rfl, rfl, rfl, rfl⟩

/-! ## C73 -/

/-- C73: a lookup returns what was registered last at some moment between its start and its return. -/
theorem C73_lookup_atomic {s : RState C} {es es' : List (REvent C)} {t m : Nat} {n : GoStr} {out : Out C}
    (h : RRun cfg .init (es ++ .got t m n out :: es') s) : SeenBy t m n out es := by
  obtain ⟨s1, s2, h1, h2, -⟩ := h.cut rfl
  cases h2 with
  | gUnlockM hp =>
    have := (lin_run h1).pc t
    rwa [hp] at this

/-- A lookup overlapping two registrations: it sees the first. -/
example : ∃ s, RRun exCfg (RState.init : RState Nat)
    ([.begin 0 (.get 0 (b! "a")), .begin 1 (.set 0 (b! "a") (some 5)), .internal 1, .wrote 0 (b! "a") (some 5), .didSet 1 0 (b! "a") (some 5),
      .internal 0, .begin 1 (.set 0 (b! "a") (some 6)), .internal 0] ++ .got 0 0 (b! "a") (some (some 5)) ::
     [.internal 1, .wrote 0 (b! "a") (some 6)]) s := by
  have h := (((((((((((RRun.nil (cfg := exCfg) (RState.init : RState Nat)).snoc (.begin (t := 0) (.get 0 (b! "a")) rfl)).snoc
    (.begin (t := 1) (.set 0 (b! "a") (some 5)) rfl)).snoc
    (.sLockM (t := 1) (m := 0) (n := b! "a") (c := some 5) rfl rfl)).snoc
    (.sWrite (t := 1) (m := 0) (n := b! "a") (c := some 5) rfl)).snoc
    (.sUnlockM (t := 1) (m := 0) (n := b! "a") (c := some 5) rfl)).snoc
    (.gLockM (t := 0) (m := 0) (n := b! "a") rfl rfl)).snoc
    (.begin (t := 1) (.set 0 (b! "a") (some 6)) rfl)).snoc
    (.gLook (t := 0) (m := 0) (n := b! "a") rfl)).snoc
    (.gUnlockM (t := 0) (m := 0) (n := b! "a") (out := some (some 5)) rfl)).snoc
    (.sLockM (t := 1) (m := 0) (n := b! "a") (c := some 6) rfl rfl)).snoc
    (.sWrite (t := 1) (m := 0) (n := b! "a") (c := some 6) rfl)
  exact ⟨_, h⟩

/-! ## C74 -/

/-- The goroutine is about to access the table of map `m`. -/
def Pc.Touches (cfg : Nat → Nat × GoStr) (m : Nat) : Pc C → Prop
  | .rHaveM r => (cfg r).1 = m
  | .sHaveM m' _ _ => m' = m
  | .gHaveM m' _ => m' = m
  | .lRead m' => m' = m
  | _ => False

/-- It is a `Len` call. -/
def Pc.IsLen : Pc C → Prop
  | .lRead _ => True
  | _ => False

/-- C74 (partial: `Len` calls excepted): no two goroutines are about to access the same table at the same time. Missing:
`Len` takes no lock (`C74_refuted`). -/
theorem C74_exclusive_partial {s : RState C} {es : List (REvent C)} (h : RRun cfg .init es s) {t t' m : Nat}
    (h1 : (s.pc t).Touches cfg m) (h2 : (s.pc t').Touches cfg m) (l1 : ¬ (s.pc t).IsLen) (l2 : ¬ (s.pc t').IsLen) : t = t' := by
  have own : ∀ p : Pc C, p.Touches cfg m → ¬ p.IsLen → p.ownM cfg = some m := by
    intro p hp hl
    cases p <;> simp_all [Pc.Touches, Pc.IsLen, Pc.ownM]
  exact (inv_run h).1.uniqM (own _ h1 l1) (own _ h2 l2)

/-- The hypotheses are met by a goroutine inside `SetReference` while another waits. -/
example : ∃ es s, RRun exCfg (RState.init : RState Nat) es s ∧ (s.pc 0).Touches exCfg 0 ∧ ¬ (s.pc 0).IsLen ∧ s.pc 1 = .gWantM 0 (b! "a") := by
  have h := (((RRun.nil (cfg := exCfg) (RState.init : RState Nat)).snoc (.begin (t := 0) (.set 0 (b! "a") none) rfl)).snoc
    (.sLockM (t := 0) (m := 0) (n := b! "a") (c := none) rfl rfl)).snoc (.begin (t := 1) (.get 0 (b! "a")) rfl)
  exact ⟨_, _, h, rfl, fun h => h, rfl⟩

/-- C74 is false: `Len` (reference.go:24) can read the table while `SetReference` is about to write it. -/
theorem C74_refuted : ∃ es s, RRun exCfg (RState.init : RState Nat) es s ∧ (s.pc 0).Touches exCfg 0 ∧ (s.pc 1).Touches exCfg 0 := by
  have h := (((RRun.nil (cfg := exCfg) (RState.init : RState Nat)).snoc (.begin (t := 0) (.set 0 (b! "a") none) rfl)).snoc
    (.sLockM (t := 0) (m := 0) (n := b! "a") (c := none) rfl rfl)).snoc (.begin (t := 1) (.len 0) rfl)
  exact ⟨_, _, h, rfl, rfl⟩

/-! ## C49 -/

/-- C49: a call on a constraint without references returns, for every value. -/
theorem C49_reference_free {c : Constraint} (hc : c.Every NotRef) (σ : Sched) (v : GoVal) :
    ∃ r v', Returns ext env c σ v r v' := by
  refine ⟨_, _, ?_, 0, rfl⟩
  intro h
  exact ((total_sem (ext := ext) (refSem ext env 0) c hc).val σ v trivial).2.2 .diverge h rfl

/-- C49: with references, a call returns if every cycle of references goes through an array element or property and no
default is a container. The number of references followed along any call chain is bounded for each value, whatever the
iteration order. -/
theorem C49_guarded {c : Constraint} (hg : Guarded env) (henv : env.Every (DefaultIn Flat)) (hc : c.Every (DefaultIn Flat))
    (v : GoVal) : ∃ fuel, ∀ σ, ∃ r v', r ≠ .abort .diverge ∧ (sem ext env fuel c).val σ v = (r, v') := by
  obtain ⟨d, hd⟩ := exists_depth v
  obtain ⟨N, hN⟩ := depth_bound (ext := ext) hg henv d c hc
  refine ⟨N, fun σ => ⟨_, _, ?_, rfl⟩⟩
  intro h
  exact ((hN N (Nat.le_refl N)).val σ v hd).2.2 .diverge h rfl

/-- C49, read as termination. -/
theorem C49_guarded_returns {c : Constraint} (hg : Guarded env) (henv : env.Every (DefaultIn Flat))
    (hc : c.Every (DefaultIn Flat)) (σ : Sched) (v : GoVal) : ∃ r v', Returns ext env c σ v r v' := by
  obtain ⟨k, hk⟩ := C49_guarded (ext := ext) hg henv hc v
  obtain ⟨r, v', h1, h2⟩ := hk σ
  exact ⟨r, v', h1, k, h2⟩

/-- A recursive tree: a node has a string and a list of nodes or null. -/
def exNode : Constraint :=
  .all [.object ((Object'.AddProp (b! "s") (.string (String'.Default (.str [])))).AddProp (b! "kids")
    (.array (Array'.Items (some (.any [.null, .ref 0 (b! "node")]))))), .ref 0 (b! "obj")]
def exNodeEnv : Env := fun _ n =>
  if n = b! "node" then some exNode
  else if n = b! "obj" then some (.object (Object'.AdditionalProperties (some .empty))) else none

theorem exNode_guarded : Guarded exNodeEnv := by
  have leaf : ∀ p : Nat × GoStr, p.2 ≠ b! "node" → Acc (Unguarded exNodeEnv) p := by
    intro p hp
    refine ⟨_, fun q hq => ?_⟩
    obtain ⟨c, hc, hh⟩ := hq
    unfold exNodeEnv at hc
    rw [if_neg hp] at hc
    split at hc
    · cases hc
      cases hh with
      | same hs _ =>
        cases hs with
        | dependency hd => cases hd
    · cases hc
  refine ⟨fun p => ?_⟩
  by_cases hp : p.2 = b! "node"
  · refine ⟨_, fun q hq => leaf q ?_⟩
    obtain ⟨c, hc, hh⟩ := hq
    unfold exNodeEnv at hc
    rw [if_pos hp] at hc
    cases hc
    cases hh with
    | same hs hh =>
      cases hs with
      | all hm =>
        simp only [List.mem_cons, List.not_mem_nil, or_false] at hm
        rcases hm with rfl | rfl
        · cases hh with
          | same hs hh =>
            cases hs with
            | dependency hd => cases hd
        · obtain ⟨q1, q2⟩ := q
          simp only at hh ⊢
          cases hh with
          | refl => decide
          | same hs _ => cases hs
  · exact leaf p hp

theorem exNode_every : exNode.Every (DefaultIn Flat) := by
  have hleaf : ∀ c : Constraint, c.kids = [] → DefaultIn Flat c → c.Every (DefaultIn Flat) :=
    fun c hk h => .intro h (by rw [hk]; simp)
  have none : ∀ c : Constraint, c.ownDefault = .none → DefaultIn Flat c := fun c h dv hd => by rw [h] at hd; cases hd
  refine .intro (none _ rfl) fun d hd => ?_
  simp only [exNode, Constraint.kids, List.mem_cons, List.not_mem_nil, or_false] at hd
  rcases hd with rfl | rfl
  · refine .intro (none _ rfl) fun d hd => ?_
    change d ∈ [Constraint.string (String'.Default (.str [])), .array (Array'.Items (some (.any [.null, .ref 0 (b! "node")])))] at hd
    simp only [List.mem_cons, List.not_mem_nil, or_false] at hd
    rcases hd with rfl | rfl
    · exact hleaf _ rfl (fun dv hd => by cases hd; exact .str _)
    · refine .intro (none _ rfl) fun d hd => ?_
      change d ∈ [Constraint.any [.null, .ref 0 (b! "node")], .empty] at hd
      simp only [List.mem_cons, List.not_mem_nil, or_false] at hd
      rcases hd with rfl | rfl
      · refine .intro (none _ rfl) fun d hd => ?_
        simp only [Constraint.kids, List.mem_cons, List.not_mem_nil, or_false] at hd
        rcases hd with rfl | rfl <;> exact hleaf _ rfl (none _ rfl)
      · exact hleaf _ rfl (none _ rfl)
  · exact hleaf _ rfl (none _ rfl)

theorem exNodeEnv_every : exNodeEnv.Every (DefaultIn Flat) := by
  intro m n c h
  unfold exNodeEnv at h
  split at h
  · cases h; exact exNode_every
  · split at h
    · cases h
      refine .intro (fun dv hd => by cases hd) fun d hd => ?_
      change d ∈ [Constraint.empty] at hd
      simp only [List.mem_singleton] at hd
      subst hd
      exact .intro (fun dv hd => by cases hd) (fun d hd => by simp [Constraint.kids] at hd)
    · cases h

/-- It applies, for instance to this value. -/
example : ∃ v', Returns demoExt exNodeEnv (.ref 0 (b! "node")) sched0
    (.map false [(b! "kids", .slice false [.nil, .map false [(b! "kids", .slice false [])]])]) .ok v' :=
  ⟨_, by simp, 5, rfl⟩

/-! ## C50 -/

/-- `d.Head c`: validating `c` starts by validating `d` against the same value. -/
inductive Constraint.Head : Constraint → Constraint → Prop where
  | refl (c) : Head c c
  | all {d c cs} : Head d c → Head d (.all (c :: cs))
  | any {d c cs} : Head d c → Head d (.any (c :: cs))
  | oneOf {d c cs} : Head d c → Head d (.oneOf (c :: cs))
  | not {d c} : Head d c → Head d (.not (some c))

theorem head_diverge {ρ : RefSem} {c d : Constraint} (h : d.Head c)
    (hd : ∀ σ v, ((denote ext ρ d).val σ v).1 = .abort .diverge) (σ : Sched) (v : GoVal) :
    ((denote ext ρ c).val σ v).1 = .abort .diverge := by
  induction h generalizing σ v with
  | refl => exact hd σ v
  | @all c cs _ ih =>
    have := ih (σ.sub 0) v
    simp only [denote, denoteList, allLoop]
    rcases hx : (denote ext ρ c).val (σ.sub 0) v with ⟨r, v'⟩
    rw [hx] at this; simp only at this; subst this; rfl
  | @any c cs _ ih =>
    have := ih (σ.sub 0) v
    simp only [denote, denoteList, anyLoop]
    rcases hx : (denote ext ρ c).val (σ.sub 0) v with ⟨r, v'⟩
    rw [hx] at this; simp only at this; subst this; rfl
  | @oneOf c cs _ ih =>
    have := ih (σ.sub 0) v
    simp only [denote, denoteList, oneOfLoop]
    rcases hx : (denote ext ρ c).val (σ.sub 0) v with ⟨r, v'⟩
    rw [hx] at this; simp only at this; subst this; rfl
  | @not c _ ih =>
    have := ih (σ.sub 0) v
    simp only [denote, denoteOpt, notV]
    rcases hx : (denote ext ρ c).val (σ.sub 0) v with ⟨r, v'⟩
    rw [hx] at this; simp only at this; subst this; rfl

/-- C50: if every reference in a set leads, at the head of its target, to a reference in the set, then no constraint
with such a reference at its head ever returns from `Validate`, on any value. -/
theorem C50_cycle {S : Nat → GoStr → Prop}
    (hS : ∀ m n, S m n → ∃ c m' n', env m n = some c ∧ S m' n' ∧ (Constraint.ref m' n').Head c)
    {c : Constraint} {m : Nat} {n : GoStr} (hm : S m n) (hc : (Constraint.ref m n).Head c) (v : GoVal) :
    NeverReturns ext env c v := by
  have key : ∀ k m n, S m n → ∀ σ v, ((refSem ext env k m n).val σ v).1 = .abort .diverge := by
    intro k
    induction k with
    | zero => intros; rfl
    | succ k ih =>
      intro m n hs σ v
      obtain ⟨c, m', n', he, hs', hh⟩ := hS m n hs
      simp only [refSem, he]
      exact head_diverge hh (fun σ v => by simp only [denote]; exact ih m' n' hs' σ v) σ v
  rintro σ r v' ⟨hr, k, hk⟩
  have := head_diverge (ext := ext) (ρ := refSem ext env k) hc (fun σ v => by simp only [denote]; exact key k m n hm σ v) σ v
  unfold sem at hk
  rw [hk] at this
  exact hr this

/-- C50: a reference to itself never returns, neither from `Validate`, on any value, nor from `HasDefault` or
`DefaultValue`. -/
theorem C50_self {m : Nat} {n : GoStr} (h : env m n = some (.ref m n)) :
    (∀ v, NeverReturns ext env (.ref m n) v) ∧ DefaultNeverReturns ext env (.ref m n) := by
  refine ⟨fun v => C50_cycle (S := fun m' n' => m' = m ∧ n' = n) ?_ ⟨rfl, rfl⟩ (.refl _) v, fun k => ?_⟩
  · rintro m n ⟨rfl, rfl⟩
    exact ⟨_, _, _, h, ⟨rfl, rfl⟩, .refl _⟩
  · simp only [sem, denote]
    induction k with
    | zero => rfl
    | succ k ih => simp only [refSem, h, denote]; exact ih

/-- Two references to each other, one under `not` in an `all`. -/
def exLoopEnv : Env := fun _ n =>
  if n = b! "a" then some (.all [.not (some (.ref 0 (b! "b"))), .null]) else if n = b! "b" then some (.ref 0 (b! "a")) else none
example : NeverReturns demoExt exLoopEnv (.oneOf [.ref 0 (b! "b"), .empty]) (.str (b! "x")) :=
  C50_cycle (S := fun m n => n = b! "a" ∨ n = b! "b") (by
    rintro m n (rfl | rfl)
    · exact ⟨_, 0, b! "b", rfl, .inr rfl, .all (.not (.refl _))⟩
    · exact ⟨_, 0, b! "a", rfl, .inl rfl, .refl _⟩) (.inr rfl) (.oneOf (.refl _)) _

/-! ## C51 -/

/-- C51: `JSVal.Validate` succeeds exactly when the root does. -/
theorem C51_verdict {j : JSVal} {c : Constraint} (hj : j.root = some c) (fuel : Nat) (σ : Sched) (v : GoVal) :
    (j.validate ext env fuel σ v).1 = .ok ↔ (sem ext env fuel c).AcceptsBy σ v := by
  unfold JSVal.validate Sem.AcceptsBy
  rw [hj]
  rcases h : (sem ext env fuel c).val σ v with ⟨r, v'⟩
  cases r <;> simp [h]

/-- C51: otherwise the error is the root's error, labelled with the validator's name, or its address if it has none. -/
theorem C51_error {j : JSVal} {c : Constraint} (hj : j.root = some c) (fuel : Nat) (σ : Sched) (v : GoVal) (w : Who) (e : Err) :
    (j.validate ext env fuel σ v).1 = .err w e ↔
      ((sem ext env fuel c).val σ v).1 = .err e ∧ (j.name = [] ∧ w = .byPointer ∨ j.name ≠ [] ∧ w = .byName j.name) := by
  unfold JSVal.validate
  rw [hj]
  rcases h : (sem ext env fuel c).val σ v with ⟨r, v'⟩
  cases r with
  | ok => simp [h]
  | abort a => simp [h]
  | err e' =>
    simp only [h, JRes.err.injEq, Res.err.injEq, List.length_eq_zero_iff]
    by_cases hn : j.name = [] <;> simp [hn, and_comm, eq_comm]

/-- C51: and the argument is left as the root leaves it. -/
theorem C51_effect {j : JSVal} {c : Constraint} (hj : j.root = some c) (fuel : Nat) (σ : Sched) (v : GoVal) :
    (j.validate ext env fuel σ v).2 = ((sem ext env fuel c).val σ v).2 := by
  unfold JSVal.validate
  rw [hj]
  rcases h : (sem ext env fuel c).val σ v with ⟨r, v'⟩
  cases r <;> simp [h]

/-- C51: it aborts exactly if there is no root, with a panic that leaves the argument alone, or if the root aborts. -/
theorem C51_abort {j : JSVal} (fuel : Nat) (σ : Sched) (v : GoVal) (a : Abort) :
    (j.validate ext env fuel σ v).1 = .abort a ↔ (j.root = none ∧ a = .panic ∧ (j.validate ext env fuel σ v).2 = v) ∨
      ∃ c, j.root = some c ∧ ((sem ext env fuel c).val σ v).1 = .abort a := by
  unfold JSVal.validate
  cases hj : j.root with
  | none => simp [eq_comm]
  | some c =>
    rcases h : (sem ext env fuel c).val σ v with ⟨r, v'⟩
    cases r <;> simp [h]

example : (JSVal.validate demoExt env0 0 ⟨b! "V0", some (.string String')⟩ sched0 (fl 3)).1 = .err (.byName (b! "V0")) .notString ∧
    (JSVal.validate demoExt env0 0 ⟨[], some (.string String')⟩ sched0 (fl 3)).1 = .err .byPointer .notString ∧
    (JSVal.validate demoExt env0 0 ⟨[], some (.string String')⟩ sched0 (.str [])).1 = .ok := ⟨rfl, rfl, rfl⟩

end Jsval
