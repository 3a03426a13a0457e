import Verif.Spec.Validators
import Verif.Lemmas.Calls
/-!
# C101: maps of validators
-/
namespace Jsval
variable {C : Type} (res : Nat → RefSource) (own : Nat → Option Nat)

/-- The state after the calls. -/
abbrev After (h : List (VCall C)) : VState C := (VState.start res own).run h

theorem after_concat (h : List (VCall C)) (x : VCall C) : After res own (h ++ [x]) = ((After res own h).exec x).2 := by
  unfold After VState.run
  rw [List.foldl_append]
  rfl

/-- The table of a map. -/
def CMap.table (cm : CMap C) : List (GoStr × Option C) := cm.refs.getD []

theorem table_set (cm : CMap C) (n : GoStr) (c : Option C) : (cm.SetReference n c).table = ainsert n c cm.table := by
  unfold CMap.SetReference CMap.refmap CMap.table
  cases cm.refs <;> rfl

theorem table_get (cm : CMap C) (n : GoStr) : (cm.GetReference n).2.table = cm.table ∧
    (cm.GetReference n).1 = match alookup n cm.table with | none => .error (.refNotFound n) | some c => .ok c := by
  obtain ⟨refs⟩ := cm
  unfold CMap.GetReference CMap.refmap CMap.table
  cases refs with
  | none => exact ⟨rfl, rfl⟩
  | some l => cases h : alookup n l <;> simp [h]

theorem not_registers_nil (k : Nat) (n : GoStr) (c : Option C) : ¬ LastIn own [] k n c := by
  rintro ⟨h1, call, h2, h, -⟩
  cases h1 <;> cases h

theorem lastIn_concat (h : List (VCall C)) (x : VCall C) (k : Nat) (n : GoStr) (c : Option C) :
    LastIn own (h ++ [x]) k n c ↔ Registers own h x k n c ∨ (∀ c', ¬ Registers own h x k n c') ∧ LastIn own h k n c := by
  constructor
  · rintro ⟨h1, call, h2, e, hr, hl⟩
    rcases List.eq_nil_or_concat h2 with rfl | ⟨h3, y, rfl⟩
    · obtain ⟨rfl, e2⟩ := List.append_inj' e rfl
      cases e2
      exact .inl hr
    · have e' : h ++ [x] = (h1 ++ call :: h3) ++ [y] := by rw [e]; simp
      obtain ⟨rfl, e2⟩ := List.append_inj' e' rfl
      cases e2
      refine .inr ⟨hl h3 x [] (by simp), h1, call, h3, rfl, hr, fun h4 call' h5 e5 => ?_⟩
      exact hl h4 call' (h5 ++ [x]) (by rw [e5]; simp)
  · rintro (hr | ⟨hn, h1, call, h2, rfl, hr, hl⟩)
    · exact ⟨h, x, [], rfl, hr, fun h3 call' h4 e => by cases h3 <;> cases e⟩
    · refine ⟨h1, call, h2 ++ [x], by simp, hr, fun h3 call' h4 e => ?_⟩
      rcases List.eq_nil_or_concat h4 with rfl | ⟨h5, y, rfl⟩
      · obtain ⟨rfl, e2⟩ := List.append_inj' e rfl
        cases e2
        exact hn
      · have e' : h2 ++ [x] = (h3 ++ call' :: h5) ++ [y] := by rw [e]; simp
        obtain ⟨rfl, e2⟩ := List.append_inj' e' rfl
        exact hl h3 call' h5 rfl

theorem exec_set_none {s : VState C} {d : RefSource} (n : GoStr) (c : Option C) (h : s.mapOf d = none) :
    s.exec (.setReference d n c) = (.panic, s) := by simp only [VState.exec, h]

theorem exec_set_some {s : VState C} {d : RefSource} {k : Nat} (n : GoStr) (c : Option C) (h : s.mapOf d = some k) :
    s.exec (.setReference d n c) = (.done, { s with maps := fun i => if i = k then (s.maps k).SetReference n c else s.maps i }) := by
  simp only [VState.exec, h]

theorem exec_cached {s : VState C} {r : Nat} {c : C} (h : (s.refs r).resolved = some c) :
    s.exec (.resolved r) = (.found (some c), s) := by simp only [VState.exec, h]

theorem exec_noMap {s : VState C} {r : Nat} (h : (s.refs r).resolved = none) (hk : s.mapOf (s.refs r).resolver = none) :
    s.exec (.resolved r) = (.panic, s) := by simp only [VState.exec, h, hk]

theorem exec_missing {s : VState C} {r k : Nat} {e : Err} {cm : CMap C} (h : (s.refs r).resolved = none)
    (hk : s.mapOf (s.refs r).resolver = some k) (hg : (s.maps k).GetReference (s.refs r).reference = (.error e, cm)) :
    s.exec (.resolved r) = (.notFound, { s with maps := fun i => if i = k then cm else s.maps i }) := by
  simp only [VState.exec, h, hk, hg]

theorem exec_found {s : VState C} {r k : Nat} {c : Option C} {cm : CMap C} (h : (s.refs r).resolved = none)
    (hk : s.mapOf (s.refs r).resolver = some k) (hg : (s.maps k).GetReference (s.refs r).reference = (.ok c, cm)) :
    s.exec (.resolved r) = (.found c, ⟨fun i => if i = k then cm else s.maps i, s.jsvals,
      fun i => if i = r then { s.refs r with resolved := c } else s.refs i⟩) := by
  simp only [VState.exec, h, hk, hg]

/-- The state, by the calls so far. -/
theorem after_state (h : List (VCall C)) :
    (∀ d, (After res own h).mapOf d = MapAfter own h d) ∧ (∀ r, ((After res own h).refs r).resolver = res r) ∧
    (∀ r, ((After res own h).refs r).reference = NameAfter h r) ∧
    ∀ k n c, alookup n ((After res own h).maps k).table = some c ↔ LastIn own h k n c := by
  induction h using List.reverseRecOn with
  | nil =>
    refine ⟨fun d => by cases d <;> rfl, fun r => rfl, fun r => rfl, fun k n c => ?_⟩
    constructor
    · intro h; cases h
    · intro h; exact absurd h (not_registers_nil own k n c)
  | append_singleton h x ih =>
    obtain ⟨i1, i2, i3, i4⟩ := ih
    rw [after_concat]
    set s := After res own h
    have hno : (∀ d n c, x ≠ .setReference d n c) → ∀ k n c, LastIn own (h ++ [x]) k n c ↔ LastIn own h k n c := by
      intro hx k n c
      have : ∀ c', ¬ Registers own h x k n c' := by rintro c' ⟨d, e, -⟩; exact hx _ _ _ e
      rw [lastIn_concat]
      exact ⟨fun h => h.elim (fun h => absurd h (this c)) (·.2), fun h => .inr ⟨this, h⟩⟩
    cases x with
    | setConstraintMap j k =>
      refine ⟨fun d => ?_, i2, fun r => ?_, fun k n c => ?_⟩
      · cases d with
        | map i => rfl
        | jsval i =>
          show (if i = j then k else s.jsvals i) = _
          unfold MapAfter
          simp only [latest_concat, VCall.newMap?]
          by_cases e : i = j
          · subst e; simp
          · have e' : ¬ j = i := fun h => e h.symm
            have := i1 (.jsval i)
            simp only [e, e', if_false, Option.none_or]
            exact this
      · refine (i3 r).trans ?_
        unfold NameAfter
        rw [latest_concat]; rfl
      · rw [hno (by simp)]
        exact i4 k n c
    | refersTo r' n' =>
      refine ⟨fun d => ?_, fun r => ?_, fun r => ?_, fun k n c => ?_⟩
      · refine Eq.trans ?_ ((i1 d).trans ?_)
        · cases d <;> rfl
        · cases d with
          | map i => rfl
          | jsval i => simp only [MapAfter, latest_concat, VCall.newMap?, Option.none_or]
      · show (if r = r' then _ else s.refs r).resolver = _
        split
        · rename_i e; subst e; exact i2 r
        · exact i2 r
      · show (if r = r' then _ else s.refs r).reference = _
        unfold NameAfter
        simp only [latest_concat, VCall.newName?]
        by_cases e : r = r'
        · subst e; simp
        · have e' : ¬ r' = r := fun h => e h.symm
          simp only [e, e', if_false, Option.none_or]
          exact i3 r
      · rw [hno (by simp)]
        exact i4 k n c
    | setReference d' n' c' =>
      have hm : ∀ d, MapAfter own (h ++ [VCall.setReference d' n' c']) d = MapAfter own h d := by
        intro d
        cases d with
        | map i => rfl
        | jsval i => simp only [MapAfter, latest_concat, VCall.newMap?, Option.none_or]
      have hname : ∀ r, NameAfter (h ++ [VCall.setReference d' n' c']) r = NameAfter h r := by
        intro r
        simp only [NameAfter, latest_concat, VCall.newName?, Option.none_or]
      have hx := i1 d'
      cases hk : s.mapOf d' with
      | none =>
        rw [exec_set_none n' c' hk]
        refine ⟨fun d => (i1 d).trans (hm d).symm, i2, fun r => (i3 r).trans (hname r).symm, fun k n c => ?_⟩
        have : ∀ c'', ¬ Registers own h (.setReference d' n' c') k n c'' := by
          rintro c'' ⟨d, e, e2⟩
          cases e
          rw [← hx, hk] at e2
          cases e2
        rw [lastIn_concat]
        refine (i4 k n c).trans ⟨fun h => .inr ⟨this, h⟩, fun h => h.elim (fun h => absurd h (this c)) (·.2)⟩
      | some k0 =>
        rw [exec_set_some n' c' hk]
        refine ⟨fun d => ?_, i2, fun r => (i3 r).trans (hname r).symm, fun k n c => ?_⟩
        · refine Eq.trans ?_ ((i1 d).trans (hm d).symm)
          cases d <;> rfl
        · show alookup n (if k = k0 then _ else s.maps k).table = some c ↔ _
          rw [lastIn_concat]
          by_cases e : k = k0
          · subst e
            rw [if_pos rfl, table_set, alookup_ainsert]
            by_cases e2 : n = n'
            · subst e2
              rw [if_pos rfl]
              constructor
              · intro h; cases h; exact .inl ⟨d', rfl, by rw [← hx, hk]⟩
              · rintro (⟨d, e, -⟩ | ⟨hh, -⟩)
                · cases e; rfl
                · exact absurd ⟨d', rfl, by rw [← hx, hk]⟩ (hh c')
            · rw [if_neg e2]
              have : ∀ c'', ¬ Registers own h (.setReference d' n' c') k n c'' := by
                rintro c'' ⟨d, e, -⟩
                cases e
                exact e2 rfl
              exact (i4 k n c).trans ⟨fun h => .inr ⟨this, h⟩, fun h => h.elim (fun h => absurd h (this c)) (·.2)⟩
          · rw [if_neg e]
            have : ∀ c'', ¬ Registers own h (.setReference d' n' c') k n c'' := by
              rintro c'' ⟨d, e', e2⟩
              cases e'
              rw [← hx, hk] at e2
              cases e2
              exact e rfl
            exact (i4 k n c).trans ⟨fun h => .inr ⟨this, h⟩, fun h => h.elim (fun h => absurd h (this c)) (·.2)⟩
    | resolved r0 =>
      have hm : ∀ d, MapAfter own (h ++ [VCall.resolved r0]) d = MapAfter own h d := by
        intro d
        cases d with
        | map i => rfl
        | jsval i => simp only [MapAfter, latest_concat, VCall.newMap?, Option.none_or]
      have hname : ∀ r, NameAfter (h ++ [VCall.resolved r0]) r = NameAfter h r := by
        intro r
        simp only [NameAfter, latest_concat, VCall.newName?, Option.none_or]
      have hlast := hno (by simp)
      have key : (∀ d, (s.exec (.resolved r0)).2.mapOf d = s.mapOf d) ∧
          (∀ r, ((s.exec (.resolved r0)).2.refs r).resolver = (s.refs r).resolver) ∧
          (∀ r, ((s.exec (.resolved r0)).2.refs r).reference = (s.refs r).reference) ∧
          ∀ k, ((s.exec (.resolved r0)).2.maps k).table = (s.maps k).table := by
        cases hr : (s.refs r0).resolved with
        | some c => rw [exec_cached hr]; exact ⟨fun _ => rfl, fun _ => rfl, fun _ => rfl, fun _ => rfl⟩
        | none =>
          cases hk : s.mapOf (s.refs r0).resolver with
          | none => rw [exec_noMap hr hk]; exact ⟨fun _ => rfl, fun _ => rfl, fun _ => rfl, fun _ => rfl⟩
          | some k0 =>
            have ht := (table_get (s.maps k0) (s.refs r0).reference).1
            rcases hg : (s.maps k0).GetReference (s.refs r0).reference with ⟨e | c, cm⟩
            · rw [hg] at ht
              rw [exec_missing hr hk hg]
              refine ⟨fun d => by cases d <;> rfl, fun _ => rfl, fun _ => rfl, fun k => ?_⟩
              show (if k = k0 then cm else s.maps k).table = _
              split
              · rename_i e; subst e; exact ht
              · rfl
            · rw [hg] at ht
              rw [exec_found hr hk hg]
              refine ⟨fun d => by cases d <;> rfl, fun r => ?_, fun r => ?_, fun k => ?_⟩
              · show (if r = r0 then _ else s.refs r).resolver = _
                split
                · rename_i e; subst e; rfl
                · rfl
              · show (if r = r0 then _ else s.refs r).reference = _
                split
                · rename_i e; subst e; rfl
                · rfl
              · show (if k = k0 then cm else s.maps k).table = _
                split
                · rename_i e; subst e; exact ht
                · rfl
      obtain ⟨k1, k2, k3, k4⟩ := key
      refine ⟨fun d => ?_, fun r => ?_, fun r => ?_, fun k n c => ?_⟩
      · rw [k1, hm]; exact i1 d
      · rw [k2]; exact i2 r
      · rw [k3, hname]; exact i3 r
      · rw [k4, hlast]; exact i4 k n c

/-- What `Resolved` returns after the calls. -/
abbrev Resolution (h : List (VCall C)) (r : Nat) : VOut C := ((After res own h).exec (.resolved r)).1

theorem finds_iff (h : List (VCall C)) (r : Nat) (c : Option C) : Finds res own h r c ↔
    ∃ k, (After res own h).mapOf ((After res own h).refs r).resolver = some k ∧
      ((After res own h).maps k).GetReference ((After res own h).refs r).reference =
        (.ok c, (((After res own h).maps k).GetReference ((After res own h).refs r).reference).2) := by
  obtain ⟨i1, i2, i3, i4⟩ := after_state res own h
  unfold Finds
  refine exists_congr fun k => ?_
  rw [i2, i1, i3, ← i4]
  refine and_congr_right fun _ => ?_
  have := (table_get ((After res own h).maps k) (NameAfter h r)).2
  constructor
  · intro hl
    rw [hl] at this
    exact Prod.ext this rfl
  · intro hl
    rw [hl] at this
    cases ha : alookup (NameAfter h r) ((After res own h).maps k).table with
    | none => rw [ha] at this; cases this
    | some c' => rw [ha] at this; cases this; rfl

/-- Cached: looked up before. -/
theorem cached (h : List (VCall C)) (r : Nat) (c : C) (hc : ((After res own h).refs r).resolved = some c) :
    ∃ h1 h2, h = h1 ++ .resolved r :: h2 ∧ Finds res own h1 r (some c) := by
  induction h using List.reverseRecOn with
  | nil => cases hc
  | append_singleton h x ih =>
    by_cases hcache : ((After res own h).refs r).resolved = some c
    · obtain ⟨h1, h2, rfl, hf⟩ := ih hcache
      exact ⟨h1, h2 ++ [x], by simp, hf⟩
    · rw [after_concat] at hc
      have hf := finds_iff res own h r (some c)
      set s := After res own h
      cases x with
      | setConstraintMap j k => exact absurd hc hcache
      | setReference d n c' =>
        cases hk : s.mapOf d with
        | none => rw [exec_set_none n c' hk] at hc; exact absurd hc hcache
        | some k => rw [exec_set_some n c' hk] at hc; exact absurd hc hcache
      | refersTo r' n =>
        have : ((s.exec (.refersTo r' n)).2.refs r).resolved = (s.refs r).resolved := by
          show (if r = r' then _ else s.refs r).resolved = _
          split
          · rename_i e; subst e; rfl
          · rfl
        rw [this] at hc
        exact absurd hc hcache
      | resolved r0 =>
        cases hr : (s.refs r0).resolved with
        | some c0 => rw [exec_cached hr] at hc; exact absurd hc hcache
        | none =>
          cases hk : s.mapOf (s.refs r0).resolver with
          | none => rw [exec_noMap hr hk] at hc; exact absurd hc hcache
          | some k =>
            rcases hg : (s.maps k).GetReference (s.refs r0).reference with ⟨e | c1, cm⟩
            · rw [exec_missing hr hk hg] at hc; exact absurd hc hcache
            · rw [exec_found hr hk hg] at hc
              by_cases e : r = r0
              · subst e
                simp only [if_true] at hc
                subst hc
                exact ⟨h, [], rfl, hf.2 ⟨k, hk, by rw [hg]⟩⟩
              · simp only [e, if_false] at hc
                exact absurd hc hcache

/-- C101: a reference that has not been resolved to a constraint yet is looked up when it is used: in the map its resolver has by
then (for a validator, the map of the last `SetConstraintMap`), by the name of the last `RefersTo`, for what was registered last
in that map, through whatever validator shares it. If the validator has no map by then, the call panics. -/
theorem C101_lookup (h : List (VCall C)) (r : Nat)
    (hnew : ∀ h1 h2, h = h1 ++ .resolved r :: h2 → ∀ c, ¬ Finds res own h1 r (some c)) :
    (∀ c, Resolution res own h r = .found c ↔ Finds res own h r c) ∧
    (Resolution res own h r = .panic ↔ MapAfter own h (res r) = none) ∧
    (Resolution res own h r = .notFound ↔ ∃ k, MapAfter own h (res r) = some k ∧ ∀ c, ¬ LastIn own h k (NameAfter h r) c) := by
  have hc : ((After res own h).refs r).resolved = none := by
    cases hc : ((After res own h).refs r).resolved with
    | none => rfl
    | some c =>
      obtain ⟨h1, h2, e, hf⟩ := cached res own h r c hc
      exact absurd hf (hnew h1 h2 e c)
  have hf := finds_iff res own h r
  obtain ⟨i1, i2, i3, i4⟩ := after_state res own h
  unfold Resolution
  set s := After res own h
  have hm : s.mapOf (s.refs r).resolver = MapAfter own h (res r) := by rw [i2, i1]
  cases hk : s.mapOf (s.refs r).resolver with
  | none =>
    rw [exec_noMap hc hk, ← hm, hk]
    refine ⟨fun c => ⟨(fun h => by cases h), fun h => ?_⟩, by simp, ⟨(fun h => by cases h), fun h => ?_⟩⟩
    · obtain ⟨k, hk', -⟩ := (hf c).1 h
      rw [hk] at hk'; cases hk'
    · obtain ⟨k, hk', -⟩ := h; cases hk'
  | some k =>
    have ht := (table_get (s.maps k) (NameAfter h r)).2
    rw [← hm, hk]
    rw [i3] at hf
    rcases hg : (s.maps k).GetReference (NameAfter h r) with ⟨e | c1, cm⟩
    · rw [hg] at ht
      rw [exec_missing hc hk (by rw [i3]; exact hg)]
      have hnone : ∀ c, ¬ LastIn own h k (NameAfter h r) c := by
        intro c hl
        rw [(i4 k _ c).2 hl] at ht
        cases ht
      refine ⟨fun c => ⟨(fun h => by cases h), fun h => ?_⟩, by simp, ⟨fun _ => ⟨k, rfl, hnone⟩, fun _ => rfl⟩⟩
      obtain ⟨k', hk', hl⟩ := (hf c).1 h
      rw [hk] at hk'
      cases hk'
      rw [hg] at hl
      cases hl
    · rw [exec_found hc hk (by rw [i3]; exact hg)]
      refine ⟨fun c => ⟨fun h => ?_, fun h => ?_⟩, by simp, ⟨(fun h => by cases h), fun h => ?_⟩⟩
      · cases h
        exact (hf c1).2 ⟨k, hk, by rw [hg]⟩
      · obtain ⟨k', hk', hl⟩ := (hf c).1 h
        rw [hk] at hk'
        cases hk'
        rw [hg] at hl
        cases hl
        rfl
      · obtain ⟨k', hk', hl⟩ := h
        cases hk'
        rw [hg] at ht
        cases ha : alookup (NameAfter h r) (s.maps k).table with
        | none => rw [ha] at ht; cases ht
        | some c' => exact absurd ((i4 k _ c').1 ha) (hl c')

/-- Caches stay. -/
theorem cache_stays (s : VState C) (x : VCall C) (r : Nat) (c : C) (hc : (s.refs r).resolved = some c) :
    ((s.exec x).2.refs r).resolved = some c := by
  cases x with
  | setConstraintMap j k => exact hc
  | setReference d n c' =>
    cases hk : s.mapOf d with
    | none => rw [exec_set_none n c' hk]; exact hc
    | some k => rw [exec_set_some n c' hk]; exact hc
  | refersTo r' n =>
    show (if r = r' then _ else s.refs r).resolved = _
    split
    · rename_i e; subst e; exact hc
    · exact hc
  | resolved r0 =>
    cases hr : (s.refs r0).resolved with
    | some c0 => rw [exec_cached hr]; exact hc
    | none =>
      cases hk : s.mapOf (s.refs r0).resolver with
      | none => rw [exec_noMap hr hk]; exact hc
      | some k =>
        rcases hg : (s.maps k).GetReference (s.refs r0).reference with ⟨e | c1, cm⟩
        · rw [exec_missing hr hk hg]; exact hc
        · rw [exec_found hr hk hg]
          show (if r = r0 then _ else s.refs r).resolved = _
          split
          · rename_i e; subst e; rw [hc] at hr; cases hr
          · exact hc

/-- C101: once a reference has been resolved to a constraint, it stands for that constraint, whatever is done to maps, validators
and names afterwards. -/
theorem C101_sticky (h1 h2 : List (VCall C)) (r : Nat) (c : C) (hf : Resolution res own h1 r = .found (some c)) :
    Resolution res own (h1 ++ .resolved r :: h2) r = .found (some c) := by
  have h0 : ((After res own (h1 ++ [.resolved r])).refs r).resolved = some c := by
    rw [after_concat]
    unfold Resolution at hf
    set s := After res own h1
    cases hr : (s.refs r).resolved with
    | some c0 => rw [exec_cached hr] at hf ⊢; cases hf; exact hr
    | none =>
      cases hk : s.mapOf (s.refs r).resolver with
      | none => rw [exec_noMap hr hk] at hf; cases hf
      | some k =>
        rcases hg : (s.maps k).GetReference (s.refs r).reference with ⟨e | c1, cm⟩
        · rw [exec_missing hr hk hg] at hf; cases hf
        · rw [exec_found hr hk hg] at hf ⊢
          cases hf
          simp
  have h3 : ((After res own (h1 ++ .resolved r :: h2)).refs r).resolved = some c := by
    rw [show h1 ++ VCall.resolved r :: h2 = (h1 ++ [.resolved r]) ++ h2 by simp]
    generalize h1 ++ [VCall.resolved r] = h1' at h0
    induction h2 using List.reverseRecOn with
    | nil => rwa [List.append_nil]
    | append_singleton h2 x ih =>
      rw [← List.append_assoc, after_concat]
      exact cache_stays _ _ _ _ ih
  unfold Resolution
  rw [exec_cached h3]

/-- two validators share a map; the reference is the builder's kind: it asks validator 0, whose map is exchanged before it is
first used -/
def vdemo : List (VCall Constraint) :=
  [.refersTo 0 (b! "#/x"), .setReference (.jsval 0) (b! "#/x") (some .null), .setConstraintMap 0 (some 7), .setConstraintMap 1 (some 7),
    .setReference (.jsval 1) (b! "#/x") (some .empty)]
def vown : Nat → Option Nat := fun j => some j

example : Resolution (fun _ => .jsval 0) vown vdemo 0 = .found (some .empty) := rfl
/-- and it is the one of the hypotheses of `C101_lookup` -/
example : ∀ h1 h2, vdemo = h1 ++ .resolved 0 :: h2 → ∀ c, ¬ Finds (fun _ => .jsval 0) vown h1 0 (some c) := by
  intro h1 h2 e
  have : VCall.resolved 0 ∈ vdemo := by rw [e]; simp
  simp [vdemo] at this
example : Finds (fun _ => .jsval 0) vown vdemo 0 (some Constraint.empty) :=
  ⟨7, rfl, vdemo.take 4, _, [], rfl, ⟨.jsval 1, rfl, rfl⟩, fun h3 c' h4 e => by cases h3 <;> cases e⟩
example : Resolution (fun _ => .jsval 0) vown (vdemo ++ .resolved 0 :: [.setConstraintMap 0 (some 3), .refersTo 0 (b! "#/y")]) 0 =
    .found (some .empty) := C101_sticky _ _ _ _ 0 _ rfl

/-- C101, as documented ("SetConstraintMap allows you to set the map that is referred to when resolving JSON references within
constraints"): does not hold. A reference made with a map, as in generated code, keeps to that map, and so does a reference of the
validator that has been resolved. -/
theorem C101_refuted : ∃ (a b : Constraint) (h : List (VCall Constraint)), a ≠ b ∧
    MapAfter vown h (.jsval 0) = some 7 ∧ LastIn vown h 7 (b! "#/x") (some b) ∧
    Resolution (fun _ => .map 0) vown h 0 = .found (some a) ∧
    Resolution (fun _ => .jsval 0) vown h 0 = .found (some a) :=
  ⟨.null, .empty, [.refersTo 0 (b! "#/x"), .setReference (.map 0) (b! "#/x") (some .null), .resolved 0,
      .setReference (.map 7) (b! "#/x") (some .empty), .setConstraintMap 0 (some 7)], by simp, rfl,
    ⟨[.refersTo 0 (b! "#/x"), .setReference (.map 0) (b! "#/x") (some .null), .resolved 0], _, [.setConstraintMap 0 (some 7)], rfl,
      ⟨.map 7, rfl, rfl⟩, fun h3 c' h4 e c hr => by
        obtain ⟨d, rfl, -⟩ := hr
        rcases h3 with _ | ⟨y, h3⟩
        · cases e
        · cases h3 <;> cases e⟩, rfl, rfl⟩

end Jsval
