import Verif.Lemmas.BuildTable
import Verif.Spec.Parts
/-!
# Building asks only for the names it has to resolve
-/
namespace Jsval
variable {lib : SchemaLib} {m : Nat} {resolve resolve' : Resolver}

theorem names_of_build {s : Schema} {σ : Sched} {R R' : List GoStr} {c : Constraint} (h : build lib m s σ R = .ok (c, R')) (n : GoStr) :
    n ∈ R' ↔ n ∈ R ∨ s.UsesRef lib.formats n := by
  have hb : s.Buildable lib.formats := by
    by_contra hc
    exact (build_does lib m _).2 hc _ _ _ _ h
  obtain ⟨c', R2, e1, e2⟩ := (build_does lib m s).1 hb σ R
  rw [h] at e1
  cases e1
  exact e2 n

section
variable {s : Schema} (ha : ∀ n, MustResolve lib.formats resolve s n → resolve' n = resolve n)
include ha

mutual
theorem compileRef_congr : ∀ (fuel : Nat) (σ : Sched) (ref : GoStr) (st : BState),
    (MustResolve lib.formats resolve s ref ∨ IsRoot lib.formats s ref) →
    (∀ n ∈ st.names, MustResolve lib.formats resolve s n ∨ IsRoot lib.formats s n) → (∀ n, IsRoot lib.formats s n → n ∈ st.keys) →
    compileRef lib m resolve' fuel σ ref st = compileRef lib m resolve fuel σ ref st ∧
      ∀ st', compileRef lib m resolve fuel σ ref st = .ok st' →
        (∀ n ∈ st'.names, MustResolve lib.formats resolve s n ∨ IsRoot lib.formats s n) ∧ ∀ n, IsRoot lib.formats s n → n ∈ st'.keys
  | 0, σ, ref, st, _, _, _ => by
    rw [compileRef, compileRef]
    exact ⟨rfl, fun st' h => (nomatch h)⟩
  | k + 1, σ, ref, st, hr, hn, hk => by
    rw [compileRef, compileRef]
    by_cases hs : (alookup ref st.table).isSome
    · rw [if_pos hs, if_pos hs]
      refine ⟨rfl, ?_⟩
      rintro st' h
      cases h
      exact ⟨hn, hk⟩
    · rw [if_neg hs, if_neg hs]
      have hm : MustResolve lib.formats resolve s ref := hr.resolve_right fun h1 => by
        obtain ⟨v, hv⟩ := alookup_isSome.2 (hk ref h1)
        rw [hv] at hs
        exact absurd rfl hs
      rw [ha ref hm]
      rcases ht : (resolve ref).target with e | s1
      · exact ⟨rfl, fun st' h => (nomatch h)⟩
      · simp only
        rcases hb : build lib m s1 (σ.sub 0) st.names with e | ⟨c, R'⟩
        · exact ⟨rfl, fun st' h => (nomatch h)⟩
        · simp only
          have hn' : ∀ n ∈ R', MustResolve lib.formats resolve s n ∨ IsRoot lib.formats s n := fun n h => by
            rcases (names_of_build hb n).1 h with h | h
            · exact hn n h
            · by_cases hc : IsRoot lib.formats s n
              · exact .inr hc
              · exact .inl (.step hm ht h hc)
          exact compileLoop_congr k (σ.sub 1) (shuffle (σ.sub 2).key R') ⟨ainsert ref c st.table, R'⟩
            (fun n h => hn' n (mem_shuffle.1 h)) hn' fun n h => mem_keys_ainsert.2 (.inr (hk n h))

theorem compileLoop_congr : ∀ (fuel : Nat) (σ : Sched) (l : List GoStr) (st : BState),
    (∀ n ∈ l, MustResolve lib.formats resolve s n ∨ IsRoot lib.formats s n) →
    (∀ n ∈ st.names, MustResolve lib.formats resolve s n ∨ IsRoot lib.formats s n) → (∀ n, IsRoot lib.formats s n → n ∈ st.keys) →
    compileLoop lib m resolve' fuel σ l st = compileLoop lib m resolve fuel σ l st ∧
      ∀ st', compileLoop lib m resolve fuel σ l st = .ok st' →
        (∀ n ∈ st'.names, MustResolve lib.formats resolve s n ∨ IsRoot lib.formats s n) ∧ ∀ n, IsRoot lib.formats s n → n ∈ st'.keys
  | 0, σ, [], st, _, hn, hk => by
    rw [compileLoop, compileLoop]
    refine ⟨rfl, fun st' h => ?_⟩
    cases h
    exact ⟨hn, hk⟩
  | 0, σ, _ :: _, st, _, _, _ => by
    rw [compileLoop, compileLoop]
    exact ⟨rfl, fun st' h => (nomatch h)⟩
  | k + 1, σ, [], st, _, hn, hk => by
    rw [compileLoop, compileLoop]
    refine ⟨rfl, fun st' h => ?_⟩
    cases h
    exact ⟨hn, hk⟩
  | k + 1, σ, ref :: rest, st, hl, hn, hk => by
    rw [compileLoop, compileLoop]
    obtain ⟨e, h1⟩ := compileRef_congr k (σ.sub 0) ref st (hl ref (by simp)) hn hk
    rw [e]
    rcases hc : compileRef lib m resolve k (σ.sub 0) ref st with e | st1
    · exact ⟨rfl, fun st' h => (nomatch h)⟩
    · simp only
      obtain ⟨hn1, hk1⟩ := h1 st1 hc
      refine compileLoop_congr k _ _ _ (fun n h => ?_) hn1 hk1
      rcases of_mem_revisit h with h | h
      · exact hl n (by simp [h])
      · exact hn1 n (List.mem_filter.1 h).1
end

/-- What is built depends on the resolver only by what it says of the names that have to be resolved. -/
theorem built_congr (fuel : Nat) (σ : Sched) : BuildWithCtx lib m resolve' fuel σ s = BuildWithCtx lib m resolve fuel σ s := by
  cases s with
  | nil => rfl
  | mk s =>
    simp only [BuildWithCtx]
    rcases hb : build lib m (.mk s) (σ.sub 0) [] with e | ⟨c, names⟩
    · rfl
    · simp only
      have hu : ∀ n, n ∈ names ↔ (Schema.mk s).UsesRef lib.formats n := fun n => by simpa using names_of_build hb n
      generalize hst : (if b! "#" ∈ names then (⟨[(b! "#", c)], names.filter (· ≠ b! "#")⟩ : BState) else ⟨[], names⟩) = st
      have hnames : ∀ n ∈ st.names, MustResolve lib.formats resolve (.mk s) n ∨ IsRoot lib.formats (.mk s) n := by
        intro n hn
        rw [← hst] at hn
        split_ifs at hn with hi
        · simp only [List.mem_filter, decide_eq_true_eq, ne_eq] at hn
          exact .inl (.root ((hu n).1 hn.1) hn.2)
        · by_cases hne : n = b! "#"
          · subst hne
            exact .inr ⟨rfl, (hu _).1 hn⟩
          · exact .inl (.root ((hu n).1 hn) hne)
      rw [(compileLoop_congr ha fuel (σ.sub 1) (shuffle (σ.sub 2).key st.names) st (fun n h => hnames n (mem_shuffle.1 h)) hnames
        (by
          rintro n ⟨rfl, h⟩
          rw [← hst, if_pos ((hu _).2 h)]
          simp [BState.keys])).1]
end

/-- The resolver, with `#` standing for this schema. -/
def Resolver.rootAt (resolve : Resolver) (s : Schema) : Resolver := fun n => if n = b! "#" then .schema s else resolve n

theorem refersTo_rootAt {s0 s s1 : Schema} {n : GoStr} : RefersTo (resolve.rootAt s0) s n s1 ↔ RefersTo resolve s n s1 := by
  constructor
  · intro h
    cases h with
    | root => exact .root
    | resolved h1 h2 => exact .resolved h1 (by rw [Resolver.rootAt, if_neg h1] at h2; exact h2)
  · intro h
    cases h with
    | root => exact .root
    | resolved h1 h2 => exact .resolved h1 (by rw [Resolver.rootAt, if_neg h1]; exact h2)

theorem reaches_rootAt {s0 s : Schema} {n : GoStr} : Reaches (resolve.rootAt s0) s n ↔ Reaches resolve s n := by
  constructor
  · intro h
    induction h with
    | root h => exact .root h
    | step _ h1 h2 ih => exact .step ih (refersTo_rootAt.1 h1) h2
  · intro h
    induction h with
    | root h => exact .root h
    | step _ h1 h2 ih => exact .step ih (refersTo_rootAt.2 h1) h2

theorem meaning_rootAt {ext : Ext} {s0 s : Schema} {R : GoStr → GoVal → Prop} :
    Meaning ext (resolve.rootAt s0) s R ↔ Meaning ext resolve s R := by
  simp only [Meaning, reaches_rootAt, refersTo_rootAt]

theorem grounded_rootAt {s0 s : Schema} : Grounded (resolve.rootAt s0) s ↔ Grounded resolve s := by
  simp only [Grounded, refersTo_rootAt]

/-- A part that does not get to `#` is about the file. -/
theorem reaches_file {s : Schema} (h : ¬ FileReaches resolve s (b! "#")) {n : GoStr} : Reaches resolve s n ↔ FileReaches resolve s n := by
  constructor
  · intro hr
    induction hr with
    | root h => exact .root h
    | step _ h1 h2 ih =>
      cases h1 with
      | root => exact absurd ih h
      | resolved _ h1 => exact .step ih h1 h2
  · intro hr
    induction hr with
    | root h => exact .root h
    | @step n k s1 h0 h1 h2 ih =>
      exact .step ih (.resolved (fun e => by subst e; exact h h0) h1) h2

theorem meaning_file {ext : Ext} {s : Schema} (h : ¬ FileReaches resolve s (b! "#")) {R : GoStr → GoVal → Prop} :
    Meaning ext resolve s R ↔ FileMeaning ext resolve s R := by
  constructor
  · intro hm n s1 h1 h2
    exact hm n s1 ((reaches_file h).2 h1) (.resolved (fun e => by subst e; exact h h1) h2)
  · intro hm n s1 h1 h2
    have h1' := (reaches_file h).1 h1
    cases h2 with
    | root => exact absurd h1' h
    | resolved _ h2 => exact hm n s1 h1' h2

end Jsval
