import Verif.Lemmas.Buildable
/-!
# When `compileReferences` succeeds
-/
namespace Jsval

variable {lib : SchemaLib} {m : Nat} {resolve : Resolver}

/-- A name that resolves to a schema that can be built, and uses only names from `T`. -/
def GoodRef (formats : List GoStr) (resolve : Resolver) (T : GoStr → Prop) (n : GoStr) : Prop :=
  ∃ s1, (resolve n).target = .ok s1 ∧ s1.Buildable formats ∧ ∀ k, s1.UsesRef formats k → T k

theorem GoodRef.mono {formats : List GoStr} {T T' : GoStr → Prop} {n : GoStr} (h : GoodRef formats resolve T n) (ht : ∀ k, T k → T' k) :
    GoodRef formats resolve T' n := by
  obtain ⟨s1, h1, h2, h3⟩ := h
  exact ⟨s1, h1, h2, fun k hk => ht k (h3 k hk)⟩

/-- What was registered on the way is good. -/
def Sound (lib : SchemaLib) (resolve : Resolver) (st st' : BState) : Prop :=
  ∀ n ∈ st'.keys, n ∈ st.keys ∨ GoodRef lib.formats resolve (· ∈ st'.names) n

theorem Sound.trans {a b c : BState} (h1 : Sound lib resolve a b) (h2 : Sound lib resolve b c) (hn : ∀ n ∈ b.names, n ∈ c.names) :
    Sound lib resolve a c := by
  intro n hc
  rcases h2 n hc with hb | hg
  · rcases h1 n hb with ha | hg
    · exact .inl ha
    · exact .inr (hg.mono hn)
  · exact .inr hg

mutual
theorem compileRef_sound : ∀ {fuel : Nat} {σ : Sched} {ref : GoStr} {st st' : BState},
    compileRef lib m resolve fuel σ ref st = .ok st' → Sound lib resolve st st'
  | 0, σ, ref, st, st', h => by rw [compileRef] at h; cases h
  | k + 1, σ, ref, st, st', h => by
    rw [compileRef] at h
    split at h
    · cases h
      exact fun n hn => .inl hn
    · rcases hr : (resolve ref).target with e | s1
      · rw [hr] at h; cases h
      · rw [hr] at h
        simp only at h
        rcases hb : build lib m s1 (σ.sub 0) st.names with e | ⟨c1, names⟩
        · rw [hb] at h; cases h
        · rw [hb] at h
          simp only at h
          have hbld : s1.Buildable lib.formats := by
            by_contra hc
            exact (build_does lib m s1).2 hc _ _ _ _ hb
          obtain ⟨c', R', e1, e2⟩ := (build_does lib m s1).1 hbld (σ.sub 0) st.names
          rw [hb] at e1
          cases e1
          obtain ⟨hc, -⟩ := compileLoop_compiled h
          have hl := compileLoop_sound h
          intro n hn
          rcases hl n hn with h1 | h1
          · rcases mem_keys_ainsert.1 h1 with rfl | h1
            · exact .inr ⟨s1, hr, hbld, fun k hk => hc.names k ((e2 k).2 (.inr hk))⟩
            · exact .inl h1
          · exact .inr h1

theorem compileLoop_sound : ∀ {fuel : Nat} {σ : Sched} {l : List GoStr} {st st' : BState},
    compileLoop lib m resolve fuel σ l st = .ok st' → Sound lib resolve st st'
  | 0, σ, [], st, st', h => by
    rw [compileLoop] at h; cases h
    exact fun n hn => .inl hn
  | 0, σ, _ :: _, st, st', h => by rw [compileLoop] at h; cases h
  | k + 1, σ, [], st, st', h => by
    rw [compileLoop] at h; cases h
    exact fun n hn => .inl hn
  | k + 1, σ, ref :: rest, st, st', h => by
    rw [compileLoop] at h
    rcases h1 : compileRef lib m resolve k (σ.sub 0) ref st with e | st1
    · rw [h1] at h; cases h
    · rw [h1] at h
      exact (compileRef_sound h1).trans (compileLoop_sound h) (compileLoop_compiled h).1.names
end

section
variable {T K : GoStr → Prop} (hT : ∀ n, T n → K n ∨ GoodRef lib.formats resolve T n)
include hT

mutual
theorem compileRef_good : ∀ (fuel : Nat) (σ : Sched) (ref : GoStr) (st : BState), T ref → (∀ n ∈ st.names, T n) →
    (∀ n, K n → n ∈ st.keys) → (∀ e, compileRef lib m resolve fuel σ ref st ≠ .error (.stop e)) ∧
    ∀ st', compileRef lib m resolve fuel σ ref st = .ok st' → ∀ n ∈ st'.names, T n
  | 0, σ, ref, st, _, _, _ => by rw [compileRef]; exact ⟨fun e h => (nomatch h), fun st' h => (nomatch h)⟩
  | k + 1, σ, ref, st, hr, hn, hk => by
    rw [compileRef]
    split
    · exact ⟨fun e h => (nomatch h), fun st' h => by cases h; exact hn⟩
    · rename_i hs
      rcases hT ref hr with h1 | ⟨s1, h1, h2, h3⟩
      · obtain ⟨v, hv⟩ := alookup_isSome.2 (hk ref h1)
        rw [hv] at hs
        exact absurd rfl hs
      · rw [h1]
        simp only
        obtain ⟨c, R', e1, e2⟩ := (build_does lib m s1).1 h2 (σ.sub 0) st.names
        rw [e1]
        simp only
        have hn' : ∀ n ∈ R', T n := fun n h => ((e2 n).1 h).elim (hn n) (h3 n)
        exact compileLoop_good k (σ.sub 1) _ ⟨ainsert ref c st.table, R'⟩ (fun n h => hn' n (mem_shuffle.1 h)) hn'
          (fun n h => mem_keys_ainsert.2 (.inr (hk n h)))

theorem compileLoop_good : ∀ (fuel : Nat) (σ : Sched) (l : List GoStr) (st : BState), (∀ n ∈ l, T n) → (∀ n ∈ st.names, T n) →
    (∀ n, K n → n ∈ st.keys) → (∀ e, compileLoop lib m resolve fuel σ l st ≠ .error (.stop e)) ∧
    ∀ st', compileLoop lib m resolve fuel σ l st = .ok st' → ∀ n ∈ st'.names, T n
  | 0, σ, [], st, _, hn, _ => by
    rw [compileLoop]; exact ⟨fun e h => (nomatch h), fun st' h => by cases h; exact hn⟩
  | 0, σ, _ :: _, st, _, _, _ => by rw [compileLoop]; exact ⟨fun e h => (nomatch h), fun st' h => (nomatch h)⟩
  | k + 1, σ, [], st, _, hn, _ => by
    rw [compileLoop]; exact ⟨fun e h => (nomatch h), fun st' h => by cases h; exact hn⟩
  | k + 1, σ, ref :: rest, st, hl, hn, hk => by
    rw [compileLoop]
    obtain ⟨i1, i2⟩ := compileRef_good k (σ.sub 0) ref st (hl ref (by simp)) hn hk
    rcases h1 : compileRef lib m resolve k (σ.sub 0) ref st with e | st1
    · simp only
      refine ⟨fun e' h => ?_, fun st' h => (nomatch h)⟩
      cases h
      exact i1 _ h1
    · simp only
      have hn1 := i2 st1 h1
      refine compileLoop_good k (σ.sub 1) _ st1 (fun n h => ?_) hn1 (fun n h => (compileRef_compiled h1).1.keys n (hk n h))
      rcases of_mem_revisit h with h | h
      · exact hl n (by simp [h])
      · exact hn1 n (List.mem_filter.1 h).1
end
end

/-- A successful build had everything it takes. -/
theorem canBuild_of_built {s : Schema} {fuel : Nat} {σ : Sched} {b : Built} (h : BuildWithCtx lib m resolve fuel σ s = .ok b) :
    CanBuild lib.formats resolve s := by
  cases s with
  | nil => cases h
  | mk s =>
    rw [BuildWithCtx] at h
    · rcases hb : build lib m (.mk s) (σ.sub 0) [] with e | ⟨c, names⟩
      · rw [hb] at h; cases h
      · rw [hb] at h
        simp only at h
        have hbld : (Schema.mk s).Buildable lib.formats := by
          by_contra hc
          exact (build_does lib m _).2 hc _ _ _ _ hb
        obtain ⟨c', R', e1, e2⟩ := (build_does lib m (.mk s)).1 hbld (σ.sub 0) []
        rw [hb] at e1
        cases e1
        generalize hst : (if b! "#" ∈ names then (⟨[(b! "#", c)], names.filter (· ≠ b! "#")⟩ : BState) else ⟨[], names⟩) = st at h
        rcases hl : compileLoop lib m resolve fuel (σ.sub 1) (shuffle (σ.sub 2).key st.names) st with e | st'
        · rw [hl] at h; cases h
        · have hs := compileLoop_sound hl
          obtain ⟨hc, hall⟩ := compileLoop_compiled hl
          have hkeys : ∀ n ∈ st.keys, n = b! "#" ∧ (Schema.mk s).UsesRef lib.formats (b! "#") := by
            intro n hn
            rw [← hst] at hn
            split_ifs at hn with hi
            · exact ⟨by simpa [BState.keys] using hn, ((e2 _).1 hi).elim (fun h => by simp at h) id⟩
            · simp [BState.keys] at hn
          have hnames : ∀ n, (Schema.mk s).UsesRef lib.formats n → n ≠ b! "#" → n ∈ st'.keys := by
            intro n hn hne
            refine hall n (mem_shuffle.2 ?_)
            have : n ∈ names := (e2 n).2 (.inr hn)
            rw [← hst]
            split_ifs
            · simp [this, hne]
            · exact this
          have hclosed : ∀ n ∈ st'.names, n ∈ st'.keys := fun n hn =>
            (hc.new n hn).elim (fun h => hall n (mem_shuffle.2 h)) id
          have key : ∀ n, MustResolve lib.formats resolve (.mk s) n →
              n ∈ st'.keys ∧ ¬ (n = b! "#" ∧ (Schema.mk s).UsesRef lib.formats (b! "#")) := by
            intro n hn
            induction hn with
            | root h1 h2 => exact ⟨hnames _ h1 h2, fun h => h2 h.1⟩
            | step _ h1 h2 h3 ih =>
              refine ⟨?_, h3⟩
              rcases hs _ ih.1 with h4 | ⟨s1, h4, -, h5⟩
              · exact absurd (hkeys _ h4) ih.2
              · rw [h1] at h4
                cases h4
                exact hclosed _ (h5 _ h2)
          refine ⟨hbld, fun n hn => ?_⟩
          obtain ⟨h1, h2⟩ := key n hn
          rcases hs n h1 with h4 | ⟨s1, h4, h5, -⟩
          · exact absurd (hkeys _ h4) h2
          · exact ⟨s1, h4, h5⟩
    · exact fun h => (nomatch h)

/-- With everything there, building succeeds unless the fuel runs out. -/
theorem built_of_canBuild {s : Schema} (h : CanBuild lib.formats resolve s) (fuel : Nat) (σ : Sched)
    (hd : BuildWithCtx lib m resolve fuel σ s ≠ .error .diverge) : ∃ b, BuildWithCtx lib m resolve fuel σ s = .ok b := by
  obtain ⟨hself, hrefs⟩ := h
  cases s with
  | nil => cases hself
  | mk s =>
    obtain ⟨c, names, e1, e2⟩ := (build_does lib m (.mk s)).1 hself (σ.sub 0) []
    have heq : BuildWithCtx lib m resolve fuel σ (.mk s) =
        (let st : BState := if b! "#" ∈ names then ⟨[(b! "#", c)], names.filter (· ≠ b! "#")⟩ else ⟨[], names⟩
        match compileLoop lib m resolve fuel (σ.sub 1) (shuffle (σ.sub 2).key st.names) st with
        | .error e => .error e
        | .ok st => .ok ⟨c, st.table⟩) := by
      rw [BuildWithCtx]
      · simp only [e1]
        rfl
      · exact fun h => (nomatch h)
    rw [heq] at hd ⊢
    simp only at hd ⊢
    generalize hst : (if b! "#" ∈ names then (⟨[(b! "#", c)], names.filter (· ≠ b! "#")⟩ : BState) else ⟨[], names⟩) = st at hd ⊢
    have hnames : ∀ n ∈ st.names, MustResolve lib.formats resolve (.mk s) n ∨ (n = b! "#" ∧ (Schema.mk s).UsesRef lib.formats (b! "#")) := by
      intro n hn
      have hu : n ∈ names → (Schema.mk s).UsesRef lib.formats n := fun h => ((e2 n).1 h).elim (fun h => by simp at h) id
      rw [← hst] at hn
      split_ifs at hn with hi
      · simp only [List.mem_filter, decide_eq_true_eq, ne_eq] at hn
        exact .inl (.root (hu hn.1) hn.2)
      · by_cases hne : n = b! "#"
        · subst hne
          exact .inr ⟨rfl, hu hn⟩
        · exact .inl (.root (hu hn) hne)
    obtain ⟨g1, -⟩ := compileLoop_good (lib := lib) (m := m) (resolve := resolve)
      (T := fun n => MustResolve lib.formats resolve (.mk s) n ∨ (n = b! "#" ∧ (Schema.mk s).UsesRef lib.formats (b! "#")))
      (K := fun n => n = b! "#" ∧ (Schema.mk s).UsesRef lib.formats (b! "#"))
      (fun n hn => by
        rcases hn with hn | hn
        · obtain ⟨s1, h1, h2⟩ := hrefs n hn
          refine .inr ⟨s1, h1, h2, fun k hk => ?_⟩
          by_cases hc : k = b! "#" ∧ (Schema.mk s).UsesRef lib.formats (b! "#")
          · exact .inr hc
          · exact .inl (.step hn h1 hk hc)
        · exact .inl hn) fuel (σ.sub 1) (shuffle (σ.sub 2).key st.names) st (fun n h => hnames n (mem_shuffle.1 h)) hnames
      (by
        rintro n ⟨rfl, hu⟩
        have : b! "#" ∈ names := (e2 _).2 (.inr hu)
        rw [← hst, if_pos this]
        simp [BState.keys])
    rcases hl : compileLoop lib m resolve fuel (σ.sub 1) (shuffle (σ.sub 2).key st.names) st with e | st'
    · rw [hl] at hd
      cases e with
      | stop e => exact absurd hl (g1 e)
      | diverge => exact absurd rfl hd
    · exact ⟨_, rfl⟩

/-! ## What is registered stays -/

mutual
theorem compileRef_keeps : ∀ {fuel : Nat} {σ : Sched} {ref : GoStr} {st st' : BState} {n : GoStr} {c : Constraint},
    compileRef lib m resolve fuel σ ref st = .ok st' → alookup n st.table = some c → alookup n st'.table = some c
  | 0, σ, ref, st, st', n, c, h, _ => by rw [compileRef] at h; cases h
  | k + 1, σ, ref, st, st', n, c, h, hn => by
    rw [compileRef] at h
    split at h
    · cases h
      exact hn
    · next hs =>
      rcases hr : (resolve ref).target with e | s1
      · rw [hr] at h; cases h
      · rw [hr] at h
        simp only at h
        rcases hb : build lib m s1 (σ.sub 0) st.names with e | ⟨c1, names⟩
        · rw [hb] at h; cases h
        · rw [hb] at h
          refine compileLoop_keeps h ?_
          have hne : n ≠ ref := by
            rintro rfl
            rw [hn] at hs
            exact hs rfl
          rw [alookup_ainsert, if_neg hne]
          exact hn

theorem compileLoop_keeps : ∀ {fuel : Nat} {σ : Sched} {l : List GoStr} {st st' : BState} {n : GoStr} {c : Constraint},
    compileLoop lib m resolve fuel σ l st = .ok st' → alookup n st.table = some c → alookup n st'.table = some c
  | 0, σ, [], st, st', n, c, h, hn => by rw [compileLoop] at h; cases h; exact hn
  | 0, σ, _ :: _, st, st', n, c, h, _ => by rw [compileLoop] at h; cases h
  | k + 1, σ, [], st, st', n, c, h, hn => by rw [compileLoop] at h; cases h; exact hn
  | k + 1, σ, ref :: rest, st, st', n, c, h, hn => by
    rw [compileLoop] at h
    rcases h1 : compileRef lib m resolve k (σ.sub 0) ref st with e | st1
    · rw [h1] at h; cases h
    · rw [h1] at h
      exact compileLoop_keeps h (compileRef_keeps h1 hn)
end

/-- A root that refers to itself is registered as `#`. -/
theorem root_registered {s : Schema} {fuel : Nat} {σ : Sched} {b : Built} (h : BuildWithCtx lib m resolve fuel σ s = .ok b)
    (hu : s.UsesRef lib.formats (b! "#")) : alookup (b! "#") b.table = some b.root := by
  have hbld := (canBuild_of_built h).self
  cases s with
  | nil => cases h
  | mk s =>
    rw [BuildWithCtx] at h
    · obtain ⟨c, names, e1, e2⟩ := (build_does lib m (.mk s)).1 hbld (σ.sub 0) []
      rw [e1] at h
      simp only at h
      rw [if_pos ((e2 _).2 (.inr hu))] at h
      split at h
      · cases h
      · next st' hl =>
        cases h
        exact compileLoop_keeps hl (by simp [alookup])
    · exact fun h => (nomatch h)

end Jsval
