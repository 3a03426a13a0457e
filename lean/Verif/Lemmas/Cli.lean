import Verif.Spec.Cli
import Verif.Lemmas.GenMain
/-!
# Lemmas about the command
-/
namespace Jsval
open Go
variable {D V P : Type} {L : CliLib D V P}

theorem ptrSchema_iff {m : D} {ptr : GoStr} {s : Schema} : L.ptrSchema m ptr = some s ↔ Selects L m ptr s := by
  unfold CliLib.ptrSchema Selects
  constructor
  · intro h
    split at h
    · cases h
    · split at h
      · cases h
      · split at h
        · cases h
        · exact ⟨_, _, _, by assumption, by assumption, by assumption, h⟩
  · rintro ⟨p, v, m2, h1, h2, h3, h4⟩
    simp only [h1, h2, h3, h4]

theorem ptrSchemas_iff {m : D} : ∀ {ptrs : List GoStr} {ss : List Schema}, L.ptrSchemas m ptrs = some ss ↔ List.Forall₂ (Selects L m) ptrs ss
  | [], ss => by simp [CliLib.ptrSchemas, eq_comm]
  | ptr :: ptrs, ss => by
    rw [CliLib.ptrSchemas, List.forall₂_cons_left_iff]
    constructor
    · intro h
      split at h
      · cases h
      · next s hs =>
        split at h
        · cases h
        · next ss' hss =>
          cases h
          exact ⟨s, ss', ptrSchema_iff.1 hs, ptrSchemas_iff.1 hss, rfl⟩
    · rintro ⟨s, ss', h1, h2, rfl⟩
      rw [ptrSchema_iff.2 h1, ptrSchemas_iff.2 h2]

theorem load_iff {d : Disk} {o : CliOpts} {m : D} {ss : List Schema} : L.load d o = some (m, ss) ↔
    ∃ text, L.readable o.schema = true ∧ d.files o.schema = some text ∧ L.decode text = some m ∧ AsksFor L text m o.pointer ss := by
  unfold CliLib.load CliLib.openFile
  constructor
  · intro h
    split at h
    · cases h
    · next text ht =>
      split_ifs at ht with hr
      split at h
      · cases h
      · next m' hm =>
        split_ifs at h with hl
        · split at h
          · cases h
          · next s hs =>
            cases h
            refine ⟨text, hr, ht, hm, ?_⟩
            rw [List.length_eq_zero_iff] at hl
            rw [hl]
            exact .whole hs
        · split at h
          · cases h
          · next ss' hs =>
            cases h
            rw [List.length_eq_zero_iff] at hl
            exact ⟨text, hr, ht, hm, .parts hl (ptrSchemas_iff.1 hs)⟩
  · rintro ⟨text, hr, ht, hm, ha⟩
    rw [if_pos hr, ht]
    simp only [hm]
    generalize o.pointer = ptrs at ha
    cases ha with
    | whole hs => simp [hs]
    | parts hl hs => rw [if_neg (by rwa [List.length_eq_zero_iff]), ptrSchemas_iff.2 hs]

theorem cliName_eq (o : CliOpts) (i : Nat) : cliName o i = if o.pfx = [] then [] else cliVar o i := by
  unfold cliName cliVar
  by_cases h : o.pfx = [] <;> simp [h]

/-- `BuiltInOrder` from number `i` on. -/
theorem buildAll_iff {o : CliOpts} {resolve : Resolver} {fuel : Nat} {σ : Sched} : ∀ {ss : List Schema} {i : Nat} {vals : List GenVal},
    L.buildAll o resolve fuel σ i ss = .ok vals ↔ ∃ jobs : List Job, jobs.map Job.val = vals ∧ jobs.map (·.schema) = ss ∧
      ∀ k j, jobs[k]? = some j → BuildWithCtx L.lib (i + k) resolve fuel (σ.sub (i + k)) j.schema = .ok j.built ∧
        j.map = i + k ∧ j.name = (if o.pfx = [] then [] else cliVar o (i + k)) ∧ j.same = L.same (i + k)
  | [], i, vals => by
    rw [CliLib.buildAll]
    constructor
    · intro h
      cases h
      exact ⟨[], rfl, rfl, by simp⟩
    · rintro ⟨jobs, h1, h2, -⟩
      rw [List.map_eq_nil_iff] at h2
      subst h2
      rw [← h1]
      rfl
  | s :: ss, i, vals => by
    rw [CliLib.buildAll]
    constructor
    · intro h
      split at h
      · cases h
      · next b hb =>
        split at h
        · cases h
        · next vs hvs =>
          cases h
          obtain ⟨jobs, h1, h2, h3⟩ := buildAll_iff.1 hvs
          refine ⟨⟨cliName o i, s, i, b, L.same i⟩ :: jobs, by rw [List.map_cons, h1]; rfl, by rw [List.map_cons, h2], ?_⟩
          rintro (_ | k) j hj
          · cases hj
            exact ⟨hb, rfl, cliName_eq o i, rfl⟩
          · have := h3 k j (by simpa using hj)
            rwa [show i + (k + 1) = i + 1 + k by omega]
    · rintro ⟨jobs, h1, h2, h3⟩
      cases jobs with
      | nil => simp at h2
      | cons j jobs =>
        rw [List.map_cons, List.cons.injEq] at h2
        obtain ⟨rfl, h2⟩ := h2
        obtain ⟨e1, e2, e3, e4⟩ := h3 0 j rfl
        rw [Nat.add_zero] at e1 e2 e3 e4
        have : L.buildAll o resolve fuel σ (i + 1) ss = .ok (jobs.map Job.val) := by
          refine buildAll_iff.2 ⟨jobs, rfl, h2, fun k j' hj' => ?_⟩
          have := h3 (k + 1) j' (by simpa using hj')
          rwa [show i + (k + 1) = i + 1 + k by omega] at this
        simp only [e1, this]
        rw [← h1, List.map_cons, Job.val, e3, e4, cliName_eq]

theorem buildAll_order {o : CliOpts} {m : D} {fuel : Nat} {σ : Sched} {ss : List Schema} {vals : List GenVal} :
    L.buildAll o (L.resolve m) fuel σ 0 ss = .ok vals ↔ ∃ jobs : List Job, jobs.map Job.val = vals ∧ BuiltInOrder L o m fuel σ ss jobs := by
  rw [buildAll_iff]
  constructor
  · rintro ⟨jobs, h1, h2, h3⟩
    exact ⟨jobs, h1, h2, fun i j hj => by simpa using h3 i j hj⟩
  · rintro ⟨jobs, h1, h2, h3⟩
    exact ⟨jobs, h1, h2, fun i j hj => by simpa using h3 i j hj⟩

/-- The disk when the code is to be written. -/
def outDisk (o : CliOpts) (d : Disk) : Disk := if o.outFile = [] then d else d.create o.outFile

theorem emitted_write (o : CliOpts) (d : Disk) (t : GoStr) : Emitted o d ((outDisk o d).write o.outFile t) t := by
  unfold outDisk Disk.write Disk.create
  by_cases h : o.outFile = []
  · simp only [h, if_true]
    exact ⟨by simp [h], fun h' => absurd h h', fun q _ => rfl⟩
  · simp only [h, if_false]
    refine ⟨by simp [h], fun _ => by simp, fun q hq => ?_⟩
    rcases hq with hq | hq
    · exact absurd hq h
    · simp [hq]

theorem valNames_cli {o : CliOpts} {jobs : List Job} (h : ∀ i j, jobs[i]? = some j → j.name = if o.pfx = [] then [] else cliVar o i) :
    valNames (jobs.map Job.val) = (List.range jobs.length).map (cliVar o) := by
  refine List.ext_getElem? fun i => ?_
  rw [valNames, List.getElem?_mapIdx, List.getElem?_map, List.getElem?_map]
  cases hj : jobs[i]? with
  | none =>
    rw [List.getElem?_eq_none_iff] at hj
    rw [List.getElem?_eq_none (by simpa using hj)]
    rfl
  | some j =>
    have hi : i < jobs.length := by
      by_contra hc
      rw [List.getElem?_eq_none (by omega)] at hj
      cases hj
    rw [List.getElem?_range hi]
    simp only [Option.map_some, Job.val, h i j hj]
    by_cases hp : o.pfx = []
    · simp [hp, cliVar]
    · have : cliVar o i ≠ [] := by simp [cliVar, hp]
      simp [hp, this]

theorem natDec_ne_nil (n : Nat) : natDec n ≠ [] := by
  unfold natDec
  split_ifs with h
  · simp
  · simp [Nat.digits_eq_nil_iff_eq_zero, h]

/-- Words without digits are no numbered names. -/
theorem numbered_ne {p w : GoStr} {n : Nat} (h : ∀ c ∈ w, isDigit c = false) : p ++ natDec n ≠ w := by
  rintro rfl
  obtain ⟨c, t, e⟩ := List.exists_cons_of_ne_nil (natDec_ne_nil n)
  have h1 := h c (by simp [e])
  rw [natDec_digits n c (by simp [e])] at h1
  cases h1

theorem wordPrefix_name {p : GoStr} (h : WordPrefix p) (hp : p ≠ []) (i : Nat) : GoIdent (p ++ natDec i) ∧
    p ++ natDec i ∉ takenNames ∧ p ++ natDec i ≠ b! "M" := by
  refine ⟨⟨?_, ?_, ?_⟩, ?_, ?_⟩
  · obtain ⟨c, t, rfl⟩ := List.exists_cons_of_ne_nil hp
    exact ⟨c, t ++ natDec i, rfl, h.first c t rfl⟩
  · intro c hc
    rw [List.mem_append] at hc
    rcases hc with hc | hc
    · exact h.all c hc
    · exact .inr (natDec_digits i c hc)
  · intro hk
    have : ∀ w ∈ goKeywords, ∀ c ∈ w, isDigit c = false := by decide
    exact numbered_ne (this _ hk) rfl
  · intro hk
    have : ∀ w ∈ takenNames, ∀ c ∈ w, isDigit c = false := by decide
    exact numbered_ne (this _ hk) rfl
  · exact numbered_ne (by decide)

theorem goodPrefix_name {p : GoStr} (h : GoodPrefix p) (hp : p ≠ []) (i k : Nat) : p ++ natDec i ≠ b! "R" ++ natDec k := by
  intro hk
  obtain ⟨c, t, rfl⟩ := List.exists_cons_of_ne_nil hp
  rw [List.cons_append, show b! "R" ++ natDec k = 0x52 :: natDec k from rfl, List.cons.injEq] at hk
  obtain ⟨rfl, hk⟩ := hk
  obtain ⟨c, hc, hd⟩ := h.notRef t rfl
  rw [natDec_digits k c (by rw [← hk]; exact List.mem_append_left _ hc)] at hd
  cases hd

theorem cliVar_word {o : CliOpts} (h : WordPrefix o.pfx) (i : Nat) : GoIdent (cliVar o i) ∧ cliVar o i ∉ takenNames ∧ cliVar o i ≠ b! "M" := by
  unfold cliVar
  split_ifs with hp
  · exact wordPrefix_name ⟨fun c t h => (by cases h; decide), by decide⟩ (by simp) i
  · exact wordPrefix_name h hp i

theorem cliVar_good {o : CliOpts} (h : GoodPrefix o.pfx) (i : Nat) : GoIdent (cliVar o i) ∧
    ∀ vals, cliVar o i ∉ takenNames ∧ cliVar o i ∉ ownNames vals := by
  obtain ⟨h1, h2, h3⟩ := cliVar_word h.toWordPrefix i
  refine ⟨h1, fun vals => ⟨h2, not_own h3 fun k => ?_⟩⟩
  unfold cliVar
  split_ifs with hp
  · simp
  · exact goodPrefix_name h hp i k

/-- The name of a validator is one of the generator's variables exactly if it is that of a reference. -/
theorem cliVar_own {o : CliOpts} (h : WordPrefix o.pfx) (i : Nat) (vals : List GenVal) :
    cliVar o i ∈ ownNames vals ↔ ∃ k < (refNames vals).length, cliVar o i = b! "R" ++ natDec k := by
  have h3 := (cliVar_word h i).2.2
  unfold ownNames
  split_ifs with hr
  · rw [List.mem_cons, List.mem_map]
    constructor
    · rintro (h | ⟨k, hk, h⟩)
      · exact absurd h h3
      · exact ⟨k, List.mem_range.1 hk, h.symm⟩
    · rintro ⟨k, hk, h⟩
      exact .inr ⟨k, List.mem_range.2 hk, h.symm⟩
  · have : refNames vals = [] := by
      rw [refNames, List.dedup_eq_nil, List.flatMap_eq_nil_iff]
      intro v hv
      rw [List.map_eq_nil_iff]
      by_contra hc
      exact hr (List.any_eq_true.2 ⟨v, hv, by simpa using hc⟩)
    simp [this]

theorem cliVar_inj {o : CliOpts} {i j : Nat} (h : cliVar o i = cliVar o j) : i = j :=
  natDec_inj (List.append_cancel_left h)

end Jsval
