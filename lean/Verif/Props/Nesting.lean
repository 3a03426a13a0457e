import Verif.Spec.Nesting
import Verif.Lemmas.Nesting
import Verif.Props.References

/-!
C124: how deep validation nests. C49 says that a call returns when every cycle of references goes through an element or a
property; here is by how much the calls nest: the number of names times the depth of the value, and a schema that needs
that much.
-/

namespace Jsval

variable {ext : Ext} {env : Env}

/-- C124: a call on a value that nests `d` containers follows at most `n * (d + 2) + 1` references one inside the other,
`n` the number of names, whatever the iteration order. -/
theorem C124_within {F : Finset (Nat × GoStr)} (hF : Names env F) (hg : Guarded env) (henv : env.Every (DefaultIn Flat))
    {c : Constraint} (hc : c.Every (DefaultIn Flat)) {d : Nat} {v : GoVal} (hv : DepthLe d v) {k : Nat}
    (hk : F.card * (d + 2) + 1 ≤ k) : NestsAtMost ext env k c v :=
  fun σ h => ((depth_within (ext := ext) hg hF henv d c hc k hk).val σ v hv).2.2 .diverge h rfl

/-- C124: looking for a default follows at most `n + 1`. -/
theorem C124_default {F : Finset (Nat × GoStr)} (hF : Names env F) (hg : Guarded env) (henv : env.Every (DefaultIn Flat))
    {c : Constraint} (hc : DefaultIn Flat c) {k : Nat} (hk : F.card + 1 ≤ k) : DefaultNestsAtMost ext env k c :=
  fun h => (dflt_within (ext := ext) hg hF henv c hc hk).2 .diverge h rfl

/-- A recursive tree of nodes, as in C49, in one map. -/
def exTreeEnv : Env := fun m n => if m = 0 then exNodeEnv m n else none

theorem exTreeEnv_some {m : Nat} {n : GoStr} {c : Constraint} (h : exTreeEnv m n = some c) : m = 0 ∧ exNodeEnv m n = some c := by
  unfold exTreeEnv at h
  split at h
  · rename_i hm; exact ⟨hm, h⟩
  · cases h

theorem exTree_names : Names exTreeEnv {(0, b! "node"), (0, b! "obj")} := by
  intro m n h
  cases e : exTreeEnv m n with
  | none => exact absurd e h
  | some c =>
    obtain ⟨rfl, h'⟩ := exTreeEnv_some e
    unfold exNodeEnv at h'
    split at h'
    · rename_i hn; subst hn; exact Finset.mem_insert_self _ _
    · split at h'
      · rename_i hn; subst hn; exact Finset.mem_insert_of_mem (Finset.mem_singleton_self _)
      · cases h'

theorem exTree_guarded : Guarded exTreeEnv := by
  refine Subrelation.wf ?_ exNode_guarded
  rintro q p ⟨c, hc, hh⟩
  exact ⟨c, (exTreeEnv_some hc).2, hh⟩

/-- Two names and a value with four containers one inside the other: at most 13 references. -/
example : NestsAtMost demoExt exTreeEnv 13 (.ref 0 (b! "node"))
    (.map false [(b! "kids", .slice false [.nil, .map false [(b! "kids", .slice false [])]])]) :=
  C124_within (d := 4) exTree_names exTree_guarded (fun m n c h => exNodeEnv_every m n c (exTreeEnv_some h).2)
    (.intro (fun dv h => by cases h) (fun d hd => by simp [Constraint.kids] at hd))
    (.map _ _ fun k x hx => by
      simp only [List.mem_singleton, Prod.mk.injEq] at hx
      obtain ⟨_, rfl⟩ := hx
      refine .slice _ _ fun x hx => ?_
      simp only [List.mem_cons, List.not_mem_nil, or_false] at hx
      rcases hx with rfl | rfl
      · exact .nil
      · refine .map _ _ fun k x hx => ?_
        simp only [List.mem_singleton, Prod.mk.injEq] at hx
        obtain ⟨_, rfl⟩ := hx
        exact .slice _ _ fun x hx => by cases hx) (by decide)

/-- The value is accepted; one reference is not enough for it. -/
example : ∃ v', Returns demoExt exTreeEnv (.ref 0 (b! "node")) sched0
    (.map false [(b! "kids", .slice false [.nil, .map false [(b! "kids", .slice false [])]])]) .ok v' :=
  ⟨_, by simp, 5, rfl⟩
example : ((sem demoExt exTreeEnv 1 (.ref 0 (b! "node"))).val sched0
    (.map false [(b! "kids", .slice false [.nil, .map false [(b! "kids", .slice false [])]])])).1 = .abort .diverge := rfl

/-! ### The bound is attained -/

/-- The name made of `i` letters. -/
def linkName (i : Nat) : GoStr := List.replicate i 97

/-- The constraint at the end of the chain: an object whose property `x` is the chain again. -/
def linkEnd : Constraint := .object (Object'.AddProp (b! "x") (.ref 0 (linkName 0)))

/-- `n` names, each a reference to the next, the last one the object. -/
def linkEnv (n : Nat) : Env := fun m s =>
  if m = 0 ∧ s = linkName s.length ∧ s.length < n then
    some (if s.length + 1 < n then .ref 0 (linkName (s.length + 1)) else linkEnd)
  else none

/-- `d` maps one inside the other, the innermost with a `time.Time` for `x`. -/
def linkVal : Nat → GoVal
  | 0 => .time 0
  | d + 1 => .map false [(b! "x", linkVal d)]

theorem linkName_inj {i j : Nat} (h : linkName i = linkName j) : i = j := by
  simpa [linkName] using congrArg List.length h

theorem linkVal_depth : ∀ d, DepthLe d (linkVal d)
  | 0 => .time _
  | d + 1 => .map _ _ fun k x hx => by
    simp only [List.mem_singleton, Prod.mk.injEq] at hx
    obtain ⟨_, rfl⟩ := hx
    exact linkVal_depth d

theorem linkEnv_next {n i : Nat} (h : i + 1 < n) : linkEnv n 0 (linkName i) = some (.ref 0 (linkName (i + 1))) := by
  have : (linkName i).length = i := by simp [linkName]
  simp only [linkEnv, this]
  rw [if_pos ⟨trivial, trivial, by omega⟩, if_pos h]

theorem linkEnv_last {n i : Nat} (h : i + 1 = n) : linkEnv n 0 (linkName i) = some linkEnd := by
  have : (linkName i).length = i := by simp [linkName]
  simp only [linkEnv, this]
  rw [if_pos ⟨trivial, trivial, by omega⟩, if_neg (by omega)]

/-- The names of `linkEnv n`. -/
def linkNames (n : Nat) : Finset (Nat × GoStr) := (Finset.range n).map ⟨fun i => (0, linkName i), fun _ _ h => linkName_inj (Prod.mk.inj h).2⟩

theorem linkNames_card (n : Nat) : (linkNames n).card = n := by
  simp [linkNames]

theorem linkNames_all (n : Nat) : Names (linkEnv n) (linkNames n) := by
  intro m s h
  unfold linkEnv at h
  split at h
  · rename_i h'
    obtain ⟨rfl, hs, hn⟩ := h'
    refine Finset.mem_map.2 ⟨s.length, Finset.mem_range.2 hn, ?_⟩
    exact Prod.ext rfl hs.symm
  · exact absurd rfl h

theorem linkEnv_guarded (n : Nat) : Guarded (linkEnv n) := by
  refine Subrelation.wf (r := InvImage (· < ·) (fun p : Nat × GoStr => n - p.2.length)) ?_ (InvImage.wf _ Nat.lt_wfRel.wf)
  rintro q p ⟨c, hc, hh⟩
  unfold linkEnv at hc
  split at hc
  · rename_i h'
    simp only [Option.some.injEq] at hc
    split at hc
    · rename_i hl
      subst hc
      obtain ⟨q1, q2⟩ := q
      cases hh with
      | refl =>
        have := List.length_replicate (n := p.2.length + 1) (a := (97 : UInt8))
        simp only [InvImage]
        change n - (List.replicate (p.2.length + 1) (97 : UInt8)).length < _
        rw [this]
        omega
      | same hs _ => cases hs
    · subst hc
      cases hh with
      | same hs _ =>
        cases hs with
        | dependency hd => cases hd
  · cases hc

theorem linkEnd_every : linkEnd.Every (DefaultIn Flat) := by
  refine .intro (fun dv h => by cases h) fun d hd => ?_
  change d ∈ [Constraint.ref 0 (linkName 0)] at hd
  simp only [List.mem_singleton] at hd
  subst hd
  exact .intro (fun dv h => by cases h) (fun d hd => by simp [Constraint.kids] at hd)

theorem linkRef_every (m : Nat) (s : GoStr) : (Constraint.ref m s).Every (DefaultIn Flat) :=
  .intro (fun dv h => by cases h) (fun d hd => by simp [Constraint.kids] at hd)

theorem linkEnv_every (n : Nat) : (linkEnv n).Every (DefaultIn Flat) := by
  intro m s c h
  unfold linkEnv at h
  split at h
  · simp only [Option.some.injEq] at h
    subst h
    split
    · exact linkRef_every _ _
    · exact linkEnd_every
  · cases h

theorem link_short {n : Nat} : ∀ (k i : Nat), k + i < n → refSem ext (linkEnv n) k 0 (linkName i) = running
  | 0, _, _ => rfl
  | k + 1, i, h => by
    simp only [refSem, linkEnv_next (show i + 1 < n by omega)]
    exact link_short k (i + 1) (by omega)

theorem link_through {n : Nat} (k : Nat) : ∀ (j i : Nat), i + j + 1 = n →
    refSem ext (linkEnv n) (j + 1 + k) 0 (linkName i) = denote ext (refSem ext (linkEnv n) k) linkEnd
  | 0, i, h => by
    rw [show 0 + 1 + k = k + 1 by omega]
    simp only [refSem, linkEnv_last (show i + 1 = n by omega)]
  | j + 1, i, h => by
    rw [show j + 1 + 1 + k = (j + 1 + k) + 1 by omega]
    simp only [refSem, linkEnv_next (show i + 1 < n by omega)]
    exact link_through k j (i + 1) (by omega)

theorem link_absent {ρ : RefSem} (h : (ρ 0 (linkName 0)).dflt = .abort .diverge) (σ : Sched) :
    ((denote ext ρ linkEnd).val σ (linkVal 0)).1 = .abort .diverge := by
  have : propStep ext ⟨[(b! "x", ρ 0 (linkName 0))], [], none, [], [], [], -1, -1⟩ (σ.sub 1) 0 (b! "x", ρ 0 (linkName 0))
      ⟨.time 0, [], []⟩ = (.abort .diverge, ⟨.time 0, [], []⟩) := by
    unfold propStep
    rw [show viewProp (valueOf (.time 0)).indirect (b! "x") = .ok .absent from rfl]
    simp [h]
  change ((objectV ext ⟨[(b! "x", ρ 0 (linkName 0))], [], none, [], [], [], -1, -1⟩) σ (.time 0)).1 = _
  unfold objectV
  rw [show getPropNames (valueOf (.time 0)).indirect = .ok [] from rfl]
  simp [objLoops, shuffle, insertAt, forLoop, nameSet, this, seqSt]

theorem link_present {ρ : RefSem} {d : Nat} (h : ∀ σ, ((ρ 0 (linkName 0)).val σ (linkVal d)).1 = .abort .diverge) (σ : Sched) :
    ((denote ext ρ linkEnd).val σ (linkVal (d + 1))).1 = .abort .diverge := by
  have hx := h ((σ.sub 1).sub 0)
  have : (propStep ext ⟨[(b! "x", ρ 0 (linkName 0))], [], none, [], [], [], -1, -1⟩ (σ.sub 1) 0 (b! "x", ρ 0 (linkName 0))
      ⟨linkVal (d + 1), [b! "x"], []⟩).1 = .abort .diverge := by
    unfold propStep
    rw [show viewProp (valueOf (linkVal (d + 1))).indirect (b! "x") = .ok (.present (linkVal d) true) from rfl]
    simp only
    rw [hx]
  change ((objectV ext ⟨[(b! "x", ρ 0 (linkName 0))], [], none, [], [], [], -1, -1⟩) σ (linkVal (d + 1))).1 = _
  unfold objectV
  rw [show getPropNames (valueOf (linkVal (d + 1))).indirect = .ok [b! "x"] from rfl]
  rcases e : propStep ext ⟨[(b! "x", ρ 0 (linkName 0))], [], none, [], [], [], -1, -1⟩ (σ.sub 1) 0 (b! "x", ρ 0 (linkName 0))
      ⟨linkVal (d + 1), [b! "x"], []⟩ with ⟨r, st⟩
  rw [e] at this
  simp only at this
  subst this
  simp [objLoops, shuffle, insertAt, forLoop, nameSet, addName, e, seqSt]

theorem link_beyond {n : Nat} : ∀ (d k : Nat), k < n * (d + 2) → ∀ σ,
    ((refSem ext (linkEnv n) k 0 (linkName 0)).val σ (linkVal d)).1 = .abort .diverge := by
  intro d
  induction d with
  | zero =>
    intro k hk σ
    by_cases hn : k < n
    · rw [link_short k 0 (by omega)]; rfl
    · obtain ⟨j, rfl⟩ : ∃ j, k = (n - 1) + 1 + j := ⟨k - n, by omega⟩
      rw [link_through j (n - 1) 0 (by omega)]
      exact link_absent (by rw [link_short j 0 (by omega)]; rfl) σ
  | succ d ih =>
    intro k hk σ
    have e : n * (d + 1 + 2) = n * (d + 2) + n := Nat.mul_succ _ (d + 2)
    by_cases hn : k < n
    · rw [link_short k 0 (by omega)]; rfl
    · have : n ≠ 0 := by rintro rfl; simp at hk
      obtain ⟨j, rfl⟩ : ∃ j, k = (n - 1) + 1 + j := ⟨k - n, by omega⟩
      rw [link_through j (n - 1) 0 (by omega)]
      exact link_present (ih j (by omega)) σ

/-- C124: the bound cannot be improved by more than one: for every number of names and every depth there are a schema and
a value that need `n * (d + 2)`. -/
theorem C124_attained (n d : Nat) : ∃ (env : Env) (F : Finset (Nat × GoStr)) (c : Constraint) (v : GoVal),
    Names env F ∧ F.card = n ∧ Guarded env ∧ env.Every (DefaultIn Flat) ∧ c.Every (DefaultIn Flat) ∧ DepthLe d v ∧
    ∀ k, k < n * (d + 2) → NestsBeyond ext env k c v :=
  ⟨linkEnv n, linkNames n, .ref 0 (linkName 0), linkVal d, linkNames_all n, linkNames_card n, linkEnv_guarded n,
    linkEnv_every n, linkRef_every _ _, linkVal_depth d, fun k hk σ => link_beyond d k hk σ⟩

end Jsval
