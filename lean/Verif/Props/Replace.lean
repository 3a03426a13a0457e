import Verif.Lemmas.Like
import Verif.Props.Combinators
import Verif.Props.Builder
import Verif.Props.Structs
/-!
# C116: a part of a validator can be replaced by an equivalent one

`c.fill h d` is the validator `c` with the part `d` at the places marked `h`. The statements are about what callers see: the default,
and the verdicts that are possible with what they leave behind (`Sem.Equivalent`, `Sem.SameVerdicts`).
-/
namespace Jsval

variable {ext : Ext}

theorem fill_equivalent {ρ ρ' : RefSem} (hρ : ∀ m n, (ρ m n).Equivalent (ρ' m n)) {d d' : Constraint}
    (hd : (denote ext ρ d).Equivalent (denote ext ρ' d')) (h : Nat × GoStr) (c : Constraint) :
    (denote ext ρ (c.fill h d)).Equivalent (denote ext ρ' (c.fill h d')) := by
  unfold Constraint.fill
  rw [denote_inline, denote_inline]
  refine denote_equivalent (fun m n => ?_) c
  by_cases e : (m, n) = h
  · simp only [if_pos e]; exact hd
  · simp only [if_neg e, denote]; exact hρ m n

/-- C116: when two constraints are equivalent, a validator with the one is equivalent to the validator with the other in its place,
wherever that is: in properties, elements, branches, dependencies, below `Not`. -/
theorem C116_replaced {env : Env} {k : Nat} {d d' : Constraint} (hd : (sem ext env k d).Equivalent (sem ext env k d'))
    (h : Nat × GoStr) (c : Constraint) : (sem ext env k (c.fill h d)).Equivalent (sem ext env k (c.fill h d')) :=
  fill_equivalent (fun _ _ => .refl _) hd h c

/-- C116: the same when the part is replaced in the constraint map as well, so in the targets of references. -/
theorem C116_everywhere {d d' : Constraint} (hd : ∀ env k, (sem ext env k d).Equivalent (sem ext env k d')) (env : Env) (k : Nat)
    (h : Nat × GoStr) (c : Constraint) :
    (sem ext (env.fill h d) k (c.fill h d)).Equivalent (sem ext (env.fill h d') k (c.fill h d')) := by
  have step : ∀ k, (∀ m n, (refSem ext (env.fill h d) k m n).Equivalent (refSem ext (env.fill h d') k m n)) → ∀ c : Constraint,
      (sem ext (env.fill h d) k (c.fill h d)).Equivalent (sem ext (env.fill h d') k (c.fill h d')) := fun k hk c =>
    fill_equivalent hk ((hd (env.fill h d) k).trans (denote_equivalent hk d')) h c
  refine step k ?_ c
  induction k with
  | zero => exact fun m n => .refl _
  | succ k ih =>
    intro m n
    simp only [refSem, Env.fill]
    cases env m n with
    | none => exact .refl _
    | some t => exact step k ih t

/-! ## Nothing less will do -/

/-- An object that asks for the marked part in the property `a`. -/
def exMarked (h : Nat × GoStr) : Constraint := .object (Object'.AddProp (b! "a") (.ref h.1 h.2))

theorem marked_fill (h : Nat × GoStr) (d : Constraint) : (exMarked h).fill h d = .object (Object'.AddProp (b! "a") d) := by
  simp [exMarked, Constraint.fill, Constraint.inline, Object', ObjC.AddProp, ainsert, inlineProps, inlinePats, inlineOpt]

/-- What an object with one property does about that property when it is absent, and nothing else is there. -/
theorem marked_run {ρ : RefSem} (d : Constraint) (σ : Sched) (v : GoVal) (hn : getPropNames (valueOf v).indirect = .ok [])
    (hv : viewProp (valueOf v).indirect (b! "a") = .ok .absent) :
    AlikeOut ((denote ext ρ (.object (Object'.AddProp (b! "a") d))).val σ v)
      (match (denote ext ρ d).dflt with
      | .abort a => (.abort a, v)
      | .none => (.ok, v)
      | .some dv =>
        match setProp ext v (b! "a") dv with
        | .error (.err e) => (.err e, v)
        | .error (.abort a) => (.abort a, v)
        | .ok v' => (.ok, v')) := by
  have e1 : ∀ k (x : GoStr × Sem), shuffle k [x] = [x] := fun k x => List.perm_singleton.1 (shuffle_perm [x] k)
  rw [denote_object]
  unfold objectV
  rw [hn]
  simp only [Object', ObjC.AddProp, ainsert, ObjC.map, List.map_cons, List.map_nil, objLoops, e1]
  simp only [show ¬ ((-1 : Int) > -1 ∧ (([] : List GoStr).length : Int) < -1) by omega,
    show ¬ ((-1 : Int) > -1 ∧ (([] : List GoStr).length : Int) > -1) by omega, if_false, forLoop, propStep, hv, nameSet, List.foldl_nil]
  rw [if_neg (by simp)]
  have e2 : ∀ k, shuffle k ([] : List GoStr) = [] := fun k => shuffle_eq_nil.2 rfl
  have e3 : ∀ k, shuffle k ([] : List (Nat × GoStr × Sem)) = [] := fun k => shuffle_eq_nil.2 rfl
  have fin : ∀ w, (seqSt ((.ok, ⟨w, [], []⟩) : Res × ObjSt) fun st => seqSt (forLoop (patOuter ext σ) 0 (shuffle (σ.sub 2).key []) st) fun st =>
      seqSt (addlPhase ⟨[(b! "a", denote ext ρ d)], [], none, [], [], [], -1, -1⟩ σ st) fun st =>
      forLoop (depStep ⟨[(b! "a", denote ext ρ d)], [], none, [], [], [], -1, -1⟩ (σ.sub 8)) 0 (shuffle (σ.sub 7).key st.pseen) st) =
      (.ok, ⟨w, [], []⟩) := by
    intro w
    simp only [seqSt, e3, forLoop, addlPhase, List.length_nil, e2, gt_iff_lt, Nat.lt_irrefl, if_false]
  cases (denote ext ρ d).dflt with
  | none =>
    simp only
    erw [fin v]
    exact .ok _
  | some dv =>
    simp only
    rcases setProp ext v (b! "a") dv with (e | a) | w
    · exact .err _ _ _
    · exact .abort _ _ _
    · simp only
      erw [fin w]
      exact .ok _
  | abort a => exact .abort _ _ _

/-- `struct { A jsval.MaybeInt `json:"a"` }`, unset. -/
def exUnset : GoVal := .ptr (some (.struct [(fld (b! "A") (b! "a"), .maybe false (.int 0))]))

theorem alike_of_verdicts {s t : Sem} {v : GoVal} {r r' : Res × GoVal} (h : s.SameVerdicts t) (hs : ∀ σ, AlikeOut (s.val σ v) r)
    (ht : ∀ σ, AlikeOut (t.val σ v) r') : AlikeOut r r' := by
  obtain ⟨x, w⟩ := r
  have hs := hs sched0
  rcases e : s.val sched0 v with ⟨y, u⟩
  rw [e] at hs
  cases hs with
  | ok =>
    obtain ⟨σ, hσ⟩ := (h v w).1.1 ⟨sched0, e⟩
    exact hσ ▸ ht σ
  | err e1 e2 =>
    obtain ⟨σ, e3, hσ⟩ := (h v w).2.1.1 ⟨sched0, e1, e⟩
    have := ht σ
    rw [hσ] at this
    exact .trans (.err _ _ _) this
  | abort a =>
    obtain ⟨σ, hσ⟩ := ((h v u).2.2 a).1 ⟨sched0, by rw [e]⟩
    have := ht σ
    rcases e' : t.val σ v with ⟨z, u'⟩
    rw [e'] at this hσ
    simp only at hσ
    subst hσ
    exact .trans (.abort _ _ _) this

theorem default_seen {ρ : RefSem} (d d' : Constraint)
    (h : (denote ext ρ (.object (Object'.AddProp (b! "a") d))).SameVerdicts (denote ext ρ (.object (Object'.AddProp (b! "a") d')))) :
    (denote ext ρ d).dflt = (denote ext ρ d').dflt := by
  have r1 := alike_of_verdicts h (fun σ => marked_run d σ (.map false []) rfl rfl) (fun σ => marked_run d' σ (.map false []) rfl rfl)
  have r2 := alike_of_verdicts h (fun σ => marked_run d σ exUnset rfl rfl) (fun σ => marked_run d' σ exUnset rfl rfl)
  have m0 : setProp ext (.map false []) (b! "a") .nil = .ok (.map false []) := rfl
  have m1 : ∀ x : GoVal, x ≠ .nil → setProp ext (.map false []) (b! "a") x = .ok (.map false [(b! "a", x)]) := by
    intro x hx
    cases x <;> first | exact absurd rfl hx | rfl
  have m2 : setProp ext exUnset (b! "a") .nil = .error (.abort .panic) := rfl
  generalize (denote ext ρ d).dflt = x at *
  generalize (denote ext ρ d').dflt = y at *
  clear h
  have nn : ∀ x : GoVal, x = .nil ∨ x ≠ .nil := fun x => Classical.em _
  cases x with
  | none =>
    cases y with
    | none => rfl
    | some y =>
      exfalso
      rcases nn y with rfl | hy
      · simp only [m2] at r2; cases r2
      · simp only [m1 y hy] at r1; cases r1
    | abort a => cases r1
  | some x =>
    cases y with
    | none =>
      exfalso
      rcases nn x with rfl | hx
      · simp only [m2] at r2; cases r2
      · simp only [m1 x hx] at r1; cases r1
    | some y =>
      rcases nn x with rfl | hx <;> rcases nn y with rfl | hy
      · rfl
      · simp only [m0, m1 y hy] at r1; cases r1
      · simp only [m0, m1 x hx] at r1; cases r1
      · simp only [m1 x hx, m1 y hy] at r1
        cases r1; rfl
    | abort a =>
      exfalso
      rcases nn x with rfl | hx
      · simp only [m0] at r1; cases r1
      · simp only [m1 x hx] at r1; cases r1
  | abort a =>
    cases y with
    | none => cases r1
    | some y =>
      exfalso
      rcases nn y with rfl | hy
      · simp only [m0] at r1; cases r1
      · simp only [m1 y hy] at r1; cases r1
    | abort a' => cases r1; rfl

/-- C116: equivalence is exactly what is needed. Two constraints can stand for each other in every validator without a change of
verdicts or of what is left behind if and only if they are equivalent. -/
theorem C116_exact (env : Env) (k : Nat) (d d' : Constraint) (h : Nat × GoStr) :
    (∀ c : Constraint, (sem ext env k (c.fill h d)).SameVerdicts (sem ext env k (c.fill h d'))) ↔
      (sem ext env k d).Equivalent (sem ext env k d') := by
  refine ⟨fun hc => ⟨?_, ?_⟩, fun hd c => (C116_replaced hd h c).2⟩
  · have := hc (exMarked h)
    rw [marked_fill, marked_fill] at this
    exact default_seen d d' this
  · have := hc (.ref h.1 h.2)
    simpa [Constraint.fill, Constraint.inline] using this

/-- C116: `Reduce` on a part of a validator, wherever it is, changes no verdict and nothing that is left behind, when the part that
comes out has no default. -/
theorem C116_reduce {env : Env} {k : Nat} (cs : List Constraint) (hd : ∀ d, cs = [d] → (sem ext env k d).dflt = .none)
    (h : Nat × GoStr) (c : Constraint) :
    (sem ext env k (c.fill h (reduceAny cs))).SameVerdicts (sem ext env k (c.fill h (.any cs))) ∧
    (sem ext env k (c.fill h (reduceAll cs))).SameVerdicts (sem ext env k (c.fill h (.all cs))) ∧
    (sem ext env k (c.fill h (reduceOneOf cs))).SameVerdicts (sem ext env k (c.fill h (.oneOf cs))) := by
  have hr := C05_reduce_preserves (ext := ext) (ρ := refSem ext env k) cs
  have key : ∀ cc : Constraint, (sem ext env k cc).dflt = .none → (sem ext env k (reduceCombined cc cs)).dflt = (sem ext env k cc).dflt := by
    intro cc hcc
    match cs, hd with
    | [], _ => rfl
    | [d], hd => exact (hd d rfl).trans hcc.symm
    | _ :: _ :: _, _ => rfl
  exact ⟨(C116_replaced ⟨key (.any cs) rfl, hr.1⟩ h c).2, (C116_replaced ⟨key (.all cs) rfl, hr.2.1⟩ h c).2,
    (C116_replaced ⟨key (.oneOf cs) rfl, hr.2.2⟩ h c).2⟩

/-- C116: without that, it does: some validator can tell whether a combination of one constraint with a default is reduced, though the
two give the same verdicts by themselves (C05). -/
theorem C116_reduce_seen {env : Env} {k : Nat} (d : Constraint) (hd : (sem ext env k d).dflt ≠ .none) (h : Nat × GoStr) :
    ¬ ∀ c : Constraint, (sem ext env k (c.fill h (reduceAll [d]))).SameVerdicts (sem ext env k (c.fill h (.all [d]))) :=
  fun hc => hd ((C116_exact env k _ _ h).1 hc).1

/-! ## Examples -/

/-- A validator with a mark in an element of a list, below `Not`, and in a property. -/
def exMarks : Constraint :=
  .object ((Object'.AddProp (b! "list") (.array { Array' with items := some (.not (some (.ref 9 (b! "x")))) })).AddProp (b! "one") (.ref 9 (b! "x")))

example : (sem0 (exMarks.fill (9, b! "x") .null)).SameVerdicts (sem0 (exMarks.fill (9, b! "x") (.all [.null]))) :=
  (C116_reduce (ext := demoExt) (env := env0) (k := 0) [.null] (fun d h => by cases h; rfl) (9, b! "x") exMarks).2.1

example : ((sem0 (exMarks.fill (9, b! "x") (.all [.null]))).val sched0
    (.map false [(b! "list", .slice false [.bool true]), (b! "one", .nil)])).1 = .ok := by decide +kernel

/-- The object that is filled in with a part, and is not with `All` of that part. -/
example : ((sem0 ((exMarked (9, b! "x")).fill (9, b! "x") (.boolean (some (.bool true))))).val sched0 (.map false [])) =
      (.ok, .map false [(b! "a", .bool true)]) ∧
    ((sem0 ((exMarked (9, b! "x")).fill (9, b! "x") (.all [.boolean (some (.bool true))]))).val sched0 (.map false [])) = (.ok, .map false []) :=
  ⟨rfl, rfl⟩

/-- In the map: references to a definition that holds the part. -/
example : let env : Env := fun m n => if m = 0 ∧ n = b! "t" then some (.not (some (.ref 9 (b! "x")))) else none
    (sem demoExt (env.fill (9, b! "x") .null) 3 (.ref 0 (b! "t"))).Equivalent
      (sem demoExt (env.fill (9, b! "x") (.all [.null])) 3 (.ref 0 (b! "t"))) := by
  intro env
  exact C116_everywhere (d := .null) (d' := .all [.null]) (fun env k =>
    ⟨rfl, (C05_reduce_preserves (ext := demoExt) (ρ := refSem demoExt env k) [.null]).2.1⟩) env 3 (9, b! "x") (.ref 0 (b! "t"))

end Jsval
