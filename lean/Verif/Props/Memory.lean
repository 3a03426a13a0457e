import Verif.Lemmas.MemoryLayout
/-!
# Properties of validation in memory

Everywhere else in this development a value is a tree. These theorems say for which documents in memory that is enough, and what
happens to the others.
-/
namespace Jsval

section
variable {ext : Ext} {sh : Memory → MVal → GoStr} {mem : GoVal → MVal} {env : Env}

/-! ## C97 -/

/-- C97: for a document in which no map occurs twice, and a validator whose defaults are scalars, validation in memory has the
outcome that the value of the document has, and leaves in memory what validation leaves of the value. Maps outside the document
do not change. -/
theorem C97_tree (hs : Shows ext sh) (hm : HoldsAtoms mem) (henv : env.Every (DefaultIn IsAtom)) {c : Constraint} (hc : c.Every (DefaultIn IsAtom))
    (fuel : Nat) (σ : Sched) {H : Memory} {h : MVal} {v : GoVal} (hh : HoldsTree H h v) :
    (((semM ext mem env fuel c).val σ h).run sh H).1 = ((sem ext env fuel c).val σ v).1 ∧
      HoldsTree (((semM ext mem env fuel c).val σ h).run sh H).2 h ((sem ext env fuel c).val σ v).2 ∧
      ∀ l, ¬ CanReach H h l → (((semM ext mem env fuel c).val σ h).run sh H).2 l = H l := by
  obtain ⟨L, hL, hh⟩ := hh
  have hD : ∀ d, DefaultIn IsAtom d → DefaultIn (fun dv => IsAtom dv ∧ false = false) d := fun d hd dv e => ⟨hd dv e, rfl⟩
  obtain ⟨h1, h2⟩ := (semM_agrees hs.faithful hm (fun m n c e d hd => hD d (henv m n c e d hd)) fuel c fun d hd => hD d (hc d hd)).run σ H h v L hh (.inr hL)
  exact ⟨h1, ⟨L, hL, h2.holds⟩, fun l hl => h2.frame l fun h => hl (hh.reaches l h)⟩

/-- C97: for a document in which maps may occur several times, and a validator without defaults, validation has the outcome that
the unfolded value has, and memory does not change. -/
theorem C97_shared (hs : Shows ext sh) (hm : HoldsAtoms mem) (henv : env.Every Undefaulted) {c : Constraint} (hc : c.Every Undefaulted)
    (fuel : Nat) (σ : Sched) {H : Memory} {h : MVal} {v : GoVal} (hh : HoldsShared H h v) :
    (((semM ext mem env fuel c).val σ h).run sh H).1 = ((sem ext env fuel c).val σ v).1 ∧
      (((semM ext mem env fuel c).val σ h).run sh H).2 = H ∧ ((sem ext env fuel c).val σ v).2 = v := by
  obtain ⟨L, hh⟩ := hh
  have hD : ∀ d, Undefaulted d → DefaultIn (fun dv => IsAtom dv ∧ true = false) d := fun d hd dv e => (hd dv e).elim
  obtain ⟨h1, h2⟩ := (semM_agrees hs.faithful hm (fun m n c e d hd => hD d (henv m n c e d hd)) fuel c fun d hd => hD d (hc d hd)).run σ H h v L hh (.inl rfl)
  exact ⟨h1, h2.same rfl⟩

theorem reaches_closed {H : Memory} {P : Nat → Prop} (R : MVal → Prop) (hP : ∀ l, P l ↔ ∃ h, R h ∧ CanReach H h l) : Closed P H := by
  intro l hl k x hx l' hl'
  obtain ⟨h, hR, hr⟩ := (hP l).1 hl
  exact (hP l').2 ⟨h, hR, .inside hr hx hl'⟩

/-- C97: whatever the memory and the document, cycles included, and whatever the defaults, a map changes only if it can be reached
from the document or from a default. -/
theorem C97_frame {D : GoVal → Prop} (henv : env.Every (DefaultIn D)) {c : Constraint} (hc : c.Every (DefaultIn D)) (fuel : Nat) (σ : Sched)
    (H : Memory) (h : MVal) (l : Nat) (hl : ¬ CanReach H h l) (hd : ∀ dv, D dv → ¬ CanReach H (mem dv) l) :
    (((semM ext mem env fuel c).val σ h).run sh H).2 l = H l := by
  let R : MVal → Prop := fun x => x = h ∨ ∃ dv, D dv ∧ mem dv = x
  let S : Nat → Prop := fun l => ∃ x, R x ∧ CanReach H x l
  have hcl : Closed S H := reaches_closed R fun _ => Iff.rfl
  have hD : ∀ d, DefaultIn D d → DefaultIn (fun dv => True ∧ (mem dv).Inside S) d := fun d hd dv e =>
    ⟨trivial, fun l hl => ⟨_, .inr ⟨dv, hd dv e, rfl⟩, .here hl⟩⟩
  have hk := semM_keeps (sh := sh) (ext := ext) (fun m n c e d hd => hD d (henv m n c e d hd)) fuel c fun d hd => hD d (hc d hd)
  refine (hk.run σ h H hcl fun l hl => ⟨h, .inl rfl, .here hl⟩).confined.frame l ?_
  rintro ⟨_, x, hx, hr⟩
  rcases hx with rfl | ⟨dv, hdv, rfl⟩
  · exact hl hr
  · exact hd dv hdv hr

/-- C97: a validator without defaults changes nothing, whatever the memory and the document. -/
theorem C97_readonly (henv : env.Every Undefaulted) {c : Constraint} (hc : c.Every Undefaulted) (fuel : Nat) (σ : Sched) (H : Memory) (h : MVal) :
    (((semM ext mem env fuel c).val σ h).run sh H).2 = H := by
  have hD : ∀ d, Undefaulted d → DefaultIn (fun dv => False ∧ (mem dv).Inside fun _ => True) d := fun d hd dv e => (hd dv e).elim
  have hk := semM_keeps (sh := sh) (ext := ext) (fun m n c e d hd => hD d (henv m n c e d hd)) fuel c fun d hd => hD d (hc d hd)
  funext l
  exact (hk.run σ h H (fun _ _ _ _ _ _ _ => trivial) fun _ _ => trivial).confined.frame l fun h => h.1

/-- C97: every decoded JSON document can be laid out in memory without a map occurring twice, and there is a way to print documents in
memory. -/
theorem C97_layout {v : GoVal} (hv : IsJson v) : (∃ H h, HoldsTree H h v) ∧ ∃ sh, Shows ext sh := by
  obtain ⟨H, h, _, L, _, hh, hn, _⟩ := laidOut_json hv 0
  exact ⟨⟨H, h, L, hn, hh⟩, printing ext, printing_shows ext⟩

end

/-! ### Examples -/

/-- where the examples keep defaults: scalars directly, everything else in map number 9 -/
def exPlace : GoVal → MVal
  | .map _ _ => .map (some 9)
  | a => .atom a

theorem exPlace_atoms : HoldsAtoms exPlace := by
  intro a ha
  cases a <;> first | rfl | exact ha.elim

/-- `{"x": default "1"}` -/
def exMemFills : Constraint := .object ((Object'.AddProp (b! "x") (.string (String'.Default (.str (b! "1"))))).AdditionalProperties (some .empty))

/-- properties `a`, with a default in it, and `b`, which has to be empty -/
def exMemPair : Constraint := .object ((Object'.AddProp (b! "a") exMemFills).AddProp (b! "b") (.object (Object'.MaxProperties 0)))

/-- map 0 is `{"a": map 1, "b": map 2}` -/
def exMemApart : Memory := fun l => if l = 0 then [(b! "a", .map (some 1)), (b! "b", .map (some 2))] else []

/-- map 0 is `{"a": map 1, "b": map 1}` -/
def exSharing : Memory := fun l => if l = 0 then [(b! "a", .map (some 1)), (b! "b", .map (some 1))] else []

/-- the value of both -/
def exMemValue : GoVal := .map false [(b! "a", .map false []), (b! "b", .map false [])]

theorem exMemApart_holds : HoldsTree exMemApart (.map (some 0)) exMemValue :=
  ⟨[0, 1, 2], by decide, .map 0 _ [1, 2] (.cons _ _ _ _ _ [1] [2] (.map 1 _ [] .nil) (.cons _ _ _ _ _ [2] [] (.map 2 _ [] .nil) .nil))⟩

theorem exSharing_holds : HoldsShared exSharing (.map (some 0)) exMemValue :=
  ⟨[0, 1, 1], .map 0 _ [1, 1] (.cons _ _ _ _ _ [1] [1] (.map 1 _ [] .nil) (.cons _ _ _ _ _ [1] [] (.map 1 _ [] .nil) .nil))⟩

theorem exMemFills_every : exMemFills.Every (DefaultIn IsAtom) := by
  refine .intro (fun dv h => (by cases h)) fun d hd => ?_
  have hd : d ∈ [.string (String'.Default (.str (b! "1"))), .empty] := hd
  simp only [List.mem_cons, List.not_mem_nil, or_false] at hd
  rcases hd with rfl | rfl
  · exact .intro (fun dv h => (by cases h; trivial)) fun d hd => (nomatch hd)
  · exact .intro (fun dv h => (by cases h)) fun d hd => (nomatch hd)

theorem exMemPair_every : exMemPair.Every (DefaultIn IsAtom) := by
  refine .intro (fun dv h => (by cases h)) fun d hd => ?_
  have hd : d ∈ [exMemFills, .object (Object'.MaxProperties 0)] := hd
  simp only [List.mem_cons, List.not_mem_nil, or_false] at hd
  rcases hd with rfl | rfl
  · exact exMemFills_every
  · exact .intro (fun dv h => (by cases h)) fun d hd => (nomatch hd)

/-- the default is filled in at map 1, and nowhere else -/
example : (((semM demoExt exPlace env0 0 exMemPair).val sched0 (.map (some 0))).run (printing demoExt) exMemApart).1 = .ok ∧
    HoldsTree (((semM demoExt exPlace env0 0 exMemPair).val sched0 (.map (some 0))).run (printing demoExt) exMemApart).2 (.map (some 0))
      (.map false [(b! "a", .map false [(b! "x", .str (b! "1"))]), (b! "b", .map false [])]) := by
  have h := C97_tree (printing_shows demoExt) exPlace_atoms (env := env0) (fun _ _ _ h => nomatch h) exMemPair_every 0 sched0 exMemApart_holds
  exact ⟨h.1, h.2.1⟩

/-- the document of `exSharing` is rejected by a validator that asks for something in `a` -/
example : (((semM demoExt exPlace env0 0 (.object (Object'.AddProp (b! "a") (.object (Object'.MinProperties 1))))).val sched0 (.map (some 0))).run
      (printing demoExt) exSharing).1 = .err (.prop (b! "a") .fewProps) := by
  refine (C97_shared (printing_shows demoExt) exPlace_atoms (env := env0) (fun _ _ _ h => nomatch h) ?_ 0 sched0 exSharing_holds).1
  refine .intro (fun dv h => (by cases h)) fun d hd => ?_
  have hd : d = .object (Object'.MinProperties 1) := by
    simpa [Constraint.kids, Object', ObjC.AddProp, ainsert] using hd
  subst hd
  exact .intro (fun dv h => (by cases h)) fun d hd => (nomatch hd)

/-! ### Sharing and defaults -/

/-- C97, for documents in which a map occurs twice, if there are defaults: a default filled in at one place appears at the
other. The value is accepted, the document in memory is accepted or rejected depending on the iteration order. -/
theorem C97_alias : ∃ (c : Constraint) (H : Memory) (h : MVal) (v : GoVal), c.Every (DefaultIn IsAtom) ∧ HoldsShared H h v ∧
    ((sem demoExt env0 0 c).val sched0 v).1 = .ok ∧
    (((semM demoExt exPlace env0 0 c).val sched0 h).run (printing demoExt) H).1 = .err (.prop (b! "b") .manyProps) ∧
    (((semM demoExt exPlace env0 0 c).val (fun _ => 1) h).run (printing demoExt) H).1 = .ok :=
  ⟨exMemPair, exSharing, .map (some 0), exMemValue, exMemPair_every, exSharing_holds, by rfl, by rfl, by rfl⟩

/-- `a` has a map for default; in the presence of `b`, `x` is filled in in `a` -/
def exMemShared : Constraint :=
  .object (((Object'.AddProp (b! "a") (.string (String'.Default (.map false [])))).AddProp (b! "b") .empty).SchemaDependency (b! "b")
    (.object ((Object'.AddProp (b! "a") exMemFills).AdditionalProperties (some .empty))))

/-- map 0 is `{"b": true}`; all others, so also the default, are empty -/
def exMemTwo : Memory := fun l => if l = 0 then [(b! "b", .atom (.bool true))] else []

/-- C97, for defaults that are maps: validating `{"b": true}` changes the default of the validator itself. The document `{}`
gets `{}` for `a`, and after that call gets `{"x": "1"}`. -/
theorem C97_default :
    HoldsTree (((semM demoExt exPlace env0 0 exMemShared).val sched0 (.map (some 1))).run (printing demoExt) exMemTwo).2 (.map (some 1))
      (.map false [(b! "a", .map false [])]) ∧
    HoldsTree (((semM demoExt exPlace env0 0 exMemShared).val sched0 (.map (some 1))).run (printing demoExt)
        (((semM demoExt exPlace env0 0 exMemShared).val sched0 (.map (some 0))).run (printing demoExt) exMemTwo).2).2 (.map (some 1))
      (.map false [(b! "a", .map false [(b! "x", .str (b! "1"))])]) := by
  constructor
  · exact ⟨[1, 9], by decide, .map 1 _ [9] (.cons (b! "a") (.map (some 9)) [] _ _ [9] [] (.map 9 _ [] .nil) .nil)⟩
  · exact ⟨[1, 9], by decide, .map 1 _ [9] (.cons (b! "a") (.map (some 9)) [] _ _ [9] [] (.map 9 _ [] (.cons (b! "x") (.atom (.str (b! "1"))) [] _ _ [] [] (.atom _ trivial) .nil)) .nil)⟩

/-- map 5 is neither in the document nor in a default; map 9 is the default -/
example : (((semM demoExt exPlace env0 0 exMemShared).val sched0 (.map (some 0))).run (printing demoExt) exMemTwo).2 5 = [] ∧
    (((semM demoExt exPlace env0 0 exMemShared).val sched0 (.map (some 0))).run (printing demoExt) exMemTwo).2 9 = [(b! "x", .atom (.str (b! "1")))] := by
  refine ⟨C97_frame (env := env0) (D := fun _ => True) (fun _ _ _ h => nomatch h) (fun d hd dv e => trivial) 0 sched0 exMemTwo (.map (some 0)) 5 ?_ ?_, rfl⟩
  · intro h
    have : ∀ l, CanReach exMemTwo (.map (some 0)) l → l = 0 := by
      intro l h
      induction h with
      | here h => cases h; rfl
      | inside _ hm hx ih =>
        subst ih
        have hm : _ ∈ [(b! "b", MVal.atom (.bool true))] := hm
        simp only [List.mem_singleton, Prod.mk.injEq] at hm
        rw [hm.2] at hx
        cases hx
    exact absurd (this 5 h) (by omega)
  · intro dv _ h
    have : ∀ l, CanReach exMemTwo (exPlace dv) l → l = 9 := by
      intro l h
      induction h with
      | here h => cases dv <;> cases h <;> rfl
      | inside _ hm hx ih =>
        subst ih
        exact absurd hm (by simp [exMemTwo])
    exact absurd (this 5 h) (by omega)

/-! ### Cycles -/

/-- `{"a": {"$ref": …}}`, referring to itself -/
def exMemLoop : Constraint := .object (Object'.AddProp (b! "a") (.ref 0 (b! "R")))

/-- map 0 contains itself -/
def exMemCycle : Memory := fun _ => [(b! "a", .map (some 0))]

/-- C97: a document that contains itself holds no value, and validating it against a schema that refers to itself does not return,
however many references are followed. -/
theorem C97_cycle : (¬ ∃ v, HoldsShared exMemCycle (.map (some 0)) v) ∧ ∀ fuel σ,
    (((semM demoExt exPlace (fun _ _ => some exMemLoop) fuel exMemLoop).val σ (.map (some 0))).run (printing demoExt) exMemCycle).1 = .abort .diverge := by
  constructor
  · rintro ⟨v, L, hh⟩
    have : ∀ n : Nat, ∀ {v L}, Holds exMemCycle (.map (some 0)) v L → n ≤ L.length := by
      intro n
      induction n with
      | zero => intros; omega
      | succ n ih =>
        intro v L hh
        cases hh with
        | map _ kvs L h =>
          unfold exMemCycle at h
          cases h with
          | cons _ _ _ _ _ L1 L2 h1 h2 =>
            have := ih h1
            simp only [List.length_cons, List.length_append]
            omega
    exact absurd (this (L.length + 1) hh) (by omega)
  · intro fuel
    have key : ∀ (ρ : MRefSem) (r : Abort), (∀ σ, ((ρ 0 (b! "R")).val σ (.map (some 0))).run (printing demoExt) exMemCycle = (.abort r, exMemCycle)) →
        ∀ σ, ((denoteM demoExt exPlace ρ exMemLoop).val σ (.map (some 0))).run (printing demoExt) exMemCycle = (.abort r, exMemCycle) := by
      intro ρ r h σ
      simp only [exMemLoop, denoteM, denoteObjM, Object', ObjC.AddProp, ainsert, denotePropsM, denotePatsM, denoteOptM, objectM, getPropNamesM, run_bind, Prog.run, exMemCycle,
        List.map_cons, List.map_nil]
      rw [if_neg (by simp), if_neg (by simp)]
      simp only [run_bind, objLoopsM, seqM, shuffle, List.length_nil, insertAt, List.take_nil, List.nil_append, List.drop_nil, forLoopM, propStepM, getPropM, Prog.run, alookup, exMemCycle]
      have h := h (((σ.sub 1).sub 0))
      simp only [if_true, run_bind, h, Prog.run]
    have all : ∀ σ, ((semM demoExt exPlace (fun _ _ => some exMemLoop) fuel exMemLoop).val σ (.map (some 0))).run (printing demoExt) exMemCycle = (.abort .diverge, exMemCycle) := by
      induction fuel with
      | zero => exact key _ _ fun σ => rfl
      | succ n ih => exact key _ _ fun σ => ih σ
    exact fun σ => congrArg Prod.fst (all σ)

/-! ## C98 -/

section
variable {ext : Ext} {sh : Memory → MVal → GoStr} {mem : GoVal → MVal} {env : Nat → Env} {fuel : Nat → Nat} {c : Nat → Constraint} {σ : Nat → Sched}
  {h : Nat → MVal} {W : Nat → Prop} {H : Memory}

theorem calls_confined (sh : Memory → MVal → GoStr) (ext : Ext) (fuel : Nat → Nat) (σ : Nat → Sched) (H : Memory) (h : Nat → MVal) (hm : HoldsAtoms mem)
    (henv : ∀ i, (env i).Every (DefaultIn fun dv => W i ∧ IsAtom dv)) (hc : ∀ i, (c i).Every (DefaultIn fun dv => W i ∧ IsAtom dv)) (i : Nat) :
    Closed (CanReach H (h i)) H ∧ Confined sh (W i) (CanReach H (h i)) (calls ext mem env fuel c σ h i) H := by
  have hcl : Closed (CanReach H (h i)) H := fun l hl k x hx l' hl' => .inside hl hx hl'
  have hD : ∀ d, DefaultIn (fun dv => W i ∧ IsAtom dv) d → DefaultIn (fun dv => W i ∧ (mem dv).Inside (CanReach H (h i))) d := fun d hd dv e =>
    ⟨(hd dv e).1, fun l hl => by rw [hm dv (hd dv e).2] at hl; cases hl⟩
  have hk := semM_keeps (sh := sh) (ext := ext) (fun m n c e d hd => hD d (henv i m n c e d hd)) (fuel i) (c i) fun d hd => hD d (hc i d hd)
  exact ⟨hcl, (hk.run (σ i) (h i) H hcl fun l hl => .here hl).confined⟩

/-- C98: any number of goroutines validate documents at once, with the same validators or different ones, whose defaults are scalars.
No map of a document validated with defaults (`W`) is reached from another document. Then, however their operations
interleave: there is no data race; a call that has returned gave what it gives alone, and left its document as it does alone; and nothing
outside the documents validated with defaults has changed. -/
theorem C98_separate (hs : Shows ext sh) (hm : HoldsAtoms mem)
    (henv : ∀ i, (env i).Every (DefaultIn fun dv => W i ∧ IsAtom dv)) (hc : ∀ i, (c i).Every (DefaultIn fun dv => W i ∧ IsAtom dv))
    (hd : ∀ i j l, i ≠ j → W j → CanReach H (h i) l → ¬ CanReach H (h j) l)
    {s : (Nat → Prog Res) × Memory} (hst : TogetherStar sh (calls ext mem env fuel c σ h, H) s) :
    ¬ Racing s ∧
      (∀ i r, s.1 i = .ret r → r = ((calls ext mem env fuel c σ h i).run sh H).1 ∧
        ∀ l, CanReach H (h i) l → s.2 l = ((calls ext mem env fuel c σ h i).run sh H).2 l) ∧
      ∀ l, (∀ i, W i → ¬ CanReach H (h i) l) → s.2 l = H l := by
  have h0 := calls_confined sh ext fuel σ H h hm henv hc
  have hS : ∀ i j l, i ≠ j → CanReach H (h i) l → ¬ (W j ∧ CanReach H (h j) l) := fun i j l hij hr hw => hd i j l hij hw.1 hr hw.2
  obtain ⟨t1, t2⟩ := together_onTrack hs hS h0 hst
  refine ⟨?_, fun i r hr => ?_, fun l hl => t2 l fun i hi => hl i hi.1 hi.2⟩
  · rintro ⟨i, j, l, hij, h1, h2⟩
    exact hS i j l hij ((t1 i).confined.touches (t1 i).closed h1) ((t1 j).confined.writes h2)
  · have g1 := (t1 i).result
    have g2 := (t1 i).memory
    rw [hr] at g1 g2
    exact ⟨g1, g2⟩

/-- C98: documents in which no map occurs twice are validated at once as if each were validated as a value on its own. -/
theorem C98_tree (hs : Shows ext sh) (hm : HoldsAtoms mem) (henv : ∀ i, (env i).Every (DefaultIn IsAtom)) (hc : ∀ i, (c i).Every (DefaultIn IsAtom))
    {v : Nat → GoVal} (hh : ∀ i, HoldsTree H (h i) (v i)) (hd : ∀ i j l, i ≠ j → CanReach H (h i) l → ¬ CanReach H (h j) l)
    {s : (Nat → Prog Res) × Memory} (hst : TogetherStar sh (calls ext mem env fuel c σ h, H) s) (i : Nat) (r : Res) (hr : s.1 i = .ret r) :
    r = ((sem ext (env i) (fuel i) (c i)).val (σ i) (v i)).1 ∧ HoldsTree s.2 (h i) ((sem ext (env i) (fuel i) (c i)).val (σ i) (v i)).2 := by
  have hT : ∀ d, DefaultIn IsAtom d → DefaultIn (fun dv => True ∧ IsAtom dv) d := fun d hd dv e => ⟨trivial, hd dv e⟩
  obtain ⟨_, h2, _⟩ := C98_separate (W := fun _ => True) hs hm (fun i m n c e d hd => hT d (henv i m n c e d hd)) (fun i d hd => hT d (hc i d hd))
    (fun i j l hij _ => hd i j l hij) hst
  obtain ⟨g1, g2⟩ := h2 i r hr
  obtain ⟨L, hL, hh⟩ := hh i
  have hD : ∀ d, DefaultIn IsAtom d → DefaultIn (fun dv => IsAtom dv ∧ false = false) d := fun d hd dv e => ⟨hd dv e, rfl⟩
  obtain ⟨k1, k2⟩ := (semM_agrees hs.faithful hm (fun m n c e d hd => hD d (henv i m n c e d hd)) (fuel i) (c i) fun d hd => hD d (hc i d hd)).run (σ i) H (h i)
    (v i) L hh (.inr hL)
  exact ⟨g1.trans k1, L, hL, k2.holds.frame fun l hl => g2 l (hh.reaches l hl)⟩

/-- C98: for finitely many goroutines, every execution comes to an end, always after the same number of operations, and not
before all calls have returned. -/
theorem C98_finishes (hs : Shows ext sh) (hm : HoldsAtoms mem)
    (henv : ∀ i, (env i).Every (DefaultIn fun dv => W i ∧ IsAtom dv)) (hc : ∀ i, (c i).Every (DefaultIn fun dv => W i ∧ IsAtom dv))
    (hd : ∀ i j l, i ≠ j → W j → CanReach H (h i) l → ¬ CanReach H (h j) l) (n : Nat) (hn : ∀ i, n ≤ i → c i = .empty) :
    ∃ total, ∀ k s, TogetherIn sh (calls ext mem env fuel c σ h, H) k s →
      k ≤ total ∧ (k = total ↔ ∀ i, ∃ r, s.1 i = .ret r) ∧ (k < total → ∃ s', Together sh s s') := by
  have h0 := calls_confined sh ext fuel σ H h hm henv hc
  have hS : ∀ i j l, i ≠ j → CanReach H (h i) l → ¬ (W j ∧ CanReach H (h j) l) := fun i j l hij hr hw => hd i j l hij hw.1 hr hw.2
  refine ⟨stepsLeft sh (calls ext mem env fuel c σ h) H n, fun k s hk => ?_⟩
  obtain ⟨g1, g2⟩ := together_steps hs hS h0 (n := n) (fun i hi => ⟨.ok, by unfold calls; rw [hn i hi]; rfl⟩) hk
  have hz := stepsLeft_zero (sh := sh) (ps := s.1) (H := s.2) n
  have hall : stepsLeft sh s.1 s.2 n = 0 ↔ ∀ i, ∃ r, s.1 i = .ret r := by
    rw [hz]
    constructor
    · intro h i
      rcases Nat.lt_or_ge i n with hi | hi
      · exact h i hi
      · exact g1 i hi
    · exact fun h i _ => h i
  refine ⟨by omega, ⟨fun e => hall.1 (by omega), fun hf => by have := hall.2 hf; omega⟩, fun hlt => ?_⟩
  have hne : ¬ ∀ i, ∃ r, s.1 i = .ret r := fun h => by have := hall.2 h; omega
  obtain ⟨i, hi⟩ := Classical.not_forall.1 hne
  obtain ⟨p', H', hp⟩ := Prog.step_some (sh := sh) s.2 fun a e => hi ⟨a, e⟩
  rcases s with ⟨ps, H1⟩
  exact ⟨_, .step ps H1 i p' H' hp⟩

end

/-- two goroutines, one validator, documents at maps 1 and 2 -/
def exCalls : Nat → Constraint := fun i => if i < 2 then exMemFills else .empty

/-- their documents -/
def exDocs : Nat → MVal := fun i => if i < 2 then .map (some (i + 1)) else .atom .nil

theorem exDocs_reaches {i l : Nat} (h : CanReach exMemApart (exDocs i) l) : i < 2 ∧ l = i + 1 := by
  induction h with
  | here h =>
    unfold exDocs at h
    split at h
    · cases h; exact ⟨by assumption, rfl⟩
    · cases h
  | inside _ hm _ ih =>
    obtain ⟨_, rfl⟩ := ih
    exact absurd hm (by simp [exMemApart])

theorem exCalls_every (i : Nat) : (exCalls i).Every (DefaultIn IsAtom) := by
  unfold exCalls
  split
  · exact exMemFills_every
  · exact .intro (fun dv h => (by cases h)) fun d hd => (nomatch hd)

/-- whatever the interleaving, both documents come out as `{"x": "1"}` -/
example {s : (Nat → Prog Res) × Memory}
    (hst : TogetherStar (printing demoExt) (calls demoExt exPlace (fun _ => env0) (fun _ => 0) exCalls (fun _ => sched0) exDocs, exMemApart) s)
    (h0 : s.1 0 = .ret .ok) (h1 : s.1 1 = .ret .ok) :
    HoldsTree s.2 (.map (some 1)) (.map false [(b! "x", .str (b! "1"))]) ∧ HoldsTree s.2 (.map (some 2)) (.map false [(b! "x", .str (b! "1"))]) := by
  have hh : ∀ i, HoldsTree exMemApart (exDocs i) (if i < 2 then .map false [] else .nil) := by
    intro i
    unfold exDocs
    split
    · exact ⟨[i + 1], by simp, .map (i + 1) _ [] .nil⟩
    · exact ⟨[], by simp, .atom _ trivial⟩
  have h := C98_tree (printing_shows demoExt) exPlace_atoms (fun _ m n c h => nomatch (show (none : Option Constraint) = some c from h)) exCalls_every hh
    (fun i j l hij hi hj => hij (by have := (exDocs_reaches hi).2; have := (exDocs_reaches hj).2; omega)) hst
  exact ⟨(h 0 _ h0).2, (h 1 _ h1).2⟩

/-- goroutine 0 fills in map 1 while all others read map 2, which they share -/
example {s : (Nat → Prog Res) × Memory}
    (hst : TogetherStar (printing demoExt) (calls demoExt exPlace (fun _ => env0) (fun _ => 0)
      (fun i => if i = 0 then exMemFills else .object (Object'.MaxProperties 0)) (fun _ => sched0) (fun i => if i = 0 then .map (some 1) else .map (some 2)), exMemApart) s) :
    ¬ Racing s ∧ s.2 2 = [] := by
  have hr : ∀ i l, CanReach exMemApart (if i = 0 then .map (some 1) else .map (some 2)) l → l = if i = 0 then 1 else 2 := by
    intro i l h
    induction h with
    | here h =>
      split at h
      · cases h; exact (if_pos (by assumption)).symm
      · cases h; exact (if_neg (by assumption)).symm
    | inside _ hm _ ih =>
      subst ih
      split at hm <;> exact absurd hm (by simp [exMemApart])
  obtain ⟨h1, _, h3⟩ := C98_separate (W := fun i => i = 0) (printing_shows demoExt) exPlace_atoms
    (fun _ m n c h => nomatch (show (none : Option Constraint) = some c from h)) (fun i => by
      split
      · exact fun d hd dv e => ⟨by assumption, exMemFills_every d hd dv e⟩
      · exact .intro (fun dv h => (by cases h)) fun d hd => (nomatch hd)) (fun i j l hij hj hi hj' => by
        have h1 := hr i l hi
        have h2 := hr j l hj'
        subst hj
        rw [if_neg hij] at h1
        rw [if_pos rfl] at h2
        omega) hst
  refine ⟨h1, h3 2 fun i hi h => ?_⟩
  have := hr i 2 h
  rw [if_pos hi] at this
  omega

/-- the two goroutines of `exCalls` do six operations altogether: each reads the keys, looks `x` up and writes it -/
example : ∃ total, ∀ k s, TogetherIn (printing demoExt) (calls demoExt exPlace (fun _ => env0) (fun _ => 0) exCalls (fun _ => sched0) exDocs, exMemApart) k s →
    k ≤ total ∧ (k = total ↔ ∀ i, ∃ r, s.1 i = .ret r) ∧ (k < total → ∃ s', Together (printing demoExt) s s') :=
  C98_finishes (W := fun _ => True) (printing_shows demoExt) exPlace_atoms (fun _ m n c h => nomatch (show (none : Option Constraint) = some c from h))
    (fun i d hd dv e => ⟨trivial, exCalls_every i d hd dv e⟩)
    (fun i j l hij _ hi hj => hij (by have := (exDocs_reaches hi).2; have := (exDocs_reaches hj).2; omega)) 2 fun i hi => if_neg (by omega)

/-- C98, for goroutines that validate one document with defaults: both find the property missing, and both write to the map. -/
theorem C98_same : ∃ s, TogetherStar (printing demoExt)
    (calls demoExt exPlace (fun _ => env0) (fun _ => 0) (fun _ => exMemFills) (fun _ => sched0) (fun _ => .map (some 1)), exMemApart) s ∧ Racing s :=
  ⟨_, .tail (.tail (.tail (.tail .refl (.step _ _ 0 _ _ rfl)) (.step _ _ 0 _ _ rfl)) (.step _ _ 1 _ _ rfl)) (.step _ _ 1 _ _ rfl),
    0, 1, 1, by decide, rfl, rfl⟩

end Jsval
