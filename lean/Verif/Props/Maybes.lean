import Verif.Spec.Maybe
import Verif.Props.Objects
import Verif.Lemmas.Float
import Mathlib.Data.List.Induction
/-!
# C52–C55: the Maybe types
-/
namespace Jsval

variable (ext : Ext) (js : JsonExt)

/-! ## C52 -/

theorem settable_iff (k : MaybeKind) (x : GoVal) : Settable ext k x ↔ ∃ p, maybeConv ext k x = .ok p := by
  constructor
  · intro h
    cases h with
    | timeOfStr s t h => exact ⟨.time t, by simp [maybeConv, h]⟩
    | uint k n h => cases k <;> first | exact absurd rfl h | exact ⟨_, rfl⟩
    | _ => exact ⟨_, rfl⟩
  · rintro ⟨p, h⟩
    unfold maybeConv at h
    split at h
    · exact .bool _
    · exact .float _ _
    · exact .int _ _
    · exact .intOfFloat _
    · exact .str _
    · rename_i s
      cases ht : ext.timeParse s with
      | some t => exact .timeOfStr s t ht
      | none => rw [ht] at h; cases h
    · exact .time _
    · cases h
    · rename_i k n hne; exact .uint k n hne
    · exact .uintOfFloat _
    · cases h

theorem truncates_signed {neg : Bool} {mag : Nat} {n : Int} (h : F64.Truncates (.fin neg mag) n) :
    F64.signed neg (mag / F64.unit) = n := by
  obtain ⟨neg', mag', he, h1, h2, h3, h4⟩ := h
  cases he
  have hq : mag / F64.unit = n.natAbs := by
    have hu : 0 < F64.unit := F64.unit_pos
    rw [Nat.div_eq_iff hu]
    constructor
    · exact h1
    · rw [Nat.add_mul, Nat.one_mul] at h2; omega
  rw [hq]
  unfold F64.signed
  rcases Int.lt_trichotomy n 0 with hn | hn | hn
  · rw [h4 hn, if_pos rfl]; omega
  · subst hn; simp
  · rw [h3 hn, if_neg (by simp)]; omega

theorem converts_conv {k : MaybeKind} {x y : GoVal} (h : Converts ext k x y) :
    ∃ p, maybeConv ext k x = .ok p ∧ p.toGo = y ∧ p.kind = k := by
  cases h with
  | timeOfStr s t h => exact ⟨.time t, by simp [maybeConv, h], rfl, rfl⟩
  | uint k n h => cases k <;> first | exact absurd rfl h | exact ⟨_, rfl, rfl, rfl⟩
  | intOfFloat f n h h1 h2 =>
    refine ⟨.int n, ?_, rfl, rfl⟩
    have h' := h
    obtain ⟨neg, mag, rfl, -⟩ := h'
    simp only [maybeConv, F64.truncInt, truncates_signed h]
    rw [if_pos ⟨h1, h2⟩]
  | uintOfFloat f n h h2 =>
    refine ⟨.uint n, ?_, rfl, rfl⟩
    have h' := h
    obtain ⟨neg, mag, rfl, -⟩ := h'
    simp only [maybeConv, F64.truncNat, truncates_signed h]
    rw [if_pos ⟨by omega, by omega⟩]
    simp
  | _ => exact ⟨_, rfl, rfl, rfl⟩

theorem maybeConv_kind {k : MaybeKind} {x : GoVal} {p : MaybeVal} (h : maybeConv ext k x = .ok p) : p.kind = k := by
  unfold maybeConv at h
  split at h <;> try cases h
  all_goals first
    | rfl
    | (split at h <;> cases h; rfl)

/-- C52: `Set` succeeds exactly for the dynamic types (and, for times, the texts) the Maybe type takes. -/
theorem C52_succeeds_iff (m : MaybeSt) (x : GoVal) : (m.Set ext x).1 = none ↔ Settable ext m.p.kind x := by
  rw [settable_iff]
  unfold MaybeSt.Set
  cases maybeConv ext m.p.kind x <;> simp

/-- C52: a successful `Set` makes the Maybe valid, keeps its type, and `Value()` is the converted argument, whatever
it held before. -/
theorem C52_round_trip (m : MaybeSt) (x y : GoVal) (h : Converts ext m.p.kind x y) :
    ∃ m', m.Set ext x = (none, m') ∧ m'.Valid = true ∧ m'.Value = y ∧ m'.p.kind = m.p.kind := by
  obtain ⟨p, h1, h2, h3⟩ := converts_conv ext h
  exact ⟨⟨true, p⟩, by simp [MaybeSt.Set, h1], rfl, h2, h3⟩

/-- C52: also for the values whose conversion Go leaves open (floats out of range) the Maybe becomes valid. -/
theorem C52_valid (m : MaybeSt) (x : GoVal) (h : Settable ext m.p.kind x) :
    ∃ m', m.Set ext x = (none, m') ∧ m'.Valid = true ∧ m'.p.kind = m.p.kind := by
  obtain ⟨p, h1⟩ := (settable_iff ext _ _).1 h
  exact ⟨⟨true, p⟩, by simp [MaybeSt.Set, h1], rfl, maybeConv_kind ext h1⟩

/-- C52: a failed `Set` changes nothing. -/
theorem C52_failure (m : MaybeSt) (x : GoVal) (h : ¬ Settable ext m.p.kind x) : ∃ e, m.Set ext x = (some e, m) := by
  rw [settable_iff] at h
  unfold MaybeSt.Set
  cases hc : maybeConv ext m.p.kind x with
  | ok p => exact absurd ⟨p, hc⟩ h
  | error e => exact ⟨e, rfl⟩

/-- what is settable converts to exactly one value, floats beyond the integer range excepted -/
theorem C52_converts_total (k : MaybeKind) (x : GoVal) (h : Settable ext k x) :
    (∃ y, Converts ext k x y) ∨ ∃ f, x = .float .f64 f ∧ (k = .int ∨ k = .uint) ∧
      ¬ ∃ n, F64.Truncates f n ∧ (if k = .int then -(2 ^ 63) ≤ n ∧ n < 2 ^ 63 else 0 ≤ n ∧ n < 2 ^ 64) := by
  cases h with
  | bool b => exact Or.inl ⟨_, .bool b⟩
  | float k f => exact Or.inl ⟨_, .float k f⟩
  | int k n => exact Or.inl ⟨_, .int k n⟩
  | str s => exact Or.inl ⟨_, .str s⟩
  | timeOfStr s t h => exact Or.inl ⟨_, .timeOfStr s t h⟩
  | time t => exact Or.inl ⟨_, .time t⟩
  | uint k n h => exact Or.inl ⟨_, .uint k n h⟩
  | intOfFloat f =>
    by_cases hn : ∃ n, F64.Truncates f n ∧ (-(2 ^ 63) ≤ n ∧ n < 2 ^ 63)
    · obtain ⟨n, h1, h2, h3⟩ := hn
      exact Or.inl ⟨_, .intOfFloat f n h1 h2 h3⟩
    · exact Or.inr ⟨f, rfl, Or.inl rfl, by simpa using hn⟩
  | uintOfFloat f =>
    by_cases hn : ∃ n, F64.Truncates f n ∧ (0 ≤ n ∧ n < 2 ^ 64)
    · obtain ⟨n, h1, h2, h3⟩ := hn
      obtain ⟨k, rfl⟩ := Int.eq_ofNat_of_zero_le h2
      exact Or.inl ⟨_, .uintOfFloat f k h1 (by omega)⟩
    · exact Or.inr ⟨f, rfl, Or.inr rfl, by simpa using hn⟩

/-- `MaybeInt.Set(2.5)` stores 2 -/
example : Converts ext .int (.float .f64 (.fin false (5 * F64.unit / 2))) (.int .int64 2) :=
  .intOfFloat _ _ ⟨false, _, rfl, by decide +kernel, by decide +kernel, fun _ => rfl, fun h => absurd h (by decide)⟩
    (by decide) (by decide)
/-- `MaybeUint` takes no `int`, `MaybeInt` no `uint` -/
example : ¬ Settable ext .uint (.int .int 3) ∧ ¬ Settable ext .int (.uint .uint 3) := ⟨nofun, nofun⟩

/-! ## C53 -/

theorem unmarshal_kind (m : MaybeSt) (d : GoStr) : (m.UnmarshalJSON ext js d).2.p.kind = m.p.kind := by
  obtain ⟨v, p⟩ := m
  have hset : ∀ x, ((MaybeSt.mk v p).setUn ext x).2.p.kind = p.kind := by
    intro x
    unfold MaybeSt.setUn MaybeSt.Set
    cases h : maybeConv ext p.kind x with
    | ok q => exact maybeConv_kind ext h
    | error e => rfl
  unfold MaybeSt.UnmarshalJSON
  cases p <;> dsimp only <;> split <;> first
    | exact hset _
    | rfl
    | (split <;> rfl)

theorem run_kind (m : MaybeSt) (op : MaybeOp) : (op.run ext js m).p.kind = m.p.kind := by
  cases op with
  | set x =>
    simp only [MaybeOp.run, MaybeSt.Set]
    cases h : maybeConv ext m.p.kind x with
    | ok q => exact maybeConv_kind ext h
    | error e => rfl
  | reset => rfl
  | unmarshal d => exact unmarshal_kind ext js m d

theorem unmarshal_ok {m : MaybeSt} {d : GoStr} {y : GoVal} (hk : m.p.kind ≠ .time) (h : Decodes ext js m.p.kind d y) :
    ∃ m', m.UnmarshalJSON ext js d = (none, m') ∧ m'.Valid = true ∧ m'.Value = y ∧ m'.p.kind = m.p.kind := by
  obtain ⟨v, p⟩ := m
  cases p <;> cases h <;> rename_i hd <;> first
    | exact absurd rfl hk
    | (simp only [MaybeSt.UnmarshalJSON, hd, MaybeSt.setUn, MaybeSt.Set, MaybeVal.kind, maybeConv]
       exact ⟨_, rfl, rfl, rfl, rfl⟩)

theorem unmarshal_fail {m : MaybeSt} {d : GoStr} (h : ¬ ∃ y, Decodes ext js m.p.kind d y) :
    ∃ e, m.UnmarshalJSON ext js d = (some e, m) := by
  obtain ⟨v, p⟩ := m
  cases p with
  | bool b =>
    cases hd : js.decBool d with
    | none => exact ⟨.json, by simp [MaybeSt.UnmarshalJSON, hd]⟩
    | some x => exact absurd ⟨_, .bool d x hd⟩ h
  | float b =>
    cases hd : js.decFloat d with
    | none => exact ⟨.json, by simp [MaybeSt.UnmarshalJSON, hd]⟩
    | some x => exact absurd ⟨_, .float d x hd⟩ h
  | int b =>
    cases hd : js.decInt d with
    | none => exact ⟨.json, by simp [MaybeSt.UnmarshalJSON, hd]⟩
    | some x => exact absurd ⟨_, .int d x hd⟩ h
  | str b =>
    cases hd : js.decStr d with
    | none => exact ⟨.json, by simp [MaybeSt.UnmarshalJSON, hd]⟩
    | some x => exact absurd ⟨_, .str d x hd⟩ h
  | time b =>
    cases hd : js.decStr d with
    | none => exact ⟨.json, by simp [MaybeSt.UnmarshalJSON, hd]⟩
    | some x =>
      cases ht : ext.timeParse x with
      | none => exact ⟨.time, by simp [MaybeSt.UnmarshalJSON, hd, ht]⟩
      | some t => exact absurd ⟨_, .time d x t hd ht⟩ h
  | uint b =>
    cases hd : js.decUint d with
    | none => exact ⟨.json, by simp [MaybeSt.UnmarshalJSON, hd]⟩
    | some x => exact absurd ⟨_, .uint d x hd⟩ h

theorem unmarshal_time {m : MaybeSt} {d : GoStr} (hk : m.p.kind = .time) :
    (m.UnmarshalJSON ext js d).2.valid = m.valid := by
  obtain ⟨v, p⟩ := m
  cases p with
  | time t =>
    simp only [MaybeSt.UnmarshalJSON]
    split
    · split <;> rfl
    · rfl
  | _ => cases hk

theorem run_valid (m : MaybeSt) (op : MaybeOp) : (op.run ext js m).valid = true ↔
    MakesValid ext js m.p.kind op ∨ (op matches .reset) = false ∧ m.valid = true := by
  cases op with
  | reset =>
    constructor
    · intro h; cases h
    · rintro (h | ⟨h, -⟩)
      · cases h
      · cases h
  | set x =>
    by_cases hs : Settable ext m.p.kind x
    · obtain ⟨m', h1, h2, -⟩ := C52_valid ext m x hs
      simp only [MaybeOp.run, h1]
      exact ⟨fun _ => Or.inl (.set x hs), fun _ => h2⟩
    · obtain ⟨e, h1⟩ := C52_failure ext m x hs
      simp only [MaybeOp.run, h1]
      refine ⟨fun h => Or.inr ⟨by simp, h⟩, ?_⟩
      rintro (h | ⟨-, h⟩)
      · cases h with | set _ h => exact absurd h hs
      · exact h
  | unmarshal d =>
    by_cases hk : m.p.kind = .time
    · simp only [MaybeOp.run, unmarshal_time ext js hk]
      refine ⟨fun h => Or.inr ⟨by simp, h⟩, ?_⟩
      rintro (h | ⟨-, h⟩)
      · cases h with | unmarshal _ _ h _ => exact absurd hk h
      · exact h
    · by_cases hd : ∃ y, Decodes ext js m.p.kind d y
      · obtain ⟨y, hy⟩ := hd
        obtain ⟨m', h1, h2, -⟩ := unmarshal_ok ext js hk hy
        simp only [MaybeOp.run, h1]
        exact ⟨fun _ => Or.inl (.unmarshal d y hk hy), fun _ => h2⟩
      · obtain ⟨e, h1⟩ := unmarshal_fail ext js hd
        simp only [MaybeOp.run, h1]
        refine ⟨fun h => Or.inr ⟨by simp, h⟩, ?_⟩
        rintro (h | ⟨-, h⟩)
        · cases h with | unmarshal _ y _ h => exact absurd ⟨y, h⟩ hd
        · exact h

theorem after_kind (m : MaybeSt) (ops : List MaybeOp) : (m.after ext js ops).p.kind = m.p.kind := by
  induction ops generalizing m with
  | nil => rfl
  | cons op ops ih =>
    have := ih (op.run ext js m)
    rw [run_kind] at this
    exact this

theorem after_snoc (m : MaybeSt) (ops : List MaybeOp) (op : MaybeOp) :
    m.after ext js (ops ++ [op]) = op.run ext js (m.after ext js ops) := by
  simp [MaybeSt.after]

/-- C53: after any history of calls, the Maybe is valid exactly when some call since the last `Reset` made it so (or it
was valid to begin with and never reset). In particular a later `Set` makes a reset Maybe valid again. -/
theorem C53_history (m : MaybeSt) (ops : List MaybeOp) : (m.after ext js ops).Valid = true ↔
    (∃ pre op post, ops = pre ++ op :: post ∧ MakesValid ext js m.p.kind op ∧ MaybeOp.reset ∉ post) ∨
    (m.Valid = true ∧ MaybeOp.reset ∉ ops) := by
  induction ops using List.reverseRecOn with
  | nil =>
    constructor
    · intro h; exact Or.inr ⟨h, by simp⟩
    · rintro (⟨pre, op, post, h, -⟩ | ⟨h, -⟩)
      · simp at h
      · exact h
  | append_singleton ops op ih =>
    rw [after_snoc]
    unfold MaybeSt.Valid at ih ⊢
    rw [run_valid, after_kind]
    have hr : (op matches .reset) = false ↔ op ≠ .reset := by cases op <;> simp
    rw [hr, ih]
    constructor
    · rintro (h | ⟨hne, ⟨pre, op', post, rfl, h1, h2⟩ | ⟨h1, h2⟩⟩)
      · exact Or.inl ⟨ops, op, [], rfl, h, by simp⟩
      · exact Or.inl ⟨pre, op', post ++ [op], by simp, h1, by simp [h2, hne.symm]⟩
      · exact Or.inr ⟨h1, by simp [h2, hne.symm]⟩
    · rintro (⟨pre, op', post, he, h1, h2⟩ | ⟨h1, h2⟩)
      · rcases List.eq_nil_or_concat post with rfl | ⟨post', last, rfl⟩
        · have := List.append_inj' (t₁ := [op]) (t₂ := [op']) he rfl
          obtain ⟨-, h⟩ := this
          cases h
          exact Or.inl h1
        · rw [List.concat_eq_append, ← List.cons_append, ← List.append_assoc] at he
          obtain ⟨rfl, h⟩ := List.append_inj' he rfl
          cases h
          simp only [List.concat_eq_append, List.mem_append, List.mem_singleton, not_or] at h2
          exact Or.inr ⟨fun h => h2.2 h.symm, Or.inl ⟨pre, op', post', rfl, h1, h2.1⟩⟩
      · simp only [List.mem_append, List.mem_singleton, not_or] at h2
        exact Or.inr ⟨fun h => h2.2 h.symm, Or.inr ⟨h1, h2.1⟩⟩

/-- C53: right after `Reset()` a Maybe is not valid, whatever was done to it before. -/
theorem C53_reset (m : MaybeSt) (ops : List MaybeOp) : (m.after ext js (ops ++ [.reset])).Valid = false := by
  rw [after_snoc]; rfl

/-- C53: a struct field holding a Maybe that is not valid, by value or by pointer, contributes nothing: the struct
has the properties it would have without the field. -/
theorem C53_absent (pre post : List (Field × GoVal)) (f : Field) (m : MaybeSt) (byPtr : Bool) (h : m.Valid = false) :
    structProps (pre ++ (f, m.held byPtr) :: post) = structProps (pre ++ post) ∧
    structRaw (pre ++ (f, m.held byPtr) :: post) = structRaw (pre ++ post) := by
  have hc : fieldContent (m.held byPtr) = none := by
    unfold MaybeSt.Valid at h
    cases byPtr <;> simp [MaybeSt.held, fieldContent, h]
  constructor
  · simp [structProps, hc]
  · simp [structRaw, hc]

/-- C53: so a required property held by such a field is missing, and the struct is rejected whatever was set before. -/
theorem C53_required (ρ : RefSem) (σ : Sched) (o : ObjC Constraint) (hw : o.Wf) (pre post : List (Field × GoVal)) (f : Field)
    (p : GoStr) (hf : jsonNameSpec f = some p) (m : MaybeSt) (ops : List MaybeOp) (byPtr viaPtr : Bool)
    (hfs : FlatStruct (pre ++ (f, (m.after ext js (ops ++ [.reset])).held byPtr) :: post))
    (hr : p ∈ o.required) (hd : o.Declares p) :
    ¬ (denote ext ρ (.object o)).AcceptsBy σ
      (wrap viaPtr (.struct (pre ++ (f, (m.after ext js (ops ++ [.reset])).held byPtr) :: post))) := by
  set m' := m.after ext js (ops ++ [.reset]) with hm
  have hv : m'.Valid = false := C53_reset ext js m ops
  have hnot : ¬ Has (structProps (pre ++ (f, m'.held byPtr) :: post)) p := by
    rw [(C53_absent pre post f m' byPtr hv).1]
    rintro ⟨x, hx⟩
    unfold structProps at hx
    rw [List.mem_filterMap] at hx
    obtain ⟨q, hq, hx⟩ := hx
    obtain ⟨n, hn, hx⟩ := Option.bind_eq_some_iff.1 hx
    obtain ⟨y, -, hx⟩ := Option.map_eq_some_iff.1 hx
    cases hx
    have hnd := hfs.jsonNames
    simp only [List.filterMap_append, List.filterMap_cons, hf] at hnd
    rw [List.nodup_middle, List.nodup_cons] at hnd
    refine hnd.1 ?_
    rw [← List.filterMap_append, List.mem_filterMap]
    exact ⟨q, hq, hn⟩
  have hobj : IsObj (wrap viaPtr (.struct (pre ++ (f, m'.held byPtr) :: post)))
      (structProps (pre ++ (f, m'.held byPtr) :: post)) (structRaw (pre ++ (f, m'.held byPtr) :: post)) := by
    cases viaPtr
    · exact .struct _ hfs
    · exact .ptrStruct _ hfs
  exact C30_required_declared ext ρ σ o hw hobj p hr hd hnot

/-- C53: and in general the verdict is that on the struct without the field (for the constraints of C34, and without
schema dependencies, which see the struct itself). -/
theorem C53_as_missing (ρ : RefSem) (σ : Sched) (o : ObjC Constraint) (hw : o.Wf) (pre post : List (Field × GoVal)) (f : Field)
    (m : MaybeSt) (hm : m.Valid = false) (byPtr viaPtr : Bool) (hfs : FlatStruct (pre ++ (f, m.held byPtr) :: post))
    (hro : ∀ c, o.Child c → ∀ x, (denote ext ρ c).ReadOnlyOn x)
    (hdet : ∀ c, o.Child c → ∀ x, (denote ext ρ c).DeterminedOn x)
    (hd : ∀ p c, (p, c) ∈ o.props → ¬ Has (structProps (pre ++ post)) p → (denote ext ρ c).dflt = .none)
    (hov : NoOverlap ext o (structProps (pre ++ post))) (hsd : ∀ k, o.GetSchemaDependency k = none) :
    (denote ext ρ (.object o)).AcceptsBy σ (wrap viaPtr (.struct (pre ++ (f, m.held byPtr) :: post))) ↔
    (denote ext ρ (.object o)).AcceptsBy σ (wrap viaPtr (.struct (pre ++ post))) := by
  have hfs' : FlatStruct (pre ++ post) := by
    have hsub : (pre ++ post).Sublist (pre ++ (f, m.held byPtr) :: post) := by simp
    exact ⟨fun p hp => hfs.noEmb p (hsub.subset hp), hfs.goNames.sublist (hsub.map _), hfs.jsonNames.sublist (hsub.filterMap _)⟩
  obtain ⟨e1, e2⟩ := C53_absent pre post f m byPtr hm
  have hobj : ∀ fs, FlatStruct fs → IsObj (wrap viaPtr (.struct fs)) (structProps fs) (structRaw fs) := by
    intro fs h
    cases viaPtr
    · exact .struct _ h
    · exact .ptrStruct _ h
  have h1 := hobj _ hfs
  rw [e1, e2] at h1
  rw [C34_exact ext ρ σ o hw h1 hro hdet hd hov, C34_exact ext ρ σ o hw (hobj _ hfs') hro hdet hd hov]
  have key : ∀ w w', ObjRules ext o (fun c x => (denote ext ρ c).Accepts x) w (structProps (pre ++ post)) (structRaw (pre ++ post)) →
      ObjRules ext o (fun c x => (denote ext ρ c).Accepts x) w' (structProps (pre ++ post)) (structRaw (pre ++ post)) :=
    fun w w' h => ⟨h.count, h.declared, h.required, h.pattern, h.additional, h.propDeps,
      fun k _ _ _ c hc => by rw [hsd] at hc; cases hc⟩
  exact ⟨key _ _, key _ _⟩

/-- set, reset: the struct no longer has the required property; set again: it has -/
def exHist (js : JsonExt) : MaybeSt :=
  (MaybeSt.fresh 0 .int).after demoExt js [.set (.int .int 7), .reset]
def exReq : ObjC Constraint := (Object'.AddProp (b! "n") (.integer Number')).Required [b! "n"]
example (js : JsonExt) : FlatStruct [({ name := b! "N", tag := b! "n,omitempty" }, (exHist js).held false)] ∧
    jsonNameSpec { name := b! "N", tag := b! "n,omitempty" } = some (b! "n") ∧
    exHist js = ⟨false, .int 7⟩ ∧
    (exHist js).after demoExt js [.set (.int .int 8)] = ⟨true, .int 8⟩ :=
  ⟨⟨by simp, by simp, by simp [List.filterMap_cons]; decide⟩, by decide, rfl, rfl⟩
example : (sem0 (.object exReq)).AcceptsBy sched0 (.ptr (some (.struct
    [({ name := b! "N", tag := b! "n,omitempty" }, .maybe true (.int 8))]))) := by unfold Sem.AcceptsBy; decide +kernel

/-! ## C54 -/

/-- C54 fails: `Reset()` clears the flag and leaves the value. -/
theorem C54_refuted : ¬ ∀ (zt : GoTime) (m : MaybeSt), m.Reset = MaybeSt.fresh zt m.p.kind := by
  intro h
  have := h 0 ⟨true, .int 5⟩
  simp [MaybeSt.Reset, MaybeSt.fresh, MaybeVal.kind] at this

/-- C54, what holds: the flag is as in a fresh Maybe, so it is equal to one exactly when the stored value happens to
be the zero value. Missing: everything else, where the stale value stays readable through `Value()` and
`MarshalJSON()`. -/
theorem C54_flag_partial (zt : GoTime) (m : MaybeSt) :
    m.Reset.Valid = (MaybeSt.fresh zt m.p.kind).Valid ∧
    (m.Reset = MaybeSt.fresh zt m.p.kind ↔ m.Value = (MaybeSt.fresh zt m.p.kind).Value) := by
  obtain ⟨v, p⟩ := m
  cases p <;> simp [MaybeSt.Reset, MaybeSt.fresh, MaybeVal.kind, MaybeSt.Valid, MaybeSt.Value, MaybeVal.toGo]

/-- C54: the stale value is still what `Value()` returns and `MarshalJSON()` writes. -/
theorem C54_stale (m : MaybeSt) : m.Reset.Value = m.Value ∧ m.Reset.MarshalJSON ext js = m.MarshalJSON ext js :=
  ⟨rfl, rfl⟩

/-- a reset `MaybeInt` holding 5 still answers 5 -/
example : (MaybeSt.Reset ⟨true, .int 5⟩).Value = .int .int64 5 := rfl

/-! ## C55 -/

/-- A decoder that knows one text. -/
def demoJson : JsonExt where
  decBool _ := none
  decFloat _ := none
  decInt d := if d = b! "7" then some 7 else none
  decStr d := if d = b! "\"t\"" then some (b! "t") else none
  decUint _ := none
  encBool _ := []
  encFloat _ := none
  encInt _ := b! "7"
  encStr _ := []
  encUint _ := []

/-- C55 fails for `MaybeTime`: decoding succeeds and stores the time, but the Maybe stays invalid. -/
theorem C55_refuted : ¬ ∀ (ext : Ext) (js : JsonExt) (m m' : MaybeSt) (d : GoStr),
    m.UnmarshalJSON ext js d = (none, m') → m'.Valid = true := by
  intro h
  have := h { demoExt with timeParse := fun _ => some 9 } demoJson ⟨false, .time 0⟩ ⟨false, .time 9⟩ (b! "\"t\"") (by decide)
  cases this

/-- C55, every Maybe type but `MaybeTime`: a successful decoding makes the Maybe valid with the decoded value.
Missing: `MaybeTime`, for which it is false. -/
theorem C55_valid_partial (m m' : MaybeSt) (d : GoStr) (hk : m.p.kind ≠ .time)
    (h : m.UnmarshalJSON ext js d = (none, m')) :
    m'.Valid = true ∧ Decodes ext js m.p.kind d m'.Value ∧ m'.p.kind = m.p.kind := by
  by_cases hd : ∃ y, Decodes ext js m.p.kind d y
  · obtain ⟨y, hy⟩ := hd
    obtain ⟨m'', h1, h2, h3, h4⟩ := unmarshal_ok ext js hk hy
    rw [h] at h1
    cases h1
    exact ⟨h2, by rw [h3]; exact hy, h4⟩
  · obtain ⟨e, h1⟩ := unmarshal_fail ext js hd
    rw [h] at h1
    cases h1

/-- C55: decoding succeeds exactly on the texts the type decodes, and a failed decoding changes nothing. -/
theorem C55_succeeds_iff (m : MaybeSt) (d : GoStr) :
    ((m.UnmarshalJSON ext js d).1 = none ↔ ∃ y, Decodes ext js m.p.kind d y) ∧
    ((m.UnmarshalJSON ext js d).1 ≠ none → (m.UnmarshalJSON ext js d).2 = m) := by
  by_cases hd : ∃ y, Decodes ext js m.p.kind d y
  · have hn : (m.UnmarshalJSON ext js d).1 = none := by
      obtain ⟨y, hy⟩ := hd
      by_cases hk : m.p.kind = .time
      · obtain ⟨v, p⟩ := m
        cases p <;> cases hk
        cases hy with
        | time _ s t h1 h2 => simp [MaybeSt.UnmarshalJSON, h1, h2]
      · obtain ⟨m', h1, -⟩ := unmarshal_ok ext js hk hy
        rw [h1]
    exact ⟨⟨fun _ => hd, fun _ => hn⟩, fun h => absurd hn h⟩
  · obtain ⟨e, h1⟩ := unmarshal_fail ext js hd
    rw [h1]
    exact ⟨⟨fun h => (by cases h), fun h => absurd h hd⟩, fun _ => rfl⟩

/-- C55 for `MaybeTime`: the time is stored, the flag is whatever it was. -/
theorem C55_time_partial (m m' : MaybeSt) (d : GoStr) (hk : m.p.kind = .time)
    (h : m.UnmarshalJSON ext js d = (none, m')) : m'.Valid = m.Valid ∧ Decodes ext js .time d m'.Value := by
  have hv := unmarshal_time ext js (d := d) hk
  rw [h] at hv
  refine ⟨hv, ?_⟩
  obtain ⟨y, hy⟩ := (C55_succeeds_iff ext js m d).1.1 (by rw [h])
  obtain ⟨v, p⟩ := m
  cases p <;> cases hk
  cases hy with
  | time _ s t h1 h2 =>
    simp only [MaybeSt.UnmarshalJSON, h1, h2] at h
    cases h
    exact .time d s t h1 h2

/-- `MaybeInt` decodes `7` -/
example : (MaybeSt.fresh 0 .int).UnmarshalJSON ext demoJson (b! "7") = (none, ⟨true, .int 7⟩) ∧
    Decodes ext demoJson .int (b! "7") (.int .int64 7) := ⟨rfl, .int _ _ rfl⟩
example : (MaybeSt.mk true (.int 3)).UnmarshalJSON ext demoJson (b! "x") = (some .json, ⟨true, .int 3⟩) := rfl

end Jsval
