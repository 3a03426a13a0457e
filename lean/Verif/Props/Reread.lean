import Verif.Props.Maybes
/-!
# C104: Maybes written as JSON and read back

`MarshalJSON` writes the payload whatever the flag says, and `UnmarshalJSON` sets the flag for every type but `MaybeTime`. What the JSON
package does with the payload is left open (`JsonExt`); the theorems assume that it decodes what it encoded, for this payload.
-/
namespace Jsval

variable (ext : Ext) (js : JsonExt)

/-- `m'` is what a variable in state `r` holds after reading what `m` wrote. -/
def Reread (m r m' : MaybeSt) : Prop :=
  ∃ d, m.MarshalJSON ext js = some d ∧ r.UnmarshalJSON ext js d = (none, m')

/-- The JSON package decodes the text of this payload to the same value; a time may lose what its format does not show. -/
def Kept (m : MaybeSt) (y : GoVal) : Prop := ∃ d, m.MarshalJSON ext js = some d ∧ Decodes ext js m.p.kind d y

/-- The JSON package writes a payload as this text; times are given to it as strings in RFC 3339, and not all floats can be written. -/
inductive TextOf : MaybeVal → GoStr → Prop where
  | bool (b) : TextOf (.bool b) (js.encBool b)
  | float (f d) : js.encFloat f = some d → TextOf (.float f) d
  | int (n) : TextOf (.int n) (js.encInt n)
  | str (s) : TextOf (.str s) (js.encStr s)
  | time (t) : TextOf (.time t) (js.encStr (ext.timeFormat t))
  | uint (n) : TextOf (.uint n) (js.encUint n)

/-- C104: what `MarshalJSON` gives is the text of the payload, whatever the flag says, and it fails only if there is no such text. -/
theorem C104_written (m : MaybeSt) (d : GoStr) : m.MarshalJSON ext js = some d ↔ TextOf ext js m.p d := by
  obtain ⟨v, p⟩ := m
  cases p <;> simp only [MaybeSt.MarshalJSON, Option.some.injEq] <;> constructor <;> intro h <;>
    first | (subst h; constructor) | exact .float _ _ h | (cases h; first | rfl | assumption)

/-- An integer that is not set is written as any other. -/
example : (⟨false, .int 7⟩ : MaybeSt).MarshalJSON demoExt demoJson = some (b! "7") := (C104_written demoExt demoJson _ _).2 (.int 7)

/-- C104: every type but `MaybeTime` comes back valid with the payload that was stored, whether it was valid or not, and whatever the
variable held that it is read into. -/
theorem C104_payload {m r : MaybeSt} (hk : m.p.kind ≠ .time) (hr : r.p.kind = m.p.kind) (h : Kept ext js m m.Value) (m' : MaybeSt) :
    Reread ext js m r m' ↔ m' = ⟨true, m.p⟩ := by
  obtain ⟨d, hd, hdec⟩ := h
  have hu : r.UnmarshalJSON ext js d = (none, ⟨true, m.p⟩) := by
    obtain ⟨m'', h1, h2, h3, h4⟩ := unmarshal_ok ext js (m := r) (d := d) (y := m.Value) (by rw [hr]; exact hk) (by rw [hr]; exact hdec)
    rw [h1]
    obtain ⟨v, p⟩ := m
    obtain ⟨v'', p''⟩ := m''
    simp only [MaybeSt.Valid] at h2
    subst h2
    have : p'' = p := by
      simp only [hr] at h4
      cases p <;> cases p'' <;> simp_all [MaybeSt.Value, MaybeVal.toGo, MaybeVal.kind]
    rw [this]
  constructor
  · rintro ⟨d', h1, h2⟩
    rw [hd] at h1
    cases h1
    rw [hu] at h2
    cases h2
    rfl
  · rintro rfl
    exact ⟨d, hd, hu⟩

/-- C104: so it comes back as it was exactly if it was valid. -/
theorem C104_same_iff {m r : MaybeSt} (hk : m.p.kind ≠ .time) (hr : r.p.kind = m.p.kind) (h : Kept ext js m m.Value) :
    Reread ext js m r m ↔ m.Valid = true := by
  rw [C104_payload ext js hk hr h]
  obtain ⟨v, p⟩ := m
  simp [MaybeSt.Valid]

/-- C104: a `MaybeTime` comes back with the time and with the flag of the variable it is read into. -/
theorem C104_time {m r : MaybeSt} {t : GoTime} (hk : m.p.kind = .time) (hr : r.p.kind = .time) (h : Kept ext js m (.time t)) (m' : MaybeSt) :
    Reread ext js m r m' ↔ m' = ⟨r.valid, .time t⟩ := by
  obtain ⟨d, hd, hdec⟩ := h
  rw [hk] at hdec
  have hu : r.UnmarshalJSON ext js d = (none, ⟨r.valid, .time t⟩) := by
    obtain ⟨v, p⟩ := r
    cases p <;> cases hr
    cases hdec with
    | time _ _ _ h1 h2 => simp [MaybeSt.UnmarshalJSON, h1, h2]
  constructor
  · rintro ⟨d', h1, h2⟩
    rw [hd] at h1
    cases h1
    rw [hu] at h2
    cases h2
    rfl
  · rintro rfl
    exact ⟨d, hd, hu⟩

/-- C104 fails as worded, for each of two reasons: what was not set comes back set, and a time that was set comes back not set. -/
theorem C104_refuted :
    (¬ ∀ (ext : Ext) (js : JsonExt) (zt : GoTime) (m : MaybeSt), m.p.kind ≠ .time → Kept ext js m m.Value → Reread ext js m (.fresh zt m.p.kind) m) ∧
    (¬ ∀ (ext : Ext) (js : JsonExt) (zt : GoTime) (m : MaybeSt), m.Valid = true → Kept ext js m m.Value → Reread ext js m (.fresh zt m.p.kind) m) := by
  constructor
  · intro h
    have hk : Kept demoExt demoJson ⟨false, .int 7⟩ (.int .int64 7) := ⟨b! "7", rfl, .int _ _ rfl⟩
    have h1 := h demoExt demoJson 0 ⟨false, .int 7⟩ (by decide) hk
    have := (C104_same_iff demoExt demoJson (by decide) (by decide) hk).1 h1
    cases this
  · intro h
    let e : Ext := { demoExt with timeParse := fun _ => some 9 }
    let j : JsonExt := { demoJson with encStr := fun _ => b! "\"t\"" }
    have hk : Kept e j ⟨true, .time 9⟩ (.time 9) := ⟨b! "\"t\"", rfl, .time _ (b! "t") _ rfl rfl⟩
    have h1 := h e j 0 ⟨true, .time 9⟩ rfl hk
    have h2 := (C104_time e j rfl rfl hk _).1 h1
    cases h2

/-- the payloads of the two counterexamples are met by `C104_payload` and `C104_time`; a valid Maybe that comes back -/
example : Reread demoExt demoJson ⟨true, .int 7⟩ ⟨true, .int 12⟩ ⟨true, .int 7⟩ :=
  (C104_same_iff demoExt demoJson (by decide) (by decide) ⟨b! "7", rfl, .int _ _ rfl⟩).2 rfl

/-- A JSON package that reads `null` as nothing at all, as encoding/json does: the variable decoded into keeps its zero value. -/
structure NullIsZero (js : JsonExt) : Prop where
  bool : js.decBool (b! "null") = some false
  float : js.decFloat (b! "null") = some F64.zero
  int : js.decInt (b! "null") = some 0
  str : js.decStr (b! "null") = some []
  uint : js.decUint (b! "null") = some 0

/-- C104: `null` in the text makes a Maybe valid with the zero value, and is an error for `MaybeTime`, whose text may not be empty. -/
theorem C104_null (hj : NullIsZero js) (hp : ext.timeParse [] = none) (zt : GoTime) (r : MaybeSt) :
    r.UnmarshalJSON ext js (b! "null") =
      if r.p.kind = .time then (some .time, r) else (none, { MaybeSt.fresh zt r.p.kind with valid := true }) := by
  obtain ⟨v, p⟩ := r
  cases p <;>
    simp only [MaybeSt.UnmarshalJSON, hj.bool, hj.float, hj.int, hj.str, hj.uint, hp] <;> rfl

example : NullIsZero { demoJson with
    decBool := fun _ => some false, decFloat := fun _ => some F64.zero, decInt := fun _ => some 0, decStr := fun _ => some [],
    decUint := fun _ => some 0 } := ⟨rfl, rfl, rfl, rfl, rfl⟩
example : demoExt.timeParse [] = none := rfl

/-- Struct fields holding Maybes, and what a fresh struct of the same type holds after reading them. -/
def RereadAll (zt : GoTime) (fs gs : List (Field × MaybeSt)) : Prop :=
  List.Forall₂ (fun p q => p.1 = q.1 ∧ Reread ext js p.2 (.fresh zt p.2.p.kind) q.2) fs gs

/-- As the fields of a struct. -/
def heldFields (fs : List (Field × MaybeSt)) : List (Field × GoVal) := fs.map fun p => (p.1, p.2.held false)

/-- C104: a struct of Maybes read back from the JSON it was written to has other properties than before: exactly those of its fields that
are not `MaybeTime`, set or not. -/
theorem C104_struct {zt : GoTime} {fs gs : List (Field × MaybeSt)}
    (hk : ∀ p ∈ fs, p.2.p.kind ≠ .time → Kept ext js p.2 p.2.Value) (ht : ∀ p ∈ fs, p.2.p.kind = .time → ∃ t, Kept ext js p.2 (.time t))
    (h : RereadAll ext js zt fs gs) (k : GoStr) (x : GoVal) :
    (k, x) ∈ structProps (heldFields gs) ↔ ∃ p ∈ fs, p.2.p.kind ≠ .time ∧ jsonNameSpec p.1 = some k ∧ x = p.2.Value := by
  have hfresh : ∀ k', (MaybeSt.fresh zt k').p.kind = k' ∧ (MaybeSt.fresh zt k').valid = false := by intro k'; cases k' <;> exact ⟨rfl, rfl⟩
  unfold RereadAll at h
  induction h with
  | nil => simp [heldFields, structProps]
  | @cons p q fs gs hpq _ ih =>
    have ih' := ih (fun p hp => hk p (by simp [hp])) (fun p hp => ht p (by simp [hp]))
    obtain ⟨f, m⟩ := p
    obtain ⟨g, m'⟩ := q
    obtain ⟨hfg, hre⟩ := hpq
    simp only at hfg hre
    subst hfg
    have hsplit : (k, x) ∈ structProps (heldFields ((f, m') :: gs)) ↔
        ((jsonNameSpec f).bind fun n => (fieldContent (m'.held false)).map (n, ·)) = some (k, x) ∨ (k, x) ∈ structProps (heldFields gs) := by
      simp only [heldFields, structProps, List.map_cons, List.mem_filterMap, List.mem_cons]
      constructor
      · rintro ⟨a, rfl | ha, hb⟩
        · exact Or.inl hb
        · exact Or.inr ⟨a, ha, hb⟩
      · rintro (hb | ⟨a, ha, hb⟩)
        · exact ⟨_, Or.inl rfl, hb⟩
        · exact ⟨a, Or.inr ha, hb⟩
    refine hsplit.trans ((or_congr Iff.rfl ih').trans ?_)
    have hhead : ((jsonNameSpec f).bind fun n => (fieldContent (m'.held false)).map (n, ·)) = some (k, x) ↔
        m.p.kind ≠ .time ∧ jsonNameSpec f = some k ∧ x = m.Value := by
      by_cases hkt : m.p.kind = .time
      · obtain ⟨t, ht'⟩ := ht (f, m) (by simp) hkt
        have := (C104_time ext js hkt (by rw [(hfresh _).1, hkt]) ht' m').1 hre
        subst this
        rw [(hfresh _).2]
        simp [MaybeSt.held, fieldContent, hkt]
      · have := (C104_payload ext js hkt (hfresh _).1 (hk (f, m) (by simp) hkt) m').1 hre
        subst this
        cases hj : jsonNameSpec f with
        | none => simp
        | some n => simp [MaybeSt.held, fieldContent, hkt, MaybeSt.Value, eq_comm]
    rw [hhead]
    constructor
    · rintro (h1 | ⟨p, hp, h1⟩)
      · exact ⟨(f, m), by simp, h1⟩
      · exact ⟨p, by simp [hp], h1⟩
    · rintro ⟨p, hp, h1⟩
      rcases List.mem_cons.1 hp with rfl | hp
      · exact Or.inl h1
      · exact Or.inr ⟨p, hp, h1⟩

/-- a codec for one integer and one time -/
def exCodec : JsonExt := { demoJson with encStr := fun _ => b! "\"t\"" }
def exClock : Ext := { demoExt with timeParse := fun _ => some 9 }
/-- a struct with an integer that is not set and a time that is -/
def exStale : List (Field × MaybeSt) := [({ name := b! "N" }, ⟨false, .int 7⟩), ({ name := b! "T" }, ⟨true, .time 9⟩)]

example : RereadAll exClock exCodec 0 exStale [({ name := b! "N" }, ⟨true, .int 7⟩), ({ name := b! "T" }, ⟨false, .time 9⟩)] :=
  .cons ⟨rfl, b! "7", rfl, rfl⟩ (.cons ⟨rfl, b! "\"t\"", rfl, rfl⟩ .nil)
example : (∀ p ∈ exStale, p.2.p.kind ≠ .time → Kept exClock exCodec p.2 p.2.Value) ∧
    ∀ p ∈ exStale, p.2.p.kind = .time → ∃ t, Kept exClock exCodec p.2 (.time t) := by
  constructor
  · intro p hp hk
    simp only [exStale, List.mem_cons, List.not_mem_nil, or_false] at hp
    rcases hp with rfl | rfl
    · exact ⟨b! "7", rfl, .int _ _ rfl⟩
    · exact absurd rfl hk
  · intro p hp hk
    simp only [exStale, List.mem_cons, List.not_mem_nil, or_false] at hp
    rcases hp with rfl | rfl
    · cases hk
    · exact ⟨9, b! "\"t\"", rfl, .time _ (b! "t") _ rfl rfl⟩
/-- its properties before: the time only -/
example : (structProps (heldFields exStale)).map (·.1) = [b! "T"] := by decide

end Jsval
